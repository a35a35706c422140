import Verif.Proofs.InlineSteps
import Verif.Proofs.History
import Verif.Proofs.LabelForm
/-
Evaluating the block parser on lines that are plain paragraph text.
-/
set_option linter.unusedVariables false
namespace CM
open Spec

/-- The line `ln` starts with a character that is no white space and starts no block inside a block of
kind `k` (the document or a paragraph). -/
structure TextLine (k : Kind) (ln : Str) : Prop where
  nonul : Char.ofNat 0 ∉ ln
  head : ∃ c r, ln = c :: r ∧ isNonSpace c = true
  quote : ln.head? ≠ some '>'
  atx : reATXHeadingMarker.matchPrefix ln = none
  fence : reCodeFence.matchPrefix ln = none
  html : ln.head? = some '<' → htmlBlockType k ln = none
  setext : k = .paragraph → reSetextHeadingLine.matchPrefix ln = none
  thematic : reThematicBreak.matchPrefix ln = none
  list : listMarker k ln = none ∨ ∃ m ty b st dl, listMarker k ln = some (m, ty, b, st, dl) ∧
    ¬ ((peekAt ln m.length).isNone || isSpTabOpt (peekAt ln m.length)) = true

theorem replaceChar_id {a b : Char} {s : Str} (h : a ∉ s) : replaceChar a b s = s := by
  unfold replaceChar
  refine (List.map_congr_left (g := id) ?_).trans (List.map_id _)
  intro c hc
  have : (c == a) = false := by rw [beq_eq_false_iff_ne]; rintro rfl; exact h hc
  simp [this]

theorem isNonSpace_facts {c : Char} (h : isNonSpace c = true) :
    (c == ' ') = false ∧ (c == '\t') = false ∧ (c == '\n') = false ∧ (c == '\r') = false := by
  have ne : ∀ d, isNonSpace d = false → (c == d) = false := fun d hd => by
    rw [beq_eq_false_iff_ne]; rintro rfl; rw [h] at hd; cases hd
  exact ⟨ne _ (by decide), ne _ (by decide), ne _ (by decide), ne _ (by decide)⟩

/-- The state after looking at the first character of a line that starts with no white space. -/
theorem find_text {p : PState} {c : Char} {r : Str} (hl : p.currentLine = c :: r) (ho : p.offset = 0)
    (hc : p.column = 0) (hn : isNonSpace c = true) :
    findNextNonspace p = { p with blank := false, nextNonspace := 0, nextNonspaceColumn := 0, indent := 0,
                                  indented := false } := by
  obtain ⟨h1, h2, h3, h4⟩ := isNonSpace_facts hn
  simp [findNextNonspace, hl, ho, hc, skipWs, h1, h2, h3, h4]

theorem tryStarts_text {p : PState} {container : NodeData} {ln : Str} (h : TextLine container.t ln)
    (hk : container.t = .document ∨ container.t = .paragraph)
    (hl : p.currentLine = ln) (hn : p.nextNonspace = 0) (hi : p.indented = false) (hin : p.indent = 0) :
    tryStarts (blockStarts container) p = .ok (.none, p) := by
  obtain ⟨c, r, hcr, hc⟩ := h.head
  have hpk : peekAt p.currentLine 0 = ln.head? := by rw [hl, hcr]; rfl
  have hq : (ln.head? == some '>') = false := by simpa using h.quote
  have e1 : startBlockQuote p = .ok (.none, p) := by
    simp [startBlockQuote, hi, hn, hpk, hq]
  have e2 : startAtx p = .ok (.none, p) := by
    simp [startAtx, hi, hn, hl, h.atx]
  have e3 : startFenced p = .ok (.none, p) := by
    simp [startFenced, hi, hn, hl, h.fence]
  have e4 : startHtml container.t p = .ok (.none, p) := by
    simp only [startHtml, hi, hn, hpk, Bool.not_false, Bool.true_and]
    split
    · rename_i hh
      rw [hl, List.drop_zero, h.html (by simpa using hh)]
    · rfl
  have e5 : startSetext container.t p = .ok (.none, p) := by
    simp only [startSetext, hi, Bool.not_false, Bool.true_and]
    split
    · rename_i hh
      rw [hn, hl, List.drop_zero, h.setext (by simpa using hh)]
    · rfl
  have e6 : startThematic p = .ok (.none, p) := by
    simp [startThematic, hi, hn, hl, h.thematic]
  have e7 : startListItem container p = .ok (.none, p) := by
    have : parseListMarker container.t p = .ok (none, p) := by
      simp only [parseListMarker, hin, hn, hl, List.drop_zero, Nat.zero_add]
      rw [if_neg (by omega)]
      rcases h.list with hh | ⟨m, ty, b, st, dl, hh, hx⟩
      · rw [hh]
      · rw [hh]
        simp only
        rw [if_pos (by simpa [Option.isSome_iff_ne_none] using hx)]
    simp [startListItem, hi, this, bind, Except.bind, pure, Except.pure]
  have e8 : startIndented p = .ok (.none, p) := by
    simp [startIndented, hi]
  simp [blockStarts, tryStarts, e1, e2, e3, e4, e5, e6, e7, e8, bind, Except.bind]

theorem startsLoop_text {p : PState} {container : NodeData} {ln : Str} {n : Nat} (h : TextLine container.t ln)
    (hk : container.t = .document ∨ container.t = .paragraph)
    (hl : p.currentLine = ln) (ho : p.offset = 0) (hc : p.column = 0) :
    startsLoop (n + 1) container p = .ok
      { p with blank := false, nextNonspace := 0, nextNonspaceColumn := 0, indent := 0,
               indented := false, offset := 0, column := 0, partiallyConsumedTab := false } := by
  obtain ⟨c, r, hcr, hcn⟩ := h.head
  rw [startsLoop, find_text (hl.trans hcr) ho hc hcn]
  have ht := tryStarts_text (p := PState.mk p.spine p.doc p.oldtip p.currentLine p.lineNumber p.offset p.column
    0 0 0 false false p.partiallyConsumedTab p.allClosed p.lastMatched p.refmap p.lastLineLength) h hk hl rfl rfl rfl
  simp only [ht, bind, Except.bind, Bool.not_false, Bool.true_and]
  rw [ite_self]
  rfl

/-- The document with its closed children, between two blocks. -/
structure AtDoc (p : PState) (d : NodeData) (cs : List Tree) (m : RefMap) (n k : Nat) : Prop where
  spine : p.spine = [⟨d, cs⟩]
  doc : d.t = .document
  refmap : p.refmap = m
  line : p.lineNumber = n
  len : p.lastLineLength = k

/-- The document with an open paragraph `e`. -/
structure AtPara (p : PState) (e d : NodeData) (cs : List Tree) (m : RefMap) (n k : Nat) : Prop where
  spine : p.spine = [⟨e, []⟩, ⟨d, cs⟩]
  para : e.t = .paragraph
  doc : d.t = .document
  refmap : p.refmap = m
  line : p.lineNumber = n
  len : p.lastLineLength = k

/-- A paragraph that starts in line `n`. -/
def paraNode (n : Nat) (x : Str) : NodeData :=
  { t := .paragraph, sourcepos := some ((n, 1), (0, 0)), stringContent := some x }

/-- The first line of a paragraph. -/
theorem first_line {p : PState} {d : NodeData} {cs : List Tree} {m : RefMap} {n k : Nat}
    (h : AtDoc p d cs m n k) {ln : Str} (hl : TextLine .document ln) :
    ∃ p', incorporateLine p ln = .ok p' ∧
      AtPara p' (paraNode (n + 1) (ln ++ ['\n'])) { d with lastLineBlank := false } cs m (n + 1) ln.length := by
  obtain ⟨c, r, hcr, hcn⟩ := hl.head
  obtain ⟨sp, doc, ot, cl, lno, off, col, nn, nnc, ind, indd, bl, pct, ac, lm, rm, lll⟩ := p
  obtain ⟨h1, h2, h3, h4, h5⟩ := h
  simp only at h1 h3 h4 h5
  subst h1 h3 h4 h5
  have hs := startsLoop_text (n := ln.length) (container := d)
    (p := PState.mk [⟨d, cs⟩] doc 1 ln (lno + 1) 0 0 nn nnc ind indd false false true 1 rm lll)
    (by rw [h2]; exact hl) (Or.inl h2) rfl rfl rfl
  have hlen : 0 < ln.length := by rw [hcr]; simp
  unfold incorporateLine
  simp [replaceChar_id hl.nonul, contLoop, bind, Except.bind, blockAt, h2, pure, Except.pure, acceptsLines, hs,
    addText, closeUnmatched, tipKind, lineBlankFlag, hlen, addChild, addChildLoop, canContain,
    addLine, appendContent, advanceNextNonspace]
  constructor <;> simp [paraNode, h2]

/-- A further line of a paragraph. -/
theorem next_line {p : PState} {d : NodeData} {cs : List Tree} {m : RefMap} {n k l : Nat} {x : Str}
    (h : AtPara p (paraNode l x) d cs m n k) (hd : d.lastLineBlank = false) {ln : Str} (hl : TextLine .paragraph ln) :
    ∃ p', incorporateLine p ln = .ok p' ∧
      AtPara p' (paraNode l (x ++ ln ++ ['\n'])) d cs m (n + 1) ln.length := by
  obtain ⟨c, r, hcr, hcn⟩ := hl.head
  obtain ⟨sp, doc, ot, cl, lno, off, col, nn, nnc, ind, indd, bl, pct, ac, lm, rm, lll⟩ := p
  obtain ⟨h1, h0, h2, h3, h4, h5⟩ := h
  simp only at h1 h3 h4 h5
  subst h1 h3 h4 h5
  have hf := find_text (p := PState.mk [⟨paraNode l x, []⟩, ⟨d, cs⟩] doc 2 ln (lno + 1) 0 0 nn nnc ind indd false false ac lm rm lll)
    (hcr) rfl rfl hcn
  have hs := startsLoop_text (n := ln.length) (container := paraNode l x)
    (p := PState.mk [⟨paraNode l x, []⟩, ⟨d, cs⟩] doc 2 ln (lno + 1) 0 0 0 0 0 false false false true 2 rm lll)
    hl (Or.inr h0) rfl rfl rfl
  have hlen : 0 < ln.length := by rw [hcr]; simp
  have hd' : { d with lastLineBlank := false } = d := by cases d; simp_all
  simp only [paraNode] at hf hs
  unfold incorporateLine
  simp [replaceChar_id hl.nonul, contLoop, bind, Except.bind, blockAt, h2, pure, Except.pure, acceptsLines, hf, hs,
    addText, closeUnmatched, tipKind, lineBlankFlag, hlen, addChild, addChildLoop, canContain, continueBlock,
    addLine, appendContent, advanceNextNonspace, paraNode]
  constructor <;> simp only [paraNode, h2, List.append_assoc]
  cases d
  simp_all

/-- Closing a paragraph that holds no definition. -/
theorem finalize_para {d : NodeData} {x : Str} {m : RefMap} (hd : d.t = .paragraph) (hx : d.stringContent = some x)
    (hb : ¬ DefinitionStart x) : finalizeBlock d [] m = .ok (some (.node d []), m) := by
  simp [finalizeBlock, hd, finalizeParagraph, hx, refLoop_no hb, bind, Except.bind, pure, Except.pure]
  cases d; simp_all

/-- A closed paragraph from line `l` to line `n`, whose last line has length `k`. -/
def paraDone (l n k : Nat) (x : Str) : NodeData :=
  { t := .paragraph, sourcepos := some ((l, 1), (n, k)), isOpen := false, stringContent := some x }

/-- The end of the text inside a paragraph. -/
theorem end_para {p : PState} {d : NodeData} {cs : List Tree} {m : RefMap} {n k l : Nat} {x : Str} {fuel : Nat}
    (h : AtPara p (paraNode l x) d cs m n k) (hb : ¬ DefinitionStart x) :
    ∃ p', finalizeAll n (fuel + 3) p = .ok p' ∧
      p'.doc = some (.node { d with isOpen := false, sourcepos := d.sourcepos.map fun sp => (sp.1, (n, k)) }
        (cs ++ [.node (paraDone l n k x) []])) ∧ p'.refmap = m := by
  obtain ⟨sp, doc, ot, cl, lno, off, col, nn, nnc, ind, indd, bl, pct, ac, lm, rm, lll⟩ := p
  obtain ⟨h1, h0, h2, h3, h4, h5⟩ := h
  simp only at h1 h3 h4 h5
  subst h1 h3 h4 h5
  have := finalize_para (d := paraDone l lno lll x) (m := rm) rfl rfl hb
  simp [finalizeAll, finalizeTip, bind, Except.bind, paraNode, pure, Except.pure]
  simp only [paraDone] at this
  simp [this]
  simp [finalizeBlock, h2, paraDone]

end CM
