import Verif.Proofs.RunLeaf2
import Verif.Proofs.IndentedRun
import Verif.Proofs.Item
/-
Runs over HTML blocks (C57).
-/
set_option linter.unusedVariables false
namespace CM
open Spec

/-- An open HTML block that starts in line `l`; `v`: its last line is blank. -/
def htmlNode (l i : Nat) (v : Bool) (x : Str) : NodeData :=
  { t := .htmlBlock, sourcepos := some ((l, 1), (0, 0)), stringContent := some x, htmlBlockType := i, lastLineBlank := v }

/-- A closed HTML block. -/
def htmlDone (l i n k : Nat) (x : Str) : NodeData :=
  { t := .htmlBlock, sourcepos := some ((l, 1), (n, k)), stringContent := none, literal := some (reTrailNl.sub (fun _ => []) x), htmlBlockType := i, isOpen := false }

/-- Whether a line ends an HTML block. -/
def closesHtml (i : Nat) (l : Str) : Bool := decide (1 ≤ i) && decide (i ≤ 5) && (reHtmlBlockClose i).found l

theorem closesHtml_iff {i : Nat} {l : Str} : closesHtml i l = true ↔ HtmlEnd i l := by
  unfold closesHtml
  by_cases h : 1 ≤ i ∧ i ≤ 5
  · rw [← htmlEnd_iff h.1 h.2]; simp [h.1, h.2]
  · have hf : ¬ HtmlEnd i l := by
      intro he
      unfold HtmlEnd at he
      split at he <;> first | omega | exact he
    rw [Bool.and_assoc]
    constructor
    · intro hh
      simp only [Bool.and_eq_true, decide_eq_true_eq] at hh
      exact absurd ⟨hh.1, hh.2.1⟩ h
    · intro hh; exact absurd hh hf

/-- A line of an HTML block. -/
theorem addText_html {p : PState} {e d : NodeData} {cs : List Tree} {x : Str} (hs : p.spine = [⟨e, []⟩, ⟨d, cs⟩]) (he : e.t = .htmlBlock)
    (hx : e.stringContent = some x) (hc : p.allClosed = true) (ho : p.offset = 0) (hp : p.partiallyConsumedTab = false) :
    addText p = (if closesHtml e.htmlBlockType p.currentLine then finalizeTip p.lineNumber else .ok)
      { p with spine := [⟨{ e with lastLineBlank := p.blank, stringContent := some (x ++ p.currentLine ++ ['\n']) }, []⟩, ⟨{ d with lastLineBlank := p.blank }, cs⟩] } := by
  obtain ⟨sp, doc, ot, cl, lno, off, col, nn, nnc, ind, indd, bl, pct, ac, lm, rm, lll⟩ := p
  simp only at hs hc ho hp
  subst hs hc ho hp
  have hm : markLastChild [] = [] := rfl
  have hfl : ∀ b, (if bl = true then ({ data := e, children := markLastChild [] } : OpenBlk) else { data := e, children := [] }) = b → b = ⟨e, []⟩ := by
    intro b hb; rw [← hb]; cases bl <;> rfl
  have hfl := hfl _ rfl
  unfold addText
  simp only [Bool.not_true, Bool.false_and, Bool.false_eq_true, if_false, closeUnmatched, if_true, bind, Except.bind, hfl]
  have hb : lineBlankFlag ⟨e, []⟩ (PState.mk [⟨e, []⟩, ⟨d, cs⟩] doc ot cl lno 0 col nn nnc ind indd bl false true lm rm lll) = bl := by
    simp [lineBlankFlag, he]
  rw [hb]
  simp only [he, acceptsLines, if_true, addLine, Bool.false_eq_true, if_false, appendContent, List.map_cons, List.map_nil, hx, List.drop_zero, beq_self_eq_true,
    Bool.true_and, ge_iff_le]
  unfold closesHtml
  by_cases hq : (decide (1 ≤ e.htmlBlockType) && decide (e.htmlBlockType ≤ 5) && (reHtmlBlockClose e.htmlBlockType).found cl) = true
  · rw [if_pos hq, if_pos hq]; simp
  · rw [if_neg hq, if_neg hq]; simp [pure, Except.pure]

/-- What a line of an HTML block leads to. -/
theorem html_after {p : PState} {d : NodeData} {cs : List Tree} {m : RefMap} {n l i k : Nat} {v : Bool} {x : Str}
    (hs : p.spine = [⟨htmlNode l i v x, []⟩, ⟨d, cs⟩]) (hd : d.t = .document) (hc : p.allClosed = true) (ho : p.offset = 0) (hp : p.partiallyConsumedTab = false)
    (hm : p.refmap = m) (hn : p.lineNumber = n) (hk : p.lastLineLength = k) :
    (¬ HtmlEnd i p.currentLine → ∃ p', addText p = .ok p' ∧ ∀ j, AtLeaf { p' with lastLineLength := j } (htmlNode l i p.blank (x ++ p.currentLine ++ ['\n'])) { d with lastLineBlank := p.blank } cs m n j) ∧
    (HtmlEnd i p.currentLine → p.blank = false → ∃ p', addText p = .ok p' ∧
      ∀ j, AtDoc { p' with lastLineLength := j } { d with lastLineBlank := false } (cs ++ [.node (htmlDone l i n k (x ++ p.currentLine ++ ['\n'])) []]) m n j) := by
  rw [← closesHtml_iff, addText_html hs rfl rfl hc ho hp]
  constructor
  · intro he
    rw [show (htmlNode l i v x).htmlBlockType = i from rfl, if_neg he]
    exact ⟨_, rfl, fun j => ⟨rfl, hd, hm, hn, rfl⟩⟩
  · intro he hb
    rw [show (htmlNode l i v x).htmlBlockType = i from rfl, if_pos he, hb]
    rw [finalizeTip_run (b := ⟨{ htmlNode l i v x with lastLineBlank := false, stringContent := some (x ++ p.currentLine ++ ['\n']) }, []⟩)
      (par := ⟨{ d with lastLineBlank := false }, cs⟩) (up := []) (t := some (.node (htmlDone l i n k (x ++ p.currentLine ++ ['\n'])) [])) (m := m) rfl ?_]
    · exact ⟨_, rfl, fun j => ⟨rfl, hd, rfl, hn, rfl⟩⟩
    · subst hm hn hk
      simp [finalizeBlock, finalizeHtml, closeData, htmlNode, htmlDone, bind, Except.bind, pure, Except.pure]

theorem html_open {p : PState} {d : NodeData} {cs : List Tree} {m : RefMap} {n k i : Nat}
    (h : AtDoc p d cs m n k) {ln : Str} (hs : HtmlStart i ln) (hone : OneLine ln) (hz : Char.ofNat 0 ∉ ln) :
    (¬ HtmlEnd i ln → ∃ p', incorporateLine p ln = .ok p' ∧
      AtLeaf p' (htmlNode (n + 1) i false (ln ++ ['\n'])) { d with lastLineBlank := false } cs m (n + 1) ln.length) ∧
    (HtmlEnd i ln → ∃ p', incorporateLine p ln = .ok p' ∧
      AtDoc p' { d with lastLineBlank := false } (cs ++ [.node (htmlDone (n + 1) i (n + 1) k (ln ++ ['\n'])) []]) m (n + 1) ln.length) := by
  have hnl : '\n' ∉ ln := fun hm => (hone _ hm).1 rfl
  have hh := htmlOpen_head hs.1
  have hty : htmlBlockType .document ln = some i := (htmlBlockType_iff hnl).2 ⟨hs, fun _ => by decide⟩
  have hrep := replaceChar_nul ln
  rw [noNul_self hz] at hrep
  have hatx := atx_none hnl (by rw [hh]; decide)
  have hfen := fence_none hnl (by rw [hh]; decide) (by rw [hh]; decide)
  obtain ⟨r, hcr⟩ : ∃ r, ln = '<' :: r := by
    cases ln with
    | nil => cases hh
    | cons a r => simp only [List.head?_cons, Option.some.injEq] at hh; exact ⟨r, by rw [hh]⟩
  have hpk : peekAt ln 0 = some '<' := by rw [hcr]; rfl
  have hsp : isMaybeSpecial '<' = true := by decide
  obtain ⟨sp, doc, ot, cl, lno, off, col, nn, nnc, ind, indd, bl, pct, ac, lm, rm, lll⟩ := p
  obtain ⟨h1, h2, h3, h4, h5⟩ := h
  simp only at h1 h3 h4 h5
  subst h1 h3 h4 h5
  have hfind := find_text (p := PState.mk [⟨d, cs⟩] doc 1 ln (lno + 1) 0 0 nn nnc ind indd false false true 1 rm lll)
    (c := '<') (r := r) hcr rfl rfl (by decide)
  have hrun : incorporateLine (PState.mk [⟨d, cs⟩] doc ot cl lno off col nn nnc ind indd bl pct ac lm rm lll) ln =
      (addText (PState.mk [⟨htmlNode (lno + 1) i false [], []⟩, ⟨d, cs⟩] doc 1 ln (lno + 1) 0 0 0 0 0 false false false true 1 rm lll)).map
        fun p => { p with lastLineLength := ln.length } := by
    unfold incorporateLine
    rw [hrep]
    simp [contLoop, bind, Except.bind, blockAt, h2, pure, Except.pure, acceptsLines, startsLoop, hfind, hpk, hsp,
      blockStarts, tryStarts, startBlockQuote, startAtx, hatx, startFenced, hfen, startHtml, hty, closeUnmatched, addChild,
      addChildLoop, canContain, htmlNode]
    rfl
  obtain ⟨a1, a2⟩ := html_after (p := PState.mk [⟨htmlNode (lno + 1) i false [], []⟩, ⟨d, cs⟩] doc 1 ln (lno + 1) 0 0 0 0 0 false false false true 1 rm lll)
    (m := rm) (n := lno + 1) (k := lll) rfl h2 rfl rfl rfl rfl rfl rfl
  constructor
  · intro he
    obtain ⟨p', e1, e2⟩ := a1 he
    exact ⟨_, by rw [hrun, e1]; rfl, e2 _⟩
  · intro he
    obtain ⟨p', e1, e2⟩ := a2 he rfl
    exact ⟨_, by rw [hrun, e1]; rfl, e2 _⟩

theorem find_notBlank {p : PState} (ho : p.offset = 0) (hone : OneLine p.currentLine) (h : NotBlank p.currentLine) : (findNextNonspace p).blank = false := by
  obtain ⟨x, hx, _, _, he⟩ := skipWs_text p.currentLine 0 p.column h
  show (match (skipWs (p.currentLine.drop p.offset) p.offset p.column).2.2 with | none => true | some c => c == '\n' || c == '\r') = false
  rw [ho, List.drop_zero, he]
  have := hone x hx
  simp [this.1, this.2]

theorem html_line {p : PState} {d : NodeData} {cs : List Tree} {m : RefMap} {n k l i : Nat} {v : Bool} {x : Str}
    (h : AtLeaf p (htmlNode l i v x) d cs m n k) {ln : Str} (hone : OneLine ln) (hz : Char.ofNat 0 ∉ ln) (hb : i ≤ 5 ∨ NotBlank ln) :
    (¬ HtmlEnd i ln → ∃ p' v', incorporateLine p ln = .ok p' ∧
      AtLeaf p' (htmlNode l i v' (x ++ ln ++ ['\n'])) { d with lastLineBlank := v' } cs m (n + 1) ln.length ∧ (NotBlank ln → v' = false)) ∧
    (HtmlEnd i ln → NotBlank ln → ∃ p', incorporateLine p ln = .ok p' ∧
      AtDoc p' { d with lastLineBlank := false } (cs ++ [.node (htmlDone l i (n + 1) k (x ++ ln ++ ['\n'])) []]) m (n + 1) ln.length) := by
  have hrep := replaceChar_nul ln
  rw [noNul_self hz] at hrep
  obtain ⟨sp, doc, ot, cl, lno, off, col, nn, nnc, ind, indd, bl, pct, ac, lm, rm, lll⟩ := p
  obtain ⟨h1, h2, h3, h4, h5⟩ := h
  simp only at h1 h3 h4 h5
  subst h1 h3 h4 h5
  have hnb : NotBlank ln → (findNextNonspace (PState.mk [⟨htmlNode l i v x, []⟩, ⟨d, cs⟩] doc 2 ln (lno + 1) 0 0 nn nnc ind indd false false ac lm rm lll)).blank = false :=
    fun hb => find_notBlank rfl hone hb
  obtain ⟨u1, u2, u3, u4, u5, hfind⟩ := find_form (PState.mk [⟨htmlNode l i v x, []⟩, ⟨d, cs⟩] doc 2 ln (lno + 1) 0 0 nn nnc ind indd false false ac lm rm lll)
  rw [hfind] at hnb
  have hnb : NotBlank ln → u1 = false := hnb
  have hcont : (u1 && (i == 6 || i == 7)) = false := by
    rcases hb with hb | hb
    · have h6 : (i == 6) = false := by simp; omega
      have h7 : (i == 7) = false := by simp; omega
      rw [h6, h7]; simp
    · rw [hnb hb]; rfl
  have hrun : incorporateLine (PState.mk [⟨htmlNode l i v x, []⟩, ⟨d, cs⟩] doc ot cl lno off col nn nnc ind indd bl pct ac lm rm lll) ln =
      (addText (PState.mk [⟨htmlNode l i v x, []⟩, ⟨d, cs⟩] doc 2 ln (lno + 1) 0 0 u2 u3 u4 u5 u1 false true 2 rm lll)).map
        fun p => { p with lastLineLength := ln.length } := by
    simp only [htmlNode] at hfind ⊢
    unfold incorporateLine
    rw [hrep]
    simp [contLoop, bind, Except.bind, blockAt, pure, Except.pure, acceptsLines, hfind, continueBlock, hcont]
    rfl
  obtain ⟨a1, a2⟩ := html_after (p := PState.mk [⟨htmlNode l i v x, []⟩, ⟨d, cs⟩] doc 2 ln (lno + 1) 0 0 u2 u3 u4 u5 u1 false true 2 rm lll)
    (m := rm) (n := lno + 1) (k := lll) rfl h2 rfl rfl rfl rfl rfl rfl
  constructor
  · intro he
    obtain ⟨p', e1, e2⟩ := a1 he
    exact ⟨_, u1, by rw [hrun, e1]; rfl, e2 _, hnb⟩
  · intro he hn
    obtain ⟨p', e1, e2⟩ := a2 he (hnb hn)
    exact ⟨_, by rw [hrun, e1]; rfl, e2 _⟩

/-- Lines that do not end the block. -/
theorem html_lines {cs : List Tree} {m : RefMap} {l i : Nat} : ∀ (ls : List Str) {p : PState} {d : NodeData} {v : Bool} {n k : Nat} {x : Str},
    AtLeaf p (htmlNode l i v x) d cs m n k → d.lastLineBlank = v → (∀ ln ∈ ls, OneLine ln ∧ Char.ofNat 0 ∉ ln ∧ ¬ HtmlEnd i ln ∧ (i ≤ 5 ∨ NotBlank ln)) →
    ∃ p' v' k', ls.foldlM incorporateLine p = .ok p' ∧
      AtLeaf p' (htmlNode l i v' (x ++ ls.flatMap fun ln => ln ++ ['\n'])) { d with lastLineBlank := v' } cs m (n + ls.length) k' ∧
      (v = false → (∀ ln ∈ ls, NotBlank ln) → v' = false)
  | [], p, d, v, n, k, x, h, hd, _ => ⟨p, v, k, rfl, by subst hd; simpa using h, fun h _ => h⟩
  | ln :: ls, p, d, v, n, k, x, h, hd, hl => by
    obtain ⟨g1, g2, g3, g4⟩ := hl ln (by simp)
    obtain ⟨p1, v1, e1, h1, hv⟩ := (html_line h g1 g2 g4).1 g3
    obtain ⟨p2, v2, k2, e2, h2, hv2⟩ := html_lines ls h1 rfl (fun a ha => hl a (by simp [ha]))
    refine ⟨p2, v2, k2, ?_, ?_, fun _ hb => hv2 (hv (hb ln (by simp))) fun a ha => hb a (by simp [ha])⟩
    · rw [List.foldlM_cons, e1]; exact e2
    · simp only [List.flatMap_cons, List.length_cons, List.append_assoc] at h2 ⊢
      rw [Nat.add_comm ls.length 1, ← Nat.add_assoc]
      exact h2

/-! ### HTML -/

theorem shows_rawhtml {sm : Reading} {o : HtmlOpts} (ho : o.sourcepos = false) {e : NodeData} (he : e.t = .htmlBlock) {ls : List Str} (hb : e.literal = some (joinLines ls))
    (hx : joinLines ls ≠ ['\n']) {k : BKind} (hk : kindOf k = .htmlBlock) :
    Shows sm o [.node e []] [⟨k, rawHtml o.safe ls⟩] := by
  refine ⟨[.node e []], ?_, .cons (rend_of_render ho (d := docNode) (by rintro rfl; cases hk) (he.trans hk.symm) (by show e.t ∈ _; rw [he]; decide) rfl ?_) .nil⟩
  · simp [processInlinesList, processInlines, he, bind, Except.bind, pure, Except.pure]
  · unfold renderHtml
    rw [renderWith_document _ _ _ rfl]
    have hro : (rawOmitted = ['\n']) = False := by
      rw [eq_iff_iff, iff_false]
      intro h
      exact absurd (congrArg List.length h) (by decide)
    cases hs : o.safe with
    | true =>
      simp [eventsList, events, he, isContainer, runEvents, htmlEvent, HState.cr, hs, HState.lit, rawHtml, bind, Except.bind, pure, Except.pure, hro]
      rfl
    | false =>
      simp [eventsList, events, he, isContainer, runEvents, htmlEvent, HState.cr, hs, HState.lit, HState.litOpt, hb, rawHtml, bind, Except.bind, pure, Except.pure, hx]

theorem html_literal {l0 : Str} {ls : List Str} (hone : ∀ l ∈ l0 :: ls, OneLine l) (hl : ∀ l, (l0 :: ls).getLast? = some l → NotBlank l) :
    reTrailNl.sub (fun _ => []) ((l0 :: ls).flatMap fun ln => ln ++ ['\n']) = joinLines (l0 :: ls) := by
  have hj := lines_join l0 ls
  have hne : l0 :: ls ≠ [] := by simp
  generalize l0 :: ls = ys at *
  rcases List.eq_nil_or_concat ys with rfl | ⟨zs, z, rfl⟩
  · exact absurd rfl hne
  · rw [List.concat_eq_append] at *
    rw [List.flatMap_append] at hj ⊢
    simp only [List.flatMap_cons, List.flatMap_nil, List.append_nil, ← List.append_assoc] at hj ⊢
    rw [trail_sub_gen, List.append_nil]
    · exact List.append_cancel_right hj
    · right
      exact notBlank_split (hl z (by simp)) (fun hm => (hone z (by simp) _ hm).1 rfl) _

theorem htmlEnd_notBlank {i : Nat} {l : Str} (h : HtmlEnd i l) : NotBlank l := by
  refine ⟨'>', ?_, by decide, by decide⟩
  unfold HtmlEnd at h
  split at h
  · obtain ⟨a, n, b, rfl, _⟩ := h; simp
  · exact h.subset (by decide)
  · exact h.subset (by decide)
  · exact h
  · exact h.subset (by decide)
  · exact h.elim

theorem htmlEnd_range {i : Nat} {l : Str} (h : HtmlEnd i l) : i ≤ 5 := by
  unfold HtmlEnd at h
  split at h <;> first | omega | exact h.elim

theorem html_start_kid {i : Nat} {first : Str} {ls : List Str} (h : HtmlStart i first) (hone : OneLine first) (hz : Char.ofNat 0 ∉ first) (p0 p1 : PState)
    (hp : incorporateLine p0.reset first = .ok p1) : Kid p1.spine := by
  obtain ⟨k, a0⟩ := atDoc_new p0
  by_cases he : HtmlEnd i first
  · obtain ⟨p1', e1, a1⟩ := (html_open a0 h hone hz).2 he
    rw [hp] at e1
    cases e1
    rw [a1.spine]
    exact .done a1.doc (by simp)
  · obtain ⟨p1', e1, a1⟩ := (html_open a0 h hone hz).1 he
    rw [hp] at e1
    cases e1
    rw [a1.spine]
    exact .more a1.doc (.inr fun h => by cases h)

theorem join_head_ne {l0 : Str} {ls : List Str} (h : l0.head? = some '<') : joinLines (l0 :: ls) ≠ ['\n'] := by
  intro e
  have hne : l0 ≠ [] := by rintro rfl; cases h
  have := joinLines_head (ls := ls) hne
  rw [e, h] at this
  cases this

theorem runs_rawhtml {sm : Reading} {o : HtmlOpts} (ho : o.sourcepos = false) {i : Nat} {first close : Str} {ls : List Str}
    (h1 : (ls ++ [close]).head? = some first) (h2 : HtmlStart i first) (h3 : ∀ l ∈ ls, ¬ HtmlEnd i l) (h4 : HtmlEnd i close)
    (h5 : ∀ l ∈ ls ++ [close], Char.ofNat 0 ∉ l) (hone : ∀ l ∈ ls ++ [close], OneLine l) :
    Runs sm o (ls ++ [close]) [⟨.html, rawHtml o.safe (ls ++ [close])⟩] false := by
  have hh := htmlOpen_head h2.1
  have hi := htmlEnd_range h4
  have hnb := htmlEnd_notBlank h4
  obtain ⟨r, hr⟩ : ∃ r, ls ++ [close] = first :: r := by
    cases hl : ls ++ [close] with
    | nil => rw [hl] at h1; cases h1
    | cons a r => rw [hl, List.head?_cons, Option.some.injEq] at h1; exact ⟨r, by rw [h1]⟩
  have hlast : (first :: r).getLast? = some close := by rw [← hr]; simp
  refine ⟨hone, ⟨first, r, hr, html_start_kid (ls := r) h2 (hone _ (by rw [hr]; simp)) (h5 _ (by rw [hr]; simp))⟩, ?_⟩
  intro p0 n
  refine runs_blanks ho (p0 := p0) (g := false) (by intro x hx; cases hx; exact trivial) ?_ n
  obtain ⟨k, a0⟩ := atDoc_new p0
  have hlit : reTrailNl.sub (fun _ => []) ((ls ++ [close]).flatMap fun ln => ln ++ ['\n']) = joinLines (ls ++ [close]) := by
    rw [hr]
    refine html_literal (fun l hl => hone l (by rw [hr]; exact hl)) ?_
    intro l hl
    rw [hlast] at hl
    cases hl
    exact hnb
  have hjn : joinLines (ls ++ [close]) ≠ ['\n'] := by rw [hr]; exact join_head_ne hh
  cases ls with
  | nil =>
    obtain ⟨p1, e1, a1⟩ := (html_open a0 h2 (hone _ (by rw [hr]; simp)) (h5 _ (by rw [hr]; simp))).2 (by
      simp only [List.nil_append, List.head?_cons, Option.some.injEq] at h1
      rw [← h1]; exact h4)
    simp only [List.nil_append, List.head?_cons, Option.some.injEq] at h1
    subst h1
    refine ⟨p1, by rw [List.nil_append, List.foldlM_cons, e1]; rfl, a1.line, ?_⟩
    refine at_doc (b := ⟨.html, _⟩) a1 rfl (shows_rawhtml ho rfl ?_ hjn rfl) (ends_false rfl) rfl
    rw [← hlit]
    simp [htmlDone]
  | cons a ls =>
    simp only [List.cons_append, List.head?_cons, Option.some.injEq] at h1
    subst h1
    obtain ⟨p1, e1, a1⟩ := (html_open a0 h2 (hone _ (by simp)) (h5 _ (by simp))).1 (h3 _ (by simp))
    obtain ⟨p2, v2, k2, e2, a2, -⟩ := html_lines ls a1 rfl (fun l hl => ⟨hone l (by simp [hl]), h5 l (by simp [hl]), h3 l (by simp [hl]), .inl hi⟩)
    obtain ⟨p3, e3, a3⟩ := (html_line a2 (hone close (by simp)) (h5 close (by simp)) (.inl hi)).2 h4 hnb
    refine ⟨p3, ?_, by rw [a3.line, List.length_append, List.length_cons, List.length_singleton]; omega, ?_⟩
    · rw [List.cons_append, List.foldlM_cons, e1]
      show List.foldlM _ p1 _ = _
      rw [List.foldlM_append, e2]
      show List.foldlM _ p2 _ = _
      rw [List.foldlM_cons, e3]; rfl
    · refine at_doc (b := ⟨.html, _⟩) a3 rfl (shows_rawhtml ho rfl ?_ hjn rfl) (ends_false rfl) rfl
      rw [← hlit]
      simp [htmlDone]

theorem runs_tag {sm : Reading} {o : HtmlOpts} (ho : o.sourcepos = false) {i : Nat} {first : Str} {ls : List Str}
    (h1 : HtmlStart i first) (h2 : i = 6 ∨ i = 7) (h3 : ∀ l ∈ ls, NotBlank l) (h5 : ∀ l ∈ first :: ls, Char.ofNat 0 ∉ l)
    (hone : ∀ l ∈ first :: ls, OneLine l) : Runs sm o (first :: ls) [⟨.tag, rawHtml o.safe (first :: ls)⟩] false := by
  have hh := htmlOpen_head h1.1
  have hne : ∀ l, ¬ HtmlEnd i l := fun l h => by have := htmlEnd_range h; omega
  have hfb : NotBlank first := by
    cases first with
    | nil => cases hh
    | cons a r =>
      simp only [List.head?_cons, Option.some.injEq] at hh
      exact ⟨'<', by simp [hh], by decide, by decide⟩
  refine ⟨hone, ⟨first, ls, rfl, html_start_kid (ls := ls) h1 (hone _ (by simp)) (h5 _ (by simp))⟩, ?_⟩
  intro p0 n
  refine runs_blanks ho (p0 := p0) (g := false) (by intro x hx; cases hx; exact trivial) ?_ n
  obtain ⟨k, a0⟩ := atDoc_new p0
  have hlit : reTrailNl.sub (fun _ => []) ((first :: ls).flatMap fun ln => ln ++ ['\n']) = joinLines (first :: ls) := by
    refine html_literal hone ?_
    intro l hl
    rcases List.mem_cons.1 (List.mem_of_getLast? hl) with rfl | hl
    · exact hfb
    · exact h3 l hl
  obtain ⟨p1, e1, a1⟩ := (html_open a0 h1 (hone _ (by simp)) (h5 _ (by simp))).1 (hne _)
  obtain ⟨p2, v2, k2, e2, a2, hv⟩ := html_lines ls a1 rfl (fun l hl => ⟨hone l (by simp [hl]), h5 l (by simp [hl]), hne l, .inr (h3 l hl)⟩)
  have hv := hv rfl h3
  subst hv
  refine ⟨p2, by rw [List.foldlM_cons, e1]; exact e2, by rw [a2.line, List.length_cons]; omega, ?_⟩
  refine at_leaf (b := ⟨.tag, _⟩) a2 rfl rfl (y := .node (htmlDone (0 + 1) i (0 + 1 + ls.length) k2 (first ++ ['\n'] ++ ls.flatMap fun ln => ln ++ ['\n'])) []) ?_
    (shows_rawhtml ho rfl ?_ (join_head_ne hh) rfl) (ends_false rfl)
    (by simp only [Shape, Bool.false_eq_true, if_false]; exact ⟨_, rfl, rfl, h2⟩) (by intro h; cases h)
  · simp [finalizeBlock, finalizeHtml, closeData, htmlNode, htmlDone, bind, Except.bind, pure, Except.pure]
  · rw [← hlit]
    simp [htmlDone]

end CM
