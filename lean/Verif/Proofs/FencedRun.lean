import Verif.Proofs.Fenced
import Verif.Proofs.Columns
/-
Evaluating the block parser on fenced code blocks.
-/
set_option linter.unusedVariables false
namespace CM
open Spec

theorem closing_value {l m : Str} (hl : '\n' ∉ l) (h : reClosingCodeFence.matchPrefix l = some m) :
    ∃ c n k, 3 ≤ n ∧ (c = '`' ∨ c = '~') ∧ m = List.replicate n c ∧ l = List.replicate n c ++ List.replicate k ' ' := by
  obtain ⟨t, h, a, b, rfl, ha, hb1, m', t', ht, w, e, rfl, hw, he1, he2⟩ := Re.matchPrefix_den h
  subst hb1 he1
  have ht' : t' = [] := noNl_eos (m := a ++ [] ++ (w ++ [])) hl (by rw [h, ht]; simp) he2
  subst ht'
  have hw' := eq_replicate_of_all (den_star_chr.1 hw)
  have key : ∀ c, (c = '`' ∨ c = '~') → Den l.length (.atLeast 3 (.lit1 c)) a ([] ++ t) →
      ∃ c n k, 3 ≤ n ∧ (c = '`' ∨ c = '~') ∧ a ++ [] = List.replicate n c ∧
        l = List.replicate n c ++ List.replicate k ' ' := by
    intro c hc hd
    obtain ⟨h1, h2⟩ := den_atLeast_chr.1 hd
    have h3 := eq_replicate_of_all h2
    refine ⟨c, a.length, w.length, h1, hc, ?_, ?_⟩
    · rw [List.append_nil]; exact h3
    · rw [← h3, ← hw', h, ht]; simp
  rcases ha with ha | ha
  · exact key '`' (by simp) ha
  · exact key '~' (by simp) ha

theorem run_space_unique {c c' : Char} {n n' k k' : Nat} (hn : 1 ≤ n) (hn' : 1 ≤ n') (hc : c ≠ ' ') (hc' : c' ≠ ' ')
    (h : List.replicate n c ++ List.replicate k ' ' = List.replicate n' c' ++ List.replicate k' ' ') :
    c = c' ∧ n = n' := by
  have e : c = c' := by
    cases n with
    | zero => omega
    | succ n =>
      cases n' with
      | zero => omega
      | succ n' =>
        simp only [List.replicate_succ, List.cons_append, List.cons.injEq] at h
        exact h.1
  subst e
  refine ⟨rfl, (run_unique_eq h ?_ ?_).1.symm⟩
  · cases k with
    | zero => simp
    | succ k => simpa [List.replicate_succ] using Ne.symm hc
  · cases k' with
    | zero => simp
    | succ k => simpa [List.replicate_succ] using Ne.symm hc

theorem spaces_of {w : Str} (h : ∀ c ∈ w, isSpTab c = true) (ht : '\t' ∉ w) : w = List.replicate w.length ' ' := by
  refine List.eq_replicate_iff.2 ⟨rfl, fun c hc => ?_⟩
  have := h c hc
  simp only [isSpTab, Bool.or_eq_true, beq_iff_eq] at this
  rcases this with rfl | rfl
  · rfl
  · exact absurd hc ht

theorem closes_iff {p : PState} {d : NodeData} {c : Char} {n : Nat} (ho : p.offset = 0) (hcol : p.column = 0)
    (hl : '\n' ∉ p.currentLine) (hc : c = '`' ∨ c = '~') (hn : 3 ≤ n) (hd : d.fenceChar = some c)
    (hf : d.fenceLength = n) :
    isClosingFence d (findNextNonspace p) = true ↔ ClosesFence c n p.currentLine := by
  have hsp : c ≠ ' ' := by rcases hc with rfl | rfl <;> decide
  simp only [isClosingFence, findNextNonspace, skipWs_eq, ho, hcol, List.drop_zero, Nat.zero_add, Nat.sub_zero]
  have hw : ∀ x ∈ p.currentLine.takeWhile isSpTab, isSpTab x = true :=
    fun x hx => List.all_eq_true.1 List.all_takeWhile x hx
  have ht : p.currentLine = p.currentLine.takeWhile isSpTab ++ p.currentLine.dropWhile isSpTab :=
    List.takeWhile_append_dropWhile.symm
  have hdrop : p.currentLine.drop (p.currentLine.takeWhile isSpTab).length = p.currentLine.dropWhile isSpTab := by
    have := List.drop_left' (l₁ := p.currentLine.takeWhile isSpTab) (l₂ := p.currentLine.dropWhile isSpTab) rfl
    rw [← ht] at this
    exact this
  have hget : p.currentLine[(p.currentLine.takeWhile isSpTab).length]? = (p.currentLine.dropWhile isSpTab).head? := by
    rw [← List.head?_drop, hdrop]
  rw [hdrop, hget]
  constructor
  · simp only [Bool.and_eq_true, decide_eq_true_eq, beq_iff_eq]
    rintro ⟨⟨⟨h1, _⟩, h2⟩, h3⟩
    split at h3
    · rename_i m hm
      have hnl : '\n' ∉ p.currentLine.dropWhile isSpTab := fun hx => hl (by rw [ht]; exact List.mem_append_right _ hx)
      obtain ⟨c', m', k', h4, h5, rfl, h6⟩ := closing_value hnl hm
      have hc' : c' = c := by
        rw [h6, hd] at h2
        cases m' with
        | zero => omega
        | succ m' => simpa [List.replicate_succ] using h2
      subst hc'
      have htab : '\t' ∉ p.currentLine.takeWhile isSpTab := by
        intro hx
        have := columnFrom_tab 0 hx
        unfold nextStop at this
        omega
      have hlen : (p.currentLine.takeWhile isSpTab).length ≤ 3 := by
        rw [columnFrom_noTab _ htab] at h1; omega
      refine ⟨_, m', k', hlen, ?_, ?_⟩
      · rw [← hf]; simpa using h3
      · rw [← spaces_of hw htab, ← h6]; exact ht
    · cases h3
  · rintro ⟨k, m, r, hk, hm, he⟩
    have hhead : ∀ x, (List.replicate m c ++ List.replicate r ' ').head? = some x → isSpTab x = false := by
      intro x hx
      cases m with
      | zero => omega
      | succ m =>
        simp only [List.replicate_succ, List.cons_append, List.head?_cons, Option.some.injEq] at hx
        subst hx
        rcases hc with rfl | rfl <;> decide
    have hspc : ∀ x ∈ List.replicate k ' ', isSpTab x = true := by
      intro x hx
      rw [List.mem_replicate] at hx
      rw [hx.2]; rfl
    have hdw : p.currentLine.dropWhile isSpTab = List.replicate m c ++ List.replicate r ' ' := by
      rw [he]; exact dropWhile_run hspc hhead
    have htw : p.currentLine.takeWhile isSpTab = List.replicate k ' ' := by
      rw [hdw] at ht
      exact List.append_cancel_right (ht.symm.trans he)
    rw [hdw, htw]
    have hsome : (reClosingCodeFence.matchPrefix (List.replicate m c ++ List.replicate r ' ')).isSome = true := by
      rw [closing_iff]
      · exact ⟨c, m, by omega, hc, r, rfl⟩
      · intro hx
        apply hl
        rw [he]
        exact List.mem_append_right _ hx
    obtain ⟨v, hv⟩ := Option.isSome_iff_exists.1 hsome
    have hv' : v = List.replicate m c := by
      obtain ⟨c', m', k', h4, h5, rfl, h6⟩ := closing_value (by
        intro hx
        apply hl
        rw [he]
        exact List.mem_append_right _ hx) hv
      have := run_space_unique (by omega) (by omega) hsp (by rcases h5 with rfl | rfl <;> decide) h6
      rw [this.1, this.2]
    rw [hv, hv']
    have hh : (List.replicate m c ++ List.replicate r ' ').head? = some c := by
      cases m with
      | zero => omega
      | succ m => simp [List.replicate_succ]
    rw [hh, hd, columnFrom_noTab _ (by simp [List.mem_replicate]), he]
    simp [hf]
    omega

/-- The node of an open fenced code block that starts in line `l`. -/
def fenceNode (l : Nat) (c : Char) (n : Nat) (x : Str) : NodeData :=
  { t := .codeBlock, sourcepos := some ((l, 1), (0, 0)), stringContent := some x, isFenced := true, fenceLength := n,
    fenceChar := some c, fenceOffset := 0 }

/-- The document with an open leaf block `e`. -/
structure AtLeaf (p : PState) (e d : NodeData) (cs : List Tree) (m : RefMap) (n k : Nat) : Prop where
  spine : p.spine = [⟨e, []⟩, ⟨d, cs⟩]
  doc : d.t = .document
  refmap : p.refmap = m
  line : p.lineNumber = n
  len : p.lastLineLength = k

theorem atx_none {l : Str} (hl : '\n' ∉ l) (h : l.head? ≠ some '#') : reATXHeadingMarker.matchPrefix l = none := by
  rw [← Option.not_isSome_iff_eq_none, atx_iff hl]
  rintro ⟨n, h1, h2, r, rfl, _⟩
  cases n with
  | zero => omega
  | succ n => exact h (by simp [List.replicate_succ])

theorem replaceChar_nul (l : Str) : replaceChar (Char.ofNat 0) (Char.ofNat 0xFFFD) l = noNul l := by
  unfold replaceChar noNul
  apply List.map_congr_left
  intro c _
  by_cases h : c = Char.ofNat 0 <;> simp [h]

theorem fence_info_noNul {c : Char} {n : Nat} {info l : Str} (h : CodeFence c n info l) :
    CodeFence c n (noNul info) (noNul l) := by
  obtain ⟨h1, rfl, h3, h4⟩ := h
  have hf : c ≠ Char.ofNat 0xFFFD ∧ c ≠ Char.ofNat 0 := by
    rcases h4 with ⟨rfl, _⟩ | rfl <;> decide
  refine ⟨h1, ?_, ?_, ?_⟩
  · simp [noNul, hf.2]
  · cases info with
    | nil => simp [noNul]
    | cons x xs =>
      simp only [noNul, List.map_cons, List.head?_cons, ne_eq, Option.some.injEq] at h3 ⊢
      split
      · exact Ne.symm hf.1
      · exact h3
  · rcases h4 with ⟨rfl, h4⟩ | rfl
    · left
      refine ⟨rfl, ?_⟩
      simp only [noNul, List.mem_map, not_exists, not_and]
      intro x hx
      split
      · decide
      · rintro rfl; exact h4 hx
    · exact Or.inr rfl

theorem noNul_mem {l : Str} {c : Char} (h : c ∈ noNul l) : c ∈ l ∨ c = Char.ofNat 0xFFFD := by
  simp only [noNul, List.mem_map] at h
  obtain ⟨x, hx, he⟩ := h
  split at he
  · exact Or.inr he.symm
  · exact Or.inl (he ▸ hx)

theorem noNul_id {l : Str} (h : Char.ofNat 0xFFFD ∉ noNul l) : noNul l = l := by
  unfold noNul
  refine (List.map_congr_left (g := id) ?_).trans (List.map_id _)
  intro c hc
  by_cases h0 : c = Char.ofNat 0
  · exfalso
    apply h
    simp only [noNul, List.mem_map]
    exact ⟨c, hc, by rw [if_pos h0]⟩
  · rw [if_neg h0]; rfl

theorem closesFence_noNul {c : Char} (hc : c = '`' ∨ c = '~') {n : Nat} {l : Str} :
    ClosesFence c n (noNul l) ↔ ClosesFence c n l := by
  have ne : c ≠ Char.ofNat 0xFFFD := by rcases hc with rfl | rfl <;> decide
  constructor
  · rintro ⟨k, m, r, h1, h2, h3⟩
    have : noNul l = l := noNul_id (by
      rw [h3]
      simp only [List.mem_append, List.mem_replicate, not_or, not_and]
      exact ⟨fun _ => by decide, fun _ => Ne.symm ne, fun _ => by decide⟩)
    rw [this] at h3
    exact ⟨k, m, r, h1, h2, h3⟩
  · rintro ⟨k, m, r, h1, h2, rfl⟩
    have hc0 : c ≠ Char.ofNat 0 := by rcases hc with rfl | rfl <;> decide
    exact ⟨k, m, r, h1, h2, by simp [noNul, hc0]⟩

theorem oneLine_nl {l : Str} (h : OneLine l) : '\n' ∉ noNul l := by
  intro hc
  rcases noNul_mem hc with hc | hc
  · exact (h _ hc).1 rfl
  · exact absurd hc (by decide)

/-- An opening fence. -/
theorem fence_open {p : PState} {d : NodeData} {cs : List Tree} {m : RefMap} {n k : Nat}
    (h : AtDoc p d cs m n k) {ln info : Str} {c : Char} {f : Nat} (hf : CodeFence c f info ln) (h1 : OneLine ln) :
    ∃ p', incorporateLine p ln = .ok p' ∧
      AtLeaf p' (fenceNode (n + 1) c f (noNul info ++ ['\n'])) { d with lastLineBlank := false } cs m (n + 1) ln.length := by
  have hf' := fence_info_noNul hf
  have hnl := oneLine_nl h1
  have hlen : ln.length = (noNul ln).length := by simp [noNul]
  have hmatch := fence_match hf'
  have hrep := replaceChar_nul ln
  rw [hlen]
  generalize noNul ln = ln' at hf' hnl hmatch hrep
  generalize noNul info = info' at hf'
  obtain ⟨hf1, rfl, hf3, hf4⟩ := hf'
  have hcc : c = '`' ∨ c = '~' := by rcases hf4 with ⟨h, _⟩ | h <;> simp [h]
  obtain ⟨g, rfl⟩ : ∃ g, f = g + 1 := ⟨f - 1, by omega⟩
  have hns : isNonSpace c = true := by rcases hcc with rfl | rfl <;> decide
  have hsp : isMaybeSpecial c = true := by rcases hcc with rfl | rfl <;> decide
  have hatx := atx_none hnl (by
    rw [List.replicate_succ]; simp only [List.cons_append, List.head?_cons]
    rcases hcc with rfl | rfl <;> decide)
  have hq : (c == '>') = false := by rcases hcc with rfl | rfl <;> decide
  obtain ⟨sp, doc, ot, cl, lno, off, col, nn, nnc, ind, indd, bl, pct, ac, lm, rm, lll⟩ := p
  obtain ⟨h1, h2, h3, h4, h5⟩ := h
  simp only at h1 h3 h4 h5
  subst h1 h3 h4 h5
  have hfind := find_text (p := PState.mk [⟨d, cs⟩] doc 1 (List.replicate (g + 1) c ++ info') (lno + 1) 0 0 nn nnc ind indd false false true 1 rm lll)
    (c := c) (r := List.replicate g c ++ info') (by simp [List.replicate_succ]) rfl rfl hns
  have hpk : peekAt (List.replicate (g + 1) c ++ info') 0 = some c := rfl
  have hadv := advanceLoop_plain (line := List.replicate (g + 1) c ++ info') (b := false) (List.replicate (g + 1) c) info' 0 0
    false rfl (by rcases hcc with rfl | rfl <;> simp [List.mem_replicate])
  simp only [List.length_replicate] at hadv
  unfold incorporateLine
  rw [hrep]
  simp [contLoop, bind, Except.bind, blockAt, h2, pure, Except.pure, acceptsLines, startsLoop, hfind, hpk, hsp,
    blockStarts, tryStarts, startBlockQuote, hq, startAtx, hatx, startFenced, hmatch, closeUnmatched, addChild,
    addChildLoop, canContain, advanceNextNonspace, addText, tipKind, lineBlankFlag, advanceOffset, addLine, appendContent, hadv]
  constructor <;> simp [fenceNode, List.replicate_succ]

/-- `find_next_nonspace` writes only to its results. -/
theorem find_form (p : PState) : ∃ a b c d e, findNextNonspace p =
    { p with blank := a, nextNonspace := b, nextNonspaceColumn := c, indent := d, indented := e } :=
  ⟨_, _, _, _, _, rfl⟩

/-- A line inside a fenced code block. -/
theorem fence_line {p : PState} {d : NodeData} {cs : List Tree} {m : RefMap} {n k l f : Nat} {c : Char} {x : Str}
    (h : AtLeaf p (fenceNode l c f x) d cs m n k) (hd : d.lastLineBlank = false) (hf : 3 ≤ f) (hc : c = '`' ∨ c = '~')
    {ln : Str} (h1 : OneLine ln) (hl : ¬ ClosesFence c f ln) :
    ∃ p', incorporateLine p ln = .ok p' ∧
      AtLeaf p' (fenceNode l c f (x ++ noNul ln ++ ['\n'])) d cs m (n + 1) ln.length := by
  have hlen : ln.length = (noNul ln).length := by simp [noNul]
  have hrep := replaceChar_nul ln
  have hl' : ¬ ClosesFence c f (noNul ln) := by rwa [closesFence_noNul hc]
  have hnl := oneLine_nl h1
  rw [hlen]
  generalize noNul ln = ln' at hrep hl' hnl
  obtain ⟨sp, doc, ot, cl, lno, off, col, nn, nnc, ind, indd, bl, pct, ac, lm, rm, lll⟩ := p
  obtain ⟨h1, h2, h3, h4, h5⟩ := h
  simp only at h1 h3 h4 h5
  subst h1 h3 h4 h5
  have hcl := closes_iff (p := PState.mk [⟨fenceNode l c f x, []⟩, ⟨d, cs⟩] doc 2 ln' (lno + 1) 0 0 nn nnc ind indd false false ac lm rm lll)
    (d := fenceNode l c f x) (c := c) (n := f) rfl rfl hnl hc hf rfl rfl
  obtain ⟨u1, u2, u3, u4, u5, hfind⟩ := find_form (PState.mk [⟨fenceNode l c f x, []⟩, ⟨d, cs⟩] doc 2 ln' (lno + 1) 0 0 nn nnc ind indd false false ac lm rm lll)
  rw [hfind] at hcl
  have hcl' := Bool.eq_false_iff.2 (fun h => hl' (hcl.1 h))
  simp only [fenceNode] at hcl' hfind
  unfold incorporateLine
  rw [hrep]
  simp [contLoop, bind, Except.bind, blockAt, h2, pure, Except.pure, acceptsLines, hfind, fenceNode, continueBlock, hcl',
    skipFenceOffset, addText, tipKind, closeUnmatched, lineBlankFlag, addLine, appendContent, markLastChild]
  constructor <;> simp [fenceNode, h2]
  cases d
  simp_all

/-- A closed fenced code block. -/
def fenceDone (l n k : Nat) (c : Char) (f : Nat) (info body : Str) : NodeData :=
  { t := .codeBlock, sourcepos := some ((l, 1), (n, k)), stringContent := none, isOpen := false,
    info := some (unescapeString (strip info)), literal := some body, isFenced := true, fenceLength := f,
    fenceChar := some c, fenceOffset := 0 }

theorem splitFirstLine_of {a b : Str} (h : '\n' ∉ a) : splitFirstLine (a ++ '\n' :: b) = some (a, b) := by
  have ha : ∀ c ∈ a, (c != '\n') = true := by
    intro c hc
    simp only [bne_iff_ne, ne_eq]
    rintro rfl; exact h hc
  unfold splitFirstLine
  rw [List.dropWhile_append_of_pos ha, List.takeWhile_append_of_pos ha]
  simp

theorem finalize_fence {l n k f : Nat} {c : Char} {info body : Str} {m : RefMap} (h : '\n' ∉ info) :
    finalizeBlock { fenceNode l c f (info ++ '\n' :: body) with isOpen := false, sourcepos := some ((l, 1), (n, k)) } [] m =
      .ok (some (.node (fenceDone l n k c f info body) []), m) := by
  simp [finalizeBlock, fenceNode, finalizeCode, splitFirstLine_of h, bind, Except.bind, pure, Except.pure, fenceDone]

/-- The closing fence. -/
theorem fence_close {p : PState} {d : NodeData} {cs : List Tree} {m : RefMap} {n k l f : Nat} {c : Char} {info body : Str}
    (h : AtLeaf p (fenceNode l c f (info ++ '\n' :: body)) d cs m n k) (hf : 3 ≤ f)
    (hc : c = '`' ∨ c = '~') (hi : '\n' ∉ info) {ln : Str} (h1 : OneLine ln) (hl : ClosesFence c f ln) :
    ∃ p', incorporateLine p ln = .ok p' ∧
      AtDoc p' d (cs ++ [.node (fenceDone l (n + 1) k c f info body) []]) m (n + 1) ln.length := by
  have hlen : ln.length = (noNul ln).length := by simp [noNul]
  have hrep := replaceChar_nul ln
  have hl' : ClosesFence c f (noNul ln) := by rwa [closesFence_noNul hc]
  have hnl := oneLine_nl h1
  rw [hlen]
  generalize noNul ln = ln' at hrep hl' hnl
  obtain ⟨sp, doc, ot, cl, lno, off, col, nn, nnc, ind, indd, bl, pct, ac, lm, rm, lll⟩ := p
  obtain ⟨h1, h2, h3, h4, h5⟩ := h
  simp only at h1 h3 h4 h5
  subst h1 h3 h4 h5
  have hcl := closes_iff (p := PState.mk [⟨fenceNode l c f (info ++ '\n' :: body), []⟩, ⟨d, cs⟩] doc 2 ln' (lno + 1) 0 0 nn nnc ind indd false false ac lm rm lll)
    (d := fenceNode l c f (info ++ '\n' :: body)) (c := c) (n := f) rfl rfl hnl hc hf rfl rfl
  obtain ⟨u1, u2, u3, u4, u5, hfind⟩ := find_form (PState.mk [⟨fenceNode l c f (info ++ '\n' :: body), []⟩, ⟨d, cs⟩] doc 2 ln' (lno + 1) 0 0 nn nnc ind indd false false ac lm rm lll)
  rw [hfind] at hcl
  have hcl' := hcl.2 hl'
  have hfin := finalize_fence (l := l) (n := lno + 1) (k := lll) (f := f) (c := c) (body := body) (m := rm) hi
  simp only [fenceNode] at hcl' hfind hfin
  unfold incorporateLine
  rw [hrep]
  simp [contLoop, bind, Except.bind, pure, Except.pure, hfind, fenceNode, continueBlock, hcl', finalizeTip, hfin]
  constructor <;> simp [h2]

/-- The end of the text inside a fenced code block. -/
theorem end_fence {p : PState} {d : NodeData} {cs : List Tree} {m : RefMap} {n k l f : Nat} {c : Char} {info body : Str}
    {fuel : Nat} (h : AtLeaf p (fenceNode l c f (info ++ '\n' :: body)) d cs m n k) (hi : '\n' ∉ info) :
    ∃ p', finalizeAll n (fuel + 3) p = .ok p' ∧
      p'.doc = some (.node { d with isOpen := false, sourcepos := d.sourcepos.map fun sp => (sp.1, (n, k)) }
        (cs ++ [.node (fenceDone l n k c f info body) []])) ∧ p'.refmap = m := by
  obtain ⟨sp, doc, ot, cl, lno, off, col, nn, nnc, ind, indd, bl, pct, ac, lm, rm, lll⟩ := p
  obtain ⟨h1, h2, h3, h4, h5⟩ := h
  simp only at h1 h3 h4 h5
  subst h1 h3 h4 h5
  have hfin := finalize_fence (l := l) (n := lno) (k := lll) (f := f) (c := c) (body := body) (m := rm) hi
  simp only [fenceNode] at hfin
  simp [finalizeAll, finalizeTip, bind, Except.bind, fenceNode, pure, Except.pure, hfin]
  simp [finalizeBlock, h2]

/-- The end of the text between blocks. -/
theorem end_doc {p : PState} {d : NodeData} {cs : List Tree} {m : RefMap} {n k fuel : Nat} (h : AtDoc p d cs m n k) :
    ∃ p', finalizeAll n (fuel + 2) p = .ok p' ∧
      p'.doc = some (.node { d with isOpen := false, sourcepos := d.sourcepos.map fun sp => (sp.1, (n, k)) } cs) ∧
      p'.refmap = m := by
  obtain ⟨sp, doc, ot, cl, lno, off, col, nn, nnc, ind, indd, bl, pct, ac, lm, rm, lll⟩ := p
  obtain ⟨h1, h2, h3, h4, h5⟩ := h
  simp only at h1 h3 h4 h5
  subst h1 h3 h4 h5
  simp [finalizeAll, finalizeTip, bind, Except.bind, pure, Except.pure, finalizeBlock, h2]

/-- The lines of a fenced code block. -/
theorem fence_lines {d : NodeData} {cs : List Tree} {m : RefMap} {l f : Nat} {c : Char} (hd : d.lastLineBlank = false)
    (hf : 3 ≤ f) (hc : c = '`' ∨ c = '~') : ∀ (ls : List Str) {p : PState} {n k : Nat} {x : Str},
    AtLeaf p (fenceNode l c f x) d cs m n k → (∀ ln ∈ ls, OneLine ln ∧ ¬ ClosesFence c f ln) →
    ∃ p' k', ls.foldlM incorporateLine p = .ok p' ∧
      AtLeaf p' (fenceNode l c f (x ++ ls.flatMap fun ln => noNul ln ++ ['\n'])) d cs m (n + ls.length) k'
  | [], p, n, k, x, h, _ => ⟨p, k, rfl, by simpa using h⟩
  | ln :: ls, p, n, k, x, h, hl => by
    obtain ⟨p1, e1, h1⟩ := fence_line h hd hf hc (hl ln (by simp)).1 (hl ln (by simp)).2
    obtain ⟨p2, k2, e2, h2⟩ := fence_lines hd hf hc ls h1 (fun a ha => hl a (by simp [ha]))
    refine ⟨p2, k2, ?_, ?_⟩
    · rw [List.foldlM_cons, e1]; exact e2
    · simp only [List.flatMap_cons, List.length_cons, List.append_assoc] at h2 ⊢
      rw [Nat.add_comm ls.length 1, ← Nat.add_assoc]
      exact h2

theorem atDoc_reset : AtDoc PState.init.reset docNode [] [] 0 0 := ⟨rfl, rfl, rfl, rfl, rfl⟩

/-- Putting the two phases together. -/
theorem parse_run {smart : Bool} {s : Str} {ls : List Str} {p p' : PState} {t : Tree} {m : RefMap} {n : Nat}
    (hs : TextLines s ls) (h : ls.foldlM incorporateLine PState.init.reset = .ok p) (hn : p.spine.length + 1 = n)
    (hfin : finalizeAll ls.length n p = .ok p') (ht : p'.doc = some t) (hm : p'.refmap = m) :
    parse smart s = processInlines smart m t := by
  subst hn hm
  simp only [parse, parseWith, blockPhase, inputLines_of hs, h, hfin, bind, Except.bind, ht, pure, Except.pure]
  cases processInlines smart p'.refmap t <;> rfl

theorem textLines_oneLine {s : Str} {ls : List Str} (h : TextLines s ls) : ∀ l ∈ ls, OneLine l := by
  induction h with
  | last h => simpa using h
  | lastLf h => simpa using h
  | lastCrLf h => simpa using h
  | lf h _ _ ih => simpa using ⟨h, ih⟩
  | crlf h _ _ ih => simpa using ⟨h, ih⟩
  | cr h _ _ ih => simpa using ⟨h, ih⟩

theorem processInlines_leaf {smart : Bool} {m : RefMap} {d e : NodeData} (hd : d.t = .document) (he : e.t = .codeBlock) :
    processInlines smart m (.node d [.node e []]) = .ok (.node d [.node e []]) := by
  simp [processInlines, processInlinesList, hd, he, bind, Except.bind, pure, Except.pure]

theorem parse_fence {smart : Bool} {s first close : Str} {ls : List Str} {c : Char} {f : Nat} {info : Str}
    (hs : TextLines s (first :: (ls ++ [close]))) (h1 : CodeFence c f info first) (h2 : ∀ l ∈ ls, ¬ ClosesFence c f l)
    (h3 : ClosesFence c f close) : ∃ d k, d.t = .document ∧ parse smart s = .ok (.node d
      [.node (fenceDone 1 (ls.length + 2) k c f (noNul info) (ls.flatMap fun ln => noNul ln ++ ['\n'])) []]) := by
  have hone := textLines_oneLine hs
  have hf : 3 ≤ f := h1.1
  have hc : c = '`' ∨ c = '~' := by rcases h1.2.2.2 with ⟨h, _⟩ | h <;> simp [h]
  obtain ⟨p1, e1, a1⟩ := fence_open atDoc_reset h1 (hone _ (by simp))
  obtain ⟨p2, k2, e2, a2⟩ := fence_lines rfl hf hc ls a1 (fun l hl => ⟨hone l (by simp [hl]), h2 l hl⟩)
  rw [List.append_assoc] at a2
  have hinfo : '\n' ∉ noNul info := by
    intro hx
    rcases noNul_mem hx with hx | hx
    · exact (hone first (by simp) '\n' (by rw [h1.2.1]; exact List.mem_append_right _ hx)).1 rfl
    · exact absurd hx (by decide)
  obtain ⟨p3, e3, a3⟩ := fence_close a2 hf hc hinfo (hone close (by simp)) h3
  have hline : 0 + 1 + ls.length + 1 = ls.length + 2 := by omega
  rw [hline] at a3
  obtain ⟨p4, e4, b4, c4⟩ := end_doc (fuel := 0) a3
  refine ⟨_, k2, ?_, (parse_run (p := p3) hs ?_ (by rw [a3.spine]) ?_ b4 c4).trans (processInlines_leaf rfl rfl)⟩
  · rfl
  · rw [List.foldlM_cons, e1]
    show List.foldlM _ p1 _ = _
    rw [List.foldlM_append, e2]
    show List.foldlM _ p2 _ = _
    rw [List.foldlM_cons, e3]; rfl
  · simpa using e4

theorem parse_fence_open {smart : Bool} {s first : Str} {ls : List Str} {c : Char} {f : Nat} {info : Str}
    (hs : TextLines s (first :: ls)) (h1 : CodeFence c f info first) (h2 : ∀ l ∈ ls, ¬ ClosesFence c f l) :
    ∃ d k, d.t = .document ∧ parse smart s = .ok (.node d
      [.node (fenceDone 1 (ls.length + 1) k c f (noNul info) (ls.flatMap fun ln => noNul ln ++ ['\n'])) []]) := by
  have hone := textLines_oneLine hs
  have hf : 3 ≤ f := h1.1
  have hc : c = '`' ∨ c = '~' := by rcases h1.2.2.2 with ⟨h, _⟩ | h <;> simp [h]
  obtain ⟨p1, e1, a1⟩ := fence_open atDoc_reset h1 (hone _ (by simp))
  obtain ⟨p2, k2, e2, a2⟩ := fence_lines rfl hf hc ls a1 (fun l hl => ⟨hone l (by simp [hl]), h2 l hl⟩)
  rw [List.append_assoc] at a2
  have hinfo : '\n' ∉ noNul info := by
    intro hx
    rcases noNul_mem hx with hx | hx
    · exact (hone first (by simp) '\n' (by rw [h1.2.1]; exact List.mem_append_right _ hx)).1 rfl
    · exact absurd hx (by decide)
  have hline : 0 + 1 + ls.length = ls.length + 1 := by omega
  rw [hline] at a2
  obtain ⟨p4, e4, b4, c4⟩ := end_fence (fuel := 0) a2 hinfo
  refine ⟨_, k2, ?_, (parse_run (p := p2) hs ?_ (by rw [a2.spine]) ?_ b4 c4).trans (processInlines_leaf rfl rfl)⟩
  · rfl
  · rw [List.foldlM_cons, e1]
    exact e2
  · simpa using e4

end CM
