import Verif.Proofs.RunLeaf2
/-
Runs over setext headings (C57).
-/
set_option linter.unusedVariables false
namespace CM
open Spec

/-- The underline of a heading. -/
theorem setext_line {p : PState} {d : NodeData} {cs : List Tree} {m : RefMap} {l n k : Nat} {x : Str}
    (h : AtPara p (paraNode l x) d cs m n k) (hd : d.lastLineBlank = false) (hx : ¬ DefinitionStart x) (hne : x ≠ []) {u : Str} {c : Char}
    (hu : SetextUnderline c u) :
    ∃ p', incorporateLine p u = .ok p' ∧
      AtLeaf p' (headNode l (if c = '=' then 1 else 2) x) d cs m (n + 1) u.length := by
  have hnl : '\n' ∉ u := by
    obtain ⟨hc, j, r, h1, rfl, hr⟩ := hu
    intro hm
    rcases List.mem_append.1 hm with hm | hm
    · have := (List.mem_replicate.1 hm).2
      rcases hc with rfl | rfl <;> cases this
    · rcases hr _ hm with h | h <;> cases h
  have hz : Char.ofNat 0 ∉ u := by
    obtain ⟨hc, j, r, h1, rfl, hr⟩ := hu
    intro hm
    rcases List.mem_append.1 hm with hm | hm
    · have := (List.mem_replicate.1 hm).2
      rcases hc with rfl | rfl <;> revert this <;> decide
    · rcases hr _ hm with h | h <;> revert h <;> decide
  have hrep := replaceChar_nul u
  rw [noNul_self hz] at hrep
  have hmatch := (setext_iff hnl).2 ⟨c, hu⟩
  obtain ⟨hc, j, r, hj, rfl, hr⟩ := hu
  obtain ⟨j, rfl⟩ : ∃ i, j = i + 1 := ⟨j - 1, by omega⟩
  obtain ⟨mm, hmatch⟩ := Option.isSome_iff_exists.1 hmatch
  have hmm : mm.head? = some c := by
    obtain ⟨t, ht, hden⟩ := Re.matchPrefix_den hmatch
    cases mm with
    | nil =>
      exfalso
      obtain ⟨a, b, hab, ha, _⟩ := hden
      have ha := List.append_eq_nil_iff.1 hab.symm
      rename_i h1 _
      rw [ha.1] at h1
      rcases h1 with h1 | h1
      · exact (den_plus_chr.1 h1).1 rfl
      · exact (den_plus_chr.1 h1).1 rfl
    | cons a mm =>
      rw [List.replicate_succ, List.cons_append, List.cons_append, List.cons.injEq] at ht
      rw [← ht.1]; rfl
  have hns : isNonSpace c = true := by rcases hc with rfl | rfl <;> decide
  have hsp : isMaybeSpecial c = true := by rcases hc with rfl | rfl <;> decide
  have hh : (List.replicate (j + 1) c ++ r).head? = some c := by simp [List.replicate_succ]
  have hatx := atx_none hnl (by rw [hh]; rcases hc with rfl | rfl <;> decide)
  have hfen := fence_none hnl (by rw [hh]; rcases hc with rfl | rfl <;> decide) (by rw [hh]; rcases hc with rfl | rfl <;> decide)
  have hq : (c == '>') = false := by rcases hc with rfl | rfl <;> decide
  have hlt : (c == '<') = false := by rcases hc with rfl | rfl <;> decide
  obtain ⟨sp, doc, ot, cl, lno, off, col, nn, nnc, ind, indd, bl, pct, ac, lm, rm, lll⟩ := p
  obtain ⟨h1, h0, h2, h3, h4, h5⟩ := h
  simp only at h1 h3 h4 h5
  subst h1 h3 h4 h5
  have hlv : (if mm.head? == some '=' then 1 else 2) = (if c = '=' then 1 else 2) := by rw [hmm]; simp
  have hcr : List.replicate (j + 1) c ++ r = c :: (List.replicate j c ++ r) := by simp [List.replicate_succ]
  have hpk : peekAt (List.replicate (j + 1) c ++ r) 0 = some c := by rw [hcr]; rfl
  have href := refLoop_no hx rm x.length false
  have hd' : { d with lastLineBlank := false } = d := by cases d; simp_all
  generalize List.replicate (j + 1) c ++ r = z at *
  have hf := find_text (p := PState.mk [⟨paraNode l x, []⟩, ⟨d, cs⟩] doc 2 z (lno + 1) 0 0 nn nnc ind indd false false ac lm rm lll)
    (hcr) rfl rfl hns
  have hf2 := find_text (p := PState.mk [⟨paraNode l x, []⟩, ⟨d, cs⟩] doc 2 z (lno + 1) 0 0 0 0 0 false false false true 2 rm lll)
    (hcr) rfl rfl hns
  simp only [paraNode] at hf hf2
  obtain ⟨ea, eb, hend⟩ := advance_end z 0 0 false (by simp)
  simp only [Nat.sub_zero] at hend
  unfold incorporateLine
  rw [hrep]
  simp [contLoop, bind, Except.bind, blockAt, h2, pure, Except.pure, acceptsLines, startsLoop, hf, hf2, hpk, hsp, continueBlock, paraNode,
    blockStarts, tryStarts, startBlockQuote, hq, startAtx, hatx, startFenced, hfen, startHtml, hlt, startSetext, hmatch, closeUnmatched,
    href, hne, advanceToEnd, advanceOffset, hend, addText, tipKind, lineBlankFlag, hmm]
  constructor <;> simp only [headNode, h2]
  cases d
  simp_all

theorem runs_setext {sm : Reading} {o : HtmlOpts} (ho : o.sourcepos = false) {I : Str → Str → Prop} (hI : InlineHtml sm o I) {l0 u h : Str} {ls : List Str} {c : Char}
    (hp : ParaText l0 ls) (hu : SetextUnderline c u) (hi : I (joinLines (l0 :: ls)) h) (hone : ∀ l ∈ l0 :: (ls ++ [u]), OneLine l) :
    Runs sm o (l0 :: (ls ++ [u])) [⟨.heading, headingHtml (if c = '=' then 1 else 2) h⟩] false := by
  have hne := startsNoBlock_ne hp.first
  refine ⟨hone, ⟨l0, ls ++ [u], rfl, ?_⟩, ?_⟩
  · intro p0 p1 hp1
    obtain ⟨k, a0⟩ := atDoc_new p0
    obtain ⟨p1', e1, a1⟩ := first_line a0 (textLine_of hp.first (hone _ (by simp)))
    rw [hp1] at e1
    cases e1
    rw [a1.spine]
    refine .more rfl (.inr fun _ => ?_)
    exact ⟨l0 ++ ['\n'], rfl, by simp, fun y => by simpa using hp.bracket y⟩
  · intro p0 n
    refine runs_blanks ho (p0 := p0) (g := false) (by intro x hx; cases hx; exact trivial) ?_ n
    obtain ⟨k, a0⟩ := atDoc_new p0
    obtain ⟨p1, e1, a1⟩ := first_line a0 (textLine_of hp.first (hone _ (by simp)))
    obtain ⟨p2, k2, e2, a2⟩ := para_lines rfl ls a1 (fun l hl => textLine_of (hp.more l hl) (hone l (by simp [hl])))
    have hx : l0 ++ ['\n'] ++ ls.flatMap (fun ln => ln ++ ['\n']) = joinLines (l0 :: ls) ++ ['\n'] := by
      rw [← lines_join]; simp
    have hdef : ¬ DefinitionStart (joinLines (l0 :: ls) ++ ['\n']) := by
      rw [← hx]
      simpa using hp.bracket (ls.flatMap fun ln => ln ++ ['\n'])
    rw [hx] at a2
    obtain ⟨p3, e3, a3⟩ := setext_line a2 rfl hdef (by simp) hu
    have hhead := joinLines_head (ls := ls) hne
    have hjne : joinLines (l0 :: ls) ≠ [] := by
      intro e; rw [e] at hhead
      cases l0 with
      | nil => exact hne rfl
      | cons => cases hhead
    refine ⟨p3, ?_, by rw [a3.line, List.length_cons, List.length_append, List.length_singleton]; omega, ?_⟩
    · rw [List.foldlM_cons, e1]
      show List.foldlM _ p1 _ = _
      rw [List.foldlM_append, e2]
      show List.foldlM _ p2 _ = _
      rw [List.foldlM_cons, e3]; rfl
    · refine at_leaf (b := ⟨.heading, _⟩) a3 rfl rfl (y := .node (closeData (0 + 1 + ls.length + 1) u.length
        (headNode (0 + 1) (if c = '=' then 1 else 2) (joinLines (l0 :: ls) ++ ['\n']))) []) rfl
        (shows_heading ho hI rfl rfl rfl ?_ hi) (ends_false rfl) (.inr ⟨_, rfl, rfl⟩) (by intro h; cases h)
      refine strip_text ?_ ?_ (by decide) hjne
      · rw [hhead]; exact hp.begins
      · cases hl : (l0 :: ls).getLast? with
        | none => simp at hl
        | some l =>
          have hl' : l ∈ l0 :: ls := List.mem_of_getLast? hl
          have : l ≠ [] := by
            rcases List.mem_cons.1 hl' with rfl | hl'
            · exact hne
            · exact startsNoBlock_ne (hp.more l hl')
          rw [joinLines_last hl this]
          exact fun c => hp.ends l c hl

end CM
