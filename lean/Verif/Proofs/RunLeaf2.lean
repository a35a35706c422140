import Verif.Proofs.RunLeaf
/-
Runs over thematic breaks and headings (C57).
-/
set_option linter.unusedVariables false
namespace CM
open Spec

theorem fence_none {l : Str} (hl : '\n' ∉ l) (h1 : l.head? ≠ some '`') (h2 : l.head? ≠ some '~') : reCodeFence.matchPrefix l = none := by
  rw [← Option.not_isSome_iff_eq_none, fence_iff hl]
  rintro ⟨c, n, info, hn, rfl, _, h⟩
  obtain ⟨g, rfl⟩ : ∃ g, n = g + 1 := ⟨n - 1, by omega⟩
  simp only [List.replicate_succ, List.cons_append, List.head?_cons, ne_eq, Option.some.injEq] at h1 h2
  rcases h with ⟨h, _⟩ | h
  · exact h1 h
  · exact h2 h

theorem noNul_self {l : Str} (h : Char.ofNat 0 ∉ l) : noNul l = l := by
  unfold noNul
  conv => rhs; rw [← List.map_id l]
  apply List.map_congr_left
  intro c hc
  have : c ≠ Char.ofNat 0 := fun e => h (e ▸ hc)
  simp [this]

theorem advance_end (z : Str) (k col : Nat) (pct : Bool) (h : k ≤ z.length) :
    ∃ a b, advanceLoop z false (z.length - k) (z.length - k) k col pct = (z.length, a, b) := by
  have := advanceLoop_chars z (z.length - k) k col pct (by omega)
  rw [show k + (z.length - k) = z.length by omega] at this
  exact ⟨_, _, Prod.ext this rfl⟩

/-- A heading. -/
def headNode (l n : Nat) (t : Str) : NodeData :=
  { t := .heading, sourcepos := some ((l, 1), (0, 0)), level := some n, stringContent := some t }

/-- A thematic break. -/
theorem rule_line {p : PState} {d : NodeData} {cs : List Tree} {m : RefMap} {n k : Nat}
    (h : AtDoc p d cs m n k) {ln : Str} (hr : ThematicBreak ln) :
    ∃ p', incorporateLine p ln = .ok p' ∧
      AtLeaf p' { t := .thematicBreak, sourcepos := some ((n + 1, 1), (0, 0)) } { d with lastLineBlank := false } cs m (n + 1) ln.length := by
  have hnl : '\n' ∉ ln := by
    obtain ⟨c, hc, _, h, _⟩ := hr
    intro hx
    rcases h _ hx with h | h | h
    · subst h; simp at hc
    · cases h
    · cases h
  have hz : Char.ofNat 0 ∉ ln := by
    obtain ⟨c, hc, _, h, _⟩ := hr
    intro hx
    rcases h _ hx with h | h | h
    · subst h; revert hc; decide
    · revert h; decide
    · revert h; decide
  have hrep := replaceChar_nul ln
  rw [noNul_self hz] at hrep
  have hmatch := (thematic_iff hnl).2 hr
  obtain ⟨c, hc, hh, _, _⟩ := hr
  obtain ⟨r, rfl⟩ : ∃ r, ln = c :: r := by
    cases ln with
    | nil => cases hh
    | cons a r => simp only [List.head?_cons, Option.some.injEq] at hh; exact ⟨r, by rw [hh]⟩
  have hns : isNonSpace c = true := by rcases hc with rfl | rfl | rfl <;> decide
  have hsp : isMaybeSpecial c = true := by rcases hc with rfl | rfl | rfl <;> decide
  have hatx := atx_none hnl (by simp only [List.head?_cons]; rcases hc with rfl | rfl | rfl <;> decide)
  have hfen := fence_none hnl (by simp only [List.head?_cons]; rcases hc with rfl | rfl | rfl <;> decide) (by simp only [List.head?_cons]; rcases hc with rfl | rfl | rfl <;> decide)
  have hq : (c == '>') = false := by rcases hc with rfl | rfl | rfl <;> decide
  have hlt : (c == '<') = false := by rcases hc with rfl | rfl | rfl <;> decide
  obtain ⟨sp, doc, ot, cl, lno, off, col, nn, nnc, ind, indd, bl, pct, ac, lm, rm, lll⟩ := p
  obtain ⟨h1, h2, h3, h4, h5⟩ := h
  simp only at h1 h3 h4 h5
  subst h1 h3 h4 h5
  have hfind := find_text (p := PState.mk [⟨d, cs⟩] doc 1 (c :: r) (lno + 1) 0 0 nn nnc ind indd false false true 1 rm lll)
    (c := c) (r := r) rfl rfl rfl hns
  have hpk : peekAt (c :: r) 0 = some c := rfl
  unfold incorporateLine
  rw [hrep]
  simp only [Option.isSome_iff_exists] at hmatch
  obtain ⟨mm, hmatch⟩ := hmatch
  obtain ⟨ea, eb, hend⟩ := advance_end (c :: r) 0 0 false (by simp)
  simp only [List.length_cons, Nat.sub_zero] at hend
  simp [contLoop, bind, Except.bind, blockAt, h2, pure, Except.pure, acceptsLines, startsLoop, hfind, hpk, hsp,
    blockStarts, tryStarts, startBlockQuote, hq, startAtx, hatx, startFenced, hfen, startHtml, hlt, startSetext, startThematic, hmatch, closeUnmatched, addChild,
    addChildLoop, canContain, advanceToEnd, advanceOffset, hend, addText, tipKind, lineBlankFlag]
  constructor <;> simp [headNode, h2]

theorem runs_rule {sm : Reading} {o : HtmlOpts} (ho : o.sourcepos = false) {l : Str} (h : ThematicBreak l) (hone : ∀ x ∈ [l], OneLine x) :
    Runs sm o [l] [⟨.rule, "<hr />\n".toList⟩] false := by
  refine ⟨hone, ⟨_, _, rfl, ?_⟩, ?_⟩
  · intro p0 p1 hp1
    obtain ⟨k0, a0⟩ := atDoc_new p0
    obtain ⟨p1', e1, a1⟩ := rule_line a0 h
    rw [hp1] at e1
    cases e1
    rw [a1.spine]
    exact .more rfl (.inr fun h => by cases h)
  · intro p0 n
    refine runs_blanks ho (p0 := p0) (g := false) (by intro x hx; cases hx; exact trivial) ?_ n
    obtain ⟨k0, a0⟩ := atDoc_new p0
    obtain ⟨p1, e1, a1⟩ := rule_line a0 h
    refine ⟨p1, by rw [List.foldlM_cons, e1]; rfl, by rw [a1.line]; rfl, ?_⟩
    refine at_leaf (b := ⟨.rule, _⟩) a1 rfl rfl (y := .node (closeData (0 + 1) l.length { t := .thematicBreak, sourcepos := some ((0 + 1, 1), (0, 0)) }) []) rfl
      (shows_rule ho rfl) (ends_false rfl) ?_ (by intro h; cases h)
    exact .inr ⟨_, rfl, rfl⟩

/-! ### Headings -/

theorem heading_match {n : Nat} {t : Str} (h1 : 1 ≤ n) (h6 : n ≤ 6) (ht : ∃ c, t.head? = some c ∧ isPySpace c = false) (hnl : '\n' ∉ t) :
    reATXHeadingMarker.matchPrefix (List.replicate n '#' ++ ' ' :: t) = some (List.replicate n '#' ++ [' ']) := by
  have hl : '\n' ∉ List.replicate n '#' ++ ' ' :: t := by
    simp [List.mem_replicate, hnl]
  have he := (atx_iff hl).2 ⟨n, h1, h6, _, rfl, .inr (.inl rfl)⟩
  rw [Option.isSome_iff_exists] at he
  obtain ⟨m, hm⟩ := he
  rw [hm]
  obtain ⟨r, e, a, b, rfl, ha, hb⟩ := Re.matchPrefix_den hm
  obtain ⟨h3, h4, h5⟩ := (den_between_chr (by omega)).1 ha
  have h6 := eq_replicate_of_all h5
  generalize a.length = j at *
  subst h6
  rw [List.append_assoc] at e
  obtain ⟨c, hc, hs⟩ := ht
  rcases hb with hb | ⟨hb1, hb2⟩
  · obtain ⟨hne, hb'⟩ := den_plus_chr.1 hb
    cases b with
    | nil => exact absurd rfl hne
    | cons x b =>
      have hx := spTab_iff.1 hb' x (by simp)
      have hj := run_unique_eq e (by simp) (by rcases hx with rfl | rfl <;> simp)
      obtain ⟨rfl, e'⟩ := hj
      simp only [List.cons_append, List.cons.injEq] at e'
      rw [e'.1]
      cases b with
      | nil => rfl
      | cons y b =>
        rw [← e'.2] at hc
        simp only [List.cons_append, List.head?_cons, Option.some.injEq] at hc
        have hy := spTab_iff.1 hb' y (by simp)
        subst hc
        rcases hy with rfl | rfl <;> simp [isPySpace] at hs
  · exfalso
    have := noNl_eos hl (m := List.replicate j '#') (by rw [e, hb1]; rfl) hb2
    rw [hb1, this] at e
    have hmem : ' ' ∈ List.replicate j '#' ++ ([] ++ []) := by rw [← e]; simp
    simp [List.mem_replicate] at hmem

theorem subLoop_id {r : Re} {f : Str → Str} {n : Nat} : ∀ (k : Nat) (s : Str), (∀ a x, s = a ++ x → x ≠ [] → r.run n x some = none) →
    r.subLoop f n k s = s
  | 0, s, _ => by simp [Re.subLoop]
  | k + 1, [], _ => by simp [Re.subLoop]
  | k + 1, c :: s, h => by
    rw [Re.subLoop, h [] (c :: s) rfl (by simp)]
    simp only [List.cons.injEq, true_and]
    exact subLoop_id k s fun a x e hx => h (c :: a) x (by rw [e]; rfl) hx

/-- What the two patterns of closing number signs match, at the end of a text that does not end with white space. -/
theorem closing_shape {n : Nat} {m t : Str} {r : Re} {e : Char} (h : Den n (.seqs [r, .plus (.lit1 '#'), reSpTab0, .eos]) m t)
    (he : (m ++ t).getLast? = some e) (hs : isPySpace e = false) :
    ∃ m1 k t', m ++ t = m1 ++ List.replicate (k + 1) '#' ∧ Den n r m1 t' := by
  obtain ⟨m1, m2, rfl, h0, m3, m4, rfl, h1, m5, m6, rfl, h2, h3⟩ := h
  have h1' := den_plus_chr.1 h1
  have h2' := den_star_chr.1 h2
  obtain ⟨rfl, ht⟩ : m6 = [] ∧ (t = [] ∨ t = ['\n']) := by
    exact ⟨h3.1, h3.2⟩
  have key : ∀ c ∈ m5 ++ t, isPySpace c = true := by
    intro c hc
    rcases List.mem_append.1 hc with hc | hc
    · have := h2' c hc
      simp only [isSpTab, Bool.or_eq_true, beq_iff_eq] at this
      rcases this with rfl | rfl <;> decide
    · rcases ht with rfl | rfl
      · cases hc
      · rw [List.mem_singleton] at hc; subst hc; decide
  have hnil : m5 ++ t = [] := by
    rcases List.eq_nil_or_concat (m5 ++ t) with h | ⟨y, c, h⟩
    · exact h
    · exfalso
      have e1 : m1 ++ (m3 ++ (m5 ++ [])) ++ t = m1 ++ (m3 ++ (m5 ++ t)) := by simp
      rw [e1, h, List.concat_eq_append, ← List.append_assoc, ← List.append_assoc, List.getLast?_append_of_ne_nil _ (by simp)] at he
      have e2 : c = e := by simpa using he
      have := key c (by rw [h]; simp)
      rw [e2, hs] at this; cases this
  obtain ⟨rfl, rfl⟩ := List.append_eq_nil_iff.1 hnil
  have e3 : m3 = List.replicate m3.length '#' := by
    rw [List.eq_replicate_iff]
    exact ⟨rfl, fun b hb => by simpa using h1'.2 b hb⟩
  obtain ⟨k, hk⟩ : ∃ k, m3.length = k + 1 := ⟨m3.length - 1, by
    have : m3.length ≠ 0 := fun h => h1'.1 (List.length_eq_zero_iff.1 h)
    omega⟩
  refine ⟨m1, k, _, ?_, h0⟩
  rw [← hk, ← e3]; simp

theorem not_closing {t : Str} {c : Char} (h : t.getLast? = some c) (hc : c ≠ '#') : ¬ ClosingSequence t := by
  rintro ⟨x, k, rfl, _⟩
  rw [List.getLast?_append_of_ne_nil _ (by simp)] at h
  have := List.mem_of_getLast? h
  exact hc (List.eq_of_mem_replicate this)

theorem atxContent_id {t : Str} (h : ∃ c, t.getLast? = some c ∧ isPySpace c = false) (hc : ¬ ClosingSequence t) : atxContent t = t := by
  obtain ⟨e, he, hs⟩ := h
  have spt : ∀ c, isSpTab c = true → c = ' ' ∨ c = '\t' := by
    intro c hc
    simpa only [isSpTab, Bool.or_eq_true, beq_iff_eq] using hc
  have last : ∀ {a m t' : Str}, t = a ++ (m ++ t') → m ++ t' ≠ [] → (m ++ t').getLast? = some e := by
    intro a m t' h1 h2
    rw [h1, List.getLast?_append_of_ne_nil _ h2] at he
    exact he
  have e1 : reAtxEmpty.sub (fun _ => []) t = t := by
    refine subLoop_id _ _ fun a x ex hx => ?_
    cases hr : reAtxEmpty.run t.length x some with
    | none => rfl
    | some y =>
      exfalso
      obtain ⟨m', h3, h4⟩ := (Re.mem_all_iff _ _ _ _).1 (Re.run_some_mem hr)
      obtain ⟨m1, m2, rfl, h5, h6⟩ := h4
      obtain ⟨rfl, hl⟩ := h5
      rw [List.nil_append] at h3
      have ha : a = [] := by
        rw [ex, ← h3] at hl
        simp only [List.length_append] at hl
        exact List.length_eq_zero_iff.1 (by omega)
      subst ha
      obtain ⟨z, k, t', h7, h8⟩ := closing_shape h6 (last (a := []) (by rw [ex, h3]) (by rw [← h3]; exact hx)) hs
      refine hc ⟨z, k, by rw [ex, List.nil_append, h3, h7], fun c hc => ?_⟩
      exact spt c (den_star_chr.1 h8 c (List.mem_of_getLast? hc))
  unfold atxContent
  rw [e1]
  refine subLoop_id _ _ fun a x ex hx => ?_
  cases hr : (Re.seqs [reSpTab1, .plus (.lit1 '#'), reSpTab0, .eos]).run t.length x some with
  | none => exact hr
  | some y =>
    exfalso
    obtain ⟨m', h3, h4⟩ := (Re.mem_all_iff _ _ _ _).1 (Re.run_some_mem hr)
    obtain ⟨z, k, t', h7, h8⟩ := closing_shape h4 (last (by rw [ex, h3]) (by rw [← h3]; exact hx)) hs
    obtain ⟨h9, h10⟩ := den_plus_chr.1 h8
    refine hc ⟨a ++ z, k, by rw [ex, h3, h7, List.append_assoc], fun c hc => ?_⟩
    rw [List.getLast?_append_of_ne_nil _ h9] at hc
    exact spt c (h10 c (List.mem_of_getLast? hc))

theorem heading_line {p : PState} {d : NodeData} {cs : List Tree} {m : RefMap} {l k : Nat}
    (h : AtDoc p d cs m l k) {n : Nat} {t : Str} (hn1 : 1 ≤ n) (hn6 : n ≤ 6) (hz : Char.ofNat 0 ∉ t) (ht : ∃ c, t.head? = some c ∧ isPySpace c = false)
    (hlast : ∃ c, t.getLast? = some c ∧ isPySpace c = false) (hclose : ¬ ClosingSequence t) (hone : OneLine (List.replicate n '#' ++ ' ' :: t)) :
    ∃ p', incorporateLine p (List.replicate n '#' ++ ' ' :: t) = .ok p' ∧
      AtLeaf p' (headNode (l + 1) n t) { d with lastLineBlank := false } cs m (l + 1) (List.replicate n '#' ++ ' ' :: t).length := by
  have hnlt : '\n' ∉ t := fun hx => (hone '\n' (by simp [hx])).1 rfl
  have hmatch := heading_match hn1 hn6 ht hnlt
  have hcont := atxContent_id hlast hclose
  have hstrip : strip (List.replicate n '#' ++ [' ']) = List.replicate n '#' := by
    refine strip_text ?_ ?_ (by decide) (by intro e; rw [List.replicate_eq_nil_iff] at e; omega)
    · intro c hc
      have := List.mem_of_mem_head? hc
      rw [(List.mem_replicate.1 this).2]; decide
    · intro c hc
      have := List.mem_of_getLast? hc
      rw [(List.mem_replicate.1 this).2]; decide
  have hrep := replaceChar_nul (List.replicate n '#' ++ ' ' :: t)
  rw [noNul_self (by simp [List.mem_replicate, hz])] at hrep
  obtain ⟨g, rfl⟩ : ∃ g, n = g + 1 := ⟨n - 1, by omega⟩
  obtain ⟨sp, doc, ot, cl, lno, off, col, nn, nnc, ind, indd, bl, pct, ac, lm, rm, lll⟩ := p
  obtain ⟨h1, h2, h3, h4, h5⟩ := h
  simp only at h1 h3 h4 h5
  subst h1 h3 h4 h5
  have hfind := find_text (p := PState.mk [⟨d, cs⟩] doc 1 (List.replicate (g + 1) '#' ++ ' ' :: t) (lno + 1) 0 0 nn nnc ind indd false false true 1 rm lll)
    (c := '#') (r := List.replicate g '#' ++ ' ' :: t) (by simp [List.replicate_succ]) rfl rfl (by decide)
  have hpk : peekAt (List.replicate (g + 1) '#' ++ ' ' :: t) 0 = some '#' := rfl
  have hadv := advanceLoop_plain (line := List.replicate (g + 1) '#' ++ ' ' :: t) (b := false) (List.replicate (g + 1) '#' ++ [' ']) t 0 0
    false (by simp) (by simp [List.mem_replicate])
  have hdrop : (List.replicate (g + 1) '#' ++ ' ' :: t).drop (g + 1 + 1) = t := by
    have : List.replicate (g + 1) '#' ++ ' ' :: t = (List.replicate (g + 1) '#' ++ [' ']) ++ t := by simp
    rw [this, List.drop_left' (by simp)]
  simp only [List.length_append, List.length_replicate, List.length_singleton] at hadv
  have hsp : isMaybeSpecial '#' = true := by decide
  obtain ⟨ea, eb, hend⟩ := advance_end (List.replicate (g + 1) '#' ++ ' ' :: t) (g + 1 + 1) (g + 1 + 1) false (by simp)
  unfold incorporateLine
  rw [hrep]
  generalize List.replicate (g + 1) '#' ++ ' ' :: t = z at *
  simp [contLoop, bind, Except.bind, blockAt, h2, pure, Except.pure, acceptsLines, startsLoop, hfind, hpk, hsp,
    blockStarts, tryStarts, startBlockQuote, startAtx, hmatch, closeUnmatched, addChild,
    addChildLoop, canContain, advanceNextNonspace, addText, tipKind, lineBlankFlag, advanceOffset, hadv, hdrop, hcont, advanceToEnd, hend, hstrip]
  constructor <;> simp [headNode, h2]

theorem runs_heading {sm : Reading} {o : HtmlOpts} (ho : o.sourcepos = false) {I : Str → Str → Prop} (hI : InlineHtml sm o I) {n : Nat} {t h : Str}
    (hn1 : 1 ≤ n) (hn6 : n ≤ 6) (hz : Char.ofNat 0 ∉ t) (ht : ∃ c, t.head? = some c ∧ isPySpace c = false)
    (hlast : ∃ c, t.getLast? = some c ∧ isPySpace c = false) (hclose : ¬ ClosingSequence t) (hi : I t h) (hone : ∀ x ∈ [List.replicate n '#' ++ ' ' :: t], OneLine x) :
    Runs sm o [List.replicate n '#' ++ ' ' :: t]
      [⟨.heading, headingHtml n h⟩] false := by
  have hst : strip t = t := by
    have := strip_text (x := t) (y := []) ?_ ?_ (by simp) ?_
    · simpa using this
    · obtain ⟨c, h1, h2⟩ := ht
      intro c' h; rw [h1] at h; cases h; exact h2
    · obtain ⟨c, h1, h2⟩ := hlast
      intro c' h; rw [h1] at h; cases h; exact h2
    · rintro rfl; obtain ⟨c, h1, h2⟩ := ht; cases h1
  refine ⟨hone, ⟨_, _, rfl, ?_⟩, ?_⟩
  · intro p0 p1 hp1
    obtain ⟨k0, a0⟩ := atDoc_new p0
    obtain ⟨p1', e1, a1⟩ := heading_line a0 hn1 hn6 hz ht hlast hclose (hone _ (by simp))
    rw [hp1] at e1
    cases e1
    rw [a1.spine]
    exact .more rfl (.inr fun h => by cases h)
  · intro p0 j
    refine runs_blanks ho (p0 := p0) (g := false) (by intro x hx; cases hx; exact trivial) ?_ j
    obtain ⟨k0, a0⟩ := atDoc_new p0
    obtain ⟨p1, e1, a1⟩ := heading_line a0 hn1 hn6 hz ht hlast hclose (hone _ (by simp))
    refine ⟨p1, by rw [List.foldlM_cons, e1]; rfl, by rw [a1.line]; rfl, ?_⟩
    refine at_leaf (b := ⟨.heading, _⟩) a1 rfl rfl (y := .node (closeData (0 + 1) (List.replicate n '#' ++ ' ' :: t).length (headNode (0 + 1) n t)) []) rfl
      (shows_heading ho hI rfl rfl rfl hst hi) (ends_false rfl) ?_ (by intro h; cases h)
    exact .inr ⟨_, rfl, rfl⟩

end CM
