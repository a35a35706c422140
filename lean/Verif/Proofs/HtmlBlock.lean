import Verif.Spec.HtmlBlock
import Verif.Proofs.HtmlTag
/-
The patterns for HTML blocks describe the lines of `Spec.HtmlOpen` and `Spec.HtmlEnd`.
-/
set_option linter.unusedVariables false
namespace CM
open Spec

theorem den_alts_of {n : Nat} {m t : Str} : ∀ {rs : List Re} {r : Re}, r ∈ rs → Den n r m t → Den n (.alts rs) m t
  | [a], r, hr, h => by
    obtain rfl := List.mem_singleton.1 hr
    exact h
  | a :: b :: rs, r, hr, h => by
    rcases List.mem_cons.1 hr with rfl | hr
    · exact Or.inl h
    · exact Or.inr (den_alts_of hr h)

theorem letterOf_iff {a x : Char} (ha : a.toLower = a) : ciEq a x = true ↔ LetterOf a x := by
  simp only [ciEq, LetterOf, Bool.or_eq_true, beq_iff_eq, Bool.and_eq_true, ha]
  constructor
  · rintro ((((rfl | h) | h) | h) | h)
    · exact .inl ha
    · exact .inl h
    · exact .inr (.inl h)
    · exact .inr (.inr (.inl h))
    · exact .inr (.inr (.inr h))
  · rintro (h | h | h | h)
    · exact .inl (.inl (.inl (.inr h)))
    · exact .inl (.inl (.inr h))
    · exact .inl (.inr h)
    · exact .inr h

theorem den_ciWord_iff {n : Nat} {t : Str} : ∀ {w m : Str}, (∀ c ∈ w, c.toLower = c) → (Den n (.ciWord w) m t ↔ SameWord w m)
  | [], m, _ => by
    constructor
    · intro h; obtain rfl : m = [] := h; exact .nil
    · intro h; cases h; exact rfl
  | [a], m, ha => by
    constructor
    · rintro ⟨c, h1, rfl⟩
      exact .cons ((letterOf_iff (ha a (by simp))).1 h1) .nil
    · intro h
      cases h with
      | cons h1 h2 => cases h2; exact ⟨_, (letterOf_iff (ha a (by simp))).2 h1, rfl⟩
  | a :: b :: r, m, ha => by
    have ih := fun m => den_ciWord_iff (n := n) (t := t) (w := b :: r) (m := m) (fun c hc => ha c (List.mem_cons_of_mem _ hc))
    constructor
    · rintro ⟨m1, m2, rfl, ⟨c, h1, rfl⟩, h2⟩
      exact .cons ((letterOf_iff (ha a (by simp))).1 h1) ((ih _).1 h2)
    · intro h
      cases h with
      | @cons _ x _ m h1 h2 => exact ⟨[x], m, rfl, ⟨x, (letterOf_iff (ha a (by simp))).2 h1, rfl⟩, (ih _).2 h2⟩

theorem verbatim_low : ∀ w ∈ verbatimNames, ∀ c ∈ w.toList, c.toLower = c := by decide +kernel
theorem blockNames_low : ∀ w ∈ htmlBlockNames, ∀ c ∈ w.toList, c.toLower = c := by decide +kernel
theorem blockNames_tags : (∀ w ∈ htmlBlockNames, w ∈ blockTags) ∧ ∀ w ∈ blockTags, w ∈ htmlBlockNames := by decide +kernel

theorem den_verbatim {n : Nat} {m t : Str} : Den n reScriptPreStyle m t ↔ ∃ w ∈ verbatimNames, SameWord w.toList m := by
  have hl : reScriptPreStyle = .alts (verbatimNames.map fun w => .ciWord w.toList) := rfl
  rw [hl]
  constructor
  · intro h
    obtain ⟨r, hr, h⟩ := den_alts h
    obtain ⟨w, hw, rfl⟩ := List.mem_map.1 hr
    exact ⟨w, hw, (den_ciWord_iff (verbatim_low w hw)).1 h⟩
  · rintro ⟨w, hw, h⟩
    exact den_alts_of (List.mem_map.2 ⟨w, hw, rfl⟩) ((den_ciWord_iff (verbatim_low w hw)).2 h)

theorem den_blockName {n : Nat} {m t : Str} : Den n (.alts (blockTags.map fun t => .ciWord (lit t))) m t ↔ ∃ w ∈ htmlBlockNames, SameWord w.toList m := by
  constructor
  · intro h
    obtain ⟨r, hr, h⟩ := den_alts h
    obtain ⟨w, hw, rfl⟩ := List.mem_map.1 hr
    have hw := blockNames_tags.2 w hw
    exact ⟨w, hw, (den_ciWord_iff (blockNames_low w hw)).1 h⟩
  · rintro ⟨w, hw, h⟩
    exact den_alts_of (List.mem_map.2 ⟨w, blockNames_tags.1 w hw, rfl⟩) ((den_ciWord_iff (blockNames_low w hw)).2 h)

theorem word_prefix {w l : Str} : ((Re.word w).matchPrefix l).isSome = true ↔ w <+: l := by
  rw [matchPrefix_iff]
  constructor
  · rintro ⟨m, t, rfl, h⟩
    rw [den_word_iff.1 h]
    exact List.prefix_append _ _
  · rintro ⟨t, rfl⟩
    exact ⟨w, t, rfl, den_word_iff.2 rfl⟩

theorem htmlOpen_iff {l : Str} (hl : '\n' ∉ l) {i : Nat} (h1 : 1 ≤ i) (h7 : i ≤ 7) :
    ((reHtmlBlockOpen i).matchPrefix l).isSome = true ↔ HtmlOpen i l := by
  have hi : i = 1 ∨ i = 2 ∨ i = 3 ∨ i = 4 ∨ i = 5 ∨ i = 6 ∨ i = 7 := by omega
  rcases hi with rfl | rfl | rfl | rfl | rfl | rfl | rfl
  · rw [matchPrefix_iff]
    constructor
    · rintro ⟨m, t, e, a, b, rfl, ha, c, d, rfl, hc, hd⟩
      obtain rfl := den_lit1.1 ha
      refine ⟨c, d ++ t, by rw [e]; simp, den_verbatim.1 hc, ?_⟩
      rcases hd with ⟨y, hy, rfl⟩ | hd | ⟨rfl, he⟩
      · exact .inr ⟨y, t, rfl, .inl hy⟩
      · rw [den_lit1.1 hd]; exact .inr ⟨_, t, rfl, by simp⟩
      · exact .inl (by rw [noNl_eos hl e he]; rfl)
    · rintro ⟨n, r, rfl, hn, hr⟩
      rcases hr with rfl | ⟨c, q, rfl, hc⟩
      · exact ⟨'<' :: n, [], by simp, ['<'], n, rfl, den_lit1.2 rfl, n, [], by simp, den_verbatim.2 hn, .inr (.inr ⟨rfl, .inl rfl⟩)⟩
      · refine ⟨'<' :: (n ++ [c]), q, by simp, ['<'], n ++ [c], rfl, den_lit1.2 rfl, n, [c], rfl, den_verbatim.2 hn, ?_⟩
        rcases hc with hc | rfl
        · exact .inl ⟨c, hc, rfl⟩
        · exact .inr (.inl (den_lit1.2 rfl))
  · exact word_prefix
  · exact word_prefix
  · rw [matchPrefix_iff]
    constructor
    · rintro ⟨m, t, rfl, a, b, rfl, ha, c, hc, rfl⟩
      rw [den_word_iff.1 ha]
      simp only [inRange, Bool.and_eq_true, decide_eq_true_eq] at hc
      exact ⟨c, t, rfl, hc.1, hc.2⟩
    · rintro ⟨c, r, rfl, h1, h2⟩
      refine ⟨['<', '!', c], r, rfl, ['<', '!'], [c], rfl, den_word_iff.2 rfl, c, ?_, rfl⟩
      simp only [inRange, Bool.and_eq_true, decide_eq_true_eq]
      exact ⟨h1, h2⟩
  · exact word_prefix
  · rw [matchPrefix_iff]
    constructor
    · rintro ⟨m, t, e, a, b, rfl, ha, s, b, rfl, hs, c, d, rfl, hc, hd⟩
      obtain rfl := den_lit1.1 ha
      refine ⟨s, c, d ++ t, by rw [e]; simp, ?_, den_blockName.1 hc, ?_⟩
      · rcases den_opt.1 hs with h | h
        · exact .inl h
        · exact .inr (den_lit1.1 h)
      · rcases hd with ⟨y, hy, rfl⟩ | ⟨d1, d2, rfl, hd1, hd2⟩ | ⟨rfl, he⟩
        · exact .inr (.inl ⟨y, t, rfl, .inl hy⟩)
        · rw [den_lit1.1 hd2]
          rcases den_opt.1 hd1 with rfl | hd1
          · exact .inr (.inl ⟨_, t, rfl, by simp⟩)
          · rw [den_lit1.1 hd1]; exact .inr (.inr ⟨t, rfl⟩)
        · exact .inl (by rw [noNl_eos hl e he]; rfl)
    · rintro ⟨sl, n, r, rfl, hsl, hn, hr⟩
      have hs : ∀ t, Den ('<' :: (sl ++ (n ++ r))).length (.opt (.lit1 '/')) sl t := by
        intro t
        rcases hsl with rfl | rfl
        · exact den_opt.2 (.inl rfl)
        · exact den_opt.2 (.inr (den_lit1.2 rfl))
      rcases hr with rfl | ⟨c, q, rfl, hc⟩ | ⟨q, rfl⟩
      · exact ⟨'<' :: (sl ++ n), [], by simp, ['<'], sl ++ n, rfl, den_lit1.2 rfl, sl, n, rfl, hs _, n, [], by simp, den_blockName.2 hn, .inr (.inr ⟨rfl, .inl rfl⟩)⟩
      · refine ⟨'<' :: (sl ++ (n ++ [c])), q, by simp, ['<'], sl ++ (n ++ [c]), rfl, den_lit1.2 rfl, sl, n ++ [c], rfl, hs _, n, [c], rfl, den_blockName.2 hn, ?_⟩
        rcases hc with hc | rfl
        · exact .inl ⟨c, hc, rfl⟩
        · exact .inr (.inl ⟨[], ['>'], rfl, den_opt.2 (.inl rfl), den_lit1.2 rfl⟩)
      · exact ⟨'<' :: (sl ++ (n ++ ['/', '>'])), q, by simp, ['<'], sl ++ (n ++ ['/', '>']), rfl, den_lit1.2 rfl, sl, n ++ ['/', '>'], rfl, hs _, n, ['/', '>'], rfl,
          den_blockName.2 hn, .inr (.inl ⟨['/'], ['>'], rfl, den_opt.2 (.inr (den_lit1.2 rfl)), den_lit1.2 rfl⟩)⟩
  · rw [matchPrefix_iff]
    constructor
    · rintro ⟨m, t, e, a, b, rfl, ha, w, b, rfl, hw, rfl, he⟩
      obtain rfl := noNl_eos hl e he
      refine ⟨a, w, by rw [e]; simp, (den_ws _ _).1 hw, ?_⟩
      rcases ha with ha | ha
      · exact .inl ((den_openTag _ _).1 ha)
      · exact .inr ((den_closeTag _ _).1 ha)
    · rintro ⟨tag, w, rfl, hw, htag⟩
      refine ⟨tag ++ w, [], by simp, tag, w, rfl, ?_, w, [], by simp, (den_ws _ _).2 hw, rfl, .inl rfl⟩
      rcases htag with h | h
      · exact .inl ((den_openTag _ _).2 h)
      · exact .inr ((den_closeTag _ _).2 h)

theorem htmlOpen_range {i : Nat} {l : Str} (h : HtmlOpen i l) : 1 ≤ i ∧ i ≤ 7 := by
  by_cases hi : i = 1 ∨ i = 2 ∨ i = 3 ∨ i = 4 ∨ i = 5 ∨ i = 6 ∨ i = 7
  · omega
  · exfalso
    unfold HtmlOpen at h
    split at h <;> omega

/-- The type of the block that a line starts. -/
theorem htmlOpen_head {i : Nat} {l : Str} (h : HtmlOpen i l) : l.head? = some '<' := by
  obtain ⟨h1, h7⟩ := htmlOpen_range h
  have hi : i = 1 ∨ i = 2 ∨ i = 3 ∨ i = 4 ∨ i = 5 ∨ i = 6 ∨ i = 7 := by omega
  rcases hi with rfl | rfl | rfl | rfl | rfl | rfl | rfl
  · obtain ⟨n, r, rfl, _⟩ := h; rfl
  · obtain ⟨t, rfl⟩ := h; rfl
  · obtain ⟨t, rfl⟩ := h; rfl
  · obtain ⟨c, r, rfl, _⟩ := h; rfl
  · obtain ⟨t, rfl⟩ := h; rfl
  · obtain ⟨sl, n, r, rfl, _⟩ := h; rfl
  · obtain ⟨tag, w, rfl, _, h⟩ := h
    rcases h with ⟨n, as, v, sl, _, _, _, _, rfl⟩ | ⟨n, v, _, _, rfl⟩ <;> rfl

theorem htmlBlockType_iff {k : Kind} {l : Str} (hl : '\n' ∉ l) {i : Nat} :
    htmlBlockType k l = some i ↔ HtmlStart i l ∧ (i = 7 → k ≠ .paragraph) := by
  have hp : ∀ j, (((reHtmlBlockOpen j).matchPrefix l).isSome && (decide (j < 7) || k != .paragraph)) = true ↔
      ((reHtmlBlockOpen j).matchPrefix l).isSome = true ∧ (j < 7 ∨ k ≠ .paragraph) := by
    intro j; simp
  unfold htmlBlockType
  constructor
  · intro h
    have h1 := List.find?_some h
    have h2 := List.mem_of_find?_eq_some h
    have hr : 1 ≤ i ∧ i ≤ 7 := by simp at h2; omega
    rw [hp] at h1
    refine ⟨⟨(htmlOpen_iff hl hr.1 hr.2).1 h1.1, ?_⟩, by intro hi; exact h1.2.resolve_left (by omega)⟩
    intro j hj ho
    have hjr := htmlOpen_range ho
    have hm := (htmlOpen_iff hl hjr.1 hjr.2).2 ho
    obtain ⟨as, bs, e, hn⟩ := (List.find?_eq_some_iff_append.1 h).2
    have : j ∈ as := by
      have hs : List.Pairwise (· < ·) [1, 2, 3, 4, 5, 6, 7] := by decide
      have hj7 : j ∈ [1, 2, 3, 4, 5, 6, 7] := by simp; omega
      rw [e] at hs hj7
      rcases List.mem_append.1 hj7 with h | h
      · exact h
      · exfalso
        have hs := (List.pairwise_append.1 hs).2.1
        rcases List.mem_cons.1 h with rfl | h
        · omega
        · have := (List.pairwise_cons.1 hs).1 j h
          omega
    have := hn j this
    rw [Bool.not_eq_true', ← Bool.not_eq_true, hp] at this
    exact this ⟨hm, .inl (by omega)⟩
  · rintro ⟨⟨h1, h2⟩, h3⟩
    have hr := htmlOpen_range h1
    have hm := (htmlOpen_iff hl hr.1 hr.2).2 h1
    have c1 := hp i
    have hyes := c1.2 ⟨hm, by by_cases h : i = 7; exact .inr (h3 h); exact .inl (by omega)⟩
    have hno : ∀ j, j < i → (((reHtmlBlockOpen j).matchPrefix l).isSome && (decide (j < 7) || k != .paragraph)) = false ∨ j = 0 := by
      intro j hj
      by_cases h0 : j = 0
      · exact .inr h0
      · left
        rw [← Bool.not_eq_true, hp]
        rintro ⟨h, _⟩
        exact h2 j hj ((htmlOpen_iff hl (by omega) (by omega)).1 h)
    rw [List.find?_eq_some_iff_append]
    refine ⟨hyes, (List.range' 1 (i - 1)), List.range' (i + 1) (7 - i), ?_, ?_⟩
    · have hi : i = 1 ∨ i = 2 ∨ i = 3 ∨ i = 4 ∨ i = 5 ∨ i = 6 ∨ i = 7 := by omega
      rcases hi with rfl | rfl | rfl | rfl | rfl | rfl | rfl <;> rfl
    · intro j hj
      rw [List.mem_range'_1] at hj
      rcases hno j (by omega) with h | h
      · rw [h]; rfl
      · omega

theorem htmlBlockType_none {k : Kind} {l : Str} (hl : '\n' ∉ l) :
    htmlBlockType k l = none ↔ ∀ i, HtmlOpen i l → i = 7 ∧ k = .paragraph := by
  constructor
  · intro h
    -- the first type that fits
    suffices H : ∀ n i, i ≤ n → HtmlOpen i l → i = 7 ∧ k = .paragraph from fun i => H i i (Nat.le_refl _)
    intro n
    induction n with
    | zero => intro i hi ho; have := (htmlOpen_range ho).1; omega
    | succ n ih =>
      intro i hi ho
      by_cases hle : i ≤ n
      · exact ih i hle ho
      · by_cases hex : ∃ j, j < i ∧ HtmlOpen j l
        · obtain ⟨j, hj, hoj⟩ := hex
          have := (ih j (by omega) hoj).1
          have := (htmlOpen_range ho).2
          omega
        · refine Classical.byContradiction fun hne => ?_
          have := (htmlBlockType_iff (k := k) hl (i := i)).2 ⟨⟨ho, fun j hj hoj => hex ⟨j, hj, hoj⟩⟩, fun h7 hk => hne ⟨h7, hk⟩⟩
          rw [h] at this; cases this
  · intro h
    cases hb : htmlBlockType k l with
    | none => rfl
    | some i =>
      obtain ⟨h1, h2⟩ := (htmlBlockType_iff hl).1 hb
      obtain ⟨rfl, hk⟩ := h i h1.1
      exact absurd hk (h2 rfl)

/-! ### The end -/

theorem rest_isSome {r : Re} {s : Str} : (r.rest s).isSome = (r.matchPrefix s).isSome := by
  unfold Re.matchPrefix; simp

theorem found_word {w l : Str} (h : (Re.word w).noBos = true) : (Re.word w).found l = true ↔ w <:+: l := by
  rw [Re.found_iff h]
  constructor
  · rintro ⟨u, v, rfl, hv⟩
    rw [rest_isSome, word_prefix] at hv
    obtain ⟨t, rfl⟩ := hv
    exact ⟨u, t, by simp⟩
  · rintro ⟨u, t, rfl⟩
    refine ⟨u, w ++ t, by simp, ?_⟩
    rw [rest_isSome, word_prefix]
    exact List.prefix_append _ _

theorem htmlEnd_iff {l : Str} {i : Nat} (h1 : 1 ≤ i) (h5 : i ≤ 5) : (reHtmlBlockClose i).found l = true ↔ HtmlEnd i l := by
  have hi : i = 1 ∨ i = 2 ∨ i = 3 ∨ i = 4 ∨ i = 5 := by omega
  rcases hi with rfl | rfl | rfl | rfl | rfl
  · rw [Re.found_iff (by decide)]
    constructor
    · rintro ⟨u, v, rfl, hv⟩
      rw [rest_isSome, matchPrefix_iff] at hv
      obtain ⟨m, t, rfl, a, b, rfl, ha, c, d, rfl, hc, hd⟩ := hv
      rw [den_word_iff.1 ha, den_lit1.1 hd]
      exact ⟨u, c, t, by simp [lit], den_verbatim.1 hc⟩
    · rintro ⟨a, n, b, rfl, hn⟩
      refine ⟨a, _, rfl, ?_⟩
      rw [rest_isSome, matchPrefix_iff]
      exact ⟨'<' :: '/' :: (n ++ ['>']), b, by simp, ['<', '/'], n ++ ['>'], rfl, den_word_iff.2 rfl, n, ['>'], rfl, den_verbatim.2 hn, den_lit1.2 rfl⟩
  · exact found_word (by decide)
  · exact found_word (by decide)
  · refine (found_word (w := ['>']) (by decide)).trans ?_
    constructor
    · rintro ⟨u, t, rfl⟩
      show '>' ∈ _
      simp
    · intro h
      obtain ⟨u, t, rfl⟩ := List.append_of_mem h
      exact ⟨u, t, by simp⟩
  · exact found_word (by decide)

end CM
