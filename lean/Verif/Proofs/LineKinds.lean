import Verif.Proofs.RegexLang
import Verif.Proofs.BlockTree
import Verif.Spec.LineKinds
/-
The line patterns of the block parser mean what the specification says.
-/
set_option linter.unusedVariables false
namespace CM
open Spec

theorem matchPrefix_iff {r : Re} {s : Str} :
    (r.matchPrefix s).isSome = true ↔ ∃ m t, s = m ++ t ∧ Den s.length r m t := by
  rw [Re.matchPrefix_isSome, Re.rest_isSome_iff]

theorem noNl_eos {l m t : Str} (hl : '\n' ∉ l) (h : l = m ++ t) (ht : t = [] ∨ t = ['\n']) : t = [] := by
  rcases ht with h' | h'
  · exact h'
  · subst h'; subst h; simp at hl

theorem spTab_iff {s : Str} : (∀ c ∈ s, isSpTab c = true) ↔ OnlySpTab s := by
  simp [OnlySpTab, isSpTab]

/-- `(?:c[ \t]*)` repeated `k` times. -/
theorem iter_break {n k : Nat} {c : Char} {m t : Str} (hc : c ≠ ' ' ∧ c ≠ '\t')
    (h : Iter (fun m t => Den n (.seq (.lit1 c) reSpTab0) m t) k m t) :
    (∀ x ∈ m, x = c ∨ x = ' ' ∨ x = '\t') ∧ m.count c = k ∧ (m ≠ [] → m.head? = some c) := by
  induction h with
  | nil => simp
  | @cons k m1 m2 t h1 h2 ih =>
    obtain ⟨a, b, rfl, ⟨x, hx, rfl⟩, hb⟩ := h1
    have hx : x = c := by simpa using hx
    subst hx
    have hb' := den_star_chr.1 hb
    have hb2 : ∀ y ∈ b, y = ' ' ∨ y = '\t' := spTab_iff.1 hb'
    have h0 : b.count x = 0 := by
      rw [List.count_eq_zero]
      intro hm
      rcases hb2 _ hm with h | h
      · exact hc.1 h
      · exact hc.2 h
    refine ⟨?_, ?_, ?_⟩
    · intro y hy
      simp only [List.mem_append, List.mem_singleton] at hy
      rcases hy with (h | h) | h
      · exact Or.inl h
      · exact Or.inr (hb2 y h)
      · exact ih.1 y h
    · simp [List.count_append, h0, ih.2.1]
    · intro _; rfl

/-- A text made of `c`, spaces and tabs that starts with `c` is such a repetition. -/
theorem iter_break_of {n : Nat} {c : Char} (hc : c ≠ ' ' ∧ c ≠ '\t') (t : Str) : ∀ (m : Str),
    (∀ x ∈ m, x = c ∨ x = ' ' ∨ x = '\t') → ∀ w : Str, (∀ x ∈ w, isSpTab x = true) →
    Iter (fun m t => Den n (.seq (.lit1 c) reSpTab0) m t) ((c :: w ++ m).count c) (c :: w ++ m) t := by
  intro m
  induction m with
  | nil =>
    intro _ w hw
    have h0 : w.count c = 0 := by
      rw [List.count_eq_zero]
      intro hm
      have := spTab_iff.1 hw _ hm
      rcases this with h | h
      · exact hc.1 h
      · exact hc.2 h
    have : (c :: w ++ []).count c = 0 + 1 := by simp [h0]
    rw [this]
    exact .cons (m2 := []) ⟨[c], w, rfl, ⟨c, by simp, rfl⟩, den_star_chr.2 hw⟩ .nil
  | cons x m ih =>
    intro hm w hw
    have hm' : ∀ y ∈ m, y = c ∨ y = ' ' ∨ y = '\t' := fun y hy => hm y (by simp [hy])
    rcases hm x (by simp) with h | h
    · subst h
      have h0 : w.count x = 0 := by
        rw [List.count_eq_zero]
        intro hm
        have := spTab_iff.1 hw _ hm
        rcases this with h | h
        · exact hc.1 h
        · exact hc.2 h
      have : (x :: w ++ x :: m).count x = (x :: [] ++ m).count x + 1 := by
        simp [List.count_append, h0]
      rw [this]
      exact .cons (m1 := x :: w) (m2 := x :: m) ⟨[x], w, rfl, ⟨x, by simp, rfl⟩, den_star_chr.2 hw⟩
        (ih hm' [] (by simp))
    · have := ih hm' (w ++ [x]) (by
        intro y hy
        rcases List.mem_append.1 hy with hy | hy
        · exact hw y hy
        · simp at hy; subst hy; simpa [isSpTab] using h)
      simpa using this

theorem iter_atLeast {n j k : Nat} {r : Re} {m t : Str} (hjk : j ≤ k) (h : Iter (fun m t => Den n r m t) k m t) :
    Den n (.atLeast j r) m t := by
  simp only [Re.atLeast, Den]
  induction j generalizing k m with
  | zero => exact ⟨[], m, rfl, rfl, k, h⟩
  | succ j ih =>
    cases h with
    | nil => omega
    | @cons k m1 m2 _ h1 h2 =>
      obtain ⟨a, b, rfl, ha, hb⟩ := ih (by omega) h2
      refine ⟨m1 ++ a, b, by simp, ?_, hb⟩
      rw [Re.exactly]
      exact ⟨m1, a, rfl, by simpa using h1, ha⟩

theorem atLeast_iter {n j : Nat} {r : Re} {m t : Str} (h : Den n (.atLeast j r) m t) :
    ∃ k, j ≤ k ∧ Iter (fun m t => Den n r m t) k m t := by
  simp only [Re.atLeast, Den] at h
  obtain ⟨a, b, rfl, ha, k, hb⟩ := h
  induction j generalizing a with
  | zero =>
    simp only [Re.exactly, Den] at ha
    subst ha
    exact ⟨k, Nat.zero_le _, hb⟩
  | succ j ih =>
    rw [Re.exactly] at ha
    obtain ⟨m1, m2, rfl, h1, h2⟩ := ha
    obtain ⟨k', hk, h3⟩ := ih m2 h2
    exact ⟨k' + 1, by omega, by
      rw [List.append_assoc]
      exact .cons (by simpa using h1) h3⟩

theorem thematic_iff {l : Str} (hl : '\n' ∉ l) :
    (reThematicBreak.matchPrefix l).isSome = true ↔ ThematicBreak l := by
  rw [matchPrefix_iff]
  constructor
  · rintro ⟨m, t, h, a, b, rfl, ha, w, e, rfl, hw, he1, he2⟩
    have ht : t = [] := noNl_eos hl h he2
    subst he1 ht
    have hw' := spTab_iff.1 (den_star_chr.1 hw)
    have key : ∀ c, (c = '*' ∨ c = '_' ∨ c = '-') → Den l.length (reBreakRun c) a (w ++ [] ++ []) →
        ThematicBreak l := by
      intro c hc hd
      have hc' : c ≠ ' ' ∧ c ≠ '\t' := by rcases hc with rfl | rfl | rfl <;> decide
      obtain ⟨k, hk, hi⟩ := atLeast_iter hd
      obtain ⟨h1, h2, h3⟩ := iter_break hc' hi
      have hne : a ≠ [] := by rintro rfl; simp at h2; omega
      subst h
      refine ⟨c, hc, ?_, ?_, ?_⟩
      · simp [List.head?_append, h3 hne]
      · intro x hx
        simp only [List.append_nil, List.mem_append] at hx
        rcases hx with hx | hx
        · exact h1 x hx
        · exact Or.inr (hw' x hx)
      · simp [List.count_append]; omega
    rcases ha with ha | ha | ha
    · exact key '*' (by simp) ha
    · exact key '_' (by simp) ha
    · exact key '-' (by simp) ha
  · rintro ⟨c, hc, hh, hall, hcount⟩
    have hc' : c ≠ ' ' ∧ c ≠ '\t' := by rcases hc with rfl | rfl | rfl <;> decide
    cases l with
    | nil => simp at hh
    | cons x r =>
      simp only [List.head?_cons, Option.some.injEq] at hh
      subst hh
      refine ⟨x :: r, [], by simp, x :: r, [], by simp, ?_, [], [], rfl, den_star_chr.2 (by simp), rfl, Or.inl rfl⟩
      have hi := iter_break_of (n := (x :: r).length) hc' [] r (fun y hy => hall y (by simp [hy])) [] (by simp)
      have hd := iter_atLeast (j := 3) hcount hi
      rcases hc with rfl | rfl | rfl
      · exact Or.inl hd
      · exact Or.inr (Or.inl hd)
      · exact Or.inr (Or.inr hd)

theorem den_lit_run {n : Nat} {c : Char} {m : Str} :
    (∀ x ∈ m, (x == c) = true) ↔ m = List.replicate m.length c := by
  constructor
  · exact eq_replicate_of_all
  · intro h x hx
    rw [h] at hx
    simpa using (List.mem_replicate.1 hx).2

theorem atx_iff {l : Str} (hl : '\n' ∉ l) :
    (reATXHeadingMarker.matchPrefix l).isSome = true ↔ ∃ n, AtxMarker n l := by
  rw [matchPrefix_iff]
  constructor
  · rintro ⟨m, t, h, a, b, rfl, ha, hb⟩
    obtain ⟨h1, h2, h3⟩ := (den_between_chr (by omega)).1 ha
    have h4 := eq_replicate_of_all h3
    refine ⟨a.length, h1, h2, b ++ t, by rw [← h4, h, List.append_assoc], ?_⟩
    rcases hb with hb | ⟨hb1, hb2⟩
    · obtain ⟨hne, hb⟩ := den_plus_chr.1 hb
      cases b with
      | nil => exact absurd rfl hne
      | cons x b =>
        have := spTab_iff.1 hb x (by simp)
        right
        simpa using this
    · subst hb1
      left
      rw [noNl_eos hl h hb2]; rfl
  · rintro ⟨n, h1, h2, r, rfl, hr⟩
    have hd : ∀ b t, Den (List.replicate n '#' ++ r).length (.between 1 6 (.lit1 '#')) (List.replicate n '#') (b ++ t) :=
      fun b t => (den_between_chr (by omega)).2 ⟨by simpa using h1, by simpa using h2, by simp⟩
    rcases hr with rfl | hr
    · exact ⟨List.replicate n '#', [], by simp, List.replicate n '#', [], by simp, hd _ _, Or.inr ⟨rfl, Or.inl rfl⟩⟩
    · cases r with
      | nil => simp at hr
      | cons x r =>
        refine ⟨List.replicate n '#' ++ [x], r, by simp, List.replicate n '#', [x], rfl, hd _ _, Or.inl ?_⟩
        refine den_plus_chr.2 ⟨by simp, ?_⟩
        simpa [isSpTab] using hr

theorem setext_iff {l : Str} (hl : '\n' ∉ l) :
    (reSetextHeadingLine.matchPrefix l).isSome = true ↔ ∃ c, SetextUnderline c l := by
  rw [matchPrefix_iff]
  constructor
  · rintro ⟨m, t, h, a, b, rfl, ha, w, e, rfl, hw, he1, he2⟩
    have ht : t = [] := noNl_eos hl h he2
    subst he1 ht
    have hw' := spTab_iff.1 (den_star_chr.1 hw)
    have key : ∀ c, (c = '=' ∨ c = '-') → Den l.length (.plus (.lit1 c)) a (w ++ [] ++ []) →
        ∃ c, SetextUnderline c l := by
      intro c hc hd
      obtain ⟨h1, h2⟩ := den_plus_chr.1 hd
      exact ⟨c, hc, a.length, w, List.length_pos_iff.2 h1, by rw [← eq_replicate_of_all h2, h]; simp, hw'⟩
    rcases ha with ha | ha
    · exact key '=' (by simp) ha
    · exact key '-' (by simp) ha
  · rintro ⟨c, hc, n, r, hn, rfl, hr⟩
    have hd : Den (List.replicate n c ++ r).length (.plus (.lit1 c)) (List.replicate n c) (r ++ [] ++ []) :=
      den_plus_chr.2 ⟨by simp; omega, by simp⟩
    refine ⟨List.replicate n c ++ r, [], by simp, List.replicate n c, r, rfl, ?_, r, [], by simp,
      den_star_chr.2 (spTab_iff.2 hr), rfl, Or.inl rfl⟩
    rcases hc with rfl | rfl
    · exact Or.inl (by simpa using hd)
    · exact Or.inr (by simpa using hd)

/-- A text is a run of `c` followed by something else. -/
theorem run_split (c : Char) (l : Str) : ∃ n r, l = List.replicate n c ++ r ∧ r.head? ≠ some c := by
  induction l with
  | nil => exact ⟨0, [], by simp⟩
  | cons x l ih =>
    by_cases hx : x = c
    · subst hx
      obtain ⟨n, r, h1, h2⟩ := ih
      exact ⟨n + 1, r, by rw [h1]; simp [List.replicate_succ], h2⟩
    · exact ⟨0, x :: l, by simp, by simpa using hx⟩

theorem run_unique {c : Char} {n k : Nat} {r t : Str} (h : List.replicate n c ++ r = List.replicate k c ++ t)
    (hr : r.head? ≠ some c) : k ≤ n := by
  induction k generalizing n with
  | zero => omega
  | succ k ih =>
    cases n with
    | zero =>
      exfalso; apply hr
      rw [List.replicate_zero, List.nil_append] at h
      rw [h]; simp [List.replicate_succ]
    | succ n =>
      simp only [List.replicate_succ, List.cons_append, List.cons.injEq, true_and] at h
      have := ih h
      omega

theorem run_unique_eq {c : Char} {n k : Nat} {r t : Str} (h : List.replicate n c ++ r = List.replicate k c ++ t)
    (hr : r.head? ≠ some c) (ht : t.head? ≠ some c) : k = n ∧ t = r := by
  have h1 := run_unique h hr
  have h2 := run_unique h.symm ht
  have : k = n := by omega
  subst this
  exact ⟨rfl, (List.append_cancel_left h).symm⟩

theorem isDot_noNl {s : Str} (h : '\n' ∉ s) : ∀ c ∈ s, isDot c = true := by
  intro c hc
  simp only [isDot, bne_iff_ne, ne_eq]
  rintro rfl
  exact h hc

theorem fence_iff {l : Str} (hl : '\n' ∉ l) :
    (reCodeFence.matchPrefix l).isSome = true ↔ ∃ c n info, CodeFence c n info l := by
  rw [matchPrefix_iff]
  constructor
  · rintro ⟨m, t, h, ⟨a, b, rfl, ha, hb1, hb⟩ | ha⟩
    · obtain ⟨h1, h2⟩ := den_atLeast_chr.1 ha
      subst hb1
      obtain ⟨n, r, hr1, hr2⟩ := run_split '`' l
      have h3 : '`' ∉ t := by
        intro hm
        apply hb
        obtain ⟨x, y, hxy⟩ := List.append_of_mem hm
        refine ⟨x ++ ['`'], y, by simp [hxy], x, ['`'], rfl, den_star_chr.2 (isDot_noNl ?_), '`', by simp, rfl⟩
        intro hx
        apply hl
        rw [h, hxy]
        simp [hx]
      have h4 := eq_replicate_of_all h2
      have hle : a.length ≤ n := by
        refine run_unique (r := r) (t := t) (c := '`') ?_ hr2
        rw [← h4, ← hr1, h]; simp
      refine ⟨'`', n, r, by omega, hr1, hr2, Or.inl ⟨rfl, ?_⟩⟩
      intro hm
      apply h3
      have e : List.replicate a.length '`' ++ t = List.replicate a.length '`' ++ (List.replicate (n - a.length) '`' ++ r) := by
        rw [← List.append_assoc, List.replicate_append_replicate, ← h4, Nat.add_sub_cancel' hle, ← hr1, h]; simp
      rw [List.append_cancel_left e]
      simp [hm]
    · obtain ⟨h1, h2⟩ := den_atLeast_chr.1 ha
      obtain ⟨n, r, hr1, hr2⟩ := run_split '~' l
      have hle : m.length ≤ n := by
        refine run_unique (r := r) (t := t) (c := '~') ?_ hr2
        rw [← eq_replicate_of_all h2, ← hr1, h]
      exact ⟨'~', n, r, by omega, hr1, hr2, Or.inr rfl⟩
  · rintro ⟨c, n, info, hn, rfl, hi, hc⟩
    refine ⟨List.replicate n c, info, rfl, ?_⟩
    rcases hc with ⟨rfl, hc⟩ | rfl
    · refine Or.inl ⟨List.replicate n '`', [], by simp, den_atLeast_chr.2 ⟨by simpa using hn, by simp⟩, rfl, ?_⟩
      rintro ⟨m', t', h1, x, y, rfl, _, z, hz, rfl⟩
      apply hc
      have : z = '`' := by simpa using hz
      rw [h1, this]; simp
    · exact Or.inr (den_atLeast_chr.2 ⟨by simpa using hn, by simp⟩)

theorem closing_iff {l : Str} (hl : '\n' ∉ l) :
    (reClosingCodeFence.matchPrefix l).isSome = true ↔ ∃ c n, ClosingFence c n l := by
  rw [matchPrefix_iff]
  constructor
  · rintro ⟨m, t, h, a, b, rfl, ha, hb1, m', t', ht, w, e, rfl, hw, he1, he2⟩
    subst hb1 he1
    have ht' : t' = [] := noNl_eos (m := a ++ [] ++ (w ++ [])) hl (by rw [h, ht]; simp) he2
    subst ht'
    have hw' := eq_replicate_of_all (den_star_chr.1 hw)
    have key : ∀ c, (c = '`' ∨ c = '~') → Den l.length (.atLeast 3 (.lit1 c)) a ([] ++ t) →
        ∃ c n, ClosingFence c n l := by
      intro c hc hd
      obtain ⟨h1, h2⟩ := den_atLeast_chr.1 hd
      exact ⟨c, a.length, h1, hc, w.length, by rw [← eq_replicate_of_all h2, ← hw', h, ht]; simp⟩
    rcases ha with ha | ha
    · exact key '`' (by simp) ha
    · exact key '~' (by simp) ha
  · rintro ⟨c, n, hn, hc, k, rfl⟩
    refine ⟨List.replicate n c, List.replicate k ' ', rfl, List.replicate n c, [], by simp, ?_, rfl,
      List.replicate k ' ', [], by simp, List.replicate k ' ', [], by simp, den_star_chr.2 (by simp), rfl, Or.inl rfl⟩
    rcases hc with rfl | rfl
    · exact Or.inl (den_atLeast_chr.2 ⟨by simpa using hn, by simp⟩)
    · exact Or.inr (den_atLeast_chr.2 ⟨by simpa using hn, by simp⟩)

end CM
