import Verif.Spec.Regex
import Verif.Proofs.Regex
/-
The matcher finds a match exactly when the declarative semantics has one.
-/
namespace CM
open Spec

theorem Iter.shrink {P : Str → Str → Prop} {k : Nat} {m t : Str} (h : Iter P k m t) :
    ∃ k', k' ≤ k ∧ k' ≤ m.length ∧ Iter P k' m t := by
  induction h with
  | nil => exact ⟨0, Nat.le_refl _, Nat.zero_le _, .nil⟩
  | @cons k m1 m2 t h1 h2 ih =>
    obtain ⟨k', h3, h4, h5⟩ := ih
    cases m1 with
    | nil => exact ⟨k', by omega, h4, h5⟩
    | cons c cs => exact ⟨k' + 1, by omega, by simp; omega, .cons h1 h5⟩

theorem starAll_sound {P : Str → Str → Prop} {f : Str → List Str}
    (hf : ∀ s t, t ∈ f s → ∃ m, s = m ++ t ∧ P m t) : ∀ (k : Nat) (s t : Str), t ∈ starAll f k s →
    ∃ j m, j ≤ k ∧ s = m ++ t ∧ Iter P j m t := by
  intro k
  induction k with
  | zero => intro s t h; simp [starAll] at h; subst h; exact ⟨0, [], Nat.le_refl _, rfl, .nil⟩
  | succ k ih =>
    intro s t h
    simp only [starAll, List.mem_append, List.mem_flatMap, List.mem_singleton] at h
    rcases h with ⟨u, hu, h⟩ | rfl
    · split at h
      · obtain ⟨j, m, h1, h2, h3⟩ := ih u t h
        obtain ⟨m1, h4, h5⟩ := hf s u hu
        subst h2
        exact ⟨j + 1, m1 ++ m, by omega, by rw [h4, List.append_assoc], .cons h5 h3⟩
      · simp at h
    · exact ⟨0, [], Nat.zero_le _, rfl, .nil⟩

theorem lazyAll_sound {P : Str → Str → Prop} {f : Str → List Str}
    (hf : ∀ s t, t ∈ f s → ∃ m, s = m ++ t ∧ P m t) : ∀ (k : Nat) (s t : Str), t ∈ lazyAll f k s →
    ∃ j m, j ≤ k ∧ s = m ++ t ∧ Iter P j m t := by
  intro k
  induction k with
  | zero => intro s t h; simp [lazyAll] at h; subst h; exact ⟨0, [], Nat.le_refl _, rfl, .nil⟩
  | succ k ih =>
    intro s t h
    simp only [lazyAll, List.mem_cons, List.mem_flatMap] at h
    rcases h with rfl | ⟨u, hu, h⟩
    · exact ⟨0, [], Nat.zero_le _, rfl, .nil⟩
    · split at h
      · obtain ⟨j, m, h1, h2, h3⟩ := ih u t h
        obtain ⟨m1, h4, h5⟩ := hf s u hu
        subst h2
        exact ⟨j + 1, m1 ++ m, by omega, by rw [h4, List.append_assoc], .cons h5 h3⟩
      · simp at h

theorem self_mem_starAll (f : Str → List Str) (k : Nat) (s : Str) : s ∈ starAll f k s := by
  cases k <;> simp [starAll]

theorem self_mem_lazyAll (f : Str → List Str) (k : Nat) (s : Str) : s ∈ lazyAll f k s := by
  cases k <;> simp [lazyAll]

theorem starAll_complete {P : Str → Str → Prop} {f : Str → List Str}
    (hf : ∀ m t, P m t → t ∈ f (m ++ t)) {j : Nat} {m t : Str} (h : Iter P j m t) :
    ∀ k, j ≤ k → t ∈ starAll f k (m ++ t) := by
  induction h with
  | nil => intro k _; exact self_mem_starAll f k _
  | @cons j m1 m2 t h1 h2 ih =>
    intro k hk
    cases m1 with
    | nil => exact ih k (by omega)
    | cons c cs =>
      obtain ⟨k, rfl⟩ : ∃ k', k = k' + 1 := ⟨k - 1, by omega⟩
      simp only [starAll, List.mem_append, List.mem_flatMap, List.mem_singleton]
      left
      have := hf _ _ h1
      refine ⟨m2 ++ t, by rw [List.append_assoc]; exact this, ?_⟩
      rw [if_pos (by simp; omega)]
      exact ih k (by omega)

theorem lazyAll_complete {P : Str → Str → Prop} {f : Str → List Str}
    (hf : ∀ m t, P m t → t ∈ f (m ++ t)) {j : Nat} {m t : Str} (h : Iter P j m t) :
    ∀ k, j ≤ k → t ∈ lazyAll f k (m ++ t) := by
  induction h with
  | nil => intro k _; exact self_mem_lazyAll f k _
  | @cons j m1 m2 t h1 h2 ih =>
    intro k hk
    cases m1 with
    | nil => exact ih k (by omega)
    | cons c cs =>
      obtain ⟨k, rfl⟩ : ∃ k', k = k' + 1 := ⟨k - 1, by omega⟩
      simp only [lazyAll, List.mem_cons, List.mem_flatMap]
      right
      have := hf _ _ h1
      refine ⟨m2 ++ t, by rw [List.append_assoc]; exact this, ?_⟩
      rw [if_pos (by simp; omega)]
      exact ih k (by omega)

/-- The remainders of the backtracking matcher are those of the declarative semantics. -/
theorem Re.mem_all_iff (n : Nat) (r : Re) : ∀ s t, t ∈ r.all n s ↔ ∃ m, s = m ++ t ∧ Den n r m t := by
  have hempty : ∀ s t (Q : Prop), (s = t ∧ Q) ↔ ∃ m : Str, s = m ++ t ∧ m = [] ∧ Q := by
    intro s t Q
    constructor
    · rintro ⟨rfl, h⟩; exact ⟨[], rfl, rfl, h⟩
    · rintro ⟨m, h, rfl, hq⟩; exact ⟨h, hq⟩
  induction r with
  | eps =>
    intro s t
    simp only [all, List.mem_singleton, Den]
    constructor
    · rintro rfl; exact ⟨[], rfl, rfl⟩
    · rintro ⟨m, h, rfl⟩; exact h.symm
  | chr p =>
    intro s t
    cases s with
    | nil =>
      simp only [all, Den]
      constructor
      · intro h; simp at h
      · rintro ⟨m, h, c, _, rfl⟩; simp at h
    | cons c cs =>
      simp only [all, Den]
      constructor
      · intro h
        split at h <;> simp at h
        subst h
        exact ⟨[c], rfl, c, by assumption, rfl⟩
      · rintro ⟨m, h, c', hc, rfl⟩
        simp at h
        obtain ⟨rfl, rfl⟩ := h
        rw [if_pos hc]; simp
  | seq a b iha ihb =>
    intro s t
    simp only [all, List.mem_flatMap, Den]
    constructor
    · rintro ⟨u, hu, ht⟩
      obtain ⟨m1, rfl, h1⟩ := (iha _ _).1 hu
      obtain ⟨m2, rfl, h2⟩ := (ihb _ _).1 ht
      exact ⟨m1 ++ m2, by simp, m1, m2, rfl, h1, h2⟩
    · rintro ⟨m, rfl, m1, m2, rfl, h1, h2⟩
      exact ⟨m2 ++ t, (iha _ _).2 ⟨m1, by simp, h1⟩, (ihb _ _).2 ⟨m2, rfl, h2⟩⟩
  | alt a b iha ihb =>
    intro s t
    simp only [all, List.mem_append, Den, iha, ihb]
    constructor
    · rintro (⟨m, h1, h2⟩ | ⟨m, h1, h2⟩)
      · exact ⟨m, h1, Or.inl h2⟩
      · exact ⟨m, h1, Or.inr h2⟩
    · rintro ⟨m, h1, h2 | h2⟩
      · exact Or.inl ⟨m, h1, h2⟩
      · exact Or.inr ⟨m, h1, h2⟩
  | star a ih =>
    intro s t
    simp only [all, Den]
    constructor
    · intro h
      obtain ⟨j, m, _, h2, h3⟩ := starAll_sound (fun s t => (ih s t).1) _ _ _ h
      exact ⟨m, h2, j, h3⟩
    · rintro ⟨m, rfl, k, h⟩
      obtain ⟨k', _, h4, h5⟩ := Iter.shrink h
      exact starAll_complete (fun m t h => (ih _ _).2 ⟨m, rfl, h⟩) h5 _ (by simp; omega)
  | lazyStar a ih =>
    intro s t
    simp only [all, Den]
    constructor
    · intro h
      obtain ⟨j, m, _, h2, h3⟩ := lazyAll_sound (fun s t => (ih s t).1) _ _ _ h
      exact ⟨m, h2, j, h3⟩
    · rintro ⟨m, rfl, k, h⟩
      obtain ⟨k', _, h4, h5⟩ := Iter.shrink h
      exact lazyAll_complete (fun m t h => (ih _ _).2 ⟨m, rfl, h⟩) h5 _ (by simp; omega)
  | upTo i a ih =>
    intro s t
    simp only [all, Den]
    constructor
    · intro h
      obtain ⟨j, m, h1, h2, h3⟩ := starAll_sound (fun s t => (ih s t).1) _ _ _ h
      exact ⟨m, h2, j, h1, h3⟩
    · rintro ⟨m, rfl, k, hk, h⟩
      exact starAll_complete (fun m t h => (ih _ _).2 ⟨m, rfl, h⟩) h _ hk
  | bos =>
    intro s t
    simp only [all, Den]
    rw [← hempty]
    by_cases h : s.length = n
    · rw [if_pos (by simpa using h)]
      simp only [List.mem_singleton]
      constructor
      · rintro rfl; exact ⟨rfl, h⟩
      · rintro ⟨rfl, _⟩; rfl
    · rw [if_neg (by simpa using h)]
      constructor
      · intro h; simp at h
      · rintro ⟨rfl, h'⟩; exact absurd h' h
  | eos =>
    intro s t
    simp only [Den]
    rw [← hempty]
    match s with
    | [] =>
      simp only [all, List.mem_singleton]
      constructor
      · rintro rfl; exact ⟨rfl, Or.inl rfl⟩
      · rintro ⟨rfl, _⟩; rfl
    | [c] =>
      simp only [all]
      constructor
      · intro h
        split at h <;> simp at h
        rename_i hc
        simp at hc
        subst hc; exact ⟨h.symm, Or.inr h⟩
      · rintro ⟨rfl, h | h⟩
        · cases h
        · simp at h; subst h; simp
    | c :: d :: cs =>
      simp only [all]
      constructor
      · intro h; simp at h
      · rintro ⟨rfl, h | h⟩
        · cases h
        · simp at h
  | look a ih =>
    intro s t
    simp only [all, Den]
    rw [← hempty]
    have hne : (all n a s).isEmpty = false ↔ ∃ m' t', s = m' ++ t' ∧ Den n a m' t' := by
      constructor
      · intro h
        cases hl : all n a s with
        | nil => rw [hl] at h; simp at h
        | cons x xs =>
          obtain ⟨m', h1, h2⟩ := (ih s x).1 (by rw [hl]; simp)
          exact ⟨m', x, h1, h2⟩
      · rintro ⟨m', t', h1, h2⟩
        have := (ih s t').2 ⟨m', h1, h2⟩
        cases hl : all n a s with
        | nil => rw [hl] at this; simp at this
        | cons x xs => rfl
    cases he : (all n a s).isEmpty with
    | true =>
      simp only [if_true]
      constructor
      · intro h; simp at h
      · rintro ⟨rfl, h⟩
        have := hne.2 h
        rw [he] at this; cases this
    | false =>
      simp only [Bool.false_eq_true, if_false, List.mem_singleton]
      constructor
      · rintro rfl; exact ⟨rfl, hne.1 he⟩
      · rintro ⟨rfl, _⟩; rfl
  | nlook a ih =>
    intro s t
    simp only [all, Den]
    rw [← hempty]
    have hne : (all n a s).isEmpty = false ↔ ∃ m' t', s = m' ++ t' ∧ Den n a m' t' := by
      constructor
      · intro h
        cases hl : all n a s with
        | nil => rw [hl] at h; simp at h
        | cons x xs =>
          obtain ⟨m', h1, h2⟩ := (ih s x).1 (by rw [hl]; simp)
          exact ⟨m', x, h1, h2⟩
      · rintro ⟨m', t', h1, h2⟩
        have := (ih s t').2 ⟨m', h1, h2⟩
        cases hl : all n a s with
        | nil => rw [hl] at this; simp at this
        | cons x xs => rfl
    cases he : (all n a s).isEmpty with
    | true =>
      simp only [if_true, List.mem_singleton]
      constructor
      · rintro rfl
        refine ⟨rfl, fun h => ?_⟩
        have := hne.2 h
        rw [he] at this; cases this
      · rintro ⟨rfl, _⟩; rfl
    | false =>
      simp only [Bool.false_eq_true, if_false]
      constructor
      · intro h; simp at h
      · rintro ⟨rfl, h⟩; exact absurd (hne.1 he) h

/-- A match is a match of the declarative semantics. -/
theorem Re.matchPrefix_den {r : Re} {s m : Str} (h : r.matchPrefix s = some m) :
    ∃ t, s = m ++ t ∧ Den s.length r m t := by
  obtain ⟨t, h1, h2⟩ := Re.matchPrefix_append h
  obtain ⟨m', h3, h4⟩ := (Re.mem_all_iff _ _ _ _).1 (Re.run_some_mem h1)
  have : m' = m := List.append_cancel_right (h3.symm.trans h2)
  subst this
  exact ⟨t, h2, h4⟩

/-- There is a match when the declarative semantics has one. -/
theorem Re.rest_isSome_iff {r : Re} {s : Str} :
    (r.rest s).isSome = true ↔ ∃ m t, s = m ++ t ∧ Den s.length r m t := by
  rw [Re.rest_eq_head]
  constructor
  · intro h
    cases hl : all s.length r s with
    | nil => rw [hl] at h; simp at h
    | cons x xs =>
      obtain ⟨m, h1, h2⟩ := (Re.mem_all_iff _ r s x).1 (by rw [hl]; simp)
      exact ⟨m, x, h1, h2⟩
  · rintro ⟨m, t, h1, h2⟩
    have := (Re.mem_all_iff _ r s t).2 ⟨m, h1, h2⟩
    cases hl : all s.length r s with
    | nil => rw [hl] at this; simp at this
    | cons x xs => rfl

/-! ### Repetitions of one character -/

theorem iter_chr {n : Nat} {p : Char → Bool} {k : Nat} {m t : Str}
    (h : Iter (fun m t => Den n (.chr p) m t) k m t) : m.length = k ∧ ∀ c ∈ m, p c = true := by
  induction h with
  | nil => simp
  | cons h1 _ ih =>
    obtain ⟨c, hc, rfl⟩ := h1
    refine ⟨by simp [ih.1], ?_⟩
    intro x hx
    rcases List.mem_cons.1 hx with rfl | hx
    · exact hc
    · exact ih.2 x hx

theorem iter_chr_of {n : Nat} {p : Char → Bool} (t : Str) : ∀ {m : Str}, (∀ c ∈ m, p c = true) →
    Iter (fun m t => Den n (.chr p) m t) m.length m t
  | [], _ => .nil
  | c :: cs, h => .cons (m1 := [c]) ⟨c, h c (by simp), rfl⟩
      (iter_chr_of t fun x hx => h x (List.mem_cons_of_mem _ hx))

theorem den_star_chr {n : Nat} {p : Char → Bool} {m t : Str} :
    Den n (.star (.chr p)) m t ↔ ∀ c ∈ m, p c = true := by
  constructor
  · rintro ⟨k, h⟩; exact (iter_chr h).2
  · intro h; exact ⟨_, iter_chr_of t h⟩

theorem den_upTo_chr {n j : Nat} {p : Char → Bool} {m t : Str} :
    Den n (.upTo j (.chr p)) m t ↔ m.length ≤ j ∧ ∀ c ∈ m, p c = true := by
  constructor
  · rintro ⟨k, hk, h⟩; exact ⟨(iter_chr h).1 ▸ hk, (iter_chr h).2⟩
  · rintro ⟨hl, h⟩; exact ⟨_, hl, iter_chr_of t h⟩

theorem den_exactly_chr {n : Nat} {p : Char → Bool} : ∀ {j : Nat} {m t : Str},
    Den n (.exactly j (.chr p)) m t ↔ m.length = j ∧ ∀ c ∈ m, p c = true
  | 0, m, t => by
    simp only [Re.exactly, Den]
    constructor
    · rintro rfl; simp
    · rintro ⟨h, _⟩; exact List.eq_nil_of_length_eq_zero h
  | j + 1, m, t => by
    simp only [Re.exactly, Den, den_exactly_chr (n := n) (p := p) (j := j)]
    constructor
    · rintro ⟨m1, m2, rfl, ⟨c, hc, rfl⟩, h1, h2⟩
      refine ⟨by simp [h1], ?_⟩
      intro x hx
      rcases List.mem_cons.1 hx with rfl | hx
      · exact hc
      · exact h2 x hx
    · rintro ⟨hl, h⟩
      cases m with
      | nil => simp at hl
      | cons c cs =>
        exact ⟨[c], cs, rfl, ⟨c, h c (by simp), rfl⟩, by simpa using hl,
          fun x hx => h x (List.mem_cons_of_mem _ hx)⟩

theorem den_plus_chr {n : Nat} {p : Char → Bool} {m t : Str} :
    Den n (.plus (.chr p)) m t ↔ m ≠ [] ∧ ∀ c ∈ m, p c = true := by
  simp only [Re.plus, Den]
  constructor
  · rintro ⟨m1, m2, rfl, ⟨c, hc, rfl⟩, k, h⟩
    refine ⟨by simp, ?_⟩
    intro x hx
    rcases List.mem_cons.1 hx with rfl | hx
    · exact hc
    · exact (iter_chr (n := n) h).2 x hx
  · rintro ⟨hne, h⟩
    cases m with
    | nil => exact absurd rfl hne
    | cons c cs => exact ⟨[c], cs, rfl, ⟨c, h c (by simp), rfl⟩, _, iter_chr_of (n := n) t fun x hx => h x (List.mem_cons_of_mem _ hx)⟩

theorem den_atLeast_chr {n : Nat} {p : Char → Bool} {j : Nat} {m t : Str} :
    Den n (.atLeast j (.chr p)) m t ↔ j ≤ m.length ∧ ∀ c ∈ m, p c = true := by
  simp only [Re.atLeast, Den]
  constructor
  · rintro ⟨m1, m2, rfl, h1, k, h2⟩
    have h1 := den_exactly_chr.1 h1
    have h2 := iter_chr (n := n) h2
    refine ⟨by simp; omega, ?_⟩
    intro x hx
    rcases List.mem_append.1 hx with hx | hx
    · exact h1.2 x hx
    · exact h2.2 x hx
  · rintro ⟨hl, h⟩
    refine ⟨m.take j, m.drop j, (List.take_append_drop j m).symm, den_exactly_chr.2 ⟨by simp; omega, ?_⟩, _, iter_chr_of (n := n) t ?_⟩
    · intro x hx; exact h x (List.mem_of_mem_take hx)
    · intro x hx; exact h x (List.mem_of_mem_drop hx)

theorem den_between_chr {n : Nat} {p : Char → Bool} {i j : Nat} (hij : i ≤ j) {m t : Str} :
    Den n (.between i j (.chr p)) m t ↔ i ≤ m.length ∧ m.length ≤ j ∧ ∀ c ∈ m, p c = true := by
  simp only [Re.between, Den]
  constructor
  · rintro ⟨m1, m2, rfl, h1, k, hk, h2⟩
    have h1 := den_exactly_chr.1 h1
    have h2 := iter_chr (n := n) h2
    refine ⟨by simp; omega, by simp; omega, ?_⟩
    intro x hx
    rcases List.mem_append.1 hx with hx | hx
    · exact h1.2 x hx
    · exact h2.2 x hx
  · rintro ⟨hl, hl', h⟩
    refine ⟨m.take i, m.drop i, (List.take_append_drop i m).symm, den_exactly_chr.2 ⟨by simp; omega, ?_⟩, _, ?_, iter_chr_of (n := n) t ?_⟩
    · intro x hx; exact h x (List.mem_of_mem_take hx)
    · simp; omega
    · intro x hx; exact h x (List.mem_of_mem_drop hx)

theorem eq_replicate_of_all {c : Char} {m : Str} (h : ∀ x ∈ m, (x == c) = true) : m = List.replicate m.length c :=
  List.eq_replicate_iff.2 ⟨rfl, fun x hx => by simpa using h x hx⟩

end CM
