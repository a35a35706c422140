import Verif.Proofs.Regex
/-
Static facts about patterns: least length of a match, characters a match may contain.
-/
namespace CM

/-- A lower bound for the length of a match. -/
def Re.minLen : Re → Nat
  | .chr _ => 1
  | .seq a b => a.minLen + b.minLen
  | .alt a b => min a.minLen b.minLen
  | _ => 0

theorem Re.all_minLen (n : Nat) (r : Re) : ∀ s t, t ∈ r.all n s → t.length + r.minLen ≤ s.length := by
  induction r with
  | chr p =>
    intro s t ht
    cases s with
    | nil => simp [all] at ht
    | cons c cs => simp only [all] at ht; split at ht <;> simp_all [minLen]
  | seq a b iha ihb =>
    intro s t ht
    simp only [all, List.mem_flatMap] at ht
    obtain ⟨u, hu, ht⟩ := ht
    have := iha s u hu
    have := ihb u t ht
    simp only [minLen]; omega
  | alt a b iha ihb =>
    intro s t ht
    simp only [all, List.mem_append] at ht
    simp only [minLen]
    rcases ht with ht | ht
    · have := iha s t ht; omega
    · have := ihb s t ht; omega
  | _ => intro s t ht; simp only [minLen]; exact (Re.all_suffix n _ s t ht).length_le

theorem Re.matchPrefix_minLen {r : Re} {s m : Str} (h : r.matchPrefix s = some m) :
    r.minLen ≤ m.length := by
  obtain ⟨t, ht, rfl⟩ := Re.matchPrefix_append h
  have := Re.all_minLen _ _ _ _ (Re.run_some_mem ht)
  simp at this; omega

/-- An upper bound for the length of a match, if there is one. -/
def Re.maxLen : Re → Option Nat
  | .eps | .bos | .eos | .look _ | .nlook _ => some 0
  | .chr _ => some 1
  | .seq a b => match a.maxLen, b.maxLen with
    | some x, some y => some (x + y)
    | _, _ => none
  | .alt a b => match a.maxLen, b.maxLen with
    | some x, some y => some (max x y)
    | _, _ => none
  | .upTo n a => a.maxLen.map (n * ·)
  | _ => none

theorem starAll_maxLen {m : Str → List Str} {k : Nat} (h : ∀ s t, t ∈ m s → s.length ≤ t.length + k)
    (f : Nat) : ∀ s t, t ∈ starAll m f s → s.length ≤ t.length + f * k := by
  induction f with
  | zero => intro s t ht; simp [starAll] at ht; subst ht; omega
  | succ f ih =>
    intro s t ht
    simp only [starAll, List.mem_append, List.mem_flatMap, List.mem_singleton] at ht
    rcases ht with ⟨u, hu, ht⟩ | rfl
    · split at ht
      · have := ih u t ht
        have := h s u hu
        rw [Nat.add_mul]; omega
      · simp at ht
    · omega

theorem Re.all_maxLen (n : Nat) (r : Re) : ∀ k, r.maxLen = some k → ∀ s t, t ∈ r.all n s →
    s.length ≤ t.length + k := by
  induction r with
  | eps => intro k hk s t ht; simp [all] at ht; subst ht; omega
  | chr p =>
    intro k hk s t ht
    simp only [maxLen, Option.some.injEq] at hk
    cases s with
    | nil => simp [all] at ht
    | cons c cs => simp only [all] at ht; split at ht <;> simp_all
  | seq a b iha ihb =>
    intro k hk s t ht
    simp only [maxLen] at hk
    split at hk
    · rename_i x y hx hy
      simp only [Option.some.injEq] at hk
      simp only [all, List.mem_flatMap] at ht
      obtain ⟨u, hu, ht⟩ := ht
      have := iha x hx s u hu
      have := ihb y hy u t ht
      omega
    · cases hk
  | alt a b iha ihb =>
    intro k hk s t ht
    simp only [maxLen] at hk
    split at hk
    · rename_i x y hx hy
      simp only [Option.some.injEq] at hk
      simp only [all, List.mem_append] at ht
      rcases ht with ht | ht
      · have := iha x hx s t ht; omega
      · have := ihb y hy s t ht; omega
    · cases hk
  | star a ih => intro k hk; simp [maxLen] at hk
  | lazyStar a ih => intro k hk; simp [maxLen] at hk
  | upTo m a ih =>
    intro k hk s t ht
    simp only [maxLen, Option.map_eq_some_iff] at hk
    obtain ⟨x, hx, rfl⟩ := hk
    exact starAll_maxLen (ih x hx) m s t ht
  | bos => intro k hk s t ht; simp only [all] at ht; split at ht <;> simp_all
  | eos =>
    intro k hk s t ht
    match s with
    | [] => simp
    | [c] => simp only [all] at ht; split at ht <;> simp_all
    | _ :: _ :: _ => simp [all] at ht
  | look a ih => intro k hk s t ht; simp only [all] at ht; split at ht <;> simp_all
  | nlook a ih => intro k hk s t ht; simp only [all] at ht; split at ht <;> simp_all

theorem Re.matchPrefix_maxLen {r : Re} {s m : Str} {k : Nat} (hk : r.maxLen = some k)
    (h : r.matchPrefix s = some m) : m.length ≤ k := by
  obtain ⟨t, ht, rfl⟩ := Re.matchPrefix_append h
  have := Re.all_maxLen _ _ _ hk _ _ (Re.run_some_mem ht)
  simp at this; omega

/-- Every character class of the pattern (look-ahead apart) is inside `P`. -/
def Re.Within (P : Char → Prop) : Re → Prop
  | .chr p => ∀ c, p c = true → P c
  | .seq a b => a.Within P ∧ b.Within P
  | .alt a b => a.Within P ∧ b.Within P
  | .star a => a.Within P
  | .lazyStar a => a.Within P
  | .upTo _ a => a.Within P
  | _ => True

/-- `t` is what remains of `s` after characters in `P`. -/
def Eats (P : Char → Prop) (s t : Str) : Prop := ∃ m, s = m ++ t ∧ ∀ c ∈ m, P c

theorem Eats.refl (P : Char → Prop) (s : Str) : Eats P s s := ⟨[], rfl, by simp⟩

theorem Eats.trans {P : Char → Prop} {s t u : Str} (h1 : Eats P s t) (h2 : Eats P t u) : Eats P s u := by
  obtain ⟨m, rfl, hm⟩ := h1
  obtain ⟨m', rfl, hm'⟩ := h2
  refine ⟨m ++ m', by simp, ?_⟩
  intro c hc
  rcases List.mem_append.1 hc with h | h
  · exact hm c h
  · exact hm' c h

theorem starAll_eats {P : Char → Prop} {m : Str → List Str} (h : ∀ s t, t ∈ m s → Eats P s t) (f : Nat) :
    ∀ s t, t ∈ starAll m f s → Eats P s t := by
  induction f with
  | zero => intro s t ht; simp [starAll] at ht; subst ht; exact Eats.refl _ _
  | succ f ih =>
    intro s t ht
    simp only [starAll, List.mem_append, List.mem_flatMap, List.mem_singleton] at ht
    rcases ht with ⟨u, hu, ht⟩ | rfl
    · split at ht
      · exact (h s u hu).trans (ih u t ht)
      · simp at ht
    · exact Eats.refl _ _

theorem lazyAll_eats {P : Char → Prop} {m : Str → List Str} (h : ∀ s t, t ∈ m s → Eats P s t) (f : Nat) :
    ∀ s t, t ∈ lazyAll m f s → Eats P s t := by
  induction f with
  | zero => intro s t ht; simp [lazyAll] at ht; subst ht; exact Eats.refl _ _
  | succ f ih =>
    intro s t ht
    simp only [lazyAll, List.mem_cons, List.mem_flatMap] at ht
    rcases ht with rfl | ⟨u, hu, ht⟩
    · exact Eats.refl _ _
    · split at ht
      · exact (h s u hu).trans (ih u t ht)
      · simp at ht

theorem Re.all_eats (n : Nat) {P : Char → Prop} (r : Re) : r.Within P → ∀ s t, t ∈ r.all n s → Eats P s t := by
  induction r with
  | eps => intro _ s t ht; simp [all] at ht; subst ht; exact Eats.refl _ _
  | chr p =>
    intro hp s t ht
    cases s with
    | nil => simp [all] at ht
    | cons c cs =>
      simp only [all] at ht
      split at ht <;> simp at ht
      rename_i h
      subst ht
      exact ⟨[c], rfl, by simpa using hp c h⟩
  | seq a b iha ihb =>
    intro hp s t ht
    simp only [all, List.mem_flatMap] at ht
    obtain ⟨u, hu, ht⟩ := ht
    exact (iha hp.1 s u hu).trans (ihb hp.2 u t ht)
  | alt a b iha ihb =>
    intro hp s t ht
    simp only [all, List.mem_append] at ht
    exact ht.elim (iha hp.1 s t) (ihb hp.2 s t)
  | star a ih => intro hp s t ht; exact starAll_eats (ih hp) _ s t ht
  | lazyStar a ih => intro hp s t ht; exact lazyAll_eats (ih hp) _ s t ht
  | upTo m a ih => intro hp s t ht; exact starAll_eats (ih hp) _ s t ht
  | bos => intro _ s t ht; simp only [all] at ht; split at ht <;> simp at ht; subst ht; exact Eats.refl _ _
  | eos =>
    intro _ s t ht
    match s with
    | [] => simp [all] at ht; subst ht; exact Eats.refl _ _
    | [c] => simp only [all] at ht; split at ht <;> simp at ht; subst ht; exact Eats.refl _ _
    | _ :: _ :: _ => simp [all] at ht
  | look a ih => intro _ s t ht; simp only [all] at ht; split at ht <;> simp at ht; subst ht; exact Eats.refl _ _
  | nlook a ih => intro _ s t ht; simp only [all] at ht; split at ht <;> simp at ht; subst ht; exact Eats.refl _ _

theorem Re.matchPrefix_within {P : Char → Prop} {r : Re} (hr : r.Within P) {s m : Str}
    (h : r.matchPrefix s = some m) : ∀ c ∈ m, P c := by
  obtain ⟨t, ht, rfl⟩ := Re.matchPrefix_append h
  obtain ⟨m', he, hm'⟩ := Re.all_eats _ r hr _ _ (Re.run_some_mem ht)
  rw [List.append_left_inj] at he
  rw [he]; exact hm'

/-- The first character of a non-empty match. -/
theorem Re.matchPrefix_prefix {r : Re} {s m : Str} (h : r.matchPrefix s = some m) : m <+: s := by
  obtain ⟨t, _, rfl⟩ := Re.matchPrefix_append h
  exact List.prefix_append _ _

end CM
