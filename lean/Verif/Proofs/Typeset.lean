import Verif.Proofs.Smart
import Verif.Proofs.InlineSteps
import Verif.Spec.Phrase
/-
What smart punctuation makes of ordinary characters (see `Spec.typeset`).
-/
namespace CM
open Spec

theorem dashes_zero : dashes 0 = [] := rfl

theorem dashRun_dashes (n : Nat) : dashRun n = dashes n := by
  have e1 : emDash = '—' := rfl
  have e2 : enDash = '–' := rfl
  unfold dashRun dashes
  by_cases h : n ≤ 1
  · simp [h]
  · simp only [h, if_false, smartDashes, smartCounts, List.length_replicate, beq_iff_eq]
    by_cases h3 : n % 3 = 0
    · simp [h3, e1]
    · by_cases h2 : n % 2 = 0
      · simp [h3, h2, e2]
      · by_cases h5 : n % 3 = 2
        · simp [h2, h5, e1, e2]
        · simp [h3, h2, h5, e1, e2, List.replicate]

theorem typeset_eq (smart : Bool) (m : Str) :
    (if smart then reDash.sub smartDashes (reEllipses.sub (fun _ => [ellipsis]) m) else m) = typeset smart m := by
  cases smart with
  | false => rfl
  | true =>
    rw [if_pos rfl, reEllipses_sub _ m (Nat.le_refl _), reDash_sub _ _ (Nat.le_refl _), funext dashRun_dashes]
    rfl

theorem mapRuns_append {c x : Char} (hx : x ≠ c) (f : Nat → Str) : ∀ (m r : Str) (n : Nat),
    mapRuns c f n (m ++ x :: r) = mapRuns c f n m ++ x :: mapRuns c f 0 r
  | [], r, n => by simp [mapRuns, hx]
  | a :: m, r, n => by
    simp only [List.cons_append, mapRuns]
    split
    · exact mapRuns_append hx f m r (n + 1)
    · rw [mapRuns_append hx f m r 0, List.append_assoc, List.cons_append]

theorem ellipses_append {x : Char} (hx : x ≠ '.') (m r : Str) : ellipses (m ++ x :: r) = ellipses m ++ x :: ellipses r := by
  fun_induction ellipses m with
  | case1 s ih => simpa [ellipses] using ih
  | case2 c s h ih =>
    rw [List.cons_append, ellipses, ih, List.cons_append]
    intro s' hc hs'
    match s, hs', h with
    | [], hs', _ => exact hx (List.cons.inj hs').1
    | [a], hs', _ => exact hx (List.cons.inj (List.cons.inj hs').2).1
    | a :: b :: s, hs', h =>
      refine h s hc ?_
      rw [(List.cons.inj hs').1, (List.cons.inj (List.cons.inj hs').2).1]
  | case3 =>
    rw [List.nil_append, ellipses]
    · rfl
    · intro s h; exact absurd h hx

theorem typeset_append (smart : Bool) {x : Char} (h1 : x ≠ '.') (h2 : x ≠ '-') (m r : Str) :
    typeset smart (m ++ x :: r) = typeset smart m ++ x :: typeset smart r := by
  cases smart with
  | false => rfl
  | true => simp only [typeset]; rw [ellipses_append h1, mapRuns_append h2]

theorem typeset_nil (smart : Bool) : typeset smart [] = [] := by cases smart <;> rfl

theorem typeset_replicate (smart : Bool) : ∀ i, typeset smart (List.replicate i ' ') = List.replicate i ' '
  | 0 => typeset_nil smart
  | i + 1 => by
    have := typeset_append smart (x := ' ') (by decide) (by decide) [] (List.replicate i ' ')
    rw [typeset_nil, typeset_replicate smart i] at this
    exact this

theorem typeset_spaces (smart : Bool) (m : Str) (i : Nat) :
    typeset smart (m ++ List.replicate i ' ') = typeset smart m ++ List.replicate i ' ' := by
  cases i with
  | zero => simp
  | succ i =>
    rw [List.replicate_succ, typeset_append smart (by decide) (by decide), typeset_replicate]

theorem typeset_plain (smart : Bool) : ∀ m : Str, (∀ c ∈ m, c ≠ '.' ∧ c ≠ '-') → typeset smart m = m
  | [], _ => typeset_nil smart
  | x :: m, h => by
    have hx := h x (by simp)
    have := typeset_append smart hx.1 hx.2 [] m
    rw [typeset_nil, typeset_plain smart m fun c hc => h c (by simp [hc])] at this
    exact this

theorem mem_dashes {n : Nat} {c : Char} (h : c ∈ dashes n) : c = '-' ∨ c = '—' ∨ c = '–' := by
  unfold dashes at h
  split at h
  · exact .inl (List.eq_of_mem_replicate h)
  · split at h
    · exact .inr (.inl (List.eq_of_mem_replicate h))
    · split at h
      · exact .inr (.inr (List.eq_of_mem_replicate h))
      · split at h
        · rcases List.mem_append.1 h with h | h
          · exact .inr (.inl (List.eq_of_mem_replicate h))
          · exact .inr (.inr (by simpa using h))
        · rcases List.mem_append.1 h with h | h
          · exact .inr (.inl (List.eq_of_mem_replicate h))
          · exact .inr (.inr (by simpa using h))

theorem dashes_ne {n : Nat} (h : dashes n = []) : n = 0 := by
  unfold dashes at h
  split at h
  · simpa using h
  · split at h
    · simp at h; omega
    · split at h
      · simp at h; omega
      · split at h <;> simp at h

theorem mapRuns_ne : ∀ {s : Str} {n : Nat}, mapRuns '-' dashes n s = [] → n = 0 ∧ s = []
  | [], n, h => ⟨dashes_ne h, rfl⟩
  | a :: s, n, h => by
    rw [mapRuns] at h
    split at h
    · exact absurd (mapRuns_ne h).1 (by simp)
    · simp at h

theorem mapRuns_last : ∀ {s : Str} {n : Nat}, (mapRuns '-' dashes n s).getLast? = some ' ' → s.getLast? = some ' '
  | [], n, h => by
    have := mem_dashes (List.mem_of_getLast? h)
    revert this; decide
  | a :: s, n, h => by
    rw [mapRuns] at h
    by_cases ha : a = '-'
    · rw [if_pos ha] at h
      have := mapRuns_last h
      rw [List.getLast?_cons, this]; rfl
    · rw [if_neg ha, List.getLast?_append, List.getLast?_cons] at h
      cases hm : (mapRuns '-' dashes 0 s).getLast? with
      | none =>
        have := (mapRuns_ne (List.getLast?_eq_none_iff.1 hm)).2
        subst this
        rw [hm] at h
        simpa using h
      | some d =>
        rw [hm] at h
        have : d = ' ' := by simpa using h
        subst this
        rw [List.getLast?_cons, mapRuns_last hm]; rfl

theorem ellipses_ne {s : Str} (h : ellipses s = []) : s = [] := by
  fun_induction ellipses s with
  | case1 => cases h
  | case2 => cases h
  | case3 => rfl

theorem ellipses_last {s : Str} (h : (ellipses s).getLast? = some ' ') : s.getLast? = some ' ' := by
  fun_induction ellipses s with
  | case1 s ih =>
    rw [List.getLast?_cons] at h
    cases he : (ellipses s).getLast? with
    | none => rw [he] at h; exact absurd h (by decide)
    | some d =>
      rw [he] at h ih
      have := ih (by simpa using h)
      simp [List.getLast?_cons, this]
  | case2 c s _ ih =>
    rw [List.getLast?_cons] at h
    cases he : (ellipses s).getLast? with
    | none =>
      rw [he] at h
      have := ellipses_ne (List.getLast?_eq_none_iff.1 he)
      subst this
      simpa using h
    | some d =>
      rw [he] at h ih
      have := ih (by simpa using h)
      rw [List.getLast?_cons, this]; rfl
  | case3 => cases h

theorem typeset_ne {smart : Bool} {m : Str} (h : m ≠ []) : typeset smart m ≠ [] := by
  cases smart with
  | false => exact h
  | true => exact fun e => h (ellipses_ne (mapRuns_ne e).2)

theorem typeset_last {smart : Bool} {m : Str} (h : m.getLast? ≠ some ' ') : (typeset smart m).getLast? ≠ some ' ' := by
  cases smart with
  | false => exact h
  | true => exact fun e => h (ellipses_last (mapRuns_last e))

/-- A run of ordinary characters. -/
theorem step_typeset {c : Ctx} {st : IState} {m t : Str} (h : c.rest st.pos = m ++ t) (hn : m ≠ [])
    (hm : ∀ c ∈ m, isMain c = true) (ht : ∀ c, t.head? = some c → isMain c = false) :
    parseInline c st = .ok (some (st.add m.length (textNode (typeset c.smart m)))) := by
  have hmatch := match_of_rest h (reMain_rest hn hm ht)
  cases m with
  | nil => exact absurd rfl hn
  | cons x xs =>
    have hx : isMain x = true := hm x (by simp)
    have hp := rest_peek (t := xs ++ t) h
    have ne : ∀ d, isMain d = false → (x == d) = false := fun d hd => isMain_ne hx hd
    rw [parseInline, hp]
    simp only [ne '\n' (by decide), ne '\\' (by decide), ne '`' (by decide), ne '*' (by decide), ne '_' (by decide),
      ne '\'' (by decide), ne '"' (by decide), ne '[' (by decide), ne '!' (by decide), ne ']' (by decide),
      ne '<' (by decide), ne '&' (by decide), Bool.or_self, Bool.false_eq_true, if_false]
    rw [parseString, hmatch]
    simp only [typeset_eq]
    simp [fallback, IState.add]

end CM
