import Verif.Model.Main
import Verif.Spec.Lines
/-
Lemmas for C14,C15,C42.
-/
namespace CM
open Spec

/-! ### Splitting into lines -/

theorem split_ne_nil (s : Str) : splitLineEndings s ≠ [] := by
  fun_induction splitLineEndings s <;> simp_all

theorem split_crlf (cs : Str) : splitLineEndings ('\r' :: '\n' :: cs) = [] :: splitLineEndings cs := by
  rw [splitLineEndings]

theorem split_lf (cs : Str) : splitLineEndings ('\n' :: cs) = [] :: splitLineEndings cs := by
  rw [splitLineEndings] <;> simp

theorem split_cr (cs : Str) (h : cs.head? ≠ some '\n') :
    splitLineEndings ('\r' :: cs) = [] :: splitLineEndings cs := by
  rw [splitLineEndings]
  · simp
  · rintro cs' - rfl; simp at h

theorem split_other {c : Char} (h1 : c ≠ '\n') (h2 : c ≠ '\r') (cs : Str) :
    splitLineEndings (c :: cs) = match splitLineEndings cs with
      | [] => [[c]]
      | l :: ls => (c :: l) :: ls := by
  rw [splitLineEndings]
  · simp [h1, h2]
    cases splitLineEndings cs <;> rfl
  · intro cs' h; exact absurd h h2

theorem universalNewlines_cr (cs : Str) (h : cs.head? ≠ some '\n') :
    universalNewlines ('\r' :: cs) = '\n' :: universalNewlines cs := by
  rw [universalNewlines]
  · simp
  · rintro cs' - rfl; simp at h

theorem universalNewlines_other {c : Char} (h : c ≠ '\r') (cs : Str) :
    universalNewlines (c :: cs) = c :: universalNewlines cs := by
  rw [universalNewlines]
  · simp [h]
  · intro cs' h'; exact absurd h' h

theorem split_universalNewlines (n : Nat) :
    ∀ s : Str, s.length ≤ n → splitLineEndings (universalNewlines s) = splitLineEndings s := by
  induction n with
  | zero => intro s hs; cases s <;> simp_all [universalNewlines]
  | succ n ih =>
    intro s hs
    match s with
    | [] => simp [universalNewlines]
    | c :: cs =>
      simp only [List.length_cons] at hs
      by_cases hr : c = '\r'
      · subst hr
        match cs with
        | '\n' :: ds =>
          rw [universalNewlines, split_lf, split_crlf, ih ds (by simp at hs; omega)]
        | [] => rw [universalNewlines_cr _ (by simp), split_lf, split_cr _ (by simp)]; rfl
        | d :: ds =>
          by_cases hd : d = '\n'
          · subst hd
            rw [universalNewlines, split_lf, split_crlf, ih ds (by simp at hs; omega)]
          · rw [universalNewlines_cr _ (by simp [hd]), split_lf, split_cr _ (by simp [hd]),
              ih _ (by simp at hs ⊢; omega)]
      · rw [universalNewlines_other hr]
        by_cases hl : c = '\n'
        · subst hl; rw [split_lf, split_lf, ih cs (by omega)]
        · rw [split_other hl hr, split_other hl hr, ih cs (by omega)]

theorem getLast_universalNewlines (n : Nat) :
    ∀ s : Str, s.length ≤ n → s.getLast? ≠ some '\r' → (universalNewlines s).getLast? = s.getLast? := by
  induction n with
  | zero => intro s hs; cases s <;> simp_all [universalNewlines]
  | succ n ih =>
    intro s hs hl
    match s with
    | [] => simp [universalNewlines]
    | [c] =>
      have : c ≠ '\r' := by simpa using hl
      rw [universalNewlines_other this]; rfl
    | c :: d :: ds =>
      rw [List.getLast?_cons_cons] at hl ⊢
      simp only [List.length_cons] at hs
      have h1 := ih (d :: ds) (by simp; omega) hl
      have hne : ∀ t : Str, t ≠ [] → universalNewlines t ≠ [] := by
        intro t ht
        match t with
        | c :: cs =>
          rw [universalNewlines.eq_def]; split <;> simp_all
      by_cases hr : c = '\r'
      · subst hr
        by_cases hd : d = '\n'
        · subst hd
          rw [universalNewlines]
          match ds with
          | [] => simp [universalNewlines]
          | e :: es =>
            rw [List.getLast?_cons_cons] at hl ⊢
            have h2 := ih (e :: es) (by simp at hs ⊢; omega) hl
            rw [← h2]
            obtain ⟨x, xs, hx⟩ := List.exists_cons_of_ne_nil (hne (e :: es) (by simp))
            rw [hx, List.getLast?_cons_cons]
        · rw [universalNewlines_cr _ (by simp [hd]), ← h1]
          obtain ⟨x, xs, hx⟩ := List.exists_cons_of_ne_nil (hne (d :: ds) (by simp))
          rw [hx, List.getLast?_cons_cons]
      · rw [universalNewlines_other hr, ← h1]
        obtain ⟨x, xs, hx⟩ := List.exists_cons_of_ne_nil (hne (d :: ds) (by simp))
        rw [hx, List.getLast?_cons_cons]

theorem inputLines_universalNewlines (s : Str) (h : s.getLast? ≠ some '\r') :
    inputLines (universalNewlines s) = inputLines s := by
  simp only [inputLines, split_universalNewlines _ s (Nat.le_refl _),
    getLast_universalNewlines _ s (Nat.le_refl _) h]

theorem parseWith_congr (smart : Bool) (p : PState) {s t : Str} (h : inputLines s = inputLines t) :
    parseWith smart p s = parseWith smart p t := by
  simp only [parseWith, blockPhase, h]

theorem parse_congr (smart : Bool) {s t : Str} (h : inputLines s = inputLines t) :
    parse smart s = parse smart t := by simp only [parse, parseWith_congr smart _ h]

theorem split_line_append (l : Str) (h : ∀ c ∈ l, c ≠ '\n' ∧ c ≠ '\r') (r : Str) :
    splitLineEndings (l ++ '\n' :: r) = l :: splitLineEndings r := by
  induction l with
  | nil => exact split_lf r
  | cons c l ih =>
    have hc := h c (by simp)
    rw [List.cons_append, split_other hc.1 hc.2, ih (fun d hd => h d (by simp [hd]))]

theorem split_line (l : Str) (h : ∀ c ∈ l, c ≠ '\n' ∧ c ≠ '\r') : splitLineEndings l = [l] := by
  induction l with
  | nil => rfl
  | cons c l ih =>
    have hc := h c (by simp)
    rw [split_other hc.1 hc.2, ih (fun d hd => h d (by simp [hd]))]

theorem split_lines (ls : List Str) (h : ∀ l ∈ ls, ∀ c ∈ l, c ≠ '\n' ∧ c ≠ '\r') :
    splitLineEndings (ls.flatMap (· ++ ['\n'])) = ls ++ [[]] := by
  induction ls with
  | nil => rfl
  | cons l ls ih =>
    rw [List.flatMap_cons, List.append_assoc, List.singleton_append, split_line_append l (h l (by simp)),
      ih (fun m hm => h m (by simp [hm])), List.cons_append]

theorem split_lines_last (ls : List Str) (l : Str) (h : ∀ m ∈ ls, ∀ c ∈ m, c ≠ '\n' ∧ c ≠ '\r')
    (hl : ∀ c ∈ l, c ≠ '\n' ∧ c ≠ '\r') :
    splitLineEndings (ls.flatMap (· ++ ['\n']) ++ l) = ls ++ [l] := by
  induction ls with
  | nil => exact split_line l hl
  | cons m ls ih =>
    rw [List.flatMap_cons, List.append_assoc, List.append_assoc, List.singleton_append,
      split_line_append m (h m (by simp)), ih (fun m hm => h m (by simp [hm])), List.cons_append]

theorem inputLines_lines (ls : List Str) (hne : ls ≠ []) (h : ∀ l ∈ ls, ∀ c ∈ l, c ≠ '\n' ∧ c ≠ '\r') :
    inputLines (ls.flatMap (· ++ ['\n'])) = ls := by
  unfold inputLines
  rw [split_lines ls h]
  have : (ls.flatMap (· ++ ['\n'])).getLast? = some '\n' := by
    rcases List.eq_nil_or_concat ls with rfl | ⟨u, c, rfl⟩
    · exact absurd rfl hne
    · simp
  simp [this]

theorem inputLines_lines_last (ls : List Str) (l : Str) (hne : l ≠ [])
    (h : ∀ m ∈ ls, ∀ c ∈ m, c ≠ '\n' ∧ c ≠ '\r') (hl : ∀ c ∈ l, c ≠ '\n' ∧ c ≠ '\r') :
    inputLines (ls.flatMap (· ++ ['\n']) ++ l) = ls ++ [l] := by
  unfold inputLines
  rw [split_lines_last ls l h hl]
  have : ((ls.flatMap (· ++ ['\n']) ++ l).getLast? == some '\n') = false := by
    rcases List.eq_nil_or_concat l with rfl | ⟨u, c, rfl⟩
    · exact absurd rfl hne
    · have := hl c (by simp)
      simpa [← List.append_assoc] using this.1
  simp only [this, Bool.false_eq_true, if_false]

theorem universalNewlines_toCRLF (s : Str) (h : '\r' ∉ s) : universalNewlines (toCRLF s) = s := by
  induction s with
  | nil => rfl
  | cons c s ih =>
    simp only [List.mem_cons, not_or] at h
    have := ih h.2
    simp only [toCRLF, List.flatMap_cons] at *
    by_cases hc : c = '\n'
    · subst hc; simp [universalNewlines, this]
    · simp only [if_neg hc, List.singleton_append]
      rw [universalNewlines_other (fun e => h.1 e.symm), this]

theorem universalNewlines_toCR (s : Str) (h : '\r' ∉ s) : universalNewlines (toCR s) = s := by
  induction s with
  | nil => rfl
  | cons c s ih =>
    simp only [List.mem_cons, not_or] at h
    have := ih h.2
    simp only [toCR, List.map_cons] at *
    by_cases hc : c = '\n'
    · subst hc
      simp only [if_true]
      rw [universalNewlines_cr, this]
      cases s with
      | nil => simp
      | cons d s =>
        simp only [List.map_cons, List.head?_cons, ne_eq, Option.some.injEq]
        split <;> simp_all
    · simp only [if_neg hc]
      rw [universalNewlines_other (fun e => h.1 e.symm), this]

theorem split_append_lf (n : Nat) : ∀ s : Str, s.length ≤ n → s.getLast? ≠ some '\r' →
    splitLineEndings (s ++ ['\n']) = splitLineEndings s ++ [[]] := by
  induction n with
  | zero =>
    intro s hs _
    have : s = [] := by cases s <;> simp_all
    subst this; decide
  | succ n ih =>
    intro s hs hl
    match s with
    | [] => decide
    | [c] =>
      have hr : c ≠ '\r' := by simpa using hl
      by_cases hn : c = '\n'
      · subst hn; decide
      · rw [List.singleton_append, split_other hn hr, split_other hn hr, split_lf]; rfl
    | c :: d :: ds =>
      rw [List.getLast?_cons_cons] at hl
      simp only [List.length_cons] at hs
      have h1 := ih (d :: ds) (by simp; omega) hl
      by_cases hr : c = '\r'
      · subst hr
        by_cases hd : d = '\n'
        · subst hd
          simp only [List.cons_append]
          rw [split_crlf, split_crlf, ih ds (by omega)]
          · rfl
          · cases ds with
            | nil => simp
            | cons e es => rwa [List.getLast?_cons_cons] at hl
        · simp only [List.cons_append] at h1 ⊢
          rw [split_cr _ (by simp [hd]), split_cr _ (by simp [hd]), h1]; rfl
      · by_cases hn : c = '\n'
        · subst hn
          simp only [List.cons_append] at h1 ⊢
          rw [split_lf, split_lf, h1]; rfl
        · simp only [List.cons_append] at h1 ⊢
          rw [split_other hn hr, split_other hn hr, h1]
          obtain ⟨x, xs, hx⟩ := List.exists_cons_of_ne_nil (split_ne_nil (d :: ds))
          rw [hx]; rfl

/-! ### C42 -/

end CM
