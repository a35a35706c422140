import Verif.Proofs.LineKinds
import Verif.Proofs.Paragraph
/-
Evaluating the block parser on code blocks.
-/
set_option linter.unusedVariables false
namespace CM
open Spec

theorem Re.run_exactly_chr {p : Char → Bool} {n : Nat} {k : Str → Option Str} : ∀ (a s : Str),
    (∀ c ∈ a, p c = true) → (Re.exactly a.length (.chr p)).run n (a ++ s) k = k s
  | [], s, _ => by simp [Re.exactly, Re.run]
  | c :: a, s, h => by
    have := Re.run_exactly_chr (n := n) (k := k) a s (fun x hx => h x (by simp [hx]))
    simp only [List.length_cons, Re.exactly, List.cons_append]
    rw [Re.run, Re.run_chr_cons, h c (by simp)]
    exact this

theorem dropWhile_run {p : Char → Bool} {a r : Str} (ha : ∀ c ∈ a, p c = true)
    (hr : ∀ c, r.head? = some c → p c = false) : (a ++ r).dropWhile p = r := by
  rw [List.dropWhile_append_of_pos ha]
  cases r with
  | nil => rfl
  | cons x xs => rw [List.dropWhile_cons, hr x rfl]; rfl

/-- A greedy run of at least `j` characters whose continuation succeeds. -/
theorem Re.run_atLeast_chr {p : Char → Bool} {n j : Nat} {k : Str → Option Str} {a r : Str}
    (ha : ∀ c ∈ a, p c = true) (hr : ∀ c, r.head? = some c → p c = false) (hj : j ≤ a.length)
    (hk : (k r).isSome = true) : (Re.atLeast j (.chr p)).run n (a ++ r) k = k r := by
  obtain ⟨x, y, rfl, rfl⟩ : ∃ x y, a = x ++ y ∧ x.length = j :=
    ⟨a.take j, a.drop j, (List.take_append_drop _ _).symm, by simp; omega⟩
  rw [Re.atLeast, Re.run, List.append_assoc, Re.run_exactly_chr x _ (fun c hc => ha c (by simp [hc]))]
  have h := dropWhile_run (p := p) (a := y) (r := r) (fun c hc => ha c (by simp [hc])) hr
  have h' : (k ((y ++ r).dropWhile p)).isSome := by rw [h]; exact hk
  rw [Re.run_star_chr_isSome p n _ k h', h]

theorem head_ne_beq {c : Char} {r : Str} (h : r.head? ≠ some c) : ∀ x, r.head? = some x → (x == c) = false := by
  intro x hx
  rw [beq_eq_false_iff_ne]; rintro rfl; exact h hx

/-- The text matched by the pattern of opening fences. -/
theorem fence_match {c : Char} {n : Nat} {info l : Str} (h : CodeFence c n info l) :
    reCodeFence.matchPrefix l = some (List.replicate n c) := by
  obtain ⟨hn, rfl, hi, hc⟩ := h
  apply Re.matchPrefix_of_rest
  rw [Re.rest, reCodeFence, Re.run]
  rcases hc with ⟨rfl, hc⟩ | rfl
  · have hn' : (Re.nlook (.seq (.star (.chr isDot)) (.lit1 '`'))).run (List.replicate n '`' ++ info).length info some =
        some info := by
      rw [Re.run]
      split
      · rename_i hh
        exfalso
        rw [Re.run_eq_all] at hh
        obtain ⟨t, ht⟩ := Option.isSome_iff_exists.1 hh
        obtain ⟨u, hu, hu'⟩ := List.exists_of_findSome?_eq_some ht
        obtain ⟨m', hm', x, y, rfl, _, z, hz, rfl⟩ := (Re.mem_all_iff _ _ _ _).1 hu
        apply hc
        have : z = '`' := by simpa using hz
        rw [hm', this]; simp
      · rfl
    have h1 := Re.run_atLeast_chr (p := (· == '`')) (n := (List.replicate n '`' ++ info).length) (j := 3)
      (a := List.replicate n '`') (r := info)
      (k := fun s' => (Re.nlook (.seq (.star (.chr isDot)) (.lit1 '`'))).run (List.replicate n '`' ++ info).length s' some)
      (by simp) (head_ne_beq hi) (by simpa using hn) (by rw [hn']; rfl)
    have h2 : (Re.seq (.atLeast 3 (.lit1 '`')) (.nlook (.seq (.star (.chr isDot)) (.lit1 '`')))).run
        (List.replicate n '`' ++ info).length (List.replicate n '`' ++ info) some = some info := by
      rw [Re.run]
      exact h1.trans hn'
    rw [h2]
  · have h1 : (Re.seq (.atLeast 3 (.lit1 '`')) (.nlook (.seq (.star (.chr isDot)) (.lit1 '`')))).run
        (List.replicate n '~' ++ info).length (List.replicate n '~' ++ info) some = none := by
      cases hh : (Re.seq (.atLeast 3 (.lit1 '`')) (.nlook (.seq (.star (.chr isDot)) (.lit1 '`')))).run
        (List.replicate n '~' ++ info).length (List.replicate n '~' ++ info) some with
      | none => rfl
      | some t =>
        exfalso
        obtain ⟨m', hm', x, y, rfl, hx, _⟩ := (Re.mem_all_iff _ _ _ _).1 (Re.run_some_mem hh)
        obtain ⟨h2, h3⟩ := den_atLeast_chr.1 hx
        cases x with
        | nil => simp at h2
        | cons a x =>
          have : a = '`' := by simpa using h3 a (by simp)
          subst this
          cases n with
          | zero => omega
          | succ n => simp [List.replicate_succ] at hm'
    rw [h1]
    simp only
    exact Re.run_atLeast_chr (p := (· == '~')) (a := List.replicate n '~') (r := info) (by simp) (head_ne_beq hi)
      (by simpa using hn) rfl

end CM
