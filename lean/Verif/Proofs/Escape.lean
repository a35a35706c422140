import Verif.Model.Common
import Verif.Spec.Text
/-
Lemmas for C10.
-/
namespace CM
open Spec

theorem escapeXml_eq_flatMap (s : Str) : escapeXml s = s.flatMap replaceUnsafeChar := by
  unfold escapeXml
  split
  · rfl
  · rename_i h
    induction s with
    | nil => rfl
    | cons c s ih =>
      simp only [List.any_cons, Bool.or_eq_true, not_or, beq_iff_eq] at h
      obtain ⟨⟨⟨⟨h1, h2⟩, h3⟩, h4⟩, h5⟩ := h
      simp [List.flatMap_cons, replaceUnsafeChar, h1, h2, h3, h4]
      exact ih (by simpa using h5)

/-- One character, as `escape_xml` writes it. -/
theorem replaceUnsafeChar_cases (c : Char) :
    (c = '&' ∧ replaceUnsafeChar c = "&amp;".toList) ∨ (c = '<' ∧ replaceUnsafeChar c = "&lt;".toList) ∨
    (c = '>' ∧ replaceUnsafeChar c = "&gt;".toList) ∨ (c = '"' ∧ replaceUnsafeChar c = "&quot;".toList) ∨
    (c ≠ '&' ∧ c ≠ '<' ∧ c ≠ '>' ∧ c ≠ '"' ∧ replaceUnsafeChar c = [c]) := by
  unfold replaceUnsafeChar
  by_cases h1 : c = '&'; · simp [h1, lit]
  by_cases h2 : c = '<'; · simp [h2, lit]
  by_cases h3 : c = '>'; · simp [h3, lit]
  by_cases h4 : c = '"'; · simp [h4, lit]
  simp [h1, h2, h3, h4]

theorem length_le_escape (t : Str) : t.length ≤ (t.flatMap replaceUnsafeChar).length := by
  induction t with
  | nil => simp
  | cons c t ih =>
    rw [List.flatMap_cons, List.length_append, List.length_cons]
    have : 1 ≤ (replaceUnsafeChar c).length := by
      rcases replaceUnsafeChar_cases c with ⟨_, h⟩ | ⟨_, h⟩ | ⟨_, h⟩ | ⟨_, h⟩ | ⟨_, _, _, _, h⟩ <;> rw [h] <;> simp
    omega

end CM
