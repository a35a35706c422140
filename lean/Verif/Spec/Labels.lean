import Verif.Model.PyStr
/-
Reference labels: trimming, collapsing of white space, case folding.
-/
namespace Spec
open CM

/-- White space in the sense of `str.isspace`. -/
def IsSpace (c : Char) : Prop := isPySpace c = true

/-- `t` is `s` without its leading and trailing white space. -/
def Trimmed (s t : Str) : Prop :=
  ∃ a b, s = a ++ t ++ b ∧ (∀ c ∈ a, IsSpace c) ∧ (∀ c ∈ b, IsSpace c) ∧
    (∀ c, t.head? = some c → ¬ IsSpace c) ∧ (∀ c, t.getLast? = some c → ¬ IsSpace c)

/-- Space, tab, carriage return, line feed. -/
def LabelSpace (c : Char) : Prop := c = ' ' ∨ c = '\t' ∨ c = '\r' ∨ c = '\n'

/-- `t` is `s` with every maximal run of space, tab, CR, LF replaced by one space. -/
inductive Collapse : Str → Str → Prop
  | nil : Collapse [] []
  | keep {c : Char} {s t : Str} : ¬ LabelSpace c → Collapse s t → Collapse (c :: s) (c :: t)
  | run {w s t : Str} : w ≠ [] → (∀ c ∈ w, LabelSpace c) → (∀ c, s.head? = some c → ¬ LabelSpace c) → Collapse s t →
      Collapse (w ++ s) (' ' :: t)

/-- An entry (first, last, stride, delta, suffix) of a case folding table says that `c` is folded to `s`: `c` is one of
first, first + stride, ..., last, and `s` is the character `delta` after `c`, then the suffix. -/
def EntryFolds (e : Nat × Nat × Nat × Int × List Nat) (c : Char) (s : Str) : Prop :=
  e.1 ≤ c.toNat ∧ c.toNat ≤ e.2.1 ∧ e.2.2.1 ∣ c.toNat - e.1 ∧
    ∃ x : Char, (x.toNat : Int) = c.toNat + e.2.2.2.1 ∧ s.map Char.toNat = x.toNat :: e.2.2.2.2

/-- Case folding of one character by a table. -/
def Folds (table : List (Nat × Nat × Nat × Int × List Nat)) (c : Char) (s : Str) : Prop :=
  (∃ e ∈ table, EntryFolds e c s) ∨ s = [c] ∧ ∀ e ∈ table, ∀ s', ¬ EntryFolds e c s'

/-- Case folding of a text. -/
inductive FoldsText (table : List (Nat × Nat × Nat × Int × List Nat)) : Str → Str → Prop
  | nil : FoldsText table [] []
  | cons {c : Char} {s x t : Str} : Folds table c x → FoldsText table s t → FoldsText table (c :: s) (x ++ t)

/-- The same ASCII letter in either case, or the same character. -/
def SameLetter (c d : Char) : Prop :=
  c = d ∨ (65 ≤ c.toNat ∧ c.toNat ≤ 90 ∧ d.toNat = c.toNat + 32) ∨ (65 ≤ d.toNat ∧ d.toNat ≤ 90 ∧ c.toNat = d.toNat + 32)

end Spec
