/-
Specifications about inline text (C36, C37). Nothing here refers to the model.
-/
namespace Spec

/-! ### Smart punctuation -/

/-- The documented rule for a run of `n ≥ 2` hyphens written as `a` em dashes and `b` en dashes: the
widths add up; only em dashes if that is possible, else only en dashes if that is possible, else as
few en dashes as possible. -/
def DashRule (n a b : Nat) : Prop :=
  3 * a + 2 * b = n ∧
  (3 ∣ n → b = 0) ∧
  (¬ 3 ∣ n → 2 ∣ n → a = 0) ∧
  (¬ 3 ∣ n → ¬ 2 ∣ n → ∀ a' b', 3 * a' + 2 * b' = n → b ≤ b')

/-- Replace every maximal run of `c` of length `n ≥ 1` by `f n`; `n` counts the run read so far. -/
def mapRuns (c : Char) (f : Nat → List Char) (n : Nat) : List Char → List Char
  | [] => f n
  | x :: xs => if x = c then mapRuns c f (n + 1) xs else f n ++ x :: mapRuns c f 0 xs

/-- Replace `...` by an ellipsis, from left to right. -/
def ellipses : List Char → List Char
  | '.' :: '.' :: '.' :: s => '…' :: ellipses s
  | c :: s => c :: ellipses s
  | [] => []

/-! ### Flanking delimiter runs, /repo/spec.txt "Emphasis and strong emphasis"

A neighbour is `none` at the beginning or end of the text, which counts as white space. -/

section
variable (white punct : Char → Prop)

/-- White space, or the beginning or end of the text. -/
def White : Option Char → Prop
  | none => True
  | some c => white c

/-- A punctuation character. -/
def Punct : Option Char → Prop
  | none => False
  | some c => punct c

/-- Left-flanking: not followed by white space, and either not followed by punctuation, or followed
by punctuation and preceded by white space or punctuation. -/
def LeftFlanking (before after : Option Char) : Prop :=
  ¬ White white after ∧
    (¬ Punct punct after ∨ (Punct punct after ∧ (White white before ∨ Punct punct before)))

/-- Right-flanking: the mirror image. -/
def RightFlanking (before after : Option Char) : Prop :=
  ¬ White white before ∧
    (¬ Punct punct before ∨ (Punct punct before ∧ (White white after ∨ Punct punct after)))

/-- Rule for opening: `*` iff left-flanking; `_` iff left-flanking and either not right-flanking or
preceded by punctuation. -/
def CanOpen (c : Char) (before after : Option Char) : Prop :=
  LeftFlanking white punct before after ∧
    (c = '_' → ¬ RightFlanking white punct before after ∨ Punct punct before)

/-- Rule for closing: the mirror image. -/
def CanClose (c : Char) (before after : Option Char) : Prop :=
  RightFlanking white punct before after ∧
    (c = '_' → ¬ LeftFlanking white punct before after ∨ Punct punct after)

end

/-- ASCII punctuation as listed in the specification. -/
def asciiPunctuation : List Char := "!\"#$%&'()*+,-./:;<=>?@[\\]^_`{|}~".toList

end Spec
