import Verif.Model.PyStr
/-
Visual columns: a tab goes to the next multiple of four, every other character is one column wide.
-/
namespace Spec
open CM

/-- The next multiple of four after `c`. -/
def nextStop (c : Nat) : Nat := (c / 4 + 1) * 4

/-- The column reached from column `c` by writing a text. -/
def columnFrom (c : Nat) : Str → Nat
  | [] => c
  | x :: xs => columnFrom (if x = '\t' then nextStop c else c + 1) xs

/-- `col` is the visual column of the offset `off` in `line`; if `part`, the offset rests on a tab of which some but
not all columns have been used, and `col` is inside that tab. -/
def ColumnOf (line : Str) (off col : Nat) (part : Bool) : Prop :=
  off ≤ line.length ∧
    if part then (∃ r, line.drop off = '\t' :: r) ∧ columnFrom 0 (line.take off) < col ∧
      col < nextStop (columnFrom 0 (line.take off))
    else col = columnFrom 0 (line.take off)

end Spec
