import Verif.Spec.Columns
import Verif.Spec.LineKinds
import Verif.Spec.Nest
import Verif.Spec.Blank
import Verif.Spec.Doc
import Verif.Spec.Lines
import Verif.Model.Main
/-
Tabs that stand for spaces (C67).
-/
namespace Spec
open CM

/-- A list marker that can interrupt a paragraph: a bullet, `1.` or `1)`. -/
def FirstMark (m : Str) : Prop := m ∈ [['-'], ['+'], ['*'], ['1', '.'], ['1', ')']]

/-- Two texts that stand at column `c` and differ only in the spaces and tabs after the markers of block quotes and list items with which they
begin: these end at the same column.  If markers follow, there are at most four columns after the marker.
After a list marker there is more than white space.  If `free` is false, the first list marker must be one that can interrupt a paragraph. -/
inductive TabAlike : Bool → Nat → Str → Str → Prop
  | same {free : Bool} {c : Nat} {s : Str} : TabAlike free c s s
  | quote {free : Bool} {c : Nat} {v v' y y' : Str} : OnlySpTab v → OnlySpTab v' → columnFrom (c + 1) v' = columnFrom (c + 1) v →
      y = y' ∨ columnFrom (c + 1) v ≤ c + 5 → TabAlike free (columnFrom (c + 1) v) y y' →
      TabAlike free c ('>' :: (v ++ y)) ('>' :: (v' ++ y'))
  | item {free : Bool} {c : Nat} {m v v' y y' : Str} {ty : ListType} {b : Option Char} {st : Option Nat} {dl : Option Char} :
      ListMark m ty b st dl → free = true ∨ FirstMark m → OnlySpTab v → OnlySpTab v' → v ≠ [] →
      columnFrom (c + m.length) v' = columnFrom (c + m.length) v → y = y' ∨ columnFrom (c + m.length) v ≤ c + m.length + 4 →
      (∃ x ∈ y, x ≠ ' ' ∧ (x.toNat < 9 ∨ 13 < x.toNat)) → TabAlike true (columnFrom (c + m.length) v) y y' →
      TabAlike free c (m ++ (v ++ y)) (m ++ (v' ++ y'))

/-- Two lines that differ only in the spaces and tabs at their beginning and after the markers of block quotes and list items with which they
begin, and in such a way that what follows stands at the same column. -/
def TabLines (free : Bool) (l l' : Str) : Prop :=
  ∃ v v' y y', l = v ++ y ∧ l' = v' ++ y' ∧ OnlySpTab v ∧ OnlySpTab v' ∧ columnFrom 0 v' = columnFrom 0 v ∧
    (y = y' ∨ columnFrom 0 v ≤ 3) ∧ TabAlike free (columnFrom 0 v) y y'

/-- A block of the tree, other than the document, begins in line `n`. -/
def BeginsIn (n : Nat) (t : Tree) : Prop :=
  ¬ EveryNode (fun d _ => d.t ∈ blockKinds ∧ d.t ≠ .document → ∀ c e, d.sourcepos ≠ some ((n, c), e)) t

/-- After the lines `as`, the line `l` can be written `l'`: they differ in white space only (`TabLines`), the text up to this line does not end with a
code block or an HTML block and, if a list marker in it is not one that can interrupt a paragraph, a block begins in it. -/
def TabsFor (smart : Bool) (as : List Str) (l l' : Str) : Prop :=
  ∃ free sa t, TabLines free l l' ∧ TextLines sa (as ++ [l]) ∧ parse smart sa = .ok t ∧ ¬ LastKind .codeBlock t ∧ ¬ LastKind .htmlBlock t ∧
    (free = true → BeginsIn (as.length + 1) t)

/-- Two lists of lines which pair by pair are equal or differ in white space only (`TabsFor`). -/
inductive TabTexts (smart : Bool) : List Str → List Str → Prop
  | nil : TabTexts smart [] []
  | snoc {as as' : List Str} {l l' : Str} : TabTexts smart as as' → l = l' ∨ TabsFor smart as l l' → TabTexts smart (as ++ [l]) (as' ++ [l'])

end Spec
