import Verif.Spec.Doc
/-
Where the blocks of a document end.
-/
namespace Spec
open CM

/-- The last column of a node. -/
def lastColumn (d : NodeData) : Nat := (d.sourcepos.map (·.2.2)).getD 0

/-- The length of line `n` of a text (lines count from 1). -/
def lengthOfLine (ls : List Str) : Nat → Nat
  | 0 => 0
  | n + 1 => (ls.getD n []).length

/-- A block that something on its last line can end: a fenced code block, or an HTML block of the first five kinds. -/
def HasEndMark (d : NodeData) : Prop :=
  (d.t = .codeBlock ∧ d.isFenced = true) ∨ (d.t = .htmlBlock ∧ 1 ≤ d.htmlBlockType ∧ d.htmlBlockType ≤ 5)

instance (d : NodeData) : Decidable (HasEndMark d) := by unfold HasEndMark; infer_instance

end Spec
