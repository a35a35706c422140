import Verif.Model.NormalizeReference
import Verif.Model.Tree
/-
The labels that stand in brackets in the texts of a document (C81).
-/
namespace Spec
open CM

/-- The label `k` (as `normalize_reference` gives it) stands in brackets somewhere in the text `x`. -/
def Uses (k x : Str) : Prop := ∃ z, '[' :: (z ++ [']']) <:+: x ∧ normalizeReference ('[' :: (z ++ [']'])) = k

mutual
/-- It does so in a paragraph or a heading of the tree. -/
def UsesT (k : Str) : Tree → Prop
  | .node d cs => ((d.t = .paragraph ∨ d.t = .heading) ∧ ∃ x, d.stringContent = some x ∧ Uses k x) ∨ UsesL k cs
def UsesL (k : Str) : List Tree → Prop
  | [] => False
  | t :: ts => UsesT k t ∨ UsesL k ts
end

end Spec
