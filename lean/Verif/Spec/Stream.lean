import Verif.Spec.Nest
/-
The blocks of a document without the text in them (C80).
-/
namespace Spec
open CM

mutual
/-- A block with the blocks in it: the paragraphs and headings are left empty. -/
def blocksOf : Tree → Tree
  | .node d cs => .node d (match d.t with | .paragraph => [] | .heading => [] | _ => blocksOfAll cs)
def blocksOfAll : List Tree → List Tree
  | [] => []
  | t :: ts => blocksOf t :: blocksOfAll ts
end

end Spec
