import Verif.Model.Tree
/-
The size of a document tree.
-/
namespace Spec
open CM

mutual
/-- The number of nodes of a tree. -/
def nodesT : Tree → Nat
  | .node _ cs => nodesL cs + 1
/-- The number of nodes of some trees. -/
def nodesL : List Tree → Nat
  | [] => 0
  | t :: ts => nodesT t + nodesL ts
end

mutual
/-- The number of nodes on the longest path from the root. -/
def heightT : Tree → Nat
  | .node _ cs => heightL cs + 1
def heightL : List Tree → Nat
  | [] => 0
  | t :: ts => max (heightT t) (heightL ts)
end

end Spec
