import Verif.Spec.Nest
import Verif.Spec.Nodes
/-
Blank lines (C64).
-/
namespace Spec
open CM

/-- Going from the node to its last child, to the last child of that, and so on, as long as the node is a document, a block quote, a list or
an item with something in it, one gets to a block of kind `k`. -/
inductive LastKind (k : Kind) : Tree → Prop
  | here {d : NodeData} {cs : List Tree} : d.t = k → cs = [] ∨ k ∉ [Kind.document, .blockQuote, .list, .item] → LastKind k (.node d cs)
  | inside {d : NodeData} {cs : List Tree} {t : Tree} : d.t ∈ [Kind.document, .blockQuote, .list, .item] → cs.getLast? = some t → LastKind k t →
      LastKind k (.node d cs)

/-- What comes in line `k` or later is `n` lines further down. -/
def later (k n l : Nat) : Nat := if l < k then l else l + n

/-- A node of a document into which `n` lines were put before line `k`. -/
def pushed (k n : Nat) (d : NodeData) : NodeData :=
  { d with sourcepos := d.sourcepos.map fun sp => ((later k n sp.1.1, sp.1.2), (later k n sp.2.1, sp.2.2)) }

mutual
/-- A tree of a document into which `n` lines were put before line `k`. -/
def pushedT (k n : Nat) : Tree → Tree
  | .node d cs => .node (pushed k n d) (pushedL k n cs)
def pushedL (k n : Nat) : List Tree → List Tree
  | [] => []
  | t :: ts => pushedT k n t :: pushedL k n ts
end

end Spec
