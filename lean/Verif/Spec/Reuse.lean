import Verif.Spec.RstTree
import Verif.Spec.Rst
/-
Where the reStructuredText renderer stops in a document.
-/
namespace Spec
open CM

/-- The node is a heading without a first child that has text of its own. -/
def noTitle (d : NodeData) (ks : List NodeData) : Bool :=
  d.t == .heading && !(match ks with
    | k :: _ => k.t == .text || k.t == .code || k.t == .htmlInline
    | [] => false)

mutual
/-- How far the first such heading of a tree is indented, if there is one; `n`: how far the tree is. -/
def stopsAt (n : Nat) : Tree → Option Nat
  | .node d cs => if noTitle d (cs.map Tree.data) then some n else stopsAtList (n + inner d) cs
def stopsAtList (n : Nat) : List Tree → Option Nat
  | [] => none
  | t :: ts =>
    match stopsAt n t with
    | some m => some m
    | none => stopsAtList n ts
end

end Spec
