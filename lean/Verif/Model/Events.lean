import Verif.Model.Tree
/-
The sequence of events that `Node.walker()` produces (/repo/commonmark/node.py:16-63), as a function
of the tree.  `Verif.Model.NodeHeap` has the pointer-chasing state machine itself; the theorems in
`Verif.Props.NodeProps` show that it produces this sequence.
-/
namespace CM

/-- One event: a node, whether it is entered or left, and the neighbours of the node that the
renderers look at (`node.parent`, `node.parent.parent`, `node.first_child`). -/
structure Event where
  entering : Bool
  node : NodeData
  parent : Option NodeData
  grandparent : Option NodeData
  first : Option NodeData
deriving DecidableEq, Repr

mutual
/-- Events of the subtree `t` whose parent and grandparent are as given. -/
def events (parent grandparent : Option NodeData) : Tree → List Event
  | .node d cs =>
    let first := cs.head?.map (·.data)
    if isContainer d.t then
      ⟨true, d, parent, grandparent, first⟩ :: (eventsList (some d) parent cs ++
        [⟨false, d, parent, grandparent, first⟩])
    else [⟨true, d, parent, grandparent, first⟩]
def eventsList (parent grandparent : Option NodeData) : List Tree → List Event
  | [] => []
  | t :: ts => events parent grandparent t ++ eventsList parent grandparent ts
end

end CM
