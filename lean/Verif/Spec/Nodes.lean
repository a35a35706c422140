import Verif.Model.NodeHeap
import Verif.Spec.Render
/-
Specification side of the node properties: what it means that the five pointers of all nodes
describe one list of children per node, the named effects of the operations on those lists, the
tree below a node, document order, and merging of adjacent text nodes.
-/
namespace Spec
open CM

/-- The pointers in `h` say that the children of every node `p` are `kids p`, in that order. -/
structure Linked (h : Heap) (kids : Nat → List Nat) : Prop where
  nodup : ∀ p, (kids p).Nodup
  parent : ∀ p c, c ∈ kids p ↔ (h c).parent = some p
  first : ∀ p, (h p).firstChild = (kids p).head?
  last : ∀ p, (h p).lastChild = (kids p).getLast?
  beside : ∀ p l c r, kids p = l ++ c :: r → (h c).prv = l.getLast? ∧ (h c).nxt = r.head?
  orphan : ∀ c, (h c).parent = none → (h c).prv = none ∧ (h c).nxt = none

/-- Put `y` right after `x`. -/
def putAfter (x y : Nat) (l : List Nat) : List Nat := l.flatMap fun z => if z = x then [x, y] else [z]

/-- Put `y` right before `x`. -/
def putBefore (x y : Nat) (l : List Nat) : List Nat := l.flatMap fun z => if z = x then [y, x] else [z]

/-- A tree of node identities. -/
inductive Shape where
  | node (id : Nat) (cs : List Shape)

def Shape.id : Shape → Nat
  | .node i _ => i

mutual
/-- `t` is the tree below its root according to the lists of children. -/
def TreeOf (kids : Nat → List Nat) : Shape → Prop
  | .node i cs => kids i = cs.map Shape.id ∧ TreesOf kids cs
def TreesOf (kids : Nat → List Nat) : List Shape → Prop
  | [] => True
  | t :: ts => TreeOf kids t ∧ TreesOf kids ts
end

mutual
/-- All nodes of a tree. -/
def Shape.ids : Shape → List Nat
  | .node i cs => i :: Shape.idsList cs
def Shape.idsList : List Shape → List Nat
  | [] => []
  | t :: ts => t.ids ++ Shape.idsList ts
end

mutual
/-- Document order: a node that can have children is entered, then come its children, then it is
left; any other node gives one event. -/
def docOrder (h : Heap) : Shape → List (Nat × Bool)
  | .node i cs =>
    if isContainer (h i).data.t then (i, true) :: (docOrderList h cs ++ [(i, false)]) else [(i, true)]
def docOrderList (h : Heap) : List Shape → List (Nat × Bool)
  | [] => []
  | t :: ts => docOrder h t ++ docOrderList h ts
end

mutual
/-- Only nodes of container kinds have children. -/
def Proper (h : Heap) : Shape → Prop
  | .node i cs => (isContainer (h i).data.t = false → cs = []) ∧ Propers h cs
def Propers (h : Heap) : List Shape → Prop
  | [] => True
  | t :: ts => Proper h t ∧ Propers h ts
end

mutual
/-- The tree of payloads. -/
def payload (h : Heap) : Shape → Tree
  | .node i cs => .node (h i).data (payloadList h cs)
def payloadList (h : Heap) : List Shape → List Tree
  | [] => []
  | t :: ts => payload h t :: payloadList h ts
end

/-- The text nodes among `xs` have a literal (a text node without one makes `normalize` raise). -/
def TextLit (h : Heap) (xs : List Nat) : Prop :=
  ∀ x ∈ xs, (h x).data.t = .text → ∃ a, (h x).data.literal = some a

/-- Newly constructed nodes, not linked to anything. -/
def freshHeap (d : Nat → NodeData) : Heap := fun i => ⟨none, none, none, none, none, d i⟩

/-- A call of one of the five operations. -/
inductive NodeOp where
  | append (self child : Nat)
  | prepend (self child : Nat)
  | after (self sibling : Nat)
  | before (self sibling : Nat)
  | unlink (x : Nat)

/-- What the call does to the pointers. -/
def NodeOp.run (h : Heap) : NodeOp → Except PyErr Heap
  | .append s c => .ok (h.appendChild s c)
  | .prepend s c => .ok (h.prependChild s c)
  | .after s c => h.insertAfter s c
  | .before s c => h.insertBefore s c
  | .unlink x => .ok (h.unlink x)

/-- What the call is meant to do to the lists of children: the moved node leaves its old place and
appears at the named one. -/
def NodeOp.move (kids : Nat → List Nat) : NodeOp → Nat → List Nat
  | .append s c => fun p => if p = s then (kids p).erase c ++ [c] else (kids p).erase c
  | .prepend s c => fun p => if p = s then c :: (kids p).erase c else (kids p).erase c
  | .after s c => fun p => putAfter s c ((kids p).erase c)
  | .before s c => fun p => putBefore s c ((kids p).erase c)
  | .unlink x => fun p => (kids p).erase x

/-- The call is legal: a sibling can only be inserted next to another node that has a parent. -/
def NodeOp.Legal (kids : Nat → List Nat) : NodeOp → Prop
  | .after s c | .before s c => s ≠ c ∧ ∃ p, s ∈ kids p
  | _ => True

/-- A history of legal calls, with its meaning. -/
inductive History : (Nat → List Nat) → List NodeOp → (Nat → List Nat) → Prop where
  | nil (kids) : History kids [] kids
  | cons {kids kids'} (op : NodeOp) (ops) : op.Legal kids → History (op.move kids) ops kids' →
      History kids (op :: ops) kids'

/-- What the renderers see at a walker event: the node with its parent, grandparent and first child. -/
def eventAt (h : Heap) (e : Nat × Bool) : Event :=
  ⟨e.2, (h e.1).data, (h e.1).parent.map fun p => (h p).data,
   ((h e.1).parent.bind fun p => (h p).parent).map fun g => (h g).data,
   (h e.1).firstChild.map fun c => (h c).data⟩

/-- Put a node in front of a list of siblings, merging it with the first of them if both are text. -/
def joinText : Tree → List Tree → List Tree
  | .node d cs, .node e ds :: us =>
    if d.t = .text ∧ e.t = .text then
      .node { d with literal := some (d.literal.getD [] ++ e.literal.getD []) } cs :: us
    else .node d cs :: .node e ds :: us
  | t, [] => [t]

mutual
/-- The tree with runs of adjacent text siblings merged into the first node of the run. -/
def mergeText : Tree → Tree
  | .node d cs => if isContainer d.t then .node d (mergeTexts cs) else .node d cs
def mergeTexts : List Tree → List Tree
  | [] => []
  | t :: ts => joinText (mergeText t) (mergeTexts ts)
end

/-- No two neighbours in a list of siblings are text nodes. -/
def noTextPair : List Tree → Prop
  | t :: u :: r => ¬(t.kind = .text ∧ u.kind = .text) ∧ noTextPair (u :: r)
  | _ => True

mutual
/-- No two adjacent siblings are text nodes, anywhere the walker goes. -/
def NoAdjacentText : Tree → Prop
  | .node d cs => isContainer d.t = true → noTextPair cs ∧ NoAdjacentTexts cs
def NoAdjacentTexts : List Tree → Prop
  | [] => True
  | t :: ts => NoAdjacentText t ∧ NoAdjacentTexts ts
end

/-- Something visible in a tree, in document order: a character of text, or the start or the end of a
node that is not text. -/
inductive Visible where
  | char (c : Char)
  | start (d : NodeData)
  | stop
deriving DecidableEq

mutual
/-- The visible things of a tree; text nodes count only by their characters. -/
def visible : Tree → List Visible
  | .node d cs =>
    if d.t = .text then (d.literal.getD []).map .char
    else .start d :: (visibles cs ++ [.stop])
def visibles : List Tree → List Visible
  | [] => []
  | t :: ts => visible t ++ visibles ts
end

end Spec
