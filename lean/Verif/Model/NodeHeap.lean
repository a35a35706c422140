import Verif.Model.Tree
/-
Model of /repo/commonmark/node.py: the `Node` objects with their five pointers, the operations that
change them, and the `NodeWalker` state machine.  Objects are numbers; a heap maps every number to
the attributes of the object.  All `Node`s are truthy, so `if self.prv:` tests for `None`.
-/
namespace CM

/-- The pointers of a node (node.py:74-78) and its payload. -/
structure PNode where
  parent : Option Nat
  firstChild : Option Nat
  lastChild : Option Nat
  prv : Option Nat
  nxt : Option Nat
  data : NodeData
deriving DecidableEq, Repr

abbrev Heap := Nat → PNode

namespace Heap

/-- Assign to attributes of object `i`. -/
def set (h : Heap) (i : Nat) (f : PNode → PNode) : Heap := fun j => if j = i then f (h j) else h j

/-- Assign to attributes of the object that a pointer refers to, if it is not `None`. -/
def setOpt (h : Heap) (i : Option Nat) (f : PNode → PNode) : Heap :=
  match i with
  | some i => h.set i f
  | none => h

/-- `unlink`, node.py:141-154. -/
def unlink (h : Heap) (x : Nat) : Heap :=
  -- 142-145
  let h1 :=
    match (h x).prv with
    | some p => h.set p fun n => { n with nxt := (h x).nxt }
    | none => h.setOpt (h x).parent fun n => { n with firstChild := (h x).nxt }
  -- 147-150
  let h2 :=
    match (h1 x).nxt with
    | some n => h1.set n fun m => { m with prv := (h1 x).prv }
    | none => h1.setOpt (h1 x).parent fun m => { m with lastChild := (h1 x).prv }
  -- 152-154
  h2.set x fun n => { n with parent := none, nxt := none, prv := none }

/-- `append_child`, node.py:119-128. -/
def appendChild (h : Heap) (self child : Nat) : Heap :=
  let h := h.unlink child
  let h := h.set child fun n => { n with parent := some self }
  match (h self).lastChild with
  | some l =>
    let h := h.set l fun n => { n with nxt := some child }
    let h := h.set child fun n => { n with prv := some l }
    h.set self fun n => { n with lastChild := some child }
  | none => h.set self fun n => { n with firstChild := some child, lastChild := some child }

/-- `prepend_child`, node.py:130-139. -/
def prependChild (h : Heap) (self child : Nat) : Heap :=
  let h := h.unlink child
  let h := h.set child fun n => { n with parent := some self }
  match (h self).firstChild with
  | some f =>
    let h := h.set f fun n => { n with prv := some child }
    let h := h.set child fun n => { n with nxt := some f }
    h.set self fun n => { n with firstChild := some child }
  | none => h.set self fun n => { n with firstChild := some child, lastChild := some child }

/-- `insert_after`, node.py:156-165.  `sibling.parent.last_child = ...` raises AttributeError when
the parent is `None`. -/
def insertAfter (h : Heap) (self sibling : Nat) : Except PyErr Heap :=
  let h := h.unlink sibling
  let h := h.set sibling fun n => { n with nxt := (h self).nxt }
  let h := h.setOpt (h sibling).nxt fun n => { n with prv := some sibling }
  let h := h.set sibling fun n => { n with prv := some self }
  let h := h.set self fun n => { n with nxt := some sibling }
  let h := h.set sibling fun n => { n with parent := (h self).parent }
  match (h sibling).nxt with
  | some _ => .ok h
  | none =>
    match (h sibling).parent with
    | none => .error .attributeError
    | some p => .ok (h.set p fun n => { n with lastChild := some sibling })

/-- `insert_before`, node.py:167-176. -/
def insertBefore (h : Heap) (self sibling : Nat) : Except PyErr Heap :=
  let h := h.unlink sibling
  let h := h.set sibling fun n => { n with prv := (h self).prv }
  let h := h.setOpt (h sibling).prv fun n => { n with nxt := some sibling }
  let h := h.set sibling fun n => { n with nxt := some self }
  let h := h.set self fun n => { n with prv := some sibling }
  let h := h.set sibling fun n => { n with parent := (h self).parent }
  match (h sibling).prv with
  | some _ => .ok h
  | none =>
    match (h sibling).parent with
    | none => .error .attributeError
    | some p => .ok (h.set p fun n => { n with firstChild := some sibling })

end Heap

/-! ### NodeWalker, node.py:16-68 -/

/-- `current`, `root`, `entering`. -/
structure Walker where
  current : Option Nat
  root : Nat
  entering : Bool
deriving DecidableEq, Repr

/-- `NodeWalker(root)`, node.py:18-21. -/
def Walker.new (root : Nat) : Walker := ⟨some root, root, true⟩

/-- `__next__`, node.py:23-48: `none` is StopIteration. -/
def Walker.next (h : Heap) (w : Walker) : Option ((Nat × Bool) × Walker) :=
  match w.current with
  | none => none
  | some cur =>
    let container := isContainer (h cur).data.t
    let w' : Walker :=
      if w.entering && container then
        match (h cur).firstChild with
        | some c => { w with current := some c, entering := true }
        | none => { w with entering := false }
      else if cur = w.root then { w with current := none }
      else
        match (h cur).nxt with
        | none => { w with current := (h cur).parent, entering := false }
        | some n => { w with current := some n, entering := true }
    some ((cur, w.entering), w')

/-- `resume_at`, node.py:66-68. -/
def Walker.resumeAt (w : Walker) (node : Nat) (entering : Bool) : Walker :=
  { w with current := some node, entering := entering }

/-- The first `n` results of iterating (fewer if the iterator stops). -/
def Walker.take (h : Heap) : Nat → Walker → List (Nat × Bool)
  | 0, _ => []
  | n + 1, w =>
    match w.next h with
    | none => []
    | some (e, w') => e :: Walker.take h n w'

/-! ### normalize, node.py:104-114 -/

/-- The body of the loop for event `curr`; `prev` as in the code.  `None + str` raises TypeError. -/
def normalizeStep (h : Heap) (prev : Option Nat) (curr : Nat) : Except PyErr (Heap × Option Nat) :=
  match prev with
  | none => .ok (h, some curr)
  | some p =>
    if (h p).data.t == .text && (h curr).data.t == .text then
      match (h p).data.literal, (h curr).data.literal with
      | some a, some b =>
        .ok ((h.set p fun n => { n with data := { n.data with literal := some (a ++ b) } }).unlink curr,
          some p)
      | _, _ => .error .typeError
    else .ok (h, some curr)

/-- The loop: the walker advances before the body changes the heap. -/
def normalizeLoop : Nat → Heap → Walker → Option Nat → Except PyErr Heap
  | 0, _, _, _ => .error .hang
  | fuel + 1, h, w, prev =>
    match w.next h with
    | none => .ok h
    | some ((curr, _), w') =>
      match normalizeStep h prev curr with
      | .error e => .error e
      | .ok (h', prev') => normalizeLoop fuel h' w' prev'

/-- `root.normalize()` with a bound on the number of walker steps. -/
def normalizeHeap (fuel : Nat) (h : Heap) (root : Nat) : Except PyErr Heap :=
  normalizeLoop fuel h (Walker.new root) none

end CM
