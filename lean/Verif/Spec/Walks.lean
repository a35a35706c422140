import Verif.Spec.Nodes
/-
Walks along a tree that is changed on the way.
-/
namespace Spec
open CM

/-- The event is the last one of its node. -/
def lastEvent (h : Heap) (e : Nat × Bool) : Bool := e.2 == false || !isContainer (h e.1).data.t

/-- `for node, entering in root.walker(): ...`, where the body unlinks the nodes that `P` picks, each one at its last event.  The
events that the loop sees and the heap afterwards, after at most `n` steps. -/
def sweep (P : Nat → Bool) : Nat → Heap → Walker → List (Nat × Bool) × Heap
  | 0, h, _ => ([], h)
  | n + 1, h, w =>
    match w.next h with
    | none => ([], h)
    | some (e, w') =>
      let r := sweep P n (if P e.1 && lastEvent h e then h.unlink e.1 else h) w'
      (e :: r.1, r.2)

end Spec
