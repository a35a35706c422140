import Verif.Spec.ParaText
import Verif.Spec.Nodes
/-
Lines that continue a paragraph inside block quotes and list items (C63).
-/
namespace Spec
open CM

/-- Going from the node to its last child, to the last child of that, and so on, one gets to a paragraph that ends in line `n`.  `path`: the
containers on the way, the outermost first. -/
inductive LastPara (n : Nat) : Tree → List NodeData → Prop
  | here {d : NodeData} {cs : List Tree} {a : Nat × Nat} {c : Nat} : d.t = .paragraph → d.sourcepos = some (a, (n, c)) → LastPara n (.node d cs) []
  | inside {d : NodeData} {cs : List Tree} {t : Tree} {path : List NodeData} : d.t = .document ∨ d.t = .blockQuote ∨ d.t = .list ∨ d.t = .item →
      cs.getLast? = some t → LastPara n t path → LastPara n (.node d cs) (d :: path)

/-- `x` is the line `l` without the markers of the containers `path`: `>` for a block quote, the indentation for a list item.  From any
container on, the markers may be missing. -/
inductive Unmarked : List NodeData → Str → Str → Prop
  | rest {path : List NodeData} {l : Str} : Unmarked path l l
  | pass {d : NodeData} {path : List NodeData} {l x : Str} : d.t = .document ∨ d.t = .list → Unmarked path l x → Unmarked (d :: path) l x
  | quote {d : NodeData} {path : List NodeData} {k : Nat} {l x : Str} : d.t = .blockQuote → k ≤ 3 → Unmarked path l x →
      Unmarked (d :: path) (List.replicate k ' ' ++ '>' :: ' ' :: l) x
  | tightQuote {d : NodeData} {path : List NodeData} {k : Nat} {l x : Str} : d.t = .blockQuote → k ≤ 3 → l.head? ≠ some ' ' → l.head? ≠ some '\t' →
      Unmarked path l x → Unmarked (d :: path) (List.replicate k ' ' ++ '>' :: l) x
  | item {d : NodeData} {path : List NodeData} {i : ListData} {l x : Str} : d.t = .item → d.listData = some i → Unmarked path l x →
      Unmarked (d :: path) (List.replicate (i.markerOffset + i.padding) ' ' ++ l) x

/-- The line `l` goes on with the paragraph inside the containers `path`: after some of their markers and after spaces and tabs comes the
text `x`, which starts no block, neither in the paragraph nor outside of it. -/
structure GoesOn (path : List NodeData) (l x : Str) : Prop where
  unmarked : ∃ w, OnlySpTab w ∧ Unmarked path l (w ++ x)
  text : ∀ inPara, StartsNoBlock inPara x

end Spec
