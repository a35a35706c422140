import Verif.Spec.Doc
/-
Specification side of C39: which headings the reStructuredText renderer can underline.
-/
namespace Spec
open CM

/-- A heading begins with plain text, a code span or raw HTML: an inline that carries text of its own.
`ks` are the children of the node. -/
def HeadingHasText (d : NodeData) (ks : List NodeData) : Prop :=
  d.t = .heading → ∃ k rest, ks = k :: rest ∧ (k.t = .text ∨ k.t = .code ∨ k.t = .htmlInline)

/-- All headings of a document do. -/
def HeadingsHaveText (t : Tree) : Prop := EveryNode HeadingHasText t

end Spec
