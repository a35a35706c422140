import Verif.Model.Tree
/-
The soft line breaks of a document (C82).
-/
namespace Spec
open CM

mutual
/-- How many soft line breaks a tree has (a node that cannot have children counts as a leaf). -/
def softs : Tree → Nat
  | .node d cs => (if d.t = .softbreak then 1 else 0) + if isContainer d.t then softsAll cs else 0
def softsAll : List Tree → Nat
  | [] => 0
  | t :: ts => softs t + softsAll ts
end

/-- What stands for a soft line break in the HTML if the option `softbreak` is `x`: this text, and a newline if there has to be one
directly after it (`newline`) and the text is not itself a newline. -/
def softText (x : Str) (newline : Bool) : Str := if newline = true ∧ x ≠ ['\n'] then x ++ ['\n'] else x

mutual
/-- The tree with a custom inline with the text `x` for every soft line break. -/
def customSofts (x : Str) : Tree → Tree
  | .node d cs => if d.t = .softbreak then .node { t := .customInline, onEnter := some x } [] else .node d (customSoftsAll x cs)
def customSoftsAll (x : Str) : List Tree → List Tree
  | [] => []
  | t :: ts => customSofts x t :: customSoftsAll x ts
end

/-- Nodes whose HTML begins with something else than a newline: in the description of an image (`alt`) those that have a text
of their own, elsewhere all inlines. -/
def BeginsInline (alt : Bool) (k : Kind) : Prop :=
  k ∈ [.text, .code, .htmlInline, .softbreak] ∨ alt = false ∧ k ∈ [.emph, .strong, .link, .image, .linebreak]

/-- Nodes whose HTML ends with a tag that is not on a line of its own, outside of the description of an image. -/
def EndsInline (alt : Bool) (k : Kind) : Prop := alt = false ∧ k ∈ [.emph, .strong, .link, .image, .heading]

mutual
/-- Directly after every soft line break there is such a node, or the end of such a node. -/
def SoftInside (alt : Bool) : Tree → Prop
  | .node d cs => if isContainer d.t then SoftInsideAll (alt || d.t == .image) (EndsInline alt d.t) cs else True
def SoftInsideAll (alt : Bool) (closes : Prop) : List Tree → Prop
  | [] => True
  | t :: ts => SoftInside alt t ∧
      (t.data.t = .softbreak → (∃ u, ts.head? = some u ∧ BeginsInline alt u.data.t) ∨ ts = [] ∧ closes) ∧ SoftInsideAll alt closes ts
end

end Spec
