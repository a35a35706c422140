import Verif.Model.Main
import Verif.Spec.Tokens
/-
Specification side of the renderer and dump properties: kinds of top-level blocks, forgetting raw
HTML, flattening, histories of option dictionaries.
-/
namespace Spec
open CM

/-- The kinds of node that may stand directly below a document. -/
def topLevelKinds : List Kind :=
  [.paragraph, .heading, .codeBlock, .htmlBlock, .thematicBreak, .blockQuote, .list, .customBlock]

/-- A node with the text of raw HTML forgotten. -/
def eraseRawData (d : NodeData) : NodeData :=
  if d.t = .htmlInline ∨ d.t = .htmlBlock then { d with literal := some [] } else d

mutual
/-- A tree with the text of all raw HTML nodes forgotten. -/
def eraseRaw : Tree → Tree
  | .node d cs => .node (eraseRawData d) (eraseRawList cs)
def eraseRawList : List Tree → List Tree
  | [] => []
  | t :: ts => eraseRaw t :: eraseRawList ts
end

mutual
/-- A property of every node of a tree. -/
def AllNodes (p : NodeData → Prop) : Tree → Prop
  | .node d cs => p d ∧ AllNodesList p cs
def AllNodesList (p : NodeData → Prop) : List Tree → Prop
  | [] => True
  | t :: ts => AllNodes p t ∧ AllNodesList p ts
end

/-- The nodes named in a JSON dump, in the order in which they are written. -/
def flattenReps (rs : List Rep) : List NodeData :=
  rs.flatMap fun r => r.node :: r.children.getD []

/-- What a program may do with option dictionaries (dictionary 0 is the default argument). -/
inductive OptionsOp where
  /-- `HtmlRenderer(dict r)`; `r = 0` for `HtmlRenderer()` -/
  | construct (r : Nat)
  /-- the program changes dictionary `r` -/
  | write (r : Nat) (f : OptDict → OptDict)

/-- Effect of one operation. -/
def OptionsOp.run (w : World) : OptionsOp → World
  | .construct r => w.newRenderer r
  | .write r f => w.update r f

/-- A fresh process: no renderer yet, the default dictionary empty. -/
def startWorld (dicts : Nat → OptDict) : World := ⟨fun i => if i = 0 then {} else dicts i, []⟩

/-- Conditions on a node under which the HTML renderer writes only tags of its own: no custom nodes
(they write arbitrary text), heading levels 1 to 6, no raw HTML unless in safe mode, and, where URLs
matter (`urls`), ASCII destinations in safe mode. -/
def RenderableNode (urls : Prop) (o : HtmlOpts) (d : NodeData) : Prop :=
  d.t ≠ .customInline ∧ d.t ≠ .customBlock ∧
  (d.t = .heading → ∃ n, d.level = some n ∧ 1 ≤ n ∧ n ≤ 6) ∧
  (o.safe = false → d.t ≠ .htmlInline ∧ d.t ≠ .htmlBlock) ∧
  (urls → o.safe = true → ∀ u, d.destination = some u → Ascii u)

/-- A line-break text without markup. -/
def PlainText (s : Str) : Prop := ∀ c ∈ s, c ≠ '<' ∧ c ≠ '>' ∧ c ≠ '"'

end Spec
