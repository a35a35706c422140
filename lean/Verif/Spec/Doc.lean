import Verif.Model.Main
/-
Specification side of the properties of parsed documents: which node may stand in which, list
markers, heading levels, source positions, the strings of a tree.
-/
namespace Spec
open CM

mutual
/-- `P` holds of every node of a tree, together with the data of its children. -/
def EveryNode (P : NodeData → List NodeData → Prop) : Tree → Prop
  | .node d cs => P d (cs.map Tree.data) ∧ EveryNodeList P cs
def EveryNodeList (P : NodeData → List NodeData → Prop) : List Tree → Prop
  | [] => True
  | t :: ts => EveryNode P t ∧ EveryNodeList P ts
end

mutual
/-- `P` holds of every node of a tree, together with its subtrees. -/
def EverySubtree (P : NodeData → List Tree → Prop) : Tree → Prop
  | .node d cs => P d cs ∧ EverySubtreeList P cs
def EverySubtreeList (P : NodeData → List Tree → Prop) : List Tree → Prop
  | [] => True
  | t :: ts => EverySubtree P t ∧ EverySubtreeList P ts
end

/-- Blocks that may stand directly in a document, a block quote or a list item. -/
def flowKinds : List Kind :=
  [.paragraph, .heading, .codeBlock, .htmlBlock, .thematicBreak, .blockQuote, .list]

/-- All kinds of block. -/
def blockKinds : List Kind := [.document, .item] ++ flowKinds

/-- The kinds of inline that the parser makes. -/
def inlineKinds : List Kind :=
  [.text, .softbreak, .linebreak, .code, .htmlInline, .emph, .strong, .link, .image]

/-- The kinds of node allowed in a node of a kind. -/
def childKinds : Kind → List Kind
  | .document | .blockQuote | .item => flowKinds
  | .list => [.item]
  | .paragraph | .heading | .emph | .strong | .link | .image => inlineKinds
  | _ => []

/-- List data as CommonMark has it: a bullet `*`, `+` or `-`, or a number of at most nine digits
with `.` or `)`. -/
def MarkerOk (l : ListData) : Prop :=
  (l.type = .bullet ∧ (l.bulletChar = some '*' ∨ l.bulletChar = some '+' ∨ l.bulletChar = some '-') ∧
    l.start = none ∧ l.delimiter = none) ∨
  (l.type = .ordered ∧ l.bulletChar = none ∧ (∃ n, l.start = some n ∧ n ≤ 999999999) ∧
    (l.delimiter = some '.' ∨ l.delimiter = some ')'))

/-- Two list nodes carry the same kind of marker: type, delimiter and bullet character. -/
def SameMarker (a b : NodeData) : Prop :=
  ∃ l m, a.listData = some l ∧ b.listData = some m ∧ l.type = m.type ∧ l.delimiter = m.delimiter ∧
    l.bulletChar = m.bulletChar

/-- First line, first column and last line of a node. -/
def firstLine (d : NodeData) : Nat := (d.sourcepos.map (·.1.1)).getD 0
def firstColumn (d : NodeData) : Nat := (d.sourcepos.map (·.1.2)).getD 0
def lastLine (d : NodeData) : Nat := (d.sourcepos.map (·.2.1)).getD 0

/-- All strings of a node: text, code and HTML, the info string, destination and title, the markers
and the source text of a paragraph or heading. -/
def nodeStrings (d : NodeData) : List Str :=
  d.stringContent.toList ++ d.literal.toList ++ d.info.toList ++ d.destination.toList ++
  d.title.toList ++ d.onEnter.toList ++ d.onExit.toList ++ [d.fenceChar.toList] ++
  (d.listData.map fun l => [l.bulletChar.toList, l.delimiter.toList]).getD []

end Spec
