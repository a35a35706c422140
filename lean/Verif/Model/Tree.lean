import Verif.Model.PyStr
/-
The abstract syntax tree.  Python's `Node` objects (/repo/commonmark/node.py:71-96)
carry their payload in attributes and their position in five pointers (parent,
first_child, last_child, prv, nxt).  Here a node is its payload plus the list of
its children; `Verif.Model.NodeHeap` models the pointer structure itself and
`Verif.Props.NodeProps` proves that the pointer operations act on child
lists as used here.
-/
namespace CM

/-- `Node.t` (node.py:73); the strings used in blocks.py and inlines.py. -/
inductive Kind where
  | document | blockQuote | list | item | paragraph | heading | codeBlock | htmlBlock
  | thematicBreak
  | text | softbreak | linebreak | emph | strong | link | image | code | htmlInline
  | customInline | customBlock
deriving DecidableEq, Repr

/-- The string stored in `Node.t`. -/
def Kind.name : Kind → Str
  | .document => lit "document"
  | .blockQuote => lit "block_quote"
  | .list => lit "list"
  | .item => lit "item"
  | .paragraph => lit "paragraph"
  | .heading => lit "heading"
  | .codeBlock => lit "code_block"
  | .htmlBlock => lit "html_block"
  | .thematicBreak => lit "thematic_break"
  | .text => lit "text"
  | .softbreak => lit "softbreak"
  | .linebreak => lit "linebreak"
  | .emph => lit "emph"
  | .strong => lit "strong"
  | .link => lit "link"
  | .image => lit "image"
  | .code => lit "code"
  | .htmlInline => lit "html_inline"
  | .customInline => lit "custom_inline"
  | .customBlock => lit "custom_block"

/-- `data['type']` of a list marker, blocks.py:103,107. -/
inductive ListType where
  | bullet | ordered
deriving DecidableEq, Repr

/-- `Node.list_data`, blocks.py:89-97. -/
structure ListData where
  type : ListType
  tight : Bool
  bulletChar : Option Char
  start : Option Nat
  delimiter : Option Char
  padding : Nat
  markerOffset : Nat
deriving DecidableEq, Repr

/-- The payload of a `Node`, node.py:72-96.  `listData = none` is Python's `{}`.
`htmlBlockType` is set in blocks.py:509. -/
structure NodeData where
  t : Kind
  sourcepos : Option ((Nat × Nat) × (Nat × Nat)) := none
  lastLineBlank : Bool := false
  lastLineChecked : Bool := false
  isOpen : Bool := true
  stringContent : Option Str := some []
  literal : Option Str := none
  listData : Option ListData := none
  info : Option Str := none
  destination : Option Str := none
  title : Option Str := none
  isFenced : Bool := false
  fenceChar : Option Char := none
  fenceLength : Nat := 0
  fenceOffset : Nat := 0
  level : Option Nat := none
  htmlBlockType : Nat := 0
  onEnter : Option Str := none
  onExit : Option Str := none
deriving DecidableEq, Repr

/-- A node with its children in order. -/
inductive Tree where
  | node (d : NodeData) (cs : List Tree)
deriving Repr

namespace Tree
def data : Tree → NodeData
  | .node d _ => d
def children : Tree → List Tree
  | .node _ cs => cs
def kind (t : Tree) : Kind := t.data.t
end Tree

/-- `is_container`, node.py:6-13. -/
def isContainer : Kind → Bool
  | .document | .blockQuote | .list | .item | .paragraph | .heading | .emph | .strong | .link
  | .image | .customInline | .customBlock => true
  | _ => false

end CM
