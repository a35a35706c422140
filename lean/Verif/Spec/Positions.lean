import Verif.Spec.HtmlTree
/-
HTML with and without source positions.
-/
namespace Spec
open CM

/-- First line and column, and last line and column. -/
abbrev SrcPos := (Nat × Nat) × (Nat × Nat)

/-- A part of HTML: some text, or the beginning `<name` of a tag of a node that stands at these positions. -/
inductive Part where
  | text (s : Str)
  | tag (name : Str) (pos : SrcPos)

/-- As it is written without positions. -/
def Part.plain : Part → Str
  | .text s => s
  | .tag name _ => '<' :: name

/-- As it is written with positions: the attribute comes directly after the name. -/
def Part.full : Part → Str
  | .text s => s
  | .tag name ((l, c), (l', c')) => '<' :: (name ++
    attr "data-sourcepos" (decimal l ++ ":".toList ++ decimal c ++ "-".toList ++ decimal l' ++ ":".toList ++ decimal c'))

/-- The tags with positions. -/
def tags (ps : List Part) : List (Str × SrcPos) := ps.flatMap fun
  | .text _ => []
  | .tag name pos => [(name, pos)]

/-- The tag that gets the position of a node. -/
def posTag (d : NodeData) : Option Str :=
  match d.t with
  | .paragraph => some "p".toList
  | .heading => some (hTag d)
  | .thematicBreak => some "hr".toList
  | .codeBlock => some "code".toList
  | .blockQuote => some "blockquote".toList
  | .list => some (listName d.listData)
  | .item => some "li".toList
  | .link => some "a".toList
  | _ => none

/-- The tag of a node, if it has a position. -/
def ownTag (d : NodeData) : List (Str × SrcPos) :=
  match posTag d, d.sourcepos with
  | some name, some pos => [(name, pos)]
  | _, _ => []

mutual
/-- The tags of a tree that get positions, in order.  `alt`: it is in the description of an image, which has no tags;
`parent`, `grandparent`: these are tight lists, whose items have paragraphs without tags. -/
def posTags (alt parent grandparent : Bool) : Tree → List (Str × SrcPos)
  | .node d cs =>
    (if alt || (d.t == .paragraph && grandparent) then [] else ownTag d) ++
    if isContainer d.t then posTagsList (alt || d.t == .image) (tightList d) parent cs else []
def posTagsList (alt parent grandparent : Bool) : List Tree → List (Str × SrcPos)
  | [] => []
  | t :: ts => posTags alt parent grandparent t ++ posTagsList alt parent grandparent ts
end

end Spec
