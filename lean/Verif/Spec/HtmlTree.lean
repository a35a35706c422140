import Verif.Model.Html
/-
What the HTML of a tree is, written as a recursive function on the tree: elements, escaped text and places
where a line may be broken.  It does not mention the walker, the renderer's buffer or its state.
-/
namespace Spec
open CM

/-- A piece of output: a fixed text, or a place where a line ends. -/
inductive HPiece where
  | text (s : Str)
  | brk

/-- `Written p ps w`: the pieces `ps` come out as `w` when `p` is what has been written before.  A line is
ended by a newline; nothing need be written if nothing was written before or if that ends in a newline. -/
inductive Written : Str → List HPiece → Str → Prop
  | nil (p : Str) : Written p [] []
  | text {p s w : Str} {ps : List HPiece} : Written (p ++ s) ps w → Written p (.text s :: ps) (s ++ w)
  | newline {p w : Str} {ps : List HPiece} : Written (p ++ ['\n']) ps w → Written p (.brk :: ps) ('\n' :: w)
  | stay {p w : Str} {ps : List HPiece} : (p = [] ∨ ∃ q, p = q ++ ['\n']) → Written p ps w → Written p (.brk :: ps) w

/-- The text that stands for a character in HTML. -/
def htmlChar (c : Char) : Str :=
  if c = '&' then "&amp;".toList
  else if c = '<' then "&lt;".toList
  else if c = '>' then "&gt;".toList
  else if c = '"' then "&quot;".toList
  else [c]

/-- The text that stands for a text in HTML. -/
def htmlText (s : Str) : Str := s.flatMap htmlChar

/-- ` name="value"` -/
def attr (name : String) (value : Str) : Str := ' ' :: (name.toList ++ "=\"".toList ++ value ++ "\"".toList)

/-- `<name attrs>` -/
def openTag (name : Str) (attrs : Str := []) : HPiece := .text ('<' :: (name ++ attrs ++ ['>']))
/-- `</name>` -/
def closeTag (name : Str) : HPiece := .text ('<' :: '/' :: (name ++ ['>']))
/-- `<name attrs />` -/
def voidTag (name : Str) (attrs : Str := []) : HPiece := .text ('<' :: (name ++ attrs ++ " />".toList))

/-- Decimal digits. -/
def decimal (n : Nat) : Str := Nat.toDigits 10 n

/-- The `data-sourcepos` attribute. -/
def posAttr (o : HtmlOpts) (d : NodeData) : Str :=
  match o.sourcepos, d.sourcepos with
  | true, some ((l, c), (l', c')) =>
    attr "data-sourcepos" (decimal l ++ ":".toList ++ decimal c ++ "-".toList ++ decimal l' ++ ":".toList ++ decimal c')
  | _, _ => []

/-- An attribute that is written only if its value is not empty. -/
def optAttr (name : String) : Option Str → Str
  | none => []
  | some [] => []
  | some v => attr name (htmlText v)

/-- The first word of an info string. -/
def firstWord (s : Str) : Str := (s.dropWhile isPySpace).takeWhile fun c => !isPySpace c

/-- The language class of a code block. -/
def classAttr : Option Str → Str
  | none => []
  | some info => if firstWord info = [] then [] else attr "class" ("language-".toList ++ htmlText (firstWord info))

/-- The `start` attribute of a list. -/
def startAttr : Option Nat → Str
  | none => []
  | some 1 => []
  | some n => attr "start" (decimal n)

/-- Text of raw HTML. -/
def rawText (o : HtmlOpts) (d : NodeData) : Str :=
  if o.safe then "<!-- raw HTML omitted -->".toList else d.literal.getD []

/-- `h1` to `h6`. -/
def hTag (d : NodeData) : Str :=
  'h' :: (match d.level with
    | some n => decimal n
    | none => "None".toList)

/-- `ul` or `ol`. -/
def listName (l : Option ListData) : Str :=
  match l with
  | some l => if l.type = .bullet then "ul".toList else "ol".toList
  | none => []

/-- Is the node a tight list? -/
def tightList (d : NodeData) : Bool :=
  d.t == .list && (d.listData.map (·.tight)).getD false

/-- The pieces of a node whose children have the pieces `kids`.  `blocked` says which addresses are left
out; `bare`: the node is a paragraph directly in an item of a tight list. -/
def element (o : HtmlOpts) (blocked : Str → Bool) (bare : Bool) (d : NodeData) (kids : List HPiece) : List HPiece :=
  let lit := htmlText (d.literal.getD [])
  let addr (u : Str) : Str := if blocked u then [] else htmlText u
  let href (u : Str) : Str := if blocked u then [] else attr "href" (htmlText u)
  match d.t with
  | .document => kids
  | .text => [.text lit]
  | .softbreak => [.text o.softbreak]
  | .linebreak => [voidTag "br".toList, .brk]
  | .code => [openTag "code".toList, .text lit, closeTag "code".toList]
  | .htmlInline => [.text (rawText o d)]
  | .emph => openTag "em".toList :: (kids ++ [closeTag "em".toList])
  | .strong => openTag "strong".toList :: (kids ++ [closeTag "strong".toList])
  | .link =>
    openTag "a".toList (posAttr o d ++ href (d.destination.getD []) ++ optAttr "title" d.title) ::
      (kids ++ [closeTag "a".toList])
  | .image =>
    .text ("<img src=\"".toList ++ addr (d.destination.getD []) ++ "\" alt=\"".toList) ::
      (kids ++ [.text ('"' :: (optAttr "title" d.title ++ " />".toList))])
  | .paragraph =>
    if bare then kids
    else .brk :: openTag "p".toList (posAttr o d) :: (kids ++ [closeTag "p".toList, .brk])
  | .heading => .brk :: openTag (hTag d) (posAttr o d) :: (kids ++ [closeTag (hTag d), .brk])
  | .thematicBreak => [.brk, voidTag "hr".toList (posAttr o d), .brk]
  | .codeBlock =>
    [.brk, openTag "pre".toList, openTag "code".toList (posAttr o d ++ classAttr d.info), .text lit,
      closeTag "code".toList, closeTag "pre".toList, .brk]
  | .htmlBlock => [.brk, .text (rawText o d), .brk]
  | .blockQuote =>
    .brk :: openTag "blockquote".toList (posAttr o d) :: .brk ::
      (kids ++ [.brk, closeTag "blockquote".toList, .brk])
  | .list =>
    .brk :: openTag (listName d.listData) (posAttr o d ++ startAttr (d.listData.bind (·.start))) :: .brk ::
      (kids ++ [.brk, closeTag (listName d.listData), .brk])
  | .item => openTag "li".toList (posAttr o d) :: (kids ++ [closeTag "li".toList, .brk])
  | .customInline => .text (d.onEnter.getD []) :: (kids ++ [.text (d.onExit.getD [])])
  | .customBlock =>
    .brk :: .text (d.onEnter.getD []) :: .brk :: (kids ++ [.brk, .text (d.onExit.getD []), .brk])

/-- The pieces of a node in the description of an image: no tags, only the text. -/
def description (o : HtmlOpts) (bare : Bool) (d : NodeData) (kids : List HPiece) : List HPiece :=
  let lit := htmlText (d.literal.getD [])
  match d.t with
  | .document | .emph | .strong | .link | .image => kids
  | .text | .code => [.text lit]
  | .softbreak => [.text o.softbreak]
  | .linebreak => [.brk]
  | .htmlInline => [.text (rawText o d)]
  | .paragraph | .heading => if bare then kids else .brk :: (kids ++ [.brk])
  | .thematicBreak => [.brk, .brk]
  | .codeBlock => [.brk, .text lit, .brk]
  | .htmlBlock => [.brk, .text (rawText o d), .brk]
  | .blockQuote | .list => .brk :: .brk :: (kids ++ [.brk, .brk])
  | .item => kids ++ [.brk]
  | .customInline => .text (d.onEnter.getD []) :: (kids ++ [.text (d.onExit.getD [])])
  | .customBlock =>
    .brk :: .text (d.onEnter.getD []) :: .brk :: (kids ++ [.brk, .text (d.onExit.getD []), .brk])

mutual
/-- The pieces of a tree.  `alt`: it is in the description of an image; `parent`, `grandparent`: these are
tight lists. -/
def htmlPieces (o : HtmlOpts) (blocked : Str → Bool) (alt parent grandparent : Bool) : Tree → List HPiece
  | .node d cs =>
    let kids := htmlPiecesList o blocked (alt || d.t == .image) (tightList d) parent cs
    let bare := d.t == .paragraph && grandparent
    if alt then description o bare d kids else element o blocked bare d kids
def htmlPiecesList (o : HtmlOpts) (blocked : Str → Bool) (alt parent grandparent : Bool) : List Tree → List HPiece
  | [] => []
  | t :: ts => htmlPieces o blocked alt parent grandparent t ++ htmlPiecesList o blocked alt parent grandparent ts
end

end Spec
