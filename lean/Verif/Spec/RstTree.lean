import Verif.Spec.HtmlTree
/-
What the reStructuredText of a tree is, written as a recursive function on the tree.  It does not mention the
walker or the renderer's state.
-/
namespace Spec
open CM

/-- A piece of output with the indentation of its place in the document. -/
abbrev RPiece := Nat × Str

/-- The pieces one after the other: a piece at the beginning of a line comes after its indentation, `n` times `ic`.
`start`: the output so far ends a line. -/
def layout (ic : Str) : Bool → List RPiece → Str
  | _, [] => []
  | start, (n, s) :: r =>
    if s = ['\n'] then '\n' :: layout ic true r
    else (if start then (List.replicate n ic).flatten else []) ++ s ++ layout ic false r

/-- The characters that end a line for Python's `str.splitlines`. -/
def endsLine (c : Char) : Bool :=
  ['\n', '\r', '\x0b', '\x0c', '\x1c', '\x1d', '\x1e', '\u0085', ' ', ' '].contains c

/-- The lines of a text, for Python. -/
def pyLines : Str → List Str
  | [] => []
  | '\r' :: '\n' :: r => [] :: pyLines r
  | c :: r =>
    if endsLine c then [] :: pyLines r
    else match pyLines r with
      | [] => [[c]]
      | l :: ls => (c :: l) :: ls

/-- Lines with a newline between them, each after the indentation of a literal block. -/
def codeText (ic : Str) : List Str → Str
  | [] => []
  | [l] => (List.replicate 4 ic).flatten ++ l
  | l :: ls => (List.replicate 4 ic).flatten ++ l ++ '\n' :: codeText ic ls

/-- `.. code:: language` -/
def codeHead (info : Option Str) : Str :=
  ".. code::".toList ++ (if firstWord (info.getD []) = [] then [] else ' ' :: firstWord (info.getD []))

/-- The bullet of a list item. -/
def bullet (l : Option ListData) : Str :=
  match l with
  | some l => if l.type = .bullet then "* ".toList else "#. ".toList
  | none => []

/-- How much further the content of a node is indented. -/
def inner (d : NodeData) : Nat :=
  match d.t with
  | .blockQuote => 4
  | .image => 4
  | .item => (bullet d.listData).length
  | _ => 0

/-- The character that underlines a heading. -/
def underlineChar (level : Option Nat) : Char :=
  match level with
  | some 1 => '#'
  | some 2 => '*'
  | some 3 => '='
  | some 4 => '-'
  | some 5 => '^'
  | _ => '"'

/-- The pieces of a node at indentation `n` whose first child is `first` and whose content has the pieces `kids`.
`inItem`: it is directly in a list item. -/
def rstElement (ic : Str) (n : Nat) (inItem : Bool) (d : NodeData) (first : Option NodeData) (kids : List RPiece) : List RPiece :=
  let nl : RPiece := (n, ['\n'])
  let lit := d.literal.getD []
  match d.t with
  | .document | .customInline | .customBlock | .blockQuote => kids
  | .text => [(n, lit)]
  | .softbreak => [nl]
  | .linebreak => [nl, nl]
  | .emph => (n, "*".toList) :: (kids ++ [(n, "*".toList)])
  | .strong => (n, "**".toList) :: (kids ++ [(n, "**".toList)])
  | .code => [(n, "``".toList), (n, lit), (n, "``".toList)]
  | .link => (n, "`".toList) :: (kids ++ [(n, " <".toList ++ d.destination.getD "None".toList ++ ">`_".toList)])
  | .image => (n, ".. image:: ".toList ++ d.destination.getD []) :: nl :: (n + 4, ":alt: ".toList) :: kids
  | .paragraph => if inItem then kids else nl :: (kids ++ [nl])
  | .heading =>
    nl :: (kids ++ [nl, (n, List.replicate ((first.bind (·.literal)).getD []).length (underlineChar d.level)), nl])
  | .codeBlock => [nl, (n, codeHead d.info), nl, nl, (n, codeText ic (pyLines lit)), nl]
  | .list => nl :: kids
  | .item => (n, bullet d.listData) :: (kids ++ [nl])
  | .thematicBreak | .htmlInline | .htmlBlock => []

mutual
/-- The pieces of a tree at indentation `n`. -/
def rstPieces (ic : Str) (n : Nat) (inItem : Bool) : Tree → List RPiece
  | .node d cs => rstElement ic n inItem d (cs.head?.map Tree.data) (rstPiecesList ic (n + inner d) (d.t == .item) cs)
def rstPiecesList (ic : Str) (n : Nat) (inItem : Bool) : List Tree → List RPiece
  | [] => []
  | t :: ts => rstPieces ic n inItem t ++ rstPiecesList ic n inItem ts
end

end Spec
