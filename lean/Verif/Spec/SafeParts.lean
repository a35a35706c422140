import Verif.Spec.HtmlTree
/-
HTML in safe mode and not.
-/
namespace Spec
open CM

/-- Something that safe mode leaves out: raw HTML, the address of a link, the address of an image. -/
inductive Left where
  | raw (s : Str)
  | link (u : Str)
  | image (u : Str)
deriving DecidableEq

/-- As it is written otherwise. -/
def Left.plain : Left → Str
  | .raw s => s
  | .link u => attr "href" (htmlText u)
  | .image u => htmlText u

/-- What stands for raw HTML in safe mode. -/
def omitted : Str := "<!-- raw HTML omitted -->".toList

/-- As it is written in safe mode. -/
def Left.safe : Left → Str
  | .raw _ => omitted
  | .link _ => []
  | .image _ => []

/-- A part of HTML: some text, or something that safe mode leaves out. -/
inductive SafePart where
  | text (s : Str)
  | left (l : Left)

def SafePart.plain : SafePart → Str
  | .text s => s
  | .left l => l.plain

def SafePart.safe : SafePart → Str
  | .text s => s
  | .left l => l.safe

/-- What is left out of parts. -/
def leftOut (ps : List SafePart) : List Left := ps.flatMap fun
  | .text _ => []
  | .left l => [l]

/-- The text of an HTML block.  (If it is a single newline, which it is in no parsed document, this is the end of its line.) -/
def blockText (s : Str) : Str := if s = ['\n'] then [] else s

/-- What is left out of a node itself.  `alt`: it is in the description of an image, which has raw HTML but no tags. -/
def ownLeft (bad : Str → Bool) (alt : Bool) (d : NodeData) : List Left :=
  match d.t with
  | .htmlInline => [.raw (d.literal.getD [])]
  | .htmlBlock => [.raw (blockText (d.literal.getD []))]
  | .link => if !alt && bad (d.destination.getD []) then [.link (d.destination.getD [])] else []
  | .image => if !alt && bad (d.destination.getD []) then [.image (d.destination.getD [])] else []
  | _ => []

mutual
/-- What is left out of a tree, in order: raw HTML and the addresses that are `bad`. -/
def treeLeft (bad : Str → Bool) (alt : Bool) : Tree → List Left
  | .node d cs => ownLeft bad alt d ++ if isContainer d.t then treeLeftList bad (alt || d.t == .image) cs else []
def treeLeftList (bad : Str → Bool) (alt : Bool) : List Tree → List Left
  | [] => []
  | t :: ts => treeLeft bad alt t ++ treeLeftList bad alt ts
end

end Spec
