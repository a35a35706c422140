import Verif.Spec.HtmlBlock
import Verif.Spec.Lines
import Verif.Spec.Origin
/-
Paragraphs of text lines, and the HTML of inline pieces.
-/
namespace Spec
open CM

/-- The line begins with a bullet list marker. -/
def BulletMarker (l : Str) : Prop := ∃ c r, l = c :: r ∧ (c = '*' ∨ c = '+' ∨ c = '-') ∧ EndOrSpace r

/-- The line begins with the ordered list marker with the number `num`.  (`isPyDigit`: what Python's `\d` matches.) -/
def OrderedMarker (num l : Str) : Prop :=
  ∃ d r, l = num ++ d :: r ∧ 1 ≤ num.length ∧ num.length ≤ 9 ∧ (∀ c ∈ num, isPyDigit c = true) ∧ (d = '.' ∨ d = ')') ∧
    EndOrSpace r

/-- A line of text: it is not indented and starts no block.  `inPara`: it follows a line of a paragraph, where a
setext underline has a meaning, and where lists with other numbers than 1 and HTML blocks of type 7 cannot start. -/
structure StartsNoBlock (inPara : Bool) (l : Str) : Prop where
  first : ∃ c r, l = c :: r ∧ c ∉ " \t\n\r".toList ∧ c.toNat ≠ 11 ∧ c.toNat ≠ 12
  noNul : Char.ofNat 0 ∉ l
  quote : l.head? ≠ some '>'
  thematic : ¬ ThematicBreak l
  atx : ¬ ∃ n, AtxMarker n l
  fence : ¬ ∃ c n info, CodeFence c n info l
  html : ∀ i, HtmlOpen i l → i = 7 ∧ inPara = true
  bullet : ¬ BulletMarker l
  ordered : ∀ num, OrderedMarker num l → inPara = true ∧ num ≠ ['1']
  setext : inPara = true → ¬ ∃ c, SetextUnderline c l

/-- The lines, separated by line feeds. -/
def joinLines : List Str → Str
  | [] => []
  | [l] => l
  | l :: r => l ++ '\n' :: joinLines r

/-- The text begins with a link label and a colon, as link reference definitions do. -/
def DefinitionStart (x : Str) : Prop := ∃ l r, x = l ++ ':' :: r ∧ LinkLabel l

/-- The lines of one paragraph: none of them starts another block, the first one does not start a link reference definition
(however the text goes on), and the whole neither begins nor ends with white space. -/
structure ParaText (l0 : Str) (ls : List Str) : Prop where
  first : StartsNoBlock false l0
  more : ∀ l ∈ ls, StartsNoBlock true l
  bracket : ∀ y, ¬ DefinitionStart (l0 ++ '\n' :: y)
  begins : ∀ c, l0.head? = some c → isPySpace c = false
  ends : ∀ l c, (l0 :: ls).getLast? = some l → l.getLast? = some c → isPySpace c = false

/-- A stretch of text as pieces. -/
def textBefore (pre : Str) : List Piece := if pre = [] then [] else [.text pre]

/-- The HTML of a piece, without safe mode.  `soft`: what is written for a soft line break. -/
def pieceHtml (soft : Str) : Piece → Str
  | .text s => escapeXml s
  | .code s => "<code>".toList ++ escapeXml s ++ "</code>".toList
  | .link d l => "<a href=\"".toList ++ escapeXml (normalizeUri d) ++ "\">".toList ++ escapeXml l ++ "</a>".toList
  | .soft => soft
  | .hard => "<br />\n".toList

end Spec
