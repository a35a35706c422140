import Verif.Spec.Doc
import Verif.Spec.LineKinds
import Verif.Spec.Entity
import Verif.Spec.HtmlBlock
/-
Where the blocks of a document come from: the text of the document at the first position of a block.
-/
namespace Spec
open CM

/-- The text from the first position of a node to the end of the line. -/
def sourceText (ls : List Str) (d : NodeData) : Str := (ls.getD (firstLine d - 1) []).drop (firstColumn d - 1)

/-- Nothing, or a space or a tab first. -/
def EndOrSpace (r : Str) : Prop := r = [] ∨ r.head? = some ' ' ∨ r.head? = some '\t'

/-- A digit from `0` to `9`. -/
def AsciiDigit (c : Char) : Prop := '0' ≤ c ∧ c ≤ '9'

/-- The text `x` begins with the list marker that `l` describes: a bullet, or one to nine digits and `.` or `)`. -/
def MarkerText (l : ListData) (x : Str) : Prop :=
  (l.type = .bullet ∧ ∃ c r, x = c :: r ∧ (c = '*' ∨ c = '+' ∨ c = '-') ∧ l.bulletChar = some c ∧ EndOrSpace r) ∨
  (l.type = .ordered ∧ ∃ ds c r, x = ds ++ c :: r ∧ 1 ≤ ds.length ∧ ds.length ≤ 9 ∧ (∀ y ∈ ds, AsciiDigit y) ∧
    (c = '.' ∨ c = ')') ∧ l.delimiter = some c ∧ l.start = numeral 10 ds ∧ EndOrSpace r)

/-- Line `j` is (after some indentation and markers) a setext underline for level `n`. -/
def UnderlineOn (ls : List Str) (j n : Nat) : Prop :=
  ∃ line k c, ls[j - 1]? = some line ∧ SetextUnderline c (line.drop k) ∧ (c = '=' ∧ n = 1 ∨ c = '-' ∧ n = 2)

/-- What stands at the first position of a leaf block or block quote. -/
def Origin (ls : List Str) (d : NodeData) : Prop :=
  (d.t = .thematicBreak → ThematicBreak (sourceText ls d)) ∧
  (d.t = .heading → ∃ n, d.level = some n ∧
    (AtxMarker n (sourceText ls d) ∨ ∃ j, firstLine d ≤ j ∧ UnderlineOn ls j n)) ∧
  (d.t = .codeBlock → d.isFenced = true → ∃ c info, d.fenceChar = some c ∧ CodeFence c d.fenceLength info (sourceText ls d)) ∧
  (d.t = .blockQuote → (sourceText ls d).head? = some '>') ∧
  (d.t = .paragraph → ∃ c, (sourceText ls d).head? = some c ∧ c ≠ ' ' ∧ c ≠ '\t')

/-- What stands at the first position of an HTML block (after white space, what starts a block of its kind) or indented
code block (something other than white space). -/
def OriginRaw (ls : List Str) (d : NodeData) : Prop :=
  (d.t = .htmlBlock → ∃ w l, sourceText ls d = w ++ l ∧ (∀ c ∈ w, c = ' ' ∨ c = '\t') ∧ HtmlStart d.htmlBlockType l) ∧
  (d.t = .codeBlock → d.isFenced = false → ∃ c ∈ sourceText ls d, c ≠ ' ' ∧ c ≠ '\t')

end Spec
