import Verif.Spec.Phrase
import Verif.Spec.Escapes
import Verif.Spec.Document
/-
A program that writes documents as CommonMark text, and the HTML the documents stand for.  It knows nothing of the parser.
-/
namespace Spec
open CM

/-! ### Inline content -/

/-- A word of a text: some characters, a code span, emphasis, or a link or an image, with more words in it.  The words of a
text are separated by spaces. -/
inductive Word where
  | text (s : Str)
  | code (s : Str)
  | emph (strong : Bool) (xs : List Word)
  | link (image : Bool) (dest title : Str) (xs : List Word)

/-- The space before these words. -/
def space (xs : List Word) : Str := if xs.isEmpty then [] else [' ']

mutual
/-- A word without markup. -/
def wordAlt : Word → Str
  | .text s | .code s => escapeXml s
  | .emph _ xs | .link _ _ _ xs => wordsAlt xs
def wordsAlt : List Word → Str
  | [] => []
  | x :: xs => wordAlt x ++ (space xs ++ wordsAlt xs)
end

mutual
/-- The HTML of a word. -/
def wordHtml (safe : Bool) : Word → Str
  | .text s => escapeXml s
  | .code s => tagged "<code>" (escapeXml s) "</code>"
  | .emph false xs => tagged "<em>" (wordsHtml safe xs) "</em>"
  | .emph true xs => tagged "<strong>" (wordsHtml safe xs) "</strong>"
  | .link false d t xs => linkHtml safe (normalizeUri d) t (wordsHtml safe xs)
  | .link true d t xs => imageHtml safe (normalizeUri d) t (wordsAlt xs)
def wordsHtml (safe : Bool) : List Word → Str
  | [] => []
  | x :: xs => wordHtml safe x ++ (space xs ++ wordsHtml safe xs)
end

/-- The delimiters of emphasis. -/
def stars (strong : Bool) : Str := List.replicate (if strong then 2 else 1) '*'

/-- The delimiters of a code span: more backticks than the text has. -/
def ticks (s : Str) : Str := List.replicate (s.count '`' + 1) '`'

/-- What follows the text of a link. -/
def target (d t : Str) : Str :=
  "(<".toList ++ (backslashAll d ++ (">".toList ++ ((if t = [] then [] else " \"".toList ++ (backslashAll t ++ "\"".toList)) ++ ")".toList)))

mutual
/-- The word as CommonMark text. -/
def writeWord : Word → Str
  | .text s => backslashAll s
  | .code s => ticks s ++ (' ' :: (s ++ [' ']) ++ ticks s)
  | .emph b xs => stars b ++ (writeWords xs ++ stars b)
  | .link image d t xs => opening image ++ (writeWords xs ++ ']' :: target d t)
def writeWords : List Word → Str
  | [] => []
  | x :: xs => writeWord x ++ (space xs ++ writeWords xs)
end

/-- A character that can stand anywhere in a line. -/
def LineChar (c : Char) : Prop := c ≠ Char.ofNat 0 ∧ (c = ' ' ∨ isPySpace c = false)

/-- The words begin with a character that is not punctuation. -/
def BeginsPlain (xs : List Word) : Prop := ∃ c s ys, xs = .text (c :: s) :: ys ∧ isPunct c = false

/-- The words end with a character that is not punctuation. -/
def EndsPlain (xs : List Word) : Prop := ∃ c s ys, xs = ys ++ [.text (s ++ [c])] ∧ isPunct c = false

mutual
/-- Is there a link in it? -/
def wordLink : Word → Bool
  | .text _ | .code _ => false
  | .emph _ xs => wordsLink xs
  | .link false _ _ _ => true
  | .link true _ _ xs => wordsLink xs
def wordsLink : List Word → Bool
  | [] => false
  | x :: xs => wordLink x || wordsLink xs
end

mutual
/-- Words that can be written.  There is no white space in characters; emphasis begins and ends with characters that are not
punctuation; links have no links in them. -/
def WordOk : Word → Prop
  | .text s => s ≠ [] ∧ ∀ c ∈ s, c ≠ Char.ofNat 0 ∧ isPySpace c = false
  | .code s => (∃ c ∈ s, c ≠ ' ') ∧ ∀ c ∈ s, LineChar c
  | .emph _ xs => BeginsPlain xs ∧ EndsPlain xs ∧ WordsOk xs
  | .link image d t xs => (∀ c ∈ d, LineChar c) ∧ (∀ c ∈ t, LineChar c) ∧ (image = false → wordsLink xs = false) ∧ WordsOk xs
def WordsOk : List Word → Prop
  | [] => True
  | x :: xs => WordOk x ∧ WordsOk xs
end

/-! ### Blocks -/

/-- An item of a tight list: its text, and another tight list (if it is not empty; with this first number, or bullets). -/
inductive Outline where
  | item (xs : List Word) (start : Option Nat) (sub : List Outline)

/-- A block.  `para`: the first line and more lines, each with the kind of the line break before it (`true` for a hard one).  `start`: the first number of a list, or
nothing for bullets.  `code`: in this language (if it is not empty), with these lines.  `html`: these lines of raw HTML.  The items of a tight list have no `p`
elements. -/
inductive Block where
  | para (xs : List Word) (more : List (Bool × List Word))
  | heading (level : Nat) (xs : List Word)
  | rule
  | code (lang : Str) (ls : List Str)
  | html (ls : List Str)
  | quote (bs : List Block)
  | list (start : Option Nat) (items : List (List Block))
  | tight (start : Option Nat) (items : List Outline)

/-- The type of a list. -/
def listType (start : Option Nat) : ListType := if start.isNone then .bullet else .ordered

/-- The HTML of a list, with the HTML of its items. -/
def listOf (start : Option Nat) (items : Str) : Str :=
  listTag (listType start) start ++ "\n".toList ++ items ++ listEnd (listType start) ++ "\n".toList

mutual
/-- The HTML of an item of a tight list. -/
def outlineHtml (safe : Bool) : Outline → Str
  | .item xs start sub =>
    "<li>".toList ++ (wordsHtml safe xs ++ if sub.isEmpty then [] else '\n' :: listOf start (outlinesHtml safe sub)) ++ "</li>\n".toList
def outlinesHtml (safe : Bool) : List Outline → Str
  | [] => []
  | x :: xs => outlineHtml safe x ++ outlinesHtml safe xs
end

/-- The HTML of the lines of a paragraph; `soft`: what is written for a soft line break. -/
def linesHtml (safe : Bool) (soft : Str) (xs : List Word) : List (Bool × List Word) → Str
  | [] => wordsHtml safe xs
  | (hard, ys) :: more => wordsHtml safe xs ++ ((if hard then "<br />\n".toList else soft) ++ linesHtml safe soft ys more)

/-- The tags before code. -/
def codeTag (lang : Str) : Str :=
  if lang = [] then "<pre><code>".toList else "<pre><code class=\"language-".toList ++ escapeXml lang ++ "\">".toList

mutual
/-- The HTML of a block. -/
def blockHtml (safe : Bool) (soft : Str) : Block → Str
  | .para xs more => tagged "<p>" (linesHtml safe soft xs more) "</p>\n"
  | .heading n xs => headingHtml n (wordsHtml safe xs)
  | .rule => "<hr />\n".toList
  | .code lang ls => codeTag lang ++ escapeXml (ls.flatMap (· ++ ['\n'])) ++ "</code></pre>\n".toList
  | .html ls => rawHtml safe ls
  | .quote bs => tagged "<blockquote>\n" (blocksHtml safe soft bs) "</blockquote>\n"
  | .list start items => listOf start (itemsHtml safe soft items)
  | .tight start items => listOf start (outlinesHtml safe items)
def blocksHtml (safe : Bool) (soft : Str) : List Block → Str
  | [] => []
  | b :: bs => blockHtml safe soft b ++ blocksHtml safe soft bs
def itemsHtml (safe : Bool) (soft : Str) : List (List Block) → Str
  | [] => []
  | bs :: r => tagged "<li>\n" (blocksHtml safe soft bs) "</li>\n" ++ itemsHtml safe soft r
end

/-- The bullet and the delimiter of a list.  Lists that follow each other have different ones: `alt` says which. -/
def bulletChar (alt : Bool) : Char := if alt then '-' else '+'
def delimiter (alt : Bool) : Char := if alt then '.' else ')'

/-- The marker of the items of a list; all have the same number. -/
def marker (alt : Bool) : Option Nat → Str
  | none => [bulletChar alt]
  | some n => Nat.toDigits 10 n ++ [delimiter alt]

/-- The lines with a marker before the first; the others are indented by as much. -/
def itemLines (m : Str) : List Str → List Str
  | [] => []
  | l :: ls => (m ++ ' ' :: l) :: ls.map fun x => if x = [] then [] else List.replicate (m.length + 1) ' ' ++ x

/-- The lines of several parts, with an empty line between them. -/
def apart : List (List Str) → List Str
  | [] => []
  | x :: xs => x ++ xs.flatMap ([] :: ·)

/-- The fence around lines of code: more backticks than they have. -/
def fence (ls : List Str) : Str := List.replicate (ls.flatten.count '`' + 3) '`'

mutual
/-- The lines of an item of a tight list. -/
def writeOutline (alt : Bool) (m : Str) : Outline → List Str
  | .item xs start sub => itemLines m (writeWords xs :: writeOutlines alt (marker alt start) sub)
def writeOutlines (alt : Bool) (m : Str) : List Outline → List Str
  | [] => []
  | x :: xs => writeOutline alt m x ++ writeOutlines alt m xs
end

/-- The lines of a paragraph: a backslash at the end of a line is a hard line break. -/
def writeLines (xs : List Word) : List (Bool × List Word) → List Str
  | [] => [writeWords xs]
  | (hard, ys) :: more => (writeWords xs ++ if hard then ['\\'] else []) :: writeLines ys more

mutual
/-- The lines of a block. -/
def writeBlock (alt : Bool) : Block → List Str
  | .para xs more => writeLines xs more
  | .heading n xs => [List.replicate n '#' ++ ' ' :: writeWords xs]
  | .rule => ["***".toList]
  | .code lang ls => (fence ls ++ lang) :: (ls ++ [fence ls])
  | .html ls => ls
  | .quote bs => (writeBlocks true bs).map ("> ".toList ++ ·)
  | .list start items => apart (writeItems (marker alt start) items)
  | .tight start items => writeOutlines alt (marker alt start) items
/-- The lines of blocks, with an empty line between them. -/
def writeBlocks (alt : Bool) : List Block → List Str
  | [] => []
  | b :: bs => writeBlock alt b ++ if bs.isEmpty then [] else [] :: writeBlocks (!alt) bs
def writeItems (m : Str) : List (List Block) → List (List Str)
  | [] => []
  | bs :: r => itemLines m (writeBlocks false bs) :: writeItems m r
end

/-- The document as CommonMark text. -/
def writeDoc (bs : List Block) : Str := (writeBlocks true bs).flatMap (· ++ ['\n'])

/-- The text of a line of a paragraph: it does not begin with a link (which could be read as a definition). -/
def ParaOk (xs : List Word) : Prop := xs ≠ [] ∧ WordsOk xs ∧ ∀ d t ys, xs.head? ≠ some (.link false d t ys)

/-- The number of a list has at most nine digits. -/
def StartOk (start : Option Nat) : Prop := ∀ n, start = some n → n ≤ 999999999

mutual
def OutlineOk : Outline → Prop
  | .item xs start sub => ParaOk xs ∧ (start = none ∨ start = some 1) ∧ OutlinesOk sub
def OutlinesOk : List Outline → Prop
  | [] => True
  | x :: xs => OutlineOk x ∧ OutlinesOk xs
end

/-- A line of code. -/
def CodeLine (l : Str) : Prop := (l = [] ∨ NotBlank l) ∧ ∀ c ∈ l, c ≠ Char.ofNat 0 ∧ c ≠ '\t' ∧ c ≠ '\n' ∧ c ≠ '\r'

/-- The name of a language. -/
def LangOk (lang : Str) : Prop := ∀ c ∈ lang, isPySpace c = false ∧ c ∉ "`\\&".toList ∧ c ≠ Char.ofNat 0

/-- Lines of raw HTML: without an empty line and beginning with one of many tags, or up to the first line with the end that
belongs to the beginning (as `-->` does to `<!--`). -/
def RawOk (ls : List Str) : Prop :=
  (∀ l ∈ ls, CodeLine l) ∧
  ((∃ i first more, ls = first :: more ∧ (i = 6 ∨ i = 7) ∧ HtmlStart i first ∧ ∀ l ∈ more, NotBlank l) ∨
    ∃ i first body close, ls = body ++ [close] ∧ ls.head? = some first ∧ HtmlStart i first ∧ (∀ l ∈ body, ¬ HtmlEnd i l) ∧ HtmlEnd i close)

mutual
/-- Blocks that can be written.  A list inside of an item of a tight list has bullets or begins with 1.  In a list that is not
tight, there is an item after another or an item with more than one block. -/
def BlockOk : Block → Prop
  | .para xs more => ParaOk xs ∧ ∀ y ∈ more, ParaOk y.2
  | .heading n xs => 1 ≤ n ∧ n ≤ 6 ∧ xs ≠ [] ∧ WordsOk xs
  | .rule => True
  | .code lang ls => LangOk lang ∧ ∀ l ∈ ls, CodeLine l
  | .html ls => RawOk ls
  | .quote bs => bs ≠ [] ∧ BlocksOk bs
  | .list start items => StartOk start ∧ items ≠ [] ∧ (2 ≤ items.length ∨ ∃ bs ∈ items, 2 ≤ bs.length) ∧ ItemsOk items
  | .tight start items => StartOk start ∧ items ≠ [] ∧ OutlinesOk items
def BlocksOk : List Block → Prop
  | [] => True
  | b :: bs => BlockOk b ∧ BlocksOk bs
def ItemsOk : List (List Block) → Prop
  | [] => True
  | bs :: r => bs ≠ [] ∧ BlocksOk bs ∧ ItemsOk r
end

end Spec
