import Mathlib.Data.List.Forall2
import Verif.Spec.Nest
import Verif.Spec.ParaText
/-
A grammar of documents with the HTML of every block: paragraphs, headings, thematic breaks, code blocks, HTML blocks, block
quotes and lists, nested to any depth, one after the other with or without blank lines between.  It says nothing about how a text is
parsed.
-/
namespace Spec
open CM

/-- The kinds of blocks.  Lists of different types, with different bullets or delimiters, are different.  `html`: an HTML block
that a line of its own ends; `tag`: one that a blank line ends. -/
inductive BKind where
  | para | heading | rule | fenced | indented | html | tag | quote
  | list (ty : ListType) (bullet delim : Option Char)
deriving DecidableEq

/-- A block and its HTML; of a paragraph, the HTML of its text. -/
structure Blk where
  kind : BKind
  html : Str

/-- The HTML of a block where paragraphs are `p` elements. -/
def Blk.out (b : Blk) : Str :=
  match b.kind with
  | .para => "<p>".toList ++ b.html ++ "</p>\n".toList
  | _ => b.html

/-- The HTML of a document. -/
def docHtml (bs : List Blk) : Str := bs.flatMap Blk.out

/-- The HTML of the blocks of an item of a tight list: paragraphs are only their text, and other blocks begin on a new line.
`nl`: the output is at the beginning of a line. -/
def tightHtml : Bool → List Blk → Str
  | _, [] => []
  | nl, b :: bs =>
    match b.kind with
    | .para => b.html ++ tightHtml false bs
    | _ => (if nl then [] else ['\n']) ++ b.html ++ tightHtml true bs

/-- The HTML of a list item. -/
def itemHtml (tight : Bool) (bs : List Blk) : Str :=
  "<li>".toList ++ (if tight then tightHtml false bs else '\n' :: docHtml bs) ++ "</li>\n".toList

/-- A list item: the blank lines before it, the indentation of its marker, the marker and its number, the number of spaces
after it, the text in the item, the lines of the item, the blocks of the text and whether there are blank lines between them. -/
structure Item where
  blank : Nat
  indent : Nat
  marker : Str
  start : Option Nat
  spaces : Nat
  text : List Str
  lines : List Str
  blocks : List Blk
  gap : Bool

/-- The column where the text of the item begins. -/
def Item.width (it : Item) : Nat := it.indent + it.marker.length + it.spaces

/-- The lines of the item are those of its text: before the first are up to three spaces, the marker, and one to four
spaces; the others are indented by the same width.  The first line of the text begins with a character that is not a space or
tab, and the line with the marker is not a thematic break. -/
structure Item.Ok (it : Item) (ty : ListType) (b dl : Option Char) : Prop where
  marker : ListMark it.marker ty b it.start dl
  lines : ∃ c r ls qs, it.text = (c :: r) :: ls ∧
    it.lines = (List.replicate it.indent ' ' ++ it.marker ++ List.replicate it.spaces ' ' ++ c :: r) :: qs ∧
    c ≠ ' ' ∧ c ≠ '\t' ∧ ('\t' ∉ c :: r ∨ it.width % 4 = 0) ∧
    ¬ ThematicBreak (it.marker ++ List.replicate it.spaces ' ' ++ c :: r) ∧ Indented it.width ls qs
  indent : it.indent ≤ 3
  spaces : 1 ≤ it.spaces ∧ it.spaces ≤ 4

/-- The lines of the items that follow the first one. -/
def moreLines (items : List Item) : List Str := items.flatMap fun it => List.replicate it.blank [] ++ it.lines

/-- Every marker is to the left of the text of the item before. -/
def MarkersLeft : Item → List Item → Prop
  | _, [] => True
  | a, b :: r => b.indent < a.width ∧ MarkersLeft b r

/-- There are blank lines between two items, or between two blocks of an item. -/
def loose (first : Item) (more : List Item) : Bool :=
  (first :: more).any (·.gap) || more.any fun it => decide (0 < it.blank)

/-- The HTML of a list. -/
def listHtml (ty : ListType) (first : Item) (more : List Item) : Str :=
  listTag ty first.start ++ "\n".toList ++ (first :: more).flatMap (fun it => itemHtml (!loose first more) it.blocks) ++
    listEnd ty ++ "\n".toList

/-- The line begins with a character that is not a space or tab. -/
def StartsText (l : Str) : Prop := ∃ c r, l = c :: r ∧ c ≠ ' ' ∧ c ≠ '\t'

/-- White space characters. -/
def SpaceChar (c : Char) : Prop := c = ' ' ∨ c = '\t' ∨ c.toNat = 11 ∨ c.toNat = 12

/-- The line starts a block that can interrupt a paragraph: a heading, a code block, an HTML block that is not of type 7, a
thematic break, a block quote, a bullet list or a list that begins with 1. -/
inductive Interrupts : Str → Prop
  | atx {n : Nat} {l : Str} : AtxMarker n l → Interrupts l
  | fence {c : Char} {n : Nat} {info l : Str} : CodeFence c n info l → Interrupts l
  | html {i : Nat} {l : Str} : HtmlOpen i l → i ≠ 7 → Interrupts l
  | rule {l : Str} : ThematicBreak l → Interrupts l
  | quote {r : Str} : Interrupts ('>' :: r)
  | bullet {c x : Char} {k : Nat} {r : Str} : c = '-' ∨ c = '+' ∨ c = '*' → 1 ≤ k → ¬ SpaceChar x →
      Interrupts (c :: (List.replicate k ' ' ++ x :: r))
  | one {d x : Char} {k : Nat} {r : Str} : d = '.' ∨ d = ')' → 1 ≤ k → ¬ SpaceChar x →
      Interrupts ('1' :: d :: (List.replicate k ' ' ++ x :: r))

/-- The line begins with a list marker of this type.  (`isPyDigit`: what Python's `\d` matches.) -/
def SameItem (ty : ListType) (b dl : Option Char) (l : Str) : Prop :=
  match ty with
  | .bullet => ∃ c r, b = some c ∧ l = c :: r ∧ EndOrSpace r
  | .ordered => ∃ num d r, dl = some d ∧ l = num ++ d :: r ∧ (∀ c ∈ num, isPyDigit c = true) ∧ EndOrSpace r

/-- The line `l` begins another block after a block of this kind; `blank`: there are blank lines between. -/
def Follows (k : BKind) (blank : Bool) (l : Str) : Prop :=
  match k with
  | .heading | .rule | .fenced | .html => True
  | .tag => blank = true
  | .para => blank = true ∨ (Interrupts l ∧ ¬ ∃ c, SetextUnderline c l)
  | .quote => blank = true ∨ (Interrupts l ∧ l.head? ≠ some '>')
  | .indented => StartsText l
  | .list ty b dl => StartsText l ∧ ¬ SameItem ty b dl l ∧ (blank = true ∨ Interrupts l)

/-- The tags before the text of fenced code with this info string: its first word is the language. -/
inductive CodeTag : Str → Str → Prop
  | plain {k : Nat} : CodeTag (List.replicate k ' ') "<pre><code>".toList
  | lang {k : Nat} {w r : Str} : w ≠ [] → (∀ c ∈ w, isPySpace c = false) → (∀ c, r.head? = some c → isPySpace c = true) →
      (∀ c ∈ w ++ r, c ≠ '\\' ∧ c ≠ '&' ∧ c ≠ Char.ofNat 0) →
      CodeTag (List.replicate k ' ' ++ (w ++ r)) ("<pre><code class=\"language-".toList ++ escapeXml w ++ "\">".toList)

/-- The HTML of a heading. -/
def headingHtml (n : Nat) (h : Str) : Str :=
  "<h".toList ++ Nat.toDigits 10 n ++ ">".toList ++ h ++ "</h".toList ++ Nat.toDigits 10 n ++ ">\n".toList

/-- The HTML of an HTML block; `safe`: it is left out. -/
def rawHtml (safe : Bool) (ls : List Str) : Str :=
  (if safe then "<!-- raw HTML omitted -->".toList else joinLines ls) ++ "\n".toList

/-- The text ends with number signs that belong to the markup of a heading. -/
def ClosingSequence (t : Str) : Prop := ∃ x k, t = x ++ List.replicate (k + 1) '#' ∧ ∀ c, x.getLast? = some c → c = ' ' ∨ c = '\t'

/-- `Doc safe I ls bs gap`: the lines `ls` are the blocks `bs`; `gap`: there are blank lines between two of them.  `I t h` says that
`h` is the HTML of the inline text `t`; `safe`: raw HTML is left out. -/
inductive Doc (safe : Bool) (I : Str → Str → Prop) : List Str → List Blk → Bool → Prop
  | para {l0 : Str} {ls : List Str} {h : Str} : ParaText l0 ls → I (joinLines (l0 :: ls)) h → h ≠ [] → h.getLast? ≠ some '\n' →
      Doc safe I (l0 :: ls) [⟨.para, h⟩] false
  | heading {n : Nat} {t h : Str} : 1 ≤ n → n ≤ 6 → Char.ofNat 0 ∉ t → (∃ c, t.head? = some c ∧ isPySpace c = false) →
      (∃ c, t.getLast? = some c ∧ isPySpace c = false) → ¬ ClosingSequence t → I t h →
      Doc safe I [List.replicate n '#' ++ ' ' :: t]
        [⟨.heading, headingHtml n h⟩] false
  | setext {l0 u h : Str} {ls : List Str} {c : Char} : ParaText l0 ls → SetextUnderline c u → I (joinLines (l0 :: ls)) h →
      Doc safe I (l0 :: (ls ++ [u])) [⟨.heading, headingHtml (if c = '=' then 1 else 2) h⟩] false
  | rule {l : Str} : ThematicBreak l → Doc safe I [l] [⟨.rule, "<hr />\n".toList⟩] false
  | fenced {c : Char} {f : Nat} {info tag first close : Str} {ls : List Str} : CodeFence c f info first → CodeTag info tag →
      (∀ l ∈ ls, ¬ ClosesFence c f l) → ClosesFence c f close →
      Doc safe I (first :: (ls ++ [close]))
        [⟨.fenced, tag ++ escapeXml (codeLines ls) ++ "</code></pre>\n".toList⟩] false
  | indented {first : Str} {ls xs : List Str} : NotBlank first → List.Forall₂ IndentedAs ls xs →
      (∀ x ∈ (first :: xs).getLast?, NotBlank x) →
      Doc safe I (("    ".toList ++ first) :: ls)
        [⟨.indented, "<pre><code>".toList ++ escapeXml (codeLines (first :: xs)) ++ "</code></pre>\n".toList⟩] false
  | html {i : Nat} {first close : Str} {ls : List Str} : (ls ++ [close]).head? = some first → HtmlStart i first →
      (∀ l ∈ ls, ¬ HtmlEnd i l) → HtmlEnd i close → (∀ l ∈ ls ++ [close], Char.ofNat 0 ∉ l) →
      Doc safe I (ls ++ [close]) [⟨.html, rawHtml safe (ls ++ [close])⟩] false
  | tag {i : Nat} {first : Str} {ls : List Str} : HtmlStart i first → i = 6 ∨ i = 7 → (∀ l ∈ ls, NotBlank l) →
      (∀ l ∈ first :: ls, Char.ofNat 0 ∉ l) → Doc safe I (first :: ls) [⟨.tag, rawHtml safe (first :: ls)⟩] false
  | quote {ls qs : List Str} {bs : List Blk} {g : Bool} : Doc safe I ls bs g → Quoted ls qs →
      Doc safe I qs [⟨.quote, "<blockquote>\n".toList ++ docHtml bs ++ "</blockquote>\n".toList⟩] false
  | list {ty : ListType} {b dl : Option Char} {first : Item} {more : List Item} :
      (∀ it ∈ first :: more, Doc safe I it.text it.blocks it.gap) → (∀ it ∈ first :: more, it.Ok ty b dl) → MarkersLeft first more →
      Doc safe I (first.lines ++ moreLines more) [⟨.list ty b dl, listHtml ty first more⟩] false
  | join {as bs : List Str} {l : Str} {n : Nat} {xs ys : List Blk} {x : Blk} {g g' : Bool} : Doc safe I as xs g →
      Doc safe I (l :: bs) ys g' → xs.getLast? = some x → Char.ofNat 0 ∉ l → Follows x.kind (decide (0 < n)) l →
      Doc safe I (as ++ List.replicate n [] ++ l :: bs) (xs ++ ys) (g || g' || decide (0 < n))

end Spec
