import Verif.Spec.Refs
import Verif.Spec.Source
import Verif.Spec.ParaText
/-
A grammar of inline text with emphasis, links and images, nested to any depth, and the HTML of everything in it.
`Phrase` is a relation between the text and what it stands for; it says nothing about how that is found.
-/
namespace Spec
open CM

/-- Inline content. -/
inductive Span where
  | text (s : Str)
  | code (s : Str)
  | html (s : Str)
  | autolink (dest label : Str)
  | soft
  | hard
  | emph (xs : List Span)
  | strong (xs : List Span)
  | link (dest title : Str) (xs : List Span)
  | image (dest title : Str) (xs : List Span)

mutual
/-- The node for a span. -/
def spanTree : Span → Tree
  | .text s => .node { t := .text, literal := some s } []
  | .code s => .node { t := .code, literal := some s } []
  | .html s => .node { t := .htmlInline, literal := some s } []
  | .autolink d l => .node { t := .link, destination := some (normalizeUri d), title := some [] }
      [.node { t := .text, literal := some l } []]
  | .soft => .node { t := .softbreak } []
  | .hard => .node { t := .linebreak } []
  | .emph xs => .node { t := .emph } (spanTrees xs)
  | .strong xs => .node { t := .strong } (spanTrees xs)
  | .link d t xs => .node { t := .link, destination := some d, title := some t } (spanTrees xs)
  | .image d t xs => .node { t := .image, destination := some d, title := some t } (spanTrees xs)
def spanTrees : List Span → List Tree
  | [] => []
  | x :: xs => spanTree x :: spanTrees xs
end

mutual
/-- There is a link (not an autolink) in it. -/
def hasLink : Span → Bool
  | .link _ _ _ => true
  | .emph xs | .strong xs | .image _ _ xs => anyLink xs
  | _ => false
def anyLink : List Span → Bool
  | [] => false
  | x :: xs => hasLink x || anyLink xs
end

/-! ### HTML -/

/-- What is written for raw HTML; `safe`: it is left out. -/
def tagHtml (safe : Bool) (s : Str) : Str := if safe then "<!-- raw HTML omitted -->".toList else s

mutual
/-- What is written of a span in the description of an image; `none` for a hard line break. -/
def altParts (safe : Bool) (soft : Str) : Span → List (Option Str)
  | .text s | .code s => [some (escapeXml s)]
  | .html s => [some (tagHtml safe s)]
  | .autolink _ l => [some (escapeXml l)]
  | .soft => [some soft]
  | .hard => [none]
  | .emph xs | .strong xs | .link _ _ xs | .image _ _ xs => altPartsList safe soft xs
def altPartsList (safe : Bool) (soft : Str) : List Span → List (Option Str)
  | [] => []
  | x :: xs => altParts safe soft x ++ altPartsList safe soft xs
end

/-- A hard line break is a line ending, if there is not one before it.  `last`: what was written last. -/
def writeAlt : Str → List (Option Str) → Str
  | _, [] => []
  | _, some s :: r => s ++ writeAlt s r
  | last, none :: r => if last = ['\n'] then writeAlt last r else '\n' :: writeAlt ['\n'] r

/-- The attribute for a title. -/
def titleAttr (t : Str) : Str := if t = [] then [] else " title=\"".toList ++ escapeXml t ++ "\"".toList

/-- Text between a start tag and an end tag. -/
def tagged (a : String) (x : Str) (b : String) : Str := a.toList ++ x ++ b.toList

/-- Is the address left out?  In safe mode those are that `potentiallyUnsafe` is true of (see C09). -/
def blockedUrl (safe : Bool) (d : Str) : Bool := safe && potentiallyUnsafe d

/-- The attribute for the address of a link. -/
def hrefAttr (safe : Bool) (d : Str) : Str := if blockedUrl safe d then [] else " href=\"".toList ++ escapeXml d ++ "\"".toList

/-- The HTML of a link, with this text. -/
def linkHtml (safe : Bool) (d t x : Str) : Str :=
  "<a".toList ++ hrefAttr safe d ++ titleAttr t ++ ">".toList ++ x ++ "</a>".toList

/-- The HTML of an image, with this description. -/
def imageHtml (safe : Bool) (d t x : Str) : Str :=
  "<img src=\"".toList ++ (if blockedUrl safe d then [] else escapeXml d) ++ "\" alt=\"".toList ++ x ++ "\"".toList ++ titleAttr t ++ " />".toList

/-- The HTML of a hard line break. -/
def breakHtml : Str := "<br />\n".toList

mutual
/-- The HTML of a span; `safe`: in safe mode.  `soft`: what is written for a soft line break. -/
def spanHtml (safe : Bool) (soft : Str) : Span → Str
  | .text s => escapeXml s
  | .code s => tagged "<code>" (escapeXml s) "</code>"
  | .html s => tagHtml safe s
  | .autolink d l => linkHtml safe (normalizeUri d) [] (escapeXml l)
  | .soft => soft
  | .hard => breakHtml
  | .emph xs => tagged "<em>" (spansHtml safe soft xs) "</em>"
  | .strong xs => tagged "<strong>" (spansHtml safe soft xs) "</strong>"
  | .link d t xs => linkHtml safe d t (spansHtml safe soft xs)
  | .image d t xs => imageHtml safe d t (writeAlt [] (altPartsList safe soft xs))
def spansHtml (safe : Bool) (soft : Str) : List Span → Str
  | [] => []
  | x :: xs => spanHtml safe soft x ++ spansHtml safe soft xs
end

/-! ### The grammar -/

/-- What the option `smart` makes of `n` hyphens: em dashes (three hyphens) and en dashes (two); only em dashes if that is possible, else
only en dashes if that is possible, else as few en dashes as possible (see C36). -/
def dashes (n : Nat) : Str :=
  if n ≤ 1 then List.replicate n '-'
  else if n % 3 = 0 then List.replicate (n / 3) '—'
  else if n % 2 = 0 then List.replicate (n / 2) '–'
  else if n % 3 = 2 then List.replicate ((n - 2) / 3) '—' ++ ['–']
  else List.replicate ((n - 4) / 3) '—' ++ ['–', '–']

/-- What ordinary characters stand for; with the option `smart`, `...` is an ellipsis and hyphens make dashes. -/
def typeset : Bool → Str → Str
  | false, m => m
  | true, m => mapRuns '-' dashes 0 (ellipses m)

/-- `Atom smart t k xs`: with or without the option `smart`, before the rest `k` of the text, `t` stands for `xs`, without emphasis and brackets. -/
inductive Atom (smart : Bool) : Str → Str → List Span → Prop
  /-- Ordinary characters up to something else on the same line. -/
  | plain {m k : Str} : m ≠ [] → (∀ c ∈ m, Ordinary c) → (∀ c, k.head? = some c → ¬ Ordinary c ∧ c ≠ '\n') →
      Atom smart m k [.text (typeset smart m)]
  /-- Ordinary characters at the end of a line: spaces before the line ending are dropped, two or more make a hard line
  break; spaces at the beginning of the next line are dropped. -/
  | lineEnd {m k : Str} {i j : Nat} : (m ≠ [] ∨ 1 ≤ i) → (∀ c ∈ m, Ordinary c) → m.getLast? ≠ some ' ' → k.head? ≠ some ' ' →
      Atom smart (m ++ (List.replicate i ' ' ++ '\n' :: List.replicate j ' ')) k [.text (typeset smart m), if 2 ≤ i then .hard else .soft]
  /-- A line ending directly after something else. -/
  | newline {k : Str} {j : Nat} : k.head? ≠ some ' ' → Atom smart ('\n' :: List.replicate j ' ') k [.soft]
  /-- A backslash before ASCII punctuation. -/
  | escape {k : Str} {c : Char} : c ∈ asciiPunctuation → Atom smart ['\\', c] k [.text [c]]
  /-- A backslash before anything else. -/
  | backslash {k : Str} : (∀ c, k.head? = some c → c ∉ asciiPunctuation ∧ c ≠ '\n') → Atom smart ['\\'] k [.text ['\\']]
  /-- A backslash at the end of a line. -/
  | hardBreak {k : Str} : Atom smart ['\\', '\n'] k [.hard]
  /-- A code span. -/
  | code {x y k : Str} {n : Nat} : 1 ≤ n → x ≠ [] → x.head? ≠ some '`' → x.getLast? ≠ some '`' → NoTicks n x →
      k.head? ≠ some '`' → CodeText x y → Atom smart (List.replicate n '`' ++ (x ++ List.replicate n '`')) k [.code y]
  /-- Backticks that are not closed. -/
  | ticks {k : Str} {n : Nat} : 1 ≤ n → k.head? ≠ some '`' → NoTicks n k →
      Atom smart (List.replicate n '`') k [.text (List.replicate n '`')]
  /-- An autolink. -/
  | uri {u k : Str} : AutoUri u → Atom smart ('<' :: (u ++ ['>'])) k [.autolink u u]
  /-- An e-mail autolink. -/
  | email {u k : Str} : EmailAddress u → Atom smart ('<' :: (u ++ ['>'])) k [.autolink ("mailto:".toList ++ u) u]
  /-- Raw HTML, where there is no autolink. -/
  | html {m k : Str} : HtmlTag m → (¬ ∃ u r, m ++ k = '<' :: (u ++ '>' :: r) ∧ (AutoUri u ∨ EmailAddress u)) → Atom smart m k [.html m]
  /-- A less-than sign that starts neither. -/
  | less {k : Str} : (¬ ∃ m r, '<' :: k = m ++ r ∧ AngleForm m) → Atom smart ['<'] k [.text ['<']]
  /-- A character reference. -/
  | ref {m x k : Str} : Decodes m x → (k.head? = some '\n' → x ≠ [] ∧ x.getLast? ≠ some ' ') → Atom smart m k [.text x]
  /-- An ampersand that starts no reference. -/
  | amp {k : Str} : (¬ ∃ m r, '&' :: k = m ++ r ∧ RefForm m) → Atom smart ['&'] k [.text ['&']]
  /-- Quotation marks, without `smart`. -/
  | quote {k : Str} {c : Char} : smart = false → c = '\'' ∨ c = '"' → Atom smart [c] k [.text [c]]
  /-- An exclamation mark that is not before a bracket. -/
  | bang {k : Str} : k.head? ≠ some '[' → Atom smart ['!'] k [.text ['!']]

/-- `n` delimiters on both sides: pairs make strong emphasis, the innermost first, and an odd one makes emphasis. -/
def emphasis : Nat → List Span → List Span
  | 0, xs => xs
  | 1, xs => [.emph xs]
  | n + 2, xs => emphasis n [.strong xs]

/-- `Target refs x w k dest title`: after the link text `x` in brackets and before the rest `k`, `w` makes it a link with
this destination and title.  `refs` has the definitions of the normal forms of labels.  (A destination that ends in a
backslash is not covered directly before `)`.) -/
inductive Target (refs : Str → Option RefDef) (x : Str) : Str → Str → Str → Str → Prop
  | inline {s1 d raw s2 k : Str} : Spnl s1 → Destination d raw (s2 ++ ')' :: k) → Spnl s2 →
      (s2 = [] → d.getLast? ≠ some '\\') →
      Target refs x ('(' :: (s1 ++ (d ++ (s2 ++ [')'])))) k (normalizeUri (unescapeString raw)) []
  | titled {s1 d raw s2 tl y s3 k : Str} : Spnl s1 → Destination d raw (s2 ++ (tl ++ (s3 ++ ')' :: k))) → Spnl s2 → s2 ≠ [] →
      ClearTitle tl y → Spnl s3 →
      Target refs x ('(' :: (s1 ++ (d ++ (s2 ++ (tl ++ (s3 ++ [')'])))))) k (normalizeUri (unescapeString raw)) (unescapeString y)
  | full {l k dest title : Str} : LinkLabel l → 2 < l.length → refs (normalizeReference l) = some ⟨dest, title⟩ →
      Target refs x l k dest title
  | collapsed {k dest title : Str} : refs (normalizeReference ('[' :: (x ++ [']']))) = some ⟨dest, title⟩ →
      Target refs x ['[', ']'] k dest title
  | shortcut {k dest title : Str} : refs (normalizeReference ('[' :: (x ++ [']']))) = some ⟨dest, title⟩ →
      k.head? ≠ some '(' → k.head? ≠ some '[' → Target refs x [] k dest title

/-- The bracket that begins a link or an image. -/
def opening (image : Bool) : Str := if image then ['!', '['] else ['[']

/-- A quotation mark between these characters opens: it is left-flanking and not right-flanking. -/
def OpensQuote (before after : Option Char) : Prop :=
  LeftFlanking (isPySpace · = true) (isPunct · = true) before after ∧ ¬ RightFlanking (isPySpace · = true) (isPunct · = true) before after

/-- `Phrase smart refs E b t k xs`: with or without the option `smart`, between the text `b` and the rest `k`, the text `t` stands for `xs`.  `E`: the delimiter
characters of emphasis (and single quotation marks) that the text stands in (up to the next link text or image description). -/
inductive Phrase (smart : Bool) (refs : Str → Option RefDef) : List Char → Str → Str → Str → List Span → Prop
  | nil {E : List Char} {b k : Str} : Phrase smart refs E b [] k []
  | atom {E : List Char} {b t k : Str} {xs : List Span} : Atom smart t k xs → Phrase smart refs E b t k xs
  | seq {E : List Char} {b t u k : Str} {xs ys : List Span} : Phrase smart refs E b t (u ++ k) xs → Phrase smart refs E (b ++ t) u k ys →
      Phrase smart refs E b (t ++ u) k (xs ++ ys)
  /-- A run of delimiters that cannot open emphasis and has none to close. -/
  | delims {E : List Char} {b k : Str} {n : Nat} {c : Char} : 1 ≤ n → c = '*' ∨ c = '_' → k.head? ≠ some c →
      ¬ CanOpen (isPySpace · = true) (isPunct · = true) c b.getLast? k.head? →
      (¬ CanClose (isPySpace · = true) (isPunct · = true) c b.getLast? k.head? ∨ c ∉ E) →
      Phrase smart refs E b (List.replicate n c) k [.text (List.replicate n c)]
  /-- Emphasis: a run that can open emphasis (and has none to close), and as long a run that can close it. -/
  | emph {E : List Char} {b x k : Str} {n : Nat} {c : Char} {xs : List Span} : 1 ≤ n → c = '*' ∨ c = '_' →
      (x ++ List.replicate n c).head? ≠ some c → k.head? ≠ some c →
      CanOpen (isPySpace · = true) (isPunct · = true) c b.getLast? (x ++ List.replicate n c).head? →
      (¬ CanClose (isPySpace · = true) (isPunct · = true) c b.getLast? (x ++ List.replicate n c).head? ∨ c ∉ E) →
      CanClose (isPySpace · = true) (isPunct · = true) c (b ++ List.replicate n c ++ x).getLast? k.head? →
      Phrase smart refs (c :: E) (b ++ List.replicate n c) x (List.replicate n c ++ k) xs →
      Phrase smart refs E b (List.replicate n c ++ (x ++ List.replicate n c)) k (emphasis n xs)
  /-- With `smart`: a double quotation mark becomes a closing one if it is right-flanking, else an opening one. -/
  | doubleClose {E : List Char} {b k : Str} : smart = true →
      RightFlanking (isPySpace · = true) (isPunct · = true) b.getLast? k.head? → Phrase smart refs E b ['"'] k [.text ['”']]
  | doubleOpen {E : List Char} {b k : Str} : smart = true →
      ¬ RightFlanking (isPySpace · = true) (isPunct · = true) b.getLast? k.head? → Phrase smart refs E b ['"'] k [.text ['“']]
  /-- With `smart`: an apostrophe, which cannot open (and has nothing to close). -/
  | apostrophe {E : List Char} {b k : Str} : smart = true → ¬ OpensQuote b.getLast? k.head? →
      (¬ RightFlanking (isPySpace · = true) (isPunct · = true) b.getLast? k.head? ∨ '\'' ∉ E) →
      Phrase smart refs E b ['\''] k [.text ['’']]
  /-- With `smart`: single quotation marks around something. -/
  | single {E : List Char} {b x k : Str} {xs : List Span} : smart = true → '\'' ∉ E → OpensQuote b.getLast? (x ++ ['\'']).head? →
      RightFlanking (isPySpace · = true) (isPunct · = true) (b ++ ['\''] ++ x).getLast? k.head? →
      Phrase smart refs ('\'' :: E) (b ++ ['\'']) x ('\'' :: k) xs →
      Phrase smart refs E b ('\'' :: (x ++ ['\''])) k (.text ['‘'] :: (xs ++ [.text ['’']]))
  /-- A link or an image.  A link text has no links in it. -/
  | link {E : List Char} {b x w k dest title : Str} {image : Bool} {xs : List Span} :
      Phrase smart refs [] (b ++ opening image) x (']' :: (w ++ k)) xs → Target refs x w k dest title →
      (image = false → anyLink xs = false) →
      Phrase smart refs E b (opening image ++ (x ++ ']' :: w)) k [if image then .image dest title xs else .link dest title xs]
  /-- Brackets that make no link: nothing follows that could give a destination and there is no definition, or there is
  a link between them. -/
  | brackets {E : List Char} {b x k : Str} {image : Bool} {xs : List Span} :
      Phrase smart refs E (b ++ opening image) x (']' :: k) xs →
      (image = false ∧ anyLink xs = true ∨ k.head? ≠ some '(' ∧ k.head? ≠ some '[' ∧
        refs (normalizeReference ('[' :: (x ++ [']']))) = none) →
      Phrase smart refs E b (opening image ++ (x ++ [']'])) k (.text (opening image) :: (xs ++ [.text [']']]))

/-- `h` is the HTML of the inline text `t`, with these definitions. -/
def PhraseWith (smart : Bool) (o : HtmlOpts) (refs : Str → Option RefDef) (t h : Str) : Prop :=
  ∃ xs, Phrase smart refs [] [] t [] xs ∧ h = spansHtml o.safe o.softbreak xs

/-- `h` is the HTML of the inline text `t`, without link reference definitions. -/
def PhraseHtml (smart : Bool) (o : HtmlOpts) : Str → Str → Prop := PhraseWith smart o fun _ => none

end Spec
