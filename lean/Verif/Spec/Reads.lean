import Verif.Spec.Escapes
import Verif.Model.Inlines
/-
How CommonMark reads the text of a paragraph that has no emphasis and no link in brackets: code spans,
autolinks, raw text, backslash escapes, character references, line breaks.  `Reads` is a relation between the text and
the pieces it is made of; it says nothing about how they are found.
-/
namespace Spec
open CM

/-- A piece of inline content. -/
inductive Piece where
  | text (s : Str)
  | code (s : Str)
  | link (dest label : Str)
  | soft
  | hard
deriving DecidableEq, Repr

/-- The node for a piece. -/
def pieceTree : Piece → Tree
  | .text s => .node { t := .text, literal := some s } []
  | .code s => .node { t := .code, literal := some s } []
  | .link d l => .node { t := .link, destination := some (normalizeUri d), title := some [] }
      [.node { t := .text, literal := some l } []]
  | .soft => .node { t := .softbreak } []
  | .hard => .node { t := .linebreak } []

/-- No meaning of its own in inline text. -/
def Ordinary (c : Char) : Prop := c ∉ "\n`[]\\!<&*_'\"".toList

/-- `s` has no maximal run of exactly `n` backticks. -/
def NoTicks (n : Nat) (s : Str) : Prop :=
  ¬ ∃ a b, s = a ++ (List.replicate n '`' ++ b) ∧ a.getLast? ≠ some '`' ∧ b.head? ≠ some '`'

/-- Line endings are spaces. -/
def flatLines (s : Str) : Str := s.map fun c => if c = '\n' then ' ' else c

/-- The text of a code span with `x` between the backticks: line endings are spaces, and one space is dropped on each
side if there is one on both sides and `x` is not all spaces. -/
def CodeText (x y : Str) : Prop :=
  (flatLines x = ' ' :: (y ++ [' ']) ∧ ∃ c ∈ y, c ≠ ' ') ∨
  (flatLines x = y ∧ ¬ ∃ z, flatLines x = ' ' :: (z ++ [' ']) ∧ ∃ c ∈ z, c ≠ ' ')

/-- ASCII letters and digits. -/
def AsciiLetter (c : Char) : Prop := ('a' ≤ c ∧ c ≤ 'z') ∨ ('A' ≤ c ∧ c ≤ 'Z')
def AsciiAlnum (c : Char) : Prop := AsciiLetter c ∨ ('0' ≤ c ∧ c ≤ '9')

/-- An absolute URI in the sense of the specification: a scheme of 2-32 characters, a colon, and no white space, control
character, `<` or `>`. -/
def AbsoluteUri (u : Str) : Prop :=
  ∃ a s r, u = a :: s ++ ':' :: r ∧ AsciiLetter a ∧ 1 ≤ s.length ∧ s.length ≤ 31 ∧
    (∀ c ∈ s, AsciiAlnum c ∨ c = '+' ∨ c = '.' ∨ c = '-') ∧
    ∀ c ∈ r, 0x20 < c.toNat ∧ c ≠ '<' ∧ c ≠ '>'

/-- A label of a domain name: 1-63 letters, digits and hyphens, with a letter or digit at both ends. -/
def DomainLabel (l : Str) : Prop :=
  l.length ≤ 63 ∧ (∀ c ∈ l, AsciiAlnum c ∨ c = '-') ∧ (∃ c, l.head? = some c ∧ AsciiAlnum c) ∧
    ∃ c, l.getLast? = some c ∧ AsciiAlnum c

/-- A domain name. -/
inductive Domain : Str → Prop
  | one {l : Str} : DomainLabel l → Domain l
  | dot {l d : Str} : DomainLabel l → Domain d → Domain (l ++ '.' :: d)

/-- An e-mail address in the sense of the specification. -/
def EmailAddress (m : Str) : Prop :=
  ∃ u d, m = u ++ '@' :: d ∧ u ≠ [] ∧ (∀ c ∈ u, AsciiAlnum c ∨ c ∈ ".!#$%&'*+/=?^_`{|}~-".toList) ∧ Domain d

/-- A letter of an entity name.  (The code also takes four other characters for letters.) -/
def NameLetter (c : Char) : Prop :=
  AsciiLetter c ∨ c.toNat = 0x130 ∨ c.toNat = 0x131 ∨ c.toNat = 0x17F ∨ c.toNat = 0x212A

/-- The name in a named reference, with the semicolon. -/
def RefName (m : Str) : Prop :=
  ∃ x ds, m = x :: (ds ++ [';']) ∧ NameLetter x ∧ 1 ≤ ds.length ∧ ds.length ≤ 31 ∧
    ∀ c ∈ ds, NameLetter c ∨ ('0' ≤ c ∧ c ≤ '9')

/-- `m` has the form of a character reference. -/
def RefForm (m : Str) : Prop := (∃ n, NumericRef m n) ∨ ∃ nm, m = '&' :: nm ∧ RefName nm

/-- The text that the reference `m` stands for.  (See C26 for where this differs from the specification.) -/
inductive Decodes : Str → Str → Prop
  | char {m : Str} {n : Nat} : NumericRef m n → ¬ NoCharacter n → ¬ Refused n → (∀ v, (n, v) ∉ windows1252) →
      Decodes m [Char.ofNat n]
  | bad {m : Str} {n : Nat} : NumericRef m n → NoCharacter n → Decodes m [Char.ofNat 0xFFFD]
  | c1 {m : Str} {n v : Nat} : NumericRef m n → (n, v) ∈ windows1252 → Decodes m [Char.ofNat v]
  | refused {m : Str} {n : Nat} : NumericRef m n → Refused n → Decodes m []
  | known {e : String × List Nat} : e ∈ html5Tab → e.1.toList.getLast? = some ';' →
      Decodes ('&' :: e.1.toList) (e.2.map Char.ofNat)
  | unknown {nm : Str} : RefName nm → (∀ e ∈ html5Tab, ∀ k, 2 ≤ k → e.1.toList ≠ nm.take k) →
      Decodes ('&' :: nm) ('&' :: nm)
  /-- An unknown name of which a part is known: the longest such part is replaced. -/
  | shorter {nm : Str} {e : String × List Nat} {k : Nat} : RefName nm → e ∈ html5Tab → 2 ≤ k → k < nm.length →
      e.1.toList = nm.take k → (∀ e' ∈ html5Tab, ∀ k', k < k' → e'.1.toList ≠ nm.take k') →
      Decodes ('&' :: nm) (e.2.map Char.ofNat ++ nm.drop k)

/-- `Reads op before s ps`: after the text `before`, the text `s` consists of the pieces `ps`.  With `op = true` no
delimiter run of the text can close emphasis, with `op = false` none can open it. -/
inductive Reads (op : Bool) : Str → Str → List Piece → Prop
  | nil {b : Str} : Reads op b [] []
  /-- Ordinary characters up to something else on the same line. -/
  | plain {b m t : Str} {ps : List Piece} : m ≠ [] → (∀ c ∈ m, Ordinary c) →
      (∀ c, t.head? = some c → ¬ Ordinary c ∧ c ≠ '\n') → Reads op (b ++ m) t ps →
      Reads op b (m ++ t) (.text m :: ps)
  /-- Ordinary characters at the end of a line: spaces before the line ending are dropped, two or more make a hard line
  break; spaces at the beginning of the next line are dropped. -/
  | lineEnd {b m t : Str} {k j : Nat} {ps : List Piece} : (m ≠ [] ∨ 1 ≤ k) → (∀ c ∈ m, Ordinary c) →
      m.getLast? ≠ some ' ' → t.head? ≠ some ' ' →
      Reads op (b ++ (m ++ (List.replicate k ' ' ++ '\n' :: List.replicate j ' '))) t ps →
      Reads op b (m ++ (List.replicate k ' ' ++ '\n' :: List.replicate j ' ') ++ t)
        (.text m :: (if 2 ≤ k then .hard else .soft) :: ps)
  /-- A line ending directly after something else. -/
  | newline {b t : Str} {j : Nat} {ps : List Piece} : t.head? ≠ some ' ' →
      Reads op (b ++ '\n' :: List.replicate j ' ') t ps →
      Reads op b ('\n' :: List.replicate j ' ' ++ t) (.soft :: ps)
  /-- A backslash before ASCII punctuation. -/
  | escape {b t : Str} {c : Char} {ps : List Piece} : c ∈ asciiPunctuation → Reads op (b ++ ['\\', c]) t ps →
      Reads op b ('\\' :: c :: t) (.text [c] :: ps)
  /-- A backslash before anything else. -/
  | backslash {b t : Str} {ps : List Piece} : (∀ c, t.head? = some c → c ∉ asciiPunctuation ∧ c ≠ '\n') →
      Reads op (b ++ ['\\']) t ps → Reads op b ('\\' :: t) (.text ['\\'] :: ps)
  /-- A backslash at the end of a line. -/
  | hardBreak {b t : Str} {ps : List Piece} : Reads op (b ++ ['\\', '\n']) t ps →
      Reads op b ('\\' :: '\n' :: t) (.hard :: ps)
  /-- A code span. -/
  | code {b x y t : Str} {n : Nat} {ps : List Piece} : 1 ≤ n → x ≠ [] → x.head? ≠ some '`' → x.getLast? ≠ some '`' →
      NoTicks n x → t.head? ≠ some '`' → CodeText x y →
      Reads op (b ++ (List.replicate n '`' ++ (x ++ List.replicate n '`'))) t ps →
      Reads op b (List.replicate n '`' ++ (x ++ List.replicate n '`') ++ t) (.code y :: ps)
  /-- Backticks that are not closed. -/
  | ticks {b t : Str} {n : Nat} {ps : List Piece} : 1 ≤ n → t.head? ≠ some '`' → NoTicks n t →
      Reads op (b ++ List.replicate n '`') t ps →
      Reads op b (List.replicate n '`' ++ t) (.text (List.replicate n '`') :: ps)
  /-- An autolink. -/
  | uri {b u t : Str} {ps : List Piece} : AbsoluteUri u → Reads op (b ++ ('<' :: (u ++ ['>']))) t ps →
      Reads op b ('<' :: (u ++ ['>']) ++ t) (.link u u :: ps)
  /-- An e-mail autolink. -/
  | email {b u t : Str} {ps : List Piece} : EmailAddress u → Reads op (b ++ ('<' :: (u ++ ['>']))) t ps →
      Reads op b ('<' :: (u ++ ['>']) ++ t) (.link ("mailto:".toList ++ u) u :: ps)
  /-- A less-than sign that cannot start anything. -/
  | less {b t : Str} {ps : List Piece} : (∀ c, t.head? = some c → c ∈ " \n<>\"(),:;@[\\]".toList) →
      Reads op (b ++ ['<']) t ps → Reads op b ('<' :: t) (.text ['<'] :: ps)
  /-- A character reference. -/
  | ref {b m x t : Str} {ps : List Piece} : Decodes m x →
      (t.head? = some '\n' → x ≠ [] ∧ x.getLast? ≠ some ' ') → Reads op (b ++ m) t ps →
      Reads op b (m ++ t) (.text x :: ps)
  /-- An ampersand that starts no reference. -/
  | amp {b t : Str} {ps : List Piece} : (¬ ∃ m r, '&' :: t = m ++ r ∧ RefForm m) → Reads op (b ++ ['&']) t ps →
      Reads op b ('&' :: t) (.text ['&'] :: ps)
  /-- Quotation marks. -/
  | quote {b t : Str} {c : Char} {ps : List Piece} : c = '\'' ∨ c = '"' → Reads op (b ++ [c]) t ps →
      Reads op b (c :: t) (.text [c] :: ps)
  /-- An exclamation mark that is not before a bracket. -/
  | bang {b t : Str} {ps : List Piece} : t.head? ≠ some '[' → Reads op (b ++ ['!']) t ps →
      Reads op b ('!' :: t) (.text ['!'] :: ps)
  /-- An opening bracket (there are no link reference definitions, and no closing bracket is followed by a
  parenthesis). -/
  | openB {b t : Str} {ps : List Piece} : Reads op (b ++ ['[']) t ps → Reads op b ('[' :: t) (.text ['['] :: ps)
  | openImg {b t : Str} {ps : List Piece} : Reads op (b ++ ['!', '[']) t ps →
      Reads op b ('!' :: '[' :: t) (.text ['!', '['] :: ps)
  /-- A closing bracket. -/
  | closeB {b t : Str} {ps : List Piece} : t.head? ≠ some '(' → Reads op (b ++ [']']) t ps →
      Reads op b (']' :: t) (.text [']'] :: ps)
  /-- A run of delimiters that makes no emphasis. -/
  | delims {b t : Str} {n : Nat} {c : Char} {ps : List Piece} : 1 ≤ n → c = '*' ∨ c = '_' → t.head? ≠ some c →
      (op = true → ¬ CanClose (isPySpace · = true) (isPunct · = true) c b.getLast? t.head?) →
      (op = false → ¬ CanOpen (isPySpace · = true) (isPunct · = true) c b.getLast? t.head?) →
      Reads op (b ++ List.replicate n c) t ps →
      Reads op b (List.replicate n c ++ t) (.text (List.replicate n c) :: ps)

end Spec
