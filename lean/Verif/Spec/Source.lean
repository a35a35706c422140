import Verif.Spec.Reads
/-
What the inline nodes of a paragraph or heading stand for.  `Source` relates nodes to the stretch of text they are made
from.  It says what every node is made of; it does not say how the parser finds it.
-/
namespace Spec
open CM

/-! ### Raw HTML, /repo/spec.txt "Raw HTML"

White space is any character that Python's `\s` matches, and four more characters count as letters (`NameLetter`). -/

def Digit (c : Char) : Prop := '0' ≤ c ∧ c ≤ '9'

def Blank (s : Str) : Prop := ∀ c ∈ s, isPySpace c = true

def TagName (s : Str) : Prop :=
  ∃ a r, s = a :: r ∧ NameLetter a ∧ ∀ c ∈ r, NameLetter c ∨ Digit c ∨ c = '-'

def AttributeName (s : Str) : Prop :=
  ∃ a r, s = a :: r ∧ (NameLetter a ∨ a = '_' ∨ a = ':') ∧
    ∀ c ∈ r, NameLetter c ∨ Digit c ∨ c = '_' ∨ c = '.' ∨ c = ':' ∨ c = '-'

inductive AttributeValue : Str → Prop
  | unquoted {v : Str} : v ≠ [] → (∀ c ∈ v, 0x20 < c.toNat ∧ c ∉ "\"'=<>`".toList) → AttributeValue v
  | single {v : Str} : '\'' ∉ v → AttributeValue ('\'' :: (v ++ ['\'']))
  | double {v : Str} : '"' ∉ v → AttributeValue ('"' :: (v ++ ['"']))

inductive Attribute : Str → Prop
  | name {w n : Str} : w ≠ [] → Blank w → AttributeName n → Attribute (w ++ n)
  | value {w n w1 w2 v : Str} : w ≠ [] → Blank w → AttributeName n → Blank w1 → Blank w2 → AttributeValue v →
      Attribute (w ++ (n ++ (w1 ++ '=' :: (w2 ++ v))))

inductive Attributes : Str → Prop
  | nil : Attributes []
  | cons {a s : Str} : Attribute a → Attributes s → Attributes (a ++ s)

/-- A piece of raw HTML. -/
inductive HtmlTag : Str → Prop
  | opening {n as w sl : Str} : TagName n → Attributes as → Blank w → sl = [] ∨ sl = ['/'] →
      HtmlTag ('<' :: (n ++ (as ++ (w ++ (sl ++ ['>'])))))
  | closing {n w : Str} : TagName n → Blank w → HtmlTag ('<' :: '/' :: (n ++ (w ++ ['>'])))
  /-- A comment does not start with `>` or `->`, does not end with `-`, and does not contain `--`. -/
  | comment {x : Str} : x.head? ≠ some '>' → ¬ ['-', '>'] <+: x → x.getLast? ≠ some '-' → ¬ ['-', '-'] <:+: x →
      HtmlTag ("<!--".toList ++ (x ++ "-->".toList))
  /-- A processing instruction, up to the first `?>`.  (On one line; the specification allows more.) -/
  | instruction {x : Str} : '\n' ∉ x → ¬ ['?', '>'] <:+: x ++ ['?'] → HtmlTag ("<?".toList ++ (x ++ "?>".toList))
  /-- A declaration.  (The specification wants capital letters.) -/
  | declaration {n w x : Str} : n ≠ [] → (∀ c ∈ n, NameLetter c) → w ≠ [] → Blank w → '>' ∉ x →
      HtmlTag ('<' :: '!' :: (n ++ (w ++ (x ++ ['>']))))
  /-- A CDATA section, up to the first `]]>`.  (In any case; the specification wants capital letters.) -/
  | cdata {w x : Str} : w.map Char.toLower = "<![cdata[".toList → ¬ "]]>".toList <:+: x ++ "]]".toList →
      HtmlTag (w ++ (x ++ "]]>".toList))

/-! ### Autolinks -/

/-- A URI as it is accepted in an autolink: `AbsoluteUri`, with four more letters in the scheme. -/
def AutoUri (u : Str) : Prop :=
  ∃ a s r, u = a :: s ++ ':' :: r ∧ NameLetter a ∧ 1 ≤ s.length ∧ s.length ≤ 31 ∧
    (∀ c ∈ s, NameLetter c ∨ Digit c ∨ c = '+' ∨ c = '.' ∨ c = '-') ∧ ∀ c ∈ r, 0x20 < c.toNat ∧ c ≠ '<' ∧ c ≠ '>'

/-- `m` is an autolink or a piece of raw HTML. -/
def AngleForm (m : Str) : Prop :=
  (∃ u, m = '<' :: (u ++ ['>']) ∧ (AutoUri u ∨ EmailAddress u)) ∨ HtmlTag m

/-! ### Delimiter runs -/

/-- A delimiter run of `n` characters `c` at position `p` of `S`. -/
structure DelimRun (S : Str) (c : Char) (p n : Nat) : Prop where
  pos : 1 ≤ n
  here : ∃ r, S.drop p = List.replicate n c ++ r ∧ r.head? ≠ some c
  /-- It is not preceded by the same character, unless that is escaped. -/
  start : (S.take p).getLast? = some c → ∃ x, S.take p = x ++ ['\\', c]

/-- The run can open (close) emphasis, by the rules of flanking. -/
def RunOpens (S : Str) (c : Char) (p n : Nat) : Prop :=
  CanOpen (isPySpace · = true) (isPunct · = true) c (S.take p).getLast? (S.drop (p + n)).head?
def RunCloses (S : Str) (c : Char) (p n : Nat) : Prop :=
  CanClose (isPySpace · = true) (isPunct · = true) c (S.take p).getLast? (S.drop (p + n)).head?

/-- The `k` delimiters `c` at `i` open emphasis that the `k` delimiters at `j` close: they are from two runs, the first
can open and the second can close emphasis, and if one of the runs can do both then the sum of the lengths is not a
multiple of 3 unless both are. -/
def Paired (S : Str) (c : Char) (k i j : Nat) : Prop :=
  ∃ p m q n, DelimRun S c p m ∧ DelimRun S c q n ∧ p ≤ i ∧ i + k ≤ p + m ∧ p + m ≤ q ∧ q ≤ j ∧ j + k ≤ q + n ∧
    RunOpens S c p m ∧ RunCloses S c q n ∧
    ¬ ((RunOpens S c q n ∨ RunCloses S c p m) ∧ 3 ∣ m + n ∧ ¬ (3 ∣ m ∧ 3 ∣ n))

/-! ### Links -/

/-- Spaces and at most one line ending. -/
def Spnl (s : Str) : Prop :=
  ∃ a, s = List.replicate a ' ' ∨ ∃ b, s = List.replicate a ' ' ++ '\n' :: List.replicate b ' '

/-- The inside of a destination in angle brackets. -/
inductive InAngle : Str → Prop
  | nil : InAngle []
  | plain {c : Char} {s : Str} : c ∉ "<>\n\\".toList → c.toNat ≠ 0 → InAngle s → InAngle (c :: s)
  | escape {c : Char} {s : Str} : c ≠ '\n' → InAngle s → InAngle ('\\' :: c :: s)

/-- A destination without angle brackets: `Bare k s l` if `s` takes the number of open parentheses from `k` to `l`. -/
inductive Bare : Nat → Str → Nat → Prop
  | nil {k : Nat} : Bare k [] k
  | escape {k l : Nat} {c : Char} {s : Str} : c ∈ asciiPunctuation → Bare k s l → Bare k ('\\' :: c :: s) l
  | backslash {k l : Nat} {s : Str} : (∀ c, s.head? = some c → c ∉ asciiPunctuation) → Bare k s l → Bare k ('\\' :: s) l
  | openP {k l : Nat} {s : Str} : Bare (k + 1) s l → Bare k ('(' :: s) l
  | closeP {k l : Nat} {s : Str} : Bare k s l → Bare (k + 1) (')' :: s) l
  | plain {k l : Nat} {c : Char} {s : Str} : c ∉ "\\()".toList → c ≠ ' ' → ¬ (9 ≤ c.toNat ∧ c.toNat ≤ 13) → Bare k s l →
      Bare k (c :: s) l

/-- `s`, before `r`, is a link destination with the text `d` (before backslashes and references are replaced).  (The
specification wants balanced parentheses; here some can stay open before white space.) -/
inductive Destination : Str → Str → Str → Prop
  | angle {d r : Str} : InAngle d → Destination ('<' :: (d ++ ['>'])) d r
  | bare {d r : Str} {l : Nat} : d.head? ≠ some '<' → Bare 0 d l → (d = [] → r.head? = some ')') →
      (r.head? = some ')' → l = 0) → Destination d d r

/-- The inside of a title in quotes or parentheses; `qs` are the characters that must be escaped. -/
inductive TitleText (qs : Str) : Str → Prop
  | nil : TitleText qs []
  | plain {c : Char} {s : Str} : c ∉ qs → c.toNat ≠ 0 → TitleText qs s → TitleText qs (c :: s)
  | escape {c : Char} {s : Str} : c ∈ asciiPunctuation → TitleText qs s → TitleText qs ('\\' :: c :: s)

/-- `s` is a link title with the text `d`. -/
inductive Title : Str → Str → Prop
  | double {d : Str} : TitleText ['"'] d → Title ('"' :: (d ++ ['"'])) d
  | single {d : Str} : TitleText ['\''] d → Title ('\'' :: (d ++ ['\''])) d
  | paren {d : Str} : TitleText ['(', ')'] d → Title ('(' :: (d ++ [')'])) d

/-- `w`, before `r`, is what follows the link text of an inline link, without the closing parenthesis. -/
def LinkBody (w r dest title : Str) : Prop :=
  ∃ s1 d raw s2 tl s3, w = '(' :: (s1 ++ (d ++ (s2 ++ (tl ++ s3)))) ∧ Spnl s1 ∧ Spnl s2 ∧ Spnl s3 ∧
    Destination d raw (s2 ++ (tl ++ (s3 ++ r))) ∧ dest = normalizeUri (unescapeString raw) ∧
    (tl = [] ∧ title = [] ∨ ∃ x, s2 ≠ [] ∧ Title tl x ∧ title = unescapeString x)

/-- The inside of a link label. -/
inductive LabelText : Str → Prop
  | nil : LabelText []
  | plain {c : Char} {s : Str} : c ∉ "\\[]".toList → LabelText s → LabelText (c :: s)
  | escape {c : Char} {s : Str} : c ≠ '\n' → LabelText s → LabelText ('\\' :: c :: s)

/-- A link label of at most 999 characters, with its brackets. -/
def LinkLabel (l : Str) : Prop := ∃ x, l = '[' :: (x ++ [']']) ∧ LabelText x ∧ x.length ≤ 999

/-- What may stand between a link text and a label: nothing; or, as the code has it unless `strict`, the body of an
inline link without its closing parenthesis. -/
def Skipped (strict : Bool) (g r : Str) : Prop :=
  g = [] ∨ strict = false ∧ r.head? ≠ some ')' ∧ ∃ dest title, LinkBody g r dest title

/-- What follows the link text of `S` with `[` at `i` and `]` at `j`, up to position `k`; and the destination and title
that it gives. -/
inductive LinkTail (strict : Bool) (refs : Str → Option RefDef) (S : Str) (i j : Nat) : Nat → Str → Str → Prop
  | inline {w r dest title : Str} : S.drop (j + 1) = w ++ ')' :: r → LinkBody w (')' :: r) dest title →
      LinkTail strict refs S i j (j + 1 + w.length + 1) dest title
  | full {g l r dest title : Str} : S.drop (j + 1) = g ++ (l ++ r) → Skipped strict g (l ++ r) → LinkLabel l →
      2 < l.length → refs l = some ⟨dest, title⟩ → LinkTail strict refs S i j (j + 1 + g.length + l.length) dest title
  | collapsed {g r dest title : Str} : S.drop (j + 1) = g ++ '[' :: ']' :: r → Skipped strict g ('[' :: ']' :: r) →
      refs ((S.take (j + 1)).drop i) = some ⟨dest, title⟩ →
      LinkTail strict refs S i j (j + 1 + g.length + 2) dest title
  | shortcut {dest title : Str} : refs ((S.take (j + 1)).drop i) = some ⟨dest, title⟩ →
      LinkTail strict refs S i j (j + 1) dest title

/-! ### Nodes -/

/-- The text of ordinary characters with smart punctuation. -/
def SmartText (m y : Str) : Prop :=
  ∃ f : Nat → Str, (∀ n, n ≤ 1 → f n = List.replicate n '-') ∧
    (∀ n, 2 ≤ n → ∃ a b, f n = List.replicate a '—' ++ List.replicate b '–' ∧ DashRule n a b) ∧
    y = mapRuns '-' f 0 (ellipses m)

/-- `Source smart strict refs S L ts i j`: the nodes `ts` stand for the characters of `S` from `i` to `j` (without `j`).
With `L = false` there is no link in brackets in them. -/
inductive Source (smart strict : Bool) (refs : Str → Option RefDef) (S : Str) : Bool → List Tree → Nat → Nat → Prop
  | nil {L : Bool} {i : Nat} : Source smart strict refs S L [] i i
  | append {L : Bool} {a b : List Tree} {i j k : Nat} : Source smart strict refs S L a i j →
      Source smart strict refs S L b j k → Source smart strict refs S L (a ++ b) i k
  /-- Ordinary characters, as many as there are. -/
  | plain {L : Bool} {i : Nat} {m r : Str} : smart = false → S.drop i = m ++ r → m ≠ [] → (∀ c ∈ m, Ordinary c) →
      (∀ c, r.head? = some c → ¬ Ordinary c) →
      Source smart strict refs S L [.node { t := .text, literal := some m } []] i (i + m.length)
  | smartPlain {L : Bool} {i : Nat} {m r y : Str} : smart = true → S.drop i = m ++ r → m ≠ [] → (∀ c ∈ m, Ordinary c) →
      (∀ c, r.head? = some c → ¬ Ordinary c) → SmartText m y →
      Source smart strict refs S L [.node { t := .text, literal := some y } []] i (i + m.length)
  /-- A backslash before ASCII punctuation. -/
  | escape {L : Bool} {i : Nat} {c : Char} {r : Str} : S.drop i = '\\' :: c :: r → c ∈ asciiPunctuation →
      Source smart strict refs S L [.node { t := .text, literal := some [c] } []] i (i + 2)
  /-- A backslash before a line ending. -/
  | hardBreak {L : Bool} {i : Nat} {r : Str} : S.drop i = '\\' :: '\n' :: r →
      Source smart strict refs S L [.node { t := .linebreak } []] i (i + 2)
  /-- Another backslash. -/
  | backslash {L : Bool} {i : Nat} {r : Str} : S.drop i = '\\' :: r →
      (∀ c, r.head? = some c → c ∉ asciiPunctuation ∧ c ≠ '\n') →
      Source smart strict refs S L [.node { t := .text, literal := some ['\\'] } []] i (i + 1)
  /-- A line ending, with the spaces at the beginning of the next line. -/
  | newline {L : Bool} {i n : Nat} {r : Str} : S.drop i = '\n' :: (List.replicate n ' ' ++ r) → r.head? ≠ some ' ' →
      Source smart strict refs S L [.node { t := .softbreak } []] i (i + 1 + n)
  /-- A line ending after a text that ends with spaces: they are dropped, and two or more make a hard line break. -/
  | lineEnd {L : Bool} {i j k n : Nat} {x r : Str} :
      Source smart strict refs S L [.node { t := .text, literal := some (x ++ List.replicate k ' ') } []] i j → 1 ≤ k →
      x.getLast? ≠ some ' ' → S.drop j = '\n' :: (List.replicate n ' ' ++ r) → r.head? ≠ some ' ' →
      Source smart strict refs S L [.node { t := .text, literal := some x } [],
        .node { t := if 2 ≤ k then .linebreak else .softbreak } []] i (j + 1 + n)
  /-- A code span: the text up to the first run of as many backticks. -/
  | code {L : Bool} {i n : Nat} {x y r : Str} : S.drop i = List.replicate n '`' ++ (x ++ (List.replicate n '`' ++ r)) →
      1 ≤ n → x ≠ [] → x.head? ≠ some '`' → x.getLast? ≠ some '`' → NoTicks n x → r.head? ≠ some '`' → CodeText x y →
      Source smart strict refs S L [.node { t := .code, literal := some y } []] i (i + (n + (x.length + n)))
  /-- Backticks without an equal run after them. -/
  | ticks {L : Bool} {i n : Nat} {r : Str} : S.drop i = List.replicate n '`' ++ r → 1 ≤ n → r.head? ≠ some '`' →
      NoTicks n r → Source smart strict refs S L [.node { t := .text, literal := some (List.replicate n '`') } []] i (i + n)
  /-- A character reference. -/
  | ref {L : Bool} {i : Nat} {m x r : Str} : S.drop i = m ++ r → Decodes m x →
      Source smart strict refs S L [.node { t := .text, literal := some x } []] i (i + m.length)
  | amp {L : Bool} {i : Nat} {r : Str} : S.drop i = '&' :: r → (¬ ∃ m r', S.drop i = m ++ r' ∧ RefForm m) →
      Source smart strict refs S L [.node { t := .text, literal := some ['&'] } []] i (i + 1)
  /-- Autolinks. -/
  | uri {L : Bool} {i : Nat} {u r : Str} : S.drop i = '<' :: (u ++ '>' :: r) → AutoUri u →
      Source smart strict refs S L [.node { t := .link, destination := some (normalizeUri u), title := some [] }
        [.node { t := .text, literal := some u } []]] i (i + u.length + 2)
  | email {L : Bool} {i : Nat} {u r : Str} : S.drop i = '<' :: (u ++ '>' :: r) → EmailAddress u →
      Source smart strict refs S L
        [.node { t := .link, destination := some (normalizeUri ("mailto:".toList ++ u)), title := some [] }
          [.node { t := .text, literal := some u } []]] i (i + u.length + 2)
  /-- Raw HTML. -/
  | html {L : Bool} {i : Nat} {m r : Str} : S.drop i = m ++ r → HtmlTag m →
      Source smart strict refs S L [.node { t := .htmlInline, literal := some m } []] i (i + m.length)
  | less {L : Bool} {i : Nat} {r : Str} : S.drop i = '<' :: r → (¬ ∃ m r', S.drop i = m ++ r' ∧ AngleForm m) →
      Source smart strict refs S L [.node { t := .text, literal := some ['<'] } []] i (i + 1)
  /-- Delimiters that were not used. -/
  | delims {L : Bool} {i n : Nat} {c : Char} {r : Str} : S.drop i = List.replicate n c ++ r → 1 ≤ n → c = '*' ∨ c = '_' →
      Source smart strict refs S L [.node { t := .text, literal := some (List.replicate n c) } []] i (i + n)
  | emph {L : Bool} {i j : Nat} {c : Char} {ts : List Tree} : c = '*' ∨ c = '_' → Paired S c 1 i j →
      Source smart strict refs S L ts (i + 1) j → Source smart strict refs S L [.node { t := .emph } ts] i (j + 1)
  | strong {L : Bool} {i j : Nat} {c : Char} {ts : List Tree} : c = '*' ∨ c = '_' → Paired S c 2 i j →
      Source smart strict refs S L ts (i + 2) j → Source smart strict refs S L [.node { t := .strong } ts] i (j + 2)
  /-- Quotation marks. -/
  | quote {L : Bool} {i : Nat} {c : Char} {r : Str} : smart = false → S.drop i = c :: r → c = '\'' ∨ c = '"' →
      Source smart strict refs S L [.node { t := .text, literal := some [c] } []] i (i + 1)
  | single {L : Bool} {i : Nat} {q : Char} {r : Str} : smart = true → S.drop i = '\'' :: r → q = '‘' ∨ q = '’' →
      Source smart strict refs S L [.node { t := .text, literal := some [q] } []] i (i + 1)
  | double {L : Bool} {i : Nat} {q : Char} {r : Str} : smart = true → S.drop i = '"' :: r → q = '“' ∨ q = '”' →
      Source smart strict refs S L [.node { t := .text, literal := some [q] } []] i (i + 1)
  /-- Brackets and exclamation marks that were not used. -/
  | bang {L : Bool} {i : Nat} {r : Str} : S.drop i = '!' :: r → r.head? ≠ some '[' →
      Source smart strict refs S L [.node { t := .text, literal := some ['!'] } []] i (i + 1)
  | openB {L : Bool} {i : Nat} {r : Str} : S.drop i = '[' :: r →
      Source smart strict refs S L [.node { t := .text, literal := some ['['] } []] i (i + 1)
  | openImg {L : Bool} {i : Nat} {r : Str} : S.drop i = '!' :: '[' :: r →
      Source smart strict refs S L [.node { t := .text, literal := some ['!', '['] } []] i (i + 2)
  | closeB {L : Bool} {i : Nat} {r : Str} : S.drop i = ']' :: r →
      Source smart strict refs S L [.node { t := .text, literal := some [']'] } []] i (i + 1)
  /-- A link in brackets.  Its text has no link in brackets in it. -/
  | link {i j k : Nat} {ts : List Tree} {dest title : Str} : S[i]? = some '[' → S[j]? = some ']' →
      Source smart strict refs S false ts (i + 1) j → LinkTail strict refs S i j k dest title →
      Source smart strict refs S true [.node { t := .link, destination := some dest, title := some title } ts] i k
  /-- An image. -/
  | image {L : Bool} {i j k : Nat} {ts : List Tree} {dest title : Str} : S[i]? = some '!' → S[i + 1]? = some '[' →
      S[j]? = some ']' → Source smart strict refs S L ts (i + 2) j → LinkTail strict refs S (i + 1) j k dest title →
      Source smart strict refs S L [.node { t := .image, destination := some dest, title := some title } ts] i k

/-- A link made from an autolink of `S`. -/
def AutolinkOf (S : Str) (d : NodeData) (cs : List Tree) : Prop :=
  ∃ u, '<' :: (u ++ ['>']) <:+: S ∧ cs = [.node { t := .text, literal := some u } []] ∧
    (AutoUri u ∧ d.destination = some (normalizeUri u) ∨
      EmailAddress u ∧ d.destination = some (normalizeUri ("mailto:".toList ++ u)))

end Spec
