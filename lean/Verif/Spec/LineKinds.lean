import Verif.Model.PyStr
/-
What the CommonMark specification says about lines that start or are a leaf block.  A line is given without its
indentation and without its line ending.
-/
namespace Spec
open CM

/-- Only spaces and tabs. -/
def OnlySpTab (s : Str) : Prop := ∀ x ∈ s, x = ' ' ∨ x = '\t'

/-- Three or more of one of `*`, `_`, `-`, with only spaces and tabs after and between them. -/
def ThematicBreak (l : Str) : Prop :=
  ∃ c, (c = '*' ∨ c = '_' ∨ c = '-') ∧ l.head? = some c ∧ (∀ x ∈ l, x = c ∨ x = ' ' ∨ x = '\t') ∧ 3 ≤ l.count c

/-- `n` number signs, between one and six, that end the line or are followed by a space or tab. -/
def AtxMarker (n : Nat) (l : Str) : Prop :=
  1 ≤ n ∧ n ≤ 6 ∧ ∃ r, l = List.replicate n '#' ++ r ∧ (r = [] ∨ r.head? = some ' ' ∨ r.head? = some '\t')

/-- A run of `c` (`=` or `-`), then only spaces and tabs. -/
def SetextUnderline (c : Char) (l : Str) : Prop :=
  (c = '=' ∨ c = '-') ∧ ∃ n r, 1 ≤ n ∧ l = List.replicate n c ++ r ∧ OnlySpTab r

/-- A run of `n ≥ 3` backticks with no backtick after the run, or of `n ≥ 3` tildes; `info` is the rest of the line. -/
def CodeFence (c : Char) (n : Nat) (info l : Str) : Prop :=
  3 ≤ n ∧ l = List.replicate n c ++ info ∧ info.head? ≠ some c ∧ (c = '`' ∧ '`' ∉ info ∨ c = '~')

/-- A closing fence: a run of `n ≥ 3` of `c`, then only spaces. -/
def ClosingFence (c : Char) (n : Nat) (l : Str) : Prop :=
  3 ≤ n ∧ (c = '`' ∨ c = '~') ∧ ∃ k, l = List.replicate n c ++ List.replicate k ' '

/-- The line ends a code block that was opened with `n` times `c`: at most three spaces, at least as many times `c`,
and then only spaces. -/
def ClosesFence (c : Char) (n : Nat) (l : Str) : Prop :=
  ∃ k m r, k ≤ 3 ∧ n ≤ m ∧ l = List.replicate k ' ' ++ (List.replicate m c ++ List.replicate r ' ')

/-- U+0000 is read as U+FFFD. -/
def noNul (l : Str) : Str := l.map fun c => if c = Char.ofNat 0 then Char.ofNat 0xFFFD else c

/-- The text of a code block made of these lines: every line, then a line feed; U+0000 is read as U+FFFD. -/
def codeLines (ls : List Str) : Str := ls.flatMap fun l => noNul l ++ ['\n']

/-- The line holds more than spaces and tabs. -/
def NotBlank (l : Str) : Prop := ∃ c ∈ l, c ≠ ' ' ∧ c ≠ '\t'

/-- The line `l` of an indented code block contributes the text `x`: it is `x` after four spaces, or an empty line
with at most three spaces. -/
def IndentedAs (l x : Str) : Prop := l = "    ".toList ++ x ∨ x = [] ∧ ∃ k, k ≤ 3 ∧ l = List.replicate k ' '

end Spec
