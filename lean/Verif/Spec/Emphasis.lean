import Verif.Spec.Source
/-
What `processEmphasis` may do to a list of siblings (C28).
-/
namespace Spec
open CM

/-- A sibling is seen as one symbol, or as the characters of its text if the delimiter or bracket stack refers to it. -/
inductive Sym
  | leaf (t : Tree)
  | char (c : Char)

/-- Curly quotation marks stand for straight ones. -/
def straight (c : Char) : Char := if c = '‘' ∨ c = '’' then '\'' else if c = '“' ∨ c = '”' then '"' else c

/-- The symbols of a sibling.  Number 0: no stack refers to it. -/
def symbols (it : Item) : List Sym :=
  if it.id = 0 then [.leaf it.node] else (it.node.data.literal.getD []).map fun c => .char (straight c)

/-- A text node that a stack refers to: a run of delimiters, a quotation mark or an opening bracket. -/
inductive StackText : Tree → Prop
  | run {n : Nat} {c : Char} : 1 ≤ n → c = '*' ∨ c = '_' → StackText (.node { t := .text, literal := some (List.replicate n c) } [])
  | quote {c : Char} : c ∈ ['‘', '’', '“', '”'] → StackText (.node { t := .text, literal := some [c] } [])
  | openB : StackText (.node { t := .text, literal := some ['['] } [])
  | openI : StackText (.node { t := .text, literal := some ['!', '['] } [])

/-- The text node that an entry of the delimiter stack refers to. -/
def EntryText (d : Delim) (s : Str) : Prop :=
  ((d.cc = '*' ∨ d.cc = '_') ∧ 1 ≤ d.numdelims ∧ s = List.replicate d.numdelims d.cc) ∨
  (d.cc = '\'' ∧ (s = ['‘'] ∨ s = ['’'])) ∨ (d.cc = '"' ∧ (s = ['“'] ∨ s = ['”']))

/-- A delimiter stack (bottom first) for a list of siblings. -/
structure StackFor (ds : List Delim) (its : List Item) : Prop where
  /-- Siblings that are referred to have different numbers, in order. -/
  inc : its.Pairwise fun x y => x.id ≠ 0 → y.id ≠ 0 → x.id < y.id
  text : ∀ it ∈ its, it.id ≠ 0 → StackText it.node
  /-- The entries of the stack refer to different siblings, in order. -/
  order : ds.Pairwise fun x y => x.node < y.node
  entry : ∀ d ∈ ds, d.node ≠ 0 ∧ ∃ it ∈ its, it.id = d.node ∧
    ∃ s, it.node = .node { t := .text, literal := some s } [] ∧ EntryText d s

/-- `Wraps ts s`: the nodes `ts` are the symbols `s` in order, with emphasis in place of some pairs of equal delimiters:
`emph` for one, `strong` for two on either side. -/
inductive Wraps : List Tree → List Sym → Prop
  | nil : Wraps [] []
  | append {a b : List Tree} {s t : List Sym} : Wraps a s → Wraps b t → Wraps (a ++ b) (s ++ t)
  | leaf {t : Tree} : Wraps [t] [.leaf t]
  | text {x : Str} : Wraps [.node { t := .text, literal := some x } []] (x.map fun c => .char (straight c))
  | emph {c : Char} {ts : List Tree} {s : List Sym} : c = '*' ∨ c = '_' → Wraps ts s →
      Wraps [.node { t := .emph } ts] ([.char c] ++ s ++ [.char c])
  | strong {c : Char} {ts : List Tree} {s : List Sym} : c = '*' ∨ c = '_' → Wraps ts s →
      Wraps [.node { t := .strong } ts] ([.char c, .char c] ++ s ++ [.char c, .char c])

end Spec
