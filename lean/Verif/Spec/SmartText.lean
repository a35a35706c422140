import Verif.Spec.Inline
import Verif.Model.Inlines
/-
Specification of what the option `smart` may change (C60).
-/
namespace Spec
open CM

/-- `SmartPiece x y`: `y` is how smart punctuation may write the stretch `x`. -/
inductive SmartPiece : Str → Str → Prop
  /-- a character stays as it is -/
  | same (c : Char) : SmartPiece [c] [c]
  /-- three dots become an ellipsis -/
  | dots : SmartPiece ['.', '.', '.'] ['…']
  /-- two or more hyphens become dashes, by the documented rule -/
  | dashes (n a b : Nat) : 2 ≤ n → DashRule n a b →
      SmartPiece (List.replicate n '-') (List.replicate a '—' ++ List.replicate b '–')
  /-- an apostrophe becomes a single quotation mark -/
  | single (c : Char) : c = '‘' ∨ c = '’' → SmartPiece ['\''] [c]
  /-- a straight double quotation mark becomes a curly one -/
  | double (c : Char) : c = '“' ∨ c = '”' → SmartPiece ['"'] [c]

/-- `Smartened x y`: `y` is `x` with some stretches written with smart punctuation. -/
inductive Smartened : Str → Str → Prop
  | nil : Smartened [] []
  | step {p q x y : Str} : SmartPiece p q → Smartened x y → Smartened (p ++ x) (q ++ y)

/-- The same node, except that the literal of a text node may be written with smart punctuation. -/
def SmartData (d e : NodeData) : Prop :=
  e = d ∨ (d.t = .text ∧ ∃ x y, d.literal = some x ∧ Smartened x y ∧ e = { d with literal := some y })

mutual
/-- `SmartTree t u`: `u` is `t` with smart punctuation in the literals of text nodes. -/
inductive SmartTree : Tree → Tree → Prop
  | node {d e : NodeData} {cs ds : List Tree} : SmartData d e → SmartTrees cs ds →
      SmartTree (.node d cs) (.node e ds)
/-- The same for lists of nodes. -/
inductive SmartTrees : List Tree → List Tree → Prop
  | nil : SmartTrees [] []
  | cons {t u : Tree} {ts us : List Tree} : SmartTree t u → SmartTrees ts us →
      SmartTrees (t :: ts) (u :: us)
end

/-- How a piece appears in HTML: as it is, except that `"` is written `&quot;`. -/
inductive SmartHtmlPiece : Str → Str → Prop
  | text {p q : Str} : SmartPiece p q → SmartHtmlPiece p q
  | quot (c : Char) : c = '“' ∨ c = '”' → SmartHtmlPiece "&quot;".toList [c]

/-- The same for HTML. -/
inductive SmartHtml : Str → Str → Prop
  | nil : SmartHtml [] []
  | step {p q x y : Str} : SmartHtmlPiece p q → SmartHtml x y → SmartHtml (p ++ x) (q ++ y)

/-! ### Texts for which the claim is proved -/

/-- There is no straight quotation mark in the text. -/
def NoQuotes (s : Str) : Prop := '\'' ∉ s ∧ '"' ∉ s

/-- No two `*` and no two `_` are next to each other. -/
def SingleMarks (s : Str) : Prop := ¬ ['*', '*'] <:+: s ∧ ¬ ['_', '_'] <:+: s

/-- No run of `*` or `_` can both open and close emphasis (`*` inside a word, as in `a*b`), and none comes after
an escaped one. -/
def OneSidedMarks (s : Str) : Prop :=
  (∀ (c b a : Char) (n : Nat), c = '*' ∨ c = '_' → b ≠ c → a ≠ c → 1 ≤ n →
    CanOpen (isPySpace · = true) (isPunct · = true) c (some b) (some a) →
    CanClose (isPySpace · = true) (isPunct · = true) c (some b) (some a) →
    ¬ (b :: List.replicate n c ++ [a]) <:+: s) ∧
  ¬ ['\\', '*', '*'] <:+: s ∧ ¬ ['\\', '_', '_'] <:+: s

end Spec
