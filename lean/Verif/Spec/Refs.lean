import Verif.Spec.Source
/-
Link reference definitions, /repo/spec.txt "Link reference definitions", and the text they stand in.
-/
namespace Spec
open CM

/-- `e`, before `r`, is the rest of a line without text: spaces and a line ending or the end of the text. -/
def LineRest (e r : Str) : Prop :=
  ∃ a, e = List.replicate a ' ' ++ ['\n'] ∨ e = List.replicate a ' ' ∧ r = []

/-- `x`, after a destination, begins with a title and the end of a line. -/
def TitleFollows (x : Str) : Prop :=
  ∃ s tl d e r, x = s ++ (tl ++ (e ++ r)) ∧ Spnl s ∧ s ≠ [] ∧ Title tl d ∧ LineRest e r

/-- `w`, before `r`, is a definition of the label `l` (with its brackets) with this destination and title.  As the code has
it, unless `strict`, the title can also be what begins the next line and does not belong to the definition (`stray`). -/
inductive Definition (strict : Bool) : Str → Str → Str → Str → Str → Prop
  | untitled {l s1 d raw e r : Str} : LinkLabel l → 2 < l.length → Spnl s1 → Destination d raw (e ++ r) → LineRest e r →
      ¬ TitleFollows (e ++ r) → Definition strict (l ++ ':' :: (s1 ++ (d ++ e))) r l (normalizeUri (unescapeString raw)) []
  | titled {l s1 d raw s2 tl x e r : Str} : LinkLabel l → 2 < l.length → Spnl s1 →
      Destination d raw (s2 ++ (tl ++ (e ++ r))) → Spnl s2 → s2 ≠ [] → Title tl x → LineRest e r →
      Definition strict (l ++ ':' :: (s1 ++ (d ++ (s2 ++ (tl ++ e))))) r l (normalizeUri (unescapeString raw)) (unescapeString x)
  | stray {l s1 d raw e s2 tl x r' r : Str} : strict = false → LinkLabel l → 2 < l.length → Spnl s1 →
      Destination d raw (e ++ r) → LineRest e r → e ++ r = s2 ++ (tl ++ r') → Spnl s2 → s2 ≠ [] → Title tl x →
      (¬ ∃ e' r'', r' = e' ++ r'' ∧ LineRest e' r'') → unescapeString x ≠ [] →
      Definition strict (l ++ ':' :: (s1 ++ (d ++ e))) r l (normalizeUri (unescapeString raw)) (unescapeString x)

/-- `x` is made of ends of the lines `ls`, each after some spaces (from a tab) and followed by a newline. -/
inductive TextFrom (ls : List Str) : Str → Prop
  | nil : TextFrom ls []
  | line {x line l : Str} (k : Nat) : TextFrom ls x → line ∈ ls → l <:+ line →
      TextFrom ls (x ++ (List.replicate k ' ' ++ (l ++ ['\n'])))

/-- `z` is what is left of `y` after some definitions at its beginning. -/
inductive AfterDefinitions (strict : Bool) (y : Str) : Str → Prop
  | here : AfterDefinitions strict y y
  | next {w r l dest title : Str} : AfterDefinitions strict y (w ++ r) → Definition strict w r l dest title →
      AfterDefinitions strict y r

/-- A definition of the label with the normal form `k`, at the beginning of a paragraph of the lines `ls` or after other
definitions there. -/
def DefinedIn (strict : Bool) (ls : List Str) (k : Str) (dest title : Str) : Prop :=
  ∃ y w r l, TextFrom ls y ∧ AfterDefinitions strict y (w ++ r) ∧ Definition strict w r l dest title ∧ normalizeReference l = k

/-- The inside of a title, as the specification reads it: a backslash before ASCII punctuation is an escape. -/
inductive ClearTitleText (qs : Str) : Str → Prop
  | nil : ClearTitleText qs []
  | plain {c : Char} {s : Str} : c ∉ qs → c ≠ '\\' → c.toNat ≠ 0 → ClearTitleText qs s → ClearTitleText qs (c :: s)
  | escape {c : Char} {s : Str} : c ∈ asciiPunctuation → ClearTitleText qs s → ClearTitleText qs ('\\' :: c :: s)
  | backslash {c : Char} {s : Str} : c ∉ asciiPunctuation → ClearTitleText qs (c :: s) → ClearTitleText qs ('\\' :: c :: s)

/-- `tl` is a title with the text `x`. -/
inductive ClearTitle : Str → Str → Prop
  | double {d : Str} : ClearTitleText ['"'] d → ClearTitle ('"' :: (d ++ ['"'])) d
  | single {d : Str} : ClearTitleText ['\''] d → ClearTitle ('\'' :: (d ++ ['\''])) d
  | paren {d : Str} : ClearTitleText ['(', ')'] d → ClearTitle ('(' :: (d ++ [')'])) d

/-- `w`, before `r`, is a definition with nothing doubtful about its title: it has one, followed by the end of the line, or
nothing that looks like a title follows. -/
inductive ClearDefinition : Str → Str → Str → Str → Str → Prop
  | untitled {l s1 d raw e r : Str} : LinkLabel l → 2 < l.length → Spnl s1 → Destination d raw (e ++ r) → LineRest e r →
      (¬ ∃ s2 tl x r', e ++ r = s2 ++ (tl ++ r') ∧ Spnl s2 ∧ s2 ≠ [] ∧ Title tl x) →
      ClearDefinition (l ++ ':' :: (s1 ++ (d ++ e))) r l (normalizeUri (unescapeString raw)) []
  | titled {l s1 d raw s2 tl x e r : Str} : LinkLabel l → 2 < l.length → Spnl s1 →
      Destination d raw (s2 ++ (tl ++ (e ++ r))) → Spnl s2 → s2 ≠ [] → ClearTitle tl x → LineRest e r →
      ClearDefinition (l ++ ':' :: (s1 ++ (d ++ (s2 ++ (tl ++ e))))) r l (normalizeUri (unescapeString raw)) (unescapeString x)

/-- `y` consists of definitions (label, destination and title), with labels that are not empty, and the rest `r`, which
does not begin with `[`. -/
inductive Definitions : Str → List (Str × Str × Str) → Str → Prop
  | done {r : Str} : r.head? ≠ some '[' → Definitions r [] r
  | next {w y r l dest title : Str} {ds : List (Str × Str × Str)} : ClearDefinition w y l dest title →
      normalizeReference l ≠ [] → Definitions y ds r → Definitions (w ++ y) ((l, dest, title) :: ds) r

/-- The first definition of a label wins. -/
def firstDefinition (ds : List (Str × Str × Str)) (k : Str) : Option RefDef :=
  (ds.find? fun d => normalizeReference d.1 == k).map fun d => ⟨d.2.1, d.2.2⟩

/-- `x` does not begin with a definition. -/
def NoDefinition (x : Str) : Prop :=
  ¬ ∃ w r l dest title, x = w ++ r ∧ ClearDefinition w r l dest title ∧ normalizeReference l ≠ []

end Spec
