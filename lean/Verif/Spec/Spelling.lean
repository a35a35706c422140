import Verif.Spec.Tabs
/-
Different ways to write the same line (C69).
-/
namespace Spec
open CM

/-- The line is a heading of level `n` with the title `x`: number signs, white space, the title, and maybe white space and a closing sequence of any number of
number signs.  A title begins and ends with a character that is no white space, and does not end with a number sign. -/
inductive AtxHeading (n : Nat) : Str → Str → Prop
  | empty {v : Str} : OnlySpTab v → AtxHeading n [] (List.replicate n '#' ++ v)
  | closedEmpty {v w : Str} {k : Nat} : OnlySpTab v → v ≠ [] → OnlySpTab w → 1 ≤ k →
      AtxHeading n [] (List.replicate n '#' ++ (v ++ (List.replicate k '#' ++ w)))
  | plain {v x : Str} {a b : Char} : OnlySpTab v → v ≠ [] → x.head? = some a → a ≠ ' ' → a ≠ '\t' → x.getLast? = some b → b ≠ ' ' → b ≠ '\t' → b ≠ '#' →
      AtxHeading n x (List.replicate n '#' ++ (v ++ x))
  | closed {v x u w : Str} {a b : Char} {k : Nat} : OnlySpTab v → v ≠ [] → x.head? = some a → a ≠ ' ' → a ≠ '\t' → x.getLast? = some b → b ≠ ' ' → b ≠ '\t' →
      b ≠ '#' → OnlySpTab u → u ≠ [] → 1 ≤ k → OnlySpTab w →
      AtxHeading n x (List.replicate n '#' ++ (v ++ (x ++ (u ++ (List.replicate k '#' ++ w)))))

/-- What is known about the place of the line: nothing; a block begins in it; or it is the first line or comes after a blank line. -/
inductive Place where
  | any | begins | clear
deriving DecidableEq

/-- Two texts that stand at column `c` and are two ways to write the same: they begin with the same markers of block quotes and list items, with
white space after them that ends at the same column (as in `TabAlike`), and then come the same text, two thematic breaks or two headings with the same level
and title. -/
inductive Alike : Place → Nat → Str → Str → Prop
  | same {o : Place} {c : Nat} {s : Str} : Alike o c s s
  | rule {o : Place} {c : Nat} {s s' : Str} : ThematicBreak s → ThematicBreak s' →
      o = .clear ∨ (∀ x, ¬ SetextUnderline x s ∧ ¬ SetextUnderline x s') → Alike o c s s'
  | heading {o : Place} {c n : Nat} {x s s' : Str} : 1 ≤ n → n ≤ 6 → AtxHeading n x s → AtxHeading n x s' → Alike o c s s'
  | quote {o : Place} {c : Nat} {v v' y y' : Str} : OnlySpTab v → OnlySpTab v' → columnFrom (c + 1) v' = columnFrom (c + 1) v →
      y = y' ∨ columnFrom (c + 1) v ≤ c + 5 → Alike o (columnFrom (c + 1) v) y y' → Alike o c ('>' :: (v ++ y)) ('>' :: (v' ++ y'))
  | item {o : Place} {c : Nat} {m v v' y y' : Str} {ty : ListType} {b : Option Char} {st : Option Nat} {dl : Option Char} :
      ListMark m ty b st dl → o ≠ .any ∨ FirstMark m → OnlySpTab v → OnlySpTab v' → v ≠ [] →
      columnFrom (c + m.length) v' = columnFrom (c + m.length) v → y = y' ∨ columnFrom (c + m.length) v ≤ c + m.length + 4 →
      (∃ x ∈ y, x ≠ ' ' ∧ (x.toNat < 9 ∨ 13 < x.toNat)) → Alike .clear (columnFrom (c + m.length) v) y y' →
      TabAlike true (columnFrom (c + m.length) v) y y' ∨ ¬ ThematicBreak (m ++ (v ++ y)) ∧ ¬ ThematicBreak (m ++ (v' ++ y')) →
      Alike o c (m ++ (v ++ y)) (m ++ (v' ++ y'))

/-- Two ways to write the same line. -/
def AlikeLines (o : Place) (l l' : Str) : Prop :=
  ∃ v v' y y', l = v ++ y ∧ l' = v' ++ y' ∧ OnlySpTab v ∧ OnlySpTab v' ∧ columnFrom 0 v' = columnFrom 0 v ∧
    (y = y' ∨ columnFrom 0 v ≤ 3) ∧ Alike o (columnFrom 0 v) y y'

/-- After the lines `as`, the line `l` can be written `l'`: they are two ways to write the same, and the text up to this line does not end with a code block or
an HTML block. -/
def AlikeFor (smart : Bool) (as : List Str) (l l' : Str) : Prop :=
  ∃ o sa t, AlikeLines o l l' ∧ TextLines sa (as ++ [l]) ∧ parse smart sa = .ok t ∧ ¬ LastKind .codeBlock t ∧ ¬ LastKind .htmlBlock t ∧
    (o = .begins → BeginsIn (as.length + 1) t) ∧ (o = .clear → ∀ k, as.getLast? = some k → OnlySpTab k)

/-- Two lists of lines which pair by pair are equal or two ways to write the same. -/
inductive AlikeTexts (smart : Bool) : List Str → List Str → Prop
  | nil : AlikeTexts smart [] []
  | snoc {as as' : List Str} {l l' : Str} : AlikeTexts smart as as' → l = l' ∨ AlikeFor smart as l l' → AlikeTexts smart (as ++ [l]) (as' ++ [l'])

end Spec
