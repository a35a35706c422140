import Verif.Model.Blocks
import Verif.Spec.Entity
import Verif.Spec.LineKinds
/-
Texts put into containers: what "the same blocks" means.
-/
namespace Spec
open CM

/-- A node without the columns of its source position (the lines stay). -/
def noCols (d : NodeData) : NodeData :=
  { d with sourcepos := d.sourcepos.map fun sp => ((sp.1.1, 0), (sp.2.1, 0)) }

mutual
/-- A tree without columns. -/
def noColsT : Tree → Tree
  | .node d cs => .node (noCols d) (noColsL cs)
def noColsL : List Tree → List Tree
  | [] => []
  | t :: ts => noColsT t :: noColsL ts
end

/-- A node without the source position and the flags that the block phase uses. -/
def bare (d : NodeData) : NodeData :=
  { d with sourcepos := none, lastLineBlank := false, lastLineChecked := false, isOpen := false }

mutual
/-- A tree without book-keeping. -/
def bareT : Tree → Tree
  | .node d cs => .node (bare d) (bareL cs)
def bareL : List Tree → List Tree
  | [] => []
  | t :: ts => bareT t :: bareL ts
end

/-- A node `n` lines further down. -/
def moved (n : Nat) (d : NodeData) : NodeData :=
  { d with sourcepos := d.sourcepos.map fun sp => ((sp.1.1 + n, sp.1.2), (sp.2.1 + n, sp.2.2)) }

mutual
/-- A tree `n` lines further down. -/
def movedT (n : Nat) : Tree → Tree
  | .node d cs => .node (moved n d) (movedL n cs)
def movedL (n : Nat) : List Tree → List Tree
  | [] => []
  | t :: ts => movedT n t :: movedL n ts
end

/-- A tree without the flag that says whether the last line of its block was blank. -/
def unblank (t : Tree) : Tree := .node { t.data with lastLineBlank := false } t.children

/-- `pre` marks the line `l` as part of a block quote: `>` after up to three spaces, and a space, which can be left out if
the line does not begin with a space or tab. -/
def QuoteMarker (pre l : Str) : Prop :=
  ∃ n, n ≤ 3 ∧ (pre = List.replicate n ' ' ++ ['>', ' '] ∨ pre = List.replicate n ' ' ++ ['>'] ∧ l.head? ≠ some ' ' ∧ l.head? ≠ some '\t')

/-- The lines `qs` are the lines `ls` in a block quote.  A line with tabs is moved by a tab stop, which does not change the
width of the tabs. -/
inductive Quoted : List Str → List Str → Prop
  | nil : Quoted [] []
  | cons {pre l : Str} {ls qs : List Str} : QuoteMarker pre l → '\t' ∉ l ∨ pre.length = 4 → Quoted ls qs → Quoted (l :: ls) ((pre ++ l) :: qs)

/-- A node without the columns and without the flag that `ends_with_blank_line` leaves. -/
def plain (d : NodeData) : NodeData := { noCols d with lastLineChecked := false }

mutual
/-- A tree without columns and flags of the tightness check. -/
def plainT : Tree → Tree
  | .node d cs => .node (plain d) (plainL cs)
def plainL : List Tree → List Tree
  | [] => []
  | t :: ts => plainT t :: plainL ts
end

/-- `m` is a list marker: one of `-`, `+`, `*`, or one to nine digits and `.` or `)`.  The other arguments are the type of the
list, the bullet, the number and the delimiter. -/
inductive ListMark : Str → ListType → Option Char → Option Nat → Option Char → Prop
  | bullet {c : Char} : c = '-' ∨ c = '+' ∨ c = '*' → ListMark [c] .bullet (some c) none none
  | ordered {ds : Str} {n : Nat} {d : Char} : 1 ≤ ds.length → ds.length ≤ 9 → numeral 10 ds = some n → d = '.' ∨ d = ')' →
      ListMark (ds ++ [d]) .ordered none (some n) (some d)

/-- The lines `qs` are the lines `ls` indented by `w` columns.  An empty line can be given any number of spaces.  Lines with
tabs are moved by whole tab stops. -/
inductive Indented (w : Nat) : List Str → List Str → Prop
  | nil : Indented w [] []
  | text {l : Str} {ls qs : List Str} : NotBlank l → '\t' ∉ l ∨ w % 4 = 0 → Indented w ls qs →
      Indented w (l :: ls) ((List.replicate w ' ' ++ l) :: qs)
  | blank {k : Nat} {ls qs : List Str} : Indented w ls qs → Indented w ([] :: ls) (List.replicate k ' ' :: qs)

/-- The lines `qs` are the lines `ls` as a list item with the marker `m`: before the first line are up to three spaces, the
marker, and one to four spaces; the others are indented by the same width.  The first line begins with a character that is not
a space or tab or `[`, and the line with the marker is not a thematic break. -/
inductive ItemOf (m : Str) : List Str → List Str → Prop
  | mk {n k : Nat} {c : Char} {r : Str} {ls qs : List Str} : n ≤ 3 → 1 ≤ k → k ≤ 4 → c ≠ ' ' → c ≠ '\t' → c ≠ '[' →
      '\t' ∉ c :: r ∨ (n + m.length + k) % 4 = 0 → ¬ ThematicBreak (m ++ List.replicate k ' ' ++ c :: r) →
      Indented (n + m.length + k) ls qs →
      ItemOf m ((c :: r) :: ls) ((List.replicate n ' ' ++ m ++ List.replicate k ' ' ++ c :: r) :: qs)

/-- The start tag of a list: `<ul>`, `<ol>`, or `<ol start="n">` if the first number is not 1. -/
def listTag (ty : ListType) (start : Option Nat) : Str :=
  match ty, start with
  | .bullet, _ => "<ul>".toList
  | .ordered, none => "<ol>".toList
  | .ordered, some n => if n = 1 then "<ol>".toList else "<ol start=\"".toList ++ Nat.toDigits 10 n ++ "\">".toList

/-- The end tag of a list. -/
def listEnd (ty : ListType) : Str :=
  match ty with
  | .bullet => "</ul>".toList
  | .ordered => "</ol>".toList

end Spec
