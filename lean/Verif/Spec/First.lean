import Verif.Spec.ParaText
import Verif.Spec.Columns
/-
The block that a line begins when no other block is open.
-/
namespace Spec
open CM

/-- A line without its indentation begins a block of this kind.  (An ordered list needs a digit from `0` to `9` at the beginning;
for the other digits of the number see `OrderedMarker`.) -/
inductive Opens : Str → Kind → Prop
  | quote {r : Str} : Opens ('>' :: r) .blockQuote
  | atx {n : Nat} {l : Str} : AtxMarker n l → Opens l .heading
  | fence {c : Char} {n : Nat} {info l : Str} : CodeFence c n info l → Opens l .codeBlock
  | html {i : Nat} {l : Str} : HtmlOpen i l → Opens l .htmlBlock
  | rule {l : Str} : ThematicBreak l → Opens l .thematicBreak
  | bullet {l : Str} : BulletMarker l → ¬ ThematicBreak l → Opens l .list
  | ordered {num l : Str} : OrderedMarker num l → (∀ c, l.head? = some c → AsciiDigit c) → Opens l .list

/-- The block that begins with the line `w ++ l`, where `w` are the spaces and tabs at its beginning: indented code from four
columns on, or what `l` begins. -/
inductive Starts (w l : Str) : Kind → Prop
  | code : 4 ≤ columnFrom 0 w → Starts w l .codeBlock
  | other {k : Kind} : columnFrom 0 w < 4 → Opens l k → Starts w l k

end Spec
