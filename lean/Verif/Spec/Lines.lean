/-
Specifications about line endings (C14, C15). Nothing here refers to the model.
-/
namespace Spec

/-- Write every LF as CR LF. -/
def toCRLF (s : List Char) : List Char := s.flatMap fun c => if c = '\n' then ['\r', '\n'] else [c]

/-- Write every LF as CR. -/
def toCR (s : List Char) : List Char := s.map fun c => if c = '\n' then '\r' else c

/-- A stretch of text without line ending. -/
def OneLine (l : List Char) : Prop := ∀ c ∈ l, c ≠ '\n' ∧ c ≠ '\r'

/-- `TextLines s ls`: `ls` are the lines of the text `s`.  A line ends with LF, CR LF, CR or the end of
the text; a final LF (or CR LF) ends the last line instead of starting an empty one. -/
inductive TextLines : List Char → List (List Char) → Prop
  | last {l : List Char} : OneLine l → TextLines l [l]
  | lastLf {l : List Char} : OneLine l → TextLines (l ++ ['\n']) [l]
  | lastCrLf {l : List Char} : OneLine l → TextLines (l ++ ['\r', '\n']) [l]
  | lf {l r : List Char} {ls : List (List Char)} : OneLine l → r ≠ [] → TextLines r ls →
      TextLines (l ++ '\n' :: r) (l :: ls)
  | crlf {l r : List Char} {ls : List (List Char)} : OneLine l → r ≠ [] → TextLines r ls →
      TextLines (l ++ '\r' :: '\n' :: r) (l :: ls)
  | cr {l r : List Char} {ls : List (List Char)} : OneLine l → r.head? ≠ some '\n' → TextLines r ls →
      TextLines (l ++ '\r' :: r) (l :: ls)

end Spec
