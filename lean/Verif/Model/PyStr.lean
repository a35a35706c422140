/-
Python string primitives used by commonmark.  A Python `str` is modelled as a
list of Unicode scalar values (`List Char`); lone surrogates are out of scope
(see DESIGN.md).  These are the CPython built-ins the repo calls, not repo code.
-/
namespace CM

/-- Python `str` as a list of scalar values. -/
abbrev Str := List Char

/-- Exceptions as values.  `hang` is not a Python exception: it is the result
of a loop whose fuel ran out (theorem C01 shows that it never occurs). -/
inductive PyErr where
  | indexError
  | valueError
  | typeError
  | attributeError
  | keyError
  | hang
deriving DecidableEq, Repr

/-- String constants. -/
abbrev lit (s : String) : Str := s.toList

/-- `s[i:j]` for `0 ≤ i`, `0 ≤ j` (Python clamps both to `len(s)`). -/
def slice (s : Str) (i j : Nat) : Str := (s.take j).drop i

/-- `s[1:-1]`. -/
def chop (s : Str) : Str := (s.drop 1).dropLast

/-- `str.isspace` of one character, and `\s` of `re` on `str` patterns
(CPython `Py_UNICODE_ISSPACE`). -/
def isPySpace (c : Char) : Bool :=
  let n := c.toNat
  (9 ≤ n && n ≤ 13) || (28 ≤ n && n ≤ 32) || n == 0x85 || n == 0xa0 || n == 0x1680 ||
  (0x2000 ≤ n && n ≤ 0x200a) || n == 0x2028 || n == 0x2029 || n == 0x202f ||
  n == 0x205f || n == 0x3000

/-- `s.lstrip()` generalised to a character class. -/
def lstripBy (p : Char → Bool) (s : Str) : Str := s.dropWhile p

/-- `s.rstrip()` generalised to a character class. -/
def rstripBy (p : Char → Bool) (s : Str) : Str := (s.reverse.dropWhile p).reverse

/-- `s.strip()`. -/
def strip (s : Str) : Str := rstripBy isPySpace (lstripBy isPySpace s)

/-- `s.split()` (white-space splitting, no empty words). -/
def splitWords (s : Str) : List Str :=
  let rec go (cur : Str) : Str → List Str
    | [] => if cur.isEmpty then [] else [cur.reverse]
    | c :: cs =>
      if isPySpace c then
        if cur.isEmpty then go [] cs else cur.reverse :: go [] cs
      else go (c :: cur) cs
  go [] s

/-- Line boundaries of `str.splitlines()`. -/
def isLineBoundary (c : Char) : Bool :=
  let n := c.toNat
  (10 ≤ n && n ≤ 13) || (28 ≤ n && n ≤ 30) || n == 0x85 || n == 0x2028 || n == 0x2029

/-- `s.splitlines()`: `\r\n` counts as one boundary, no empty last line. -/
def splitLines (s : Str) : List Str :=
  let rec go (cur : Str) (pend : Bool) : Str → List Str
    -- `pend`: the previous character was a `\r` that already ended a line
    | [] => if cur.isEmpty then [] else [cur.reverse]
    | c :: cs =>
      if c == '\n' && pend then go [] false cs
      else if isLineBoundary c then cur.reverse :: go [] (c == '\r') cs
      else go (c :: cur) false cs
  go [] false s

/-- `s.replace(a, b)` for one-character strings. -/
def replaceChar (a b : Char) (s : Str) : Str := s.map fun c => if c == a then b else c

/-- `sep.join(xs)`. -/
def joinWith (sep : Str) : List Str → Str
  | [] => []
  | [x] => x
  | x :: y :: r => x ++ sep ++ joinWith sep (y :: r)

/-- Decimal digits of `str(n)`. -/
def natToStr (n : Nat) : Str := Nat.toDigits 10 n

end CM
