import Verif.Model.PyStr
/-
A backtracking matcher with the semantics of Python's `re` for the fragment of
patterns that commonmark uses: ordered alternation, greedy and lazy repetition,
look-ahead, `^` (no MULTILINE) and `$`.  The repo's patterns are transcribed
constructor by constructor in the other model files.
-/
namespace CM

/-- Pattern syntax. -/
inductive Re where
  | eps
  /-- one character of a class -/
  | chr (p : Char → Bool)
  | seq (a b : Re)
  /-- `a|b`, left branch preferred -/
  | alt (a b : Re)
  /-- `a*`, greedy -/
  | star (a : Re)
  /-- `a*?` -/
  | lazyStar (a : Re)
  /-- `a{0,n}`, greedy -/
  | upTo (n : Nat) (a : Re)
  /-- `^` without MULTILINE -/
  | bos
  /-- `$` without MULTILINE: at the end, or before a final newline -/
  | eos
  /-- `(?=a)` -/
  | look (a : Re)
  /-- `(?!a)` -/
  | nlook (a : Re)

/-- Greedy loop around a matcher `m`.  Python's engine refuses an iteration that
consumes nothing; so does this one. -/
def starK (m : Str → (Str → Option Str) → Option Str) (k : Str → Option Str) :
    Nat → Str → Option Str
  | 0, s => k s
  | f + 1, s =>
    match m s (fun s' => if s'.length < s.length then starK m k f s' else none) with
    | some r => some r
    | none => k s

/-- Lazy loop around a matcher `m`. -/
def lazyK (m : Str → (Str → Option Str) → Option Str) (k : Str → Option Str) :
    Nat → Str → Option Str
  | 0, s => k s
  | f + 1, s =>
    match k s with
    | some r => some r
    | none => m s (fun s' => if s'.length < s.length then lazyK m k f s' else none)

/-- Greedy bounded loop. -/
def upToK (m : Str → (Str → Option Str) → Option Str) (k : Str → Option Str) :
    Nat → Str → Option Str
  | 0, s => k s
  | n + 1, s =>
    match m s (fun s' => if s'.length < s.length then upToK m k n s' else none) with
    | some r => some r
    | none => k s

/-- `r.run n s k`: match `r` at the suffix `s` of a subject of length `n`, then
continue with `k` on what is left; the first success in backtracking order wins. -/
def Re.run (n : Nat) : Re → Str → (Str → Option Str) → Option Str
  | .eps, s, k => k s
  | .chr p, s, k =>
    match s with
    | [] => none
    | c :: cs => if p c then k cs else none
  | .seq a b, s, k => a.run n s (fun s' => b.run n s' k)
  | .alt a b, s, k =>
    match a.run n s k with
    | some r => some r
    | none => b.run n s k
  | .star a, s, k => starK (a.run n) k s.length s
  | .lazyStar a, s, k => lazyK (a.run n) k s.length s
  | .upTo m a, s, k => upToK (a.run n) k m s
  | .bos, s, k => if s.length == n then k s else none
  | .eos, s, k =>
    match s with
    | [] => k s
    | [c] => if c == '\n' then k s else none
    | _ :: _ :: _ => none
  | .look a, s, k => if (a.run n s some).isSome then k s else none
  | .nlook a, s, k => if (a.run n s some).isSome then none else k s

/-- `re.match(r, s)`: the text left after the match, if any. -/
def Re.rest (r : Re) (s : Str) : Option Str := r.run s.length s some

/-- `re.match(r, s).group()`. -/
def Re.matchPrefix (r : Re) (s : Str) : Option Str :=
  (r.rest s).map fun t => s.take (s.length - t.length)

/-- Search loop: try every start position, leftmost first.  Returns the text
before the match and the text after it. -/
def Re.searchFrom (r : Re) (n : Nat) (acc : Str) : Str → Option (Str × Str)
  | [] => (r.run n [] some).map fun t => (acc.reverse, t)
  | c :: cs =>
    match r.run n (c :: cs) some with
    | some t => some (acc.reverse, t)
    | none => r.searchFrom n (c :: acc) cs

/-- `re.search(r, s)`: text before the match and text after it. -/
def Re.search (r : Re) (s : Str) : Option (Str × Str) := r.searchFrom s.length [] s

/-- `re.search(r, s) is not None`. -/
def Re.found (r : Re) (s : Str) : Bool := (r.search s).isSome

/-- `re.sub(r, f, s)` for patterns that never match the empty string. -/
def Re.subLoop (r : Re) (f : Str → Str) (n : Nat) : Nat → Str → Str
  | 0, s => s
  | _, [] => []
  | fuel + 1, c :: cs =>
    match r.run n (c :: cs) some with
    | some t =>
      if t.length < (c :: cs).length then
        f ((c :: cs).take ((c :: cs).length - t.length)) ++ r.subLoop f n fuel t
      else c :: r.subLoop f n fuel cs
    | none => c :: r.subLoop f n fuel cs

def Re.sub (r : Re) (f : Str → Str) (s : Str) : Str := r.subLoop f s.length s.length s

/-! Pattern combinators. -/

def Re.lit1 (c : Char) : Re := .chr (· == c)

/-- Case-insensitive match of one character against an ASCII letter or other
character `c` of a pattern compiled with `re.IGNORECASE`: CPython folds the four
non-ASCII characters U+0130, U+0131 (to `i`), U+017F (to `s`), U+212A (to `k`)
onto ASCII letters. -/
def ciEq (c x : Char) : Bool :=
  x == c || x.toLower == c.toLower ||
  (c.toLower == 'i' && (x.toNat == 0x130 || x.toNat == 0x131)) ||
  (c.toLower == 's' && x.toNat == 0x17f) ||
  (c.toLower == 'k' && x.toNat == 0x212a)

/-- A literal string. -/
def Re.word : Str → Re
  | [] => .eps
  | [c] => .lit1 c
  | c :: d :: cs => .seq (.lit1 c) (Re.word (d :: cs))

/-- A literal string under IGNORECASE. -/
def Re.ciWord : Str → Re
  | [] => .eps
  | [c] => .chr (ciEq c)
  | c :: d :: cs => .seq (.chr (ciEq c)) (Re.ciWord (d :: cs))

/-- `a|b|...`. -/
def Re.alts : List Re → Re
  | [] => .nlook .eps
  | [a] => a
  | a :: b :: r => .alt a (Re.alts (b :: r))

/-- Concatenation. -/
def Re.seqs : List Re → Re
  | [] => .eps
  | [a] => a
  | a :: b :: r => .seq a (Re.seqs (b :: r))

/-- `a+`. -/
def Re.plus (a : Re) : Re := .seq a (.star a)

/-- `a?`. -/
def Re.opt (a : Re) : Re := .upTo 1 a

/-- `a{n}`. -/
def Re.exactly : Nat → Re → Re
  | 0, _ => .eps
  | n + 1, a => .seq a (Re.exactly n a)

/-- `a{n,}`. -/
def Re.atLeast (n : Nat) (a : Re) : Re := .seq (Re.exactly n a) (.star a)

/-- `a{n,m}`. -/
def Re.between (n m : Nat) (a : Re) : Re := .seq (Re.exactly n a) (.upTo (m - n) a)

/-! Character classes. -/

def inRange (lo hi : Char) (c : Char) : Bool := lo.toNat ≤ c.toNat && c.toNat ≤ hi.toNat

/-- `[0-9]`. -/
def isDig (c : Char) : Bool := inRange '0' '9' c
/-- `[a-zA-Z]`. -/
def isAlpha (c : Char) : Bool := inRange 'a' 'z' c || inRange 'A' 'Z' c
def isAlnum (c : Char) : Bool := isAlpha c || isDig c

/-- The four non-ASCII characters matched by `[a-z]` under IGNORECASE. -/
def isCiExtra (c : Char) : Bool :=
  c.toNat == 0x130 || c.toNat == 0x131 || c.toNat == 0x17f || c.toNat == 0x212a

/-- `[A-Za-z]` under IGNORECASE. -/
def isAlphaCI (c : Char) : Bool := isAlpha c || isCiExtra c
def isAlnumCI (c : Char) : Bool := isAlphaCI c || isDig c

/-- `.`: any character but `\n`. -/
def isDot (c : Char) : Bool := c != '\n'

end CM
