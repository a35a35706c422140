import Verif.Model.Regex
import Verif.Model.FoldTable
/-
Model of /repo/commonmark/normalize_reference.py.  The modelled branch is
`translate(XLAT)` (lines 118-124); the branch at 111-117 uses the native
`str.casefold`, selected only when it folds every character of the table.
-/
namespace CM

/-! ### `_parse_table`, lines 32-60 -/

/-- `s.split(c)` for one separator character. -/
def splitOnChar (sep : Char) : Str → List Str
  | [] => [[]]
  | c :: cs =>
    if c == sep then [] :: splitOnChar sep cs
    else match splitOnChar sep cs with
      | [] => [[c]]
      | w :: ws => (c :: w) :: ws

/-- One base-36 digit. -/
def digit36 (c : Char) : Nat :=
  if inRange '0' '9' c then c.toNat - '0'.toNat else c.toNat - 'a'.toNat + 10

/-- `int(x, 36)` with an optional minus sign; `0` for the empty string
(line 37: `int(x, 36) if x else 0`). -/
def int36 (s : Str) : Int :=
  match s with
  | '-' :: ds => -((ds.foldl (fun a c => a * 36 + digit36 c) 0 : Nat) : Int)
  | ds => ((ds.foldl (fun a c => a * 36 + digit36 c) 0 : Nat) : Int)

/-- One `while` block of `_parse_table` (lines 35-59), kept as a range
(first, last, stride, delta, suffix) instead of being expanded into a dict;
lookups (`xlatGet`) expand it. -/
def parseTableLoop : List Str → Int → Int → List (Nat × Nat × Nat × Int × List Nat)
  | [], _, _ => []
  | e :: es, curI, curJ =>
    match splitOnChar ',' e with
    | [] => []
    | h :: sfx =>
      let info := (splitOnChar ':' h).map int36
      let (fdt, streak, delta, stride) : Int × Int × Int × Int :=
        match info with
        | [fdt, delta] => (fdt, 0, delta, 1)
        | [fdt, streak, delta] => (fdt, streak, delta, 1)
        | [fdt, streak, delta, stride] => (fdt, streak, delta, stride)
        | _ => (0, 0, 0, 1)
      let curI := curI + fdt + 1
      let curJ := curJ - delta
      (curI.toNat, (curI + streak).toNat, stride.toNat, curJ, sfx.map fun x => (int36 x).toNat)
        :: parseTableLoop es curI curJ

def parseTable (tbl : Str) : List (Nat × Nat × Nat × Int × List Nat) :=
  parseTableLoop (splitOnChar ';' tbl) (-1) 0

/-- `XLAT.get(ord(c))`: the folding of `c`, if it has one. -/
def xlatGet (c : Char) : Option Str :=
  let n := c.toNat
  (foldRanges.find? fun e => e.1 ≤ n && n ≤ e.2.1 && (n - e.1) % e.2.2.1 == 0).map
    fun e => Char.ofNat ((n : Int) + e.2.2.2.1).toNat :: e.2.2.2.2.map Char.ofNat

/-- `str.translate(XLAT)` of one character. -/
def foldChar (c : Char) : Str := (xlatGet c).getD [c]

def caseFold (s : Str) : Str := s.flatMap foldChar

/-! ### `normalize_reference` -/

/-- The class of SPACE_RE, line 110: `[ \t\r\n]`. -/
def isLabelSpace (c : Char) : Bool := c == ' ' || c == '\t' || c == '\r' || c == '\n'

/-- SPACE_RE, line 110. -/
def reSPACE : Re := .plus (.chr isLabelSpace)

/-- `normalize_reference`, lines 118-124. -/
def normalizeReference (s : Str) : Str :=
  caseFold (reSPACE.sub (fun _ => [' ']) (strip (chop s)))

end CM
