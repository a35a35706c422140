import Verif.Model.Dump
/-
A reader of JSON texts (RFC 8259; of the numbers only natural numbers), and what it means that a JSON object describes a
node.  The reader does not mention the function that writes.
-/
namespace Spec
open CM

/-- Value of a hexadecimal digit. -/
def jsonHex (c : Char) : Option Nat :=
  if '0' ≤ c ∧ c ≤ '9' then some (c.toNat - '0'.toNat)
  else if 'a' ≤ c ∧ c ≤ 'f' then some (c.toNat - 'a'.toNat + 10)
  else if 'A' ≤ c ∧ c ≤ 'F' then some (c.toNat - 'A'.toNat + 10)
  else none

/-- Value of four hexadecimal digits. -/
def jsonHex4 (a b c d : Char) : Option Nat := do
  return 4096 * (← jsonHex a) + 256 * (← jsonHex b) + 16 * (← jsonHex c) + (← jsonHex d)

/-- The UTF-16 code units of a character. -/
def utf16Units (c : Char) : List Nat :=
  if c.toNat < 0x10000 then [c.toNat]
  else [0xD800 + (c.toNat - 0x10000) / 1024, 0xDC00 + (c.toNat - 0x10000) % 1024]

/-- The escapes of one character after a backslash. -/
def jsonEscapes : List (Char × Nat) :=
  [('"', 34), ('\\', 92), ('/', 47), ('b', 8), ('f', 12), ('n', 10), ('r', 13), ('t', 9)]

/-- The code units of a string, after its opening quotation mark, and the text after its closing quotation mark. -/
def readUnits : Str → Option (List Nat × Str)
  | [] => none
  | c :: s =>
    if c = '"' then some ([], s)
    else if c = '\\' then
      match s with
      | [] => none
      | e :: s =>
        if e = 'u' then
          match s with
          | h1 :: h2 :: h3 :: h4 :: s => do
            let n ← jsonHex4 h1 h2 h3 h4
            let (us, r) ← readUnits s
            return (n :: us, r)
          | _ => none
        else do
          let n ← jsonEscapes.lookup e
          let (us, r) ← readUnits s
          return (n :: us, r)
    else if c.toNat < 32 then none
    else do
      let (us, r) ← readUnits s
      return (utf16Units c ++ us, r)

/-- The text with these UTF-16 code units. -/
def utf16Decode : List Nat → Option Str
  | [] => some []
  | u :: us =>
    if u < 0xD800 ∨ 0xE000 ≤ u ∧ u < 0x10000 then do
      return Char.ofNat u :: (← utf16Decode us)
    else if 0xD800 ≤ u ∧ u < 0xDC00 then
      match us with
      | v :: us =>
        if 0xDC00 ≤ v ∧ v < 0xE000 then do
          return Char.ofNat (0x10000 + 1024 * (u - 0xD800) + (v - 0xDC00)) :: (← utf16Decode us)
        else none
      | [] => none
    else none

/-- A string, after its opening quotation mark. -/
def readString (s : Str) : Option (Str × Str) := do
  let (us, r) ← readUnits s
  return (← utf16Decode us, r)

/-- White space is skipped. -/
def skipWhite (s : Str) : Str := s.dropWhile fun c => c == ' ' || c == '\n' || c == '\r' || c == '\t'

/-- A natural number, without leading zeros. -/
def readNat (s : Str) : Option (Nat × Str) :=
  let ds := s.takeWhile Char.isDigit
  if ds = [] ∨ 1 < ds.length ∧ ds.head? = some '0' then none
  else some (ds.foldl (fun n c => 10 * n + (c.toNat - '0'.toNat)) 0, s.dropWhile Char.isDigit)

mutual
/-- A value.  The number bounds the depth of the recursion. -/
def readValue : Nat → Str → Option (Json × Str)
  | 0, _ => none
  | n + 1, s =>
    match skipWhite s with
    | '"' :: s => do
      let (x, r) ← readString s
      return (.str x, r)
    | '[' :: s =>
      match skipWhite s with
      | ']' :: r => some (.arr [], r)
      | s => do
        let (xs, r) ← readItems n s
        return (.arr xs, r)
    | '{' :: s =>
      match skipWhite s with
      | '}' :: r => some (.obj [], r)
      | s => do
        let (xs, r) ← readMembers n s
        return (.obj xs, r)
    | 'n' :: 'u' :: 'l' :: 'l' :: r => some (.null, r)
    | 't' :: 'r' :: 'u' :: 'e' :: r => some (.bool true, r)
    | 'f' :: 'a' :: 'l' :: 's' :: 'e' :: r => some (.bool false, r)
    | s => do
      let (x, r) ← readNat s
      return (.num x, r)
/-- The items of an array, and its closing bracket. -/
def readItems : Nat → Str → Option (List Json × Str)
  | 0, _ => none
  | n + 1, s => do
    let (x, r) ← readValue n s
    match skipWhite r with
    | ',' :: r => do
      let (xs, r) ← readItems n r
      return (x :: xs, r)
    | ']' :: r => return ([x], r)
    | _ => none
/-- The members of an object, and its closing brace. -/
def readMembers : Nat → Str → Option (List (Str × Json) × Str)
  | 0, _ => none
  | n + 1, s =>
    match skipWhite s with
    | '"' :: s => do
      let (k, r) ← readString s
      match skipWhite r with
      | ':' :: r => do
        let (x, r) ← readValue n r
        match skipWhite r with
        | ',' :: r => do
          let (xs, r) ← readMembers n r
          return ((k, x) :: xs, r)
        | '}' :: r => return ([(k, x)], r)
        | _ => none
      | _ => none
    | _ => none
end

/-- The value of a JSON text. -/
def readJson (s : Str) : Option Json := do
  let (x, r) ← readValue (s.length + 1) s
  if skipWhite r = [] then return x else none

/-- The value of a key of an object. -/
def field (k : String) : Json → Option Json
  | .obj kvs => (kvs.find? fun kv => kv.1 == k.toList).map (·.2)
  | _ => none

/-- Texts are given if they are not empty. -/
def textField : Option Str → Option Json
  | none => none
  | some [] => none
  | some s => some (.str s)

/-- A text or `null`. -/
def charField : Option Char → Json
  | none => .null
  | some c => .str [c]

/-- `j` describes the list data `l`. -/
structure DescribesList (l : ListData) (j : Json) : Prop where
  type : field "type" j = some (.str (if l.type = .bullet then "bullet".toList else "ordered".toList))
  tight : field "tight" j = some (.bool l.tight)
  bulletChar : field "bullet_char" j = some (charField l.bulletChar)
  delimiter : field "delimiter" j = some (charField l.delimiter)
  start : field "start" j = some (match l.start with
    | none => .null
    | some n => .num n)
  padding : field "padding" j = some (.num l.padding)
  offset : field "marker_offset" j = some (.num l.markerOffset)

/-- `j` describes the node `d`. -/
structure DescribesNode (d : NodeData) (j : Json) : Prop where
  type : field "type" j = some (.str d.t.name)
  literal : field "literal" j = textField d.literal
  content : field "string_content" j = textField d.stringContent
  title : field "title" j = textField d.title
  info : field "info" j = textField d.info
  destination : field "destination" j = textField d.destination
  list : match d.listData with
    | none => field "list_data" j = none
    | some l => ∃ k, field "list_data" j = some k ∧ DescribesList l k
  children : (field "children" j).isSome = isContainer d.t

/-- The objects of a dump in the order in which they stand in it: each is followed by its children. -/
def listed : Json → List Json
  | .arr xs => xs.flatMap fun x => x :: (match field "children" x with
    | some (.arr ys) => ys
    | _ => [])
  | _ => []

end Spec
