import Verif.Model.Events
/-
Model of /repo/commonmark/dump.py.
-/
namespace CM

/-- A JSON value; the keys of an object are listed in the sorted order that `sort_keys=True` gives. -/
inductive Json where
  | null
  | bool (b : Bool)
  | num (n : Nat)
  | str (s : Str)
  | arr (xs : List Json)
  | obj (kvs : List (Str × Json))

/-- `Json` of an optional value. -/
def Json.ofOpt {α : Type} (f : α → Json) : Option α → Json
  | some a => f a
  | none => .null

/-- `list_data` as JSON, keys sorted. -/
def listDataJson (l : ListData) : Json :=
  .obj [(lit "bullet_char", .ofOpt (fun c => .str [c]) l.bulletChar),
    (lit "delimiter", .ofOpt (fun c => .str [c]) l.delimiter),
    (lit "marker_offset", .num l.markerOffset),
    (lit "padding", .num l.padding),
    (lit "start", .ofOpt .num l.start),
    (lit "tight", .bool l.tight),
    (lit "type", .str (if l.type == .bullet then lit "bullet" else lit "ordered"))]

/-- A dict `rep` of `prepare`, dump.py:16-38: the attributes other than `children`, and `children` if
the key is present. -/
structure Rep where
  node : NodeData
  children : Option (List NodeData)

/-- `rep` as built at dump.py:16-38. -/
def mkRep (d : NodeData) : Rep := ⟨d, if isContainer d.t then some [] else none⟩

/-- Lines 40-46: append an event to the list `a` (here in reverse order, last rep first).
`a[-1]['children']` raises KeyError if the last rep has none. -/
def prepareStep (a : List Rep) (e : Event) : Except PyErr (List Rep) :=
  match a with
  | [] => .ok [mkRep e.node]
  | r :: rs =>
    if e.entering then
      match r.children with
      | none => .error .keyError
      | some cs => .ok ({ r with children := some (cs ++ [e.node]) } :: rs)
    else .ok (mkRep e.node :: r :: rs)

/-- `prepare`, dump.py:8-47.  A rep nested in another one never receives children of its own
(only `a[-1]` does), so it is represented by its node. -/
def prepare (t : Tree) : Except PyErr (List Rep) := do
  return (← (events none none t).foldlM prepareStep []).reverse

/-- A key present only for a truthy string, dump.py:19-32. -/
def optKey (k : Str) (v : Option Str) : List (Str × Json) :=
  match v with
  | some s => if s.isEmpty then [] else [(k, .str s)]
  | none => []

/-- The dict as JSON, keys sorted. -/
def repJson (d : NodeData) (children : Option (List Json)) : Json :=
  .obj ((match children with
      | some cs => [(lit "children", Json.arr cs)]
      | none => []) ++
    optKey (lit "destination") d.destination ++
    optKey (lit "info") d.info ++
    (match d.listData with
      | some l => [(lit "list_data", listDataJson l)]
      | none => []) ++
    optKey (lit "literal") d.literal ++
    optKey (lit "string_content") d.stringContent ++
    optKey (lit "title") d.title ++
    [(lit "type", .str d.t.name)])

/-- A nested rep: its `children` is the empty list if it is a container. -/
def leafJson (d : NodeData) : Json := repJson d (if isContainer d.t then some [] else none)

def Rep.json (r : Rep) : Json := repJson r.node (r.children.map fun cs => cs.map leafJson)

/-! ### `json.dumps(..., indent=4, sort_keys=True)` -/

/-- Lower-case hexadecimal digit. -/
def hexLower (n : Nat) : Char := if n < 10 then Char.ofNat (48 + n) else Char.ofNat (87 + n)

/-- `\uXXXX`. -/
def jsonU (n : Nat) : Str :=
  ['\\', 'u', hexLower (n / 4096 % 16), hexLower (n / 256 % 16), hexLower (n / 16 % 16),
    hexLower (n % 16)]

/-- One character of a JSON string with `ensure_ascii=True`. -/
def jsonChar (c : Char) : Str :=
  if c == '"' then ['\\', '"']
  else if c == '\\' then ['\\', '\\']
  else if c == '\n' then ['\\', 'n']
  else if c == '\r' then ['\\', 'r']
  else if c == '\t' then ['\\', 't']
  else if c.toNat == 12 then ['\\', 'f']
  else if c.toNat == 8 then ['\\', 'b']
  else if 32 ≤ c.toNat && c.toNat ≤ 126 then [c]
  else if c.toNat < 0x10000 then jsonU c.toNat
  else
    let v := c.toNat - 0x10000
    jsonU (0xD800 + v / 1024) ++ jsonU (0xDC00 + v % 1024)

def jsonStr (s : Str) : Str := '"' :: (s.flatMap jsonChar ++ ['"'])

/-- Newline and indentation. -/
def jsonNl (level : Nat) : Str := '\n' :: List.replicate (4 * level) ' '

mutual
/-- `json.dumps` at an indentation level. -/
def Json.dump (level : Nat) : Json → Str
  | .null => lit "null"
  | .bool b => if b then lit "true" else lit "false"
  | .num n => natToStr n
  | .str s => jsonStr s
  | .arr [] => lit "[]"
  | .arr (x :: xs) =>
    '[' :: (jsonNl (level + 1) ++ x.dump (level + 1) ++ Json.dumpArr level xs ++ jsonNl level ++ [']'])
  | .obj [] => lit "{}"
  | .obj ((k, x) :: kvs) =>
    '{' :: (jsonNl (level + 1) ++ jsonStr k ++ [':', ' '] ++ x.dump (level + 1) ++
      Json.dumpObj level kvs ++ jsonNl level ++ ['}'])
def Json.dumpArr (level : Nat) : List Json → Str
  | [] => []
  | x :: xs => (',' :: jsonNl (level + 1)) ++ x.dump (level + 1) ++ Json.dumpArr level xs
def Json.dumpObj (level : Nat) : List (Str × Json) → Str
  | [] => []
  | (k, x) :: kvs =>
    (',' :: jsonNl (level + 1)) ++ jsonStr k ++ [':', ' '] ++ x.dump (level + 1) ++
      Json.dumpObj level kvs
end

/-- `dumpJSON`, dump.py:50-53. -/
def dumpJSON (t : Tree) : Except PyErr Str := do
  return (Json.arr ((← prepare t).map Rep.json)).dump 0

/-! ### dumpAST, dump.py:56-108 -/

/-- `str(obj.sourcepos)`. -/
def sourceposRepr (p : (Nat × Nat) × (Nat × Nat)) : Str :=
  lit "[[" ++ natToStr p.1.1 ++ lit ", " ++ natToStr p.1.2 ++ lit "], [" ++ natToStr p.2.1 ++
    lit ", " ++ natToStr p.2.2 ++ lit "]]"

/-- `if not x == "": print(pre + (x or ''))`. -/
def dumpOpt (pre : Str) (x : Option Str) : List Str :=
  if x == some [] then [] else [pre ++ x.getD []]

/-- The lines printed for one node, dump.py:58-103. -/
def dumpNode (ind : Nat) (d : NodeData) : List Str :=
  let ic := if ind == 0 then [] else List.replicate ind '\t' ++ lit "-> "
  let tab (s : String) : Str := '\t' :: (ic ++ lit s)
  let tab2 (s : String) : Str := '\t' :: '\t' :: (ic ++ lit s)
  [ic ++ ('[' :: (d.t.name ++ [']']))] ++
  dumpOpt (tab "Title: ") d.title ++
  dumpOpt (tab "Info: ") d.info ++
  dumpOpt (tab "Destination: ") d.destination ++
  (if d.isOpen then [tab "Open: True"] else []) ++
  (if d.lastLineBlank then [tab "Last line blank: True"] else []) ++
  (match d.sourcepos with
   | some p => [tab "Sourcepos: " ++ sourceposRepr p]
   | none => []) ++
  dumpOpt (tab "String content: ") d.stringContent ++
  dumpOpt (tab "Info: ") d.info ++
  dumpOpt (tab "Literal: ") d.literal ++
  (match d.listData with
   | none => []
   | some l =>
     [tab "List Data: ",
      tab2 "[type] = " ++ (if l.type == .bullet then lit "bullet" else lit "ordered")] ++
     (match l.bulletChar with
      | some c => [tab2 "[bullet_char] = " ++ [c]]
      | none => []) ++
     (match l.start with
      | some n => if n == 0 then [] else [tab2 "[start] = " ++ natToStr n]
      | none => []) ++
     (match l.delimiter with
      | some c => [tab2 "[delimiter] = " ++ [c]]
      | none => []) ++
     (if l.padding == 0 then [] else [tab2 "[padding] = " ++ natToStr l.padding]) ++
     (if l.markerOffset == 0 then [] else [tab2 "[marker_offset] = " ++ natToStr l.markerOffset])) ++
  [tab "Children:"]

/-- `dumpAST(obj)`: the lines printed.  The root is printed, then every event of the walk (a
container twice) at indentation 2. -/
def dumpAST (t : Tree) : List Str :=
  dumpNode 0 t.data ++ (events none none t).flatMap fun e => dumpNode 2 e.node

end CM
