import Verif.Model.Html
/-
Model of /repo/commonmark/render/rst.py.
-/
namespace CM

/-- The attributes `buf`, `last_out`, `indent_length`. -/
structure RState where
  buf : Str
  lastOut : Str
  indentLength : Int
deriving DecidableEq, Repr

/-- `s * n` for a Python string and integer. -/
def repeatStr (s : Str) (n : Int) : Str := (List.replicate n.toNat s).flatten

namespace RState

/-- `ReStructuredTextRenderer.lit`, rst.py:28-36; `ic` is `indent_char`. -/
def lit (ic : Str) (s : Str) (st : RState) : RState :=
  let indent :=
    if s == ['\n'] then []
    else if st.lastOut != ['\n'] then []
    else repeatStr ic st.indentLength
  { st with buf := st.buf ++ (indent ++ s), lastOut := indent ++ s }

/-- `out` (renderer.py:36-43) of a possibly missing string: `indent + None` raises TypeError. -/
def out (ic : Str) : Option Str → RState → Except PyErr RState
  | none, _ => .error .typeError
  | some s, st => .ok (st.lit ic s)

/-- `cr`, rst.py:38-39. -/
def cr (ic : Str) (st : RState) : RState := st.lit ic ['\n']

/-- `self.indent_length += n`. -/
def indentBy (n : Int) (st : RState) : RState := { st with indentLength := st.indentLength + n }

end RState

/-- `indent_lines`, rst.py:41-48. -/
def indentLines (ic : Str) (literal : Str) (n : Int) : Str :=
  joinWith ['\n'] ((splitLines literal).map fun l => repeatStr ic n ++ l)

/-- The directive of a code block, rst.py:100-108. -/
def codeDirective (info : Option Str) : Str :=
  match info with
  | none => lit ".. code::"
  | some i =>
    match splitWords i with
    | [] => lit ".. code::"
    | w :: _ => lit ".. code::" ++ (' ' :: w)

/-- `heading_chars[node.level-1]`, rst.py:138-151.  Level 0 indexes from the end. -/
def headingChar (level : Nat) : Char :=
  match level with
  | 1 => '#'
  | 2 => '*'
  | 3 => '='
  | 4 => '-'
  | 5 => '^'
  | _ => '"'

/-- `heading`, rst.py:137-161. -/
def rstHeading (ic : Str) (e : Event) (st : RState) : Except PyErr RState :=
  match e.node.level with
  | none => .error .typeError
  | some level =>
    match e.first with
    | none => .error .attributeError
    | some f =>
      match f.literal with
      | none => .error .typeError
      | some l =>
        if e.entering then .ok (st.cr ic)
        else .ok (((st.cr ic).lit ic (List.replicate l.length (headingChar level))).cr ic)

/-- `'* '` or `'#. '`, rst.py:122. -/
def itemTag (ty : ListType) : Str := if ty == .bullet then lit "* " else lit "#. "

/-- The renderer method for one event, rst.py:52-161, dispatched by renderer.py:16-20.  Kinds without
a method are skipped. -/
def rstEvent (ic : Str) (st : RState) (e : Event) : Except PyErr RState :=
  let d := e.node
  match d.t with
  | .document => .ok st
  | .softbreak => .ok (st.cr ic)
  | .linebreak => .ok ((st.cr ic).cr ic)
  | .text => st.out ic d.literal
  | .emph => .ok (st.lit ic ['*'])
  | .strong => .ok (st.lit ic ['*', '*'])
  | .paragraph =>
    match e.parent with
    | none => .error .attributeError
    | some p => if p.t == .item then .ok st else .ok (st.cr ic)
  | .link =>
    if e.entering then .ok (st.lit ic ['`'])
    else .ok (st.lit ic (lit " <" ++ d.destination.getD (lit "None") ++ lit ">`_"))
  | .image =>
    match d.destination with
    | none => .error .typeError
    | some dest =>
      if e.entering then
        .ok (((((st.lit ic (lit ".. image:: " ++ dest)).cr ic).indentBy 4)).lit ic (lit ":alt: "))
      else .ok (st.indentBy (-4))
  | .code => do
    let st := st.lit ic ['`', '`']
    let st ← st.out ic d.literal
    return st.lit ic ['`', '`']
  | .codeBlock =>
    let st := (((st.cr ic).lit ic (codeDirective d.info)).cr ic).cr ic
    match d.literal with
    | none => .error .attributeError
    | some l => .ok ((st.lit ic (indentLines ic l 4)).cr ic)
  | .list => if e.entering then .ok (st.cr ic) else .ok st
  | .item =>
    match d.listData with
    | none => .error .keyError
    | some l =>
      let tag := itemTag l.type
      if e.entering then .ok ((st.lit ic tag).indentBy tag.length)
      else .ok ((st.indentBy (-tag.length)).cr ic)
  | .blockQuote => .ok (st.indentBy (if e.entering then 4 else -4))
  | .heading => rstHeading ic e st
  | .thematicBreak | .htmlInline | .htmlBlock | .customInline | .customBlock => .ok st

/-- `render` on a renderer with the given `indent_length` (0 after the constructor). -/
def renderRstWith (ic : Str) (indent : Int) (t : Tree) : Except PyErr RState :=
  (events none none t).foldlM (rstEvent ic) ⟨[], ['\n'], indent⟩

/-- `ReStructuredTextRenderer(ic).render(ast)`. -/
def renderRst (ic : Str) (t : Tree) : Except PyErr Str := do
  return (← renderRstWith ic 0 t).buf

end CM
