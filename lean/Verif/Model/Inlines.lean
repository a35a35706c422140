import Verif.Model.Common
import Verif.Model.NormalizeReference
import Verif.Model.UniTable
import Verif.Model.Tree
/-
Model of /repo/commonmark/inlines.py (class InlineParser).

Representation.  `self.subject` and `self.refmap` and `self.options` do not change while one block
is parsed; they are the parameter `Ctx`.  `self.pos` and the children of the block are in `IState`.
A child that the delimiter or bracket stack refers to carries a non-zero `id` (Python uses
object identity); other children have id 0.  `self.delimiters` and `self.brackets` are linked lists
of dicts in Python and lists here, top of stack first.
-/
namespace CM

/-! ### Patterns, inlines.py:21-83 -/

/-- `rePunctuation`, inlines.py:25-51 applied to one character. -/
def isPunct (c : Char) : Bool := punctRanges.any fun r => r.1 ≤ c.toNat && c.toNat ≤ r.2

/-- ESCAPED_CHAR, inlines.py:23. -/
def reESCAPED_CHAR : Re := .seq (.lit1 '\\') (.chr isEscapable)

/-- `reLinkTitle`, inlines.py:53-58. -/
def reLinkTitle : Re :=
  .alts [
    .seqs [.lit1 '"', .star (.alt reESCAPED_CHAR (.chr fun c => !(c == '"' || c.toNat == 0))),
      .lit1 '"'],
    .seqs [.lit1 '\'', .star (.alt reESCAPED_CHAR (.chr fun c => !(c == '\'' || c.toNat == 0))),
      .lit1 '\''],
    .seqs [.lit1 '(',
      .star (.alt reESCAPED_CHAR (.chr fun c => !(c == '(' || c == ')' || c.toNat == 0))),
      .lit1 ')']]

/-- `reLinkDestinationBraces`, inlines.py:59. -/
def reLinkDestinationBraces : Re :=
  .seqs [.lit1 '<',
    .star (.alt (.chr fun c => !(c == '<' || c == '>' || c == '\n' || c == '\\' || c.toNat == 0))
      (.seq (.lit1 '\\') (.chr isDot))),
    .lit1 '>']

/-- `reTicks`, inlines.py:63 (also `reTicksHere`, inlines.py:64, when anchored). -/
def reTicks : Re := .plus (.lit1 '`')

/-- `reEllipses`, inlines.py:65. -/
def reEllipses : Re := .word (lit "...")

/-- `reDash`, inlines.py:66: `--+`. -/
def reDash : Re := .seq (.lit1 '-') (.plus (.lit1 '-'))

/-- First class of `reEmailAutolink`, inlines.py:68. -/
def isEmailChar (c : Char) : Bool := isAlnum c || (lit ".!#$%&'*+/=?^_`{|}~-").contains c

/-- `[a-zA-Z0-9](?:[a-zA-Z0-9-]{0,61}[a-zA-Z0-9])?`, inlines.py:68-70. -/
def reEmailLabel : Re :=
  .seq (.chr isAlnum)
    (.opt (.seq (.upTo 61 (.chr fun c => isAlnum c || c == '-')) (.chr isAlnum)))

/-- `reEmailAutolink`, inlines.py:67-70. -/
def reEmailAutolink : Re :=
  .seqs [.lit1 '<', .plus (.chr isEmailChar), .lit1 '@', reEmailLabel,
    .star (.seq (.lit1 '.') reEmailLabel), .lit1 '>']

/-- `reAutolink`, inlines.py:71-73 (IGNORECASE). -/
def reAutolink : Re :=
  .seqs [.lit1 '<', .chr isAlphaCI,
    .between 1 31 (.chr fun c => isAlnumCI c || c == '.' || c == '+' || c == '-'), .lit1 ':',
    .star (.chr fun c => !(c == '<' || c == '>' || c.toNat ≤ 0x20)), .lit1 '>']

/-- `reSpnl`, inlines.py:74: `^ *(?:\n *)?` -/
def reSpnl : Re :=
  .seq (.star (.lit1 ' ')) (.opt (.seq (.lit1 '\n') (.star (.lit1 ' '))))

/-- `reWhitespaceChar`, inlines.py:75, of one character. -/
def isWhitespaceChar (c : Char) : Bool := c == ' ' || (9 ≤ c.toNat && c.toNat ≤ 13)

/-- `reUnicodeWhitespaceChar`, inlines.py:77, or NBSP (inlines.py:276-281). -/
def isUniWhitespace (c : Char) : Bool := isPySpace c || c.toNat == 0xa0

/-- `reInitialSpace`, inlines.py:79. -/
def reInitialSpace : Re := .star (.lit1 ' ')

/-- `reSpaceAtEndOfLine`, inlines.py:80: `^ *(?:\n|$)` -/
def reSpaceAtEndOfLine : Re := .seq (.star (.lit1 ' ')) (.alt (.lit1 '\n') .eos)

/-- `reLinkLabel`, inlines.py:81. -/
def reLinkLabel : Re :=
  .seqs [.lit1 '[',
    .upTo 1000 (.alt (.chr fun c => !(c == '\\' || c == '[' || c == ']'))
      (.seq (.lit1 '\\') (.chr isDot))),
    .lit1 ']']

/-- The class of `reMain`, inlines.py:83. -/
def isMain (c : Char) : Bool := !((lit "\n`[]\\!<&*_'\"").contains c)

/-- `reMain`, inlines.py:83.  MULTILINE lets `^` also match after a newline, but `parseString` is
only called when the next character is in the class, so the leftmost match starts at the current
position and the anchored reading is the same. -/
def reMain : Re := .plus (.chr isMain)

/-! ### Nodes and stacks -/

/-- A child of the block being parsed. -/
structure Item where
  id : Nat
  node : Tree

/-- `text(s)`, inlines.py:86-89. -/
def textNode (s : Str) : Tree := .node { t := .text, literal := some s } []

/-- `Node(t, None)`. -/
def mkNode (k : Kind) (cs : List Tree) : Tree := .node { t := k } cs

/-- An entry of the delimiter stack, inlines.py:330-339. `node` is the id of the text node. -/
structure Delim where
  cc : Char
  numdelims : Nat
  origdelims : Nat
  node : Nat
  canOpen : Bool
  canClose : Bool
deriving Repr, DecidableEq

/-- An entry of the bracket stack, inlines.py:695-702.  `prevDelim` is the delimiter on top of the
stack when the bracket was pushed.  The key `bracketAfter` (line 693) is written but never read
(line 636 reads `bracket_after`), so it is left out. -/
structure Bracket where
  node : Nat
  prevDelim : Option Nat
  index : Nat
  image : Bool
  active : Bool
deriving Repr

/-- Values of `refmap`, inlines.py:820-823. -/
structure RefDef where
  destination : Str
  title : Str
deriving DecidableEq, Repr

/-- `self.refmap`: a dict from normalised labels. -/
abbrev RefMap := List (Str × RefDef)

def RefMap.get (m : RefMap) (k : Str) : Option RefDef := (m.find? fun e => e.1 == k).map (·.2)

/-- What does not change during `parseInlines`. -/
structure Ctx where
  subject : Str
  refmap : RefMap
  smart : Bool

/-- What does. -/
structure IState where
  pos : Nat
  children : List Item
  delims : List Delim
  brackets : List Bracket
  nextId : Nat

/-! ### smart_dashes, inlines.py:92-110 -/

def emDash : Char := Char.ofNat 0x2014
def enDash : Char := Char.ofNat 0x2013

/-- `smart_dashes` as (em_count, en_count), inlines.py:93-109; `len(chars) - 4` is never negative for
the runs (length >= 2) this is applied to. -/
def smartCounts (n : Nat) : Nat × Nat :=
  if n % 3 == 0 then (n / 3, 0)
  else if n % 2 == 0 then (0, n / 2)
  else if n % 3 == 2 then ((n - 2) / 3, 1)
  else ((n - 4) / 3, 2)

/-- `smart_dashes`, inlines.py:92-110. -/
def smartDashes (chars : Str) : Str :=
  let (em, en) := smartCounts chars.length
  List.replicate em emDash ++ List.replicate en enDash

/-! ### Position helpers -/

/-- `self.subject[self.pos:]`. -/
def Ctx.rest (c : Ctx) (pos : Nat) : Str := c.subject.drop pos

/-- `self.peek()`, inlines.py:140-146. -/
def Ctx.peek (c : Ctx) (pos : Nat) : Option Char := c.subject[pos]?

/-- `self.match(re)` for an anchored pattern, inlines.py:128-138: the matched text and new position. -/
def Ctx.match_ (c : Ctx) (r : Re) (pos : Nat) : Option (Str × Nat) :=
  (r.matchPrefix (c.rest pos)).map fun m => (m, pos + m.length)

/-- `self.match(re)` for an unanchored pattern (`re.search`), inlines.py:128-138. -/
def Ctx.search_ (c : Ctx) (r : Re) (pos : Nat) : Option (Str × Nat) :=
  (r.search (c.rest pos)).map fun (pre, post) =>
    let n := (c.rest pos).length
    (slice (c.rest pos) pre.length (n - post.length), pos + (n - post.length))

/-- `self.spnl()`, inlines.py:148-152. -/
def Ctx.spnl (c : Ctx) (pos : Nat) : Nat :=
  match c.match_ reSpnl pos with
  | some (_, p) => p
  | none => pos

/-- `block.append_child(node)` for a node nobody refers to. -/
def IState.push (st : IState) (t : Tree) : IState := { st with children := st.children ++ [⟨0, t⟩] }

/-! ### parseBackticks, inlines.py:158-181 -/

/-- The literal of a code span from the text between the backticks, inlines.py:169-174. -/
def codeLiteral (between : Str) : Str :=
  let contents := replaceChar '\n' ' ' between
  if !(lstripBy (· == ' ') contents).isEmpty && contents.head? == some ' ' &&
      contents.getLast? == some ' ' then
    chop contents
  else contents

/-- The search for the closing run, inlines.py:165-177.  Returns the position after it. -/
def backtickLoop (c : Ctx) (ticks : Str) : Nat → Nat → Except PyErr (Option Nat)
  | 0, _ => .error .hang
  | fuel + 1, pos =>
    match c.search_ reTicks pos with
    | none => .ok none
    | some (m, p) => if m == ticks then .ok (some p) else backtickLoop c ticks fuel p

def codeNode (s : Str) : Tree := .node { t := .code, literal := some s } []

def parseBackticks (c : Ctx) (st : IState) : Except PyErr (Bool × IState) :=
  match c.match_ reTicks st.pos with
  | none => .ok (false, st)
  | some (ticks, afterOpen) => do
    match ← backtickLoop c ticks (c.subject.length + 1) afterOpen with
    | some p =>
      let between := slice c.subject afterOpen (p - ticks.length)
      return (true, { st with pos := p }.push (codeNode (codeLiteral between)))
    | none => return (true, { st with pos := afterOpen }.push (textNode ticks))

/-! ### parseBackslash, inlines.py:183-208 -/

def parseBackslash (c : Ctx) (st : IState) : IState :=
  let pos := st.pos + 1
  match c.peek pos with
  | some ch =>
    if ch == '\n' then { st with pos := pos + 1 }.push (mkNode .linebreak [])
    else if isEscapable ch then { st with pos := pos + 1 }.push (textNode [ch])
    else { st with pos := pos }.push (textNode ['\\'])
  | none => { st with pos := pos }.push (textNode ['\\'])

/-! ### parseAutolink, inlines.py:210-235 -/

def linkNode (k : Kind) (dest title : Str) (cs : List Tree) : Tree :=
  .node { t := k, destination := some dest, title := some title } cs

def parseAutolink (c : Ctx) (st : IState) : Bool × IState :=
  match c.match_ reEmailAutolink st.pos with
  | some (m, p) =>
    let dest := chop m
    (true, { st with pos := p }.push
      (linkNode .link (normalizeUri (lit "mailto:" ++ dest)) [] [textNode dest]))
  | none =>
    match c.match_ reAutolink st.pos with
    | some (m, p) =>
      let dest := chop m
      (true, { st with pos := p }.push (linkNode .link (normalizeUri dest) [] [textNode dest]))
    | none => (false, st)

/-! ### parseHtmlTag, inlines.py:237-246 -/

def htmlInlineNode (s : Str) : Tree := .node { t := .htmlInline, literal := some s } []

def parseHtmlTag (c : Ctx) (st : IState) : Bool × IState :=
  match c.match_ reHtmlTag st.pos with
  | none => (false, st)
  | some (m, p) => (true, { st with pos := p }.push (htmlInlineNode m))

/-! ### scanDelims, inlines.py:248-309 -/

structure DelimInfo where
  numdelims : Nat
  canOpen : Bool
  canClose : Bool
deriving DecidableEq, Repr

/-- Number of delimiter characters at `pos`, inlines.py:255-264. -/
def countDelims (c : Ctx) (cc : Char) (pos : Nat) : Nat :=
  if cc == '\'' || cc == '"' then 1 else ((c.rest pos).takeWhile (· == cc)).length

/-- The classification, inlines.py:269-302, from the neighbours of the run. -/
def flanking (cc before after : Char) : Bool × Bool :=
  let afterWs := isUniWhitespace after
  let afterP := isPunct after
  let beforeWs := isUniWhitespace before
  let beforeP := isPunct before
  let left := !afterWs && (!afterP || beforeWs || beforeP)
  let right := !beforeWs && (!beforeP || afterWs || afterP)
  if cc == '_' then (left && (!right || beforeP), right && (!left || afterP))
  else if cc == '\'' || cc == '"' then (left && !right, right)
  else (left, right)

def scanDelims (c : Ctx) (cc : Char) (pos : Nat) : Option DelimInfo :=
  let n := countDelims c cc pos
  if n == 0 then none
  else
    let before := if pos == 0 then '\n' else (c.subject[pos - 1]?).getD '\n'
    let after := (c.peek (pos + n)).getD '\n'
    let (o, cl) := flanking cc before after
    some ⟨n, o, cl⟩

/-! ### handleDelim, inlines.py:311-342 -/

def rsquo : Char := Char.ofNat 0x2019
def lsquo : Char := Char.ofNat 0x2018
def ldquo : Char := Char.ofNat 0x201C
def rdquo : Char := Char.ofNat 0x201D

def handleDelim (c : Ctx) (cc : Char) (st : IState) : Bool × IState :=
  match scanDelims c cc st.pos with
  | none => (false, st)
  | some info =>
    let pos := st.pos + info.numdelims
    let contents :=
      if cc == '\'' then [rsquo]
      else if cc == '"' then [ldquo]
      else slice c.subject st.pos pos
    let id := st.nextId
    (true, { st with
      pos := pos
      children := st.children ++ [⟨id, textNode contents⟩]
      delims := ⟨cc, info.numdelims, info.numdelims, id, info.canOpen, info.canClose⟩ :: st.delims
      nextId := id + 1 })

/-! ### processEmphasis, inlines.py:344-476

The part of the delimiter stack above `stack_bottom` is a zipper: `before` holds the entries below
the current closer, nearest first, `after` holds the closer and the entries above it.  Running off
the end of `before` is reaching `stack_bottom`.  `removeDelimiter` (344-351) and
`removeDelimitersBetween` (353-357) drop elements of the zipper. -/

structure EmphState where
  before : List Delim
  after : List Delim
  items : List Item
  /-- `openers_bottom` (360-365): for each delimiter character, where to stop the search; `none` is
  `stack_bottom`. -/
  openersBottom : Char → Option Nat
  oddMatch : Bool

/-- `odd_match`, inlines.py:386-390. -/
def isOddMatch (opener closer : Delim) : Bool :=
  (closer.canOpen || opener.canClose) && closer.origdelims % 3 != 0 &&
    (opener.origdelims + closer.origdelims) % 3 == 0

/-- Search for an opener, inlines.py:384-396: the opener with what remains below it, if found, and
the last value of `odd_match`. -/
def findOpener (closer : Delim) (bottom : Option Nat) :
    List Delim → Bool → Option (Delim × List Delim) × Bool
  | [], odd => (none, odd)
  | o :: os, odd =>
    if some o.node == bottom then (none, odd)
    else
      let odd' := isOddMatch o closer
      if o.cc == closer.cc && o.canOpen && !odd' then (some (o, os), odd')
      else findOpener closer bottom os odd'

/-- Apply `f` to the literal of the node with identity `id`. -/
def setLiteral (id : Nat) (f : Str → Str) (items : List Item) : List Item :=
  items.map fun it =>
    if it.id == id then
      match it.node with
      | .node d cs => ⟨it.id, .node { d with literal := d.literal.map f } cs⟩
    else it

/-- `literal[:len(literal) - n]`. -/
def dropEnd (n : Nat) (s : Str) : Str := s.take (s.length - n)

/-- Items before and after the node with identity `id` (`none` if absent). -/
def splitAtId (id : Nat) : List Item → Option (List Item × Item × List Item)
  | [] => none
  | it :: its =>
    if it.id == id then some ([], it, its)
    else (splitAtId id its).map fun (a, x, b) => (it :: a, x, b)

/-- Items up to (excluding) the node with identity `id`, and the rest (inlines.py:426-431). -/
def spanToId (id : Nat) : List Item → List Item × List Item
  | [] => ([], [])
  | it :: its =>
    if it.id == id then ([], it :: its)
    else let (a, b) := spanToId id its; (it :: a, b)

/-- `unlink()` of the node with identity `id`. -/
def removeId (id : Nat) (items : List Item) : List Item := items.filter fun it => it.id != id

/-- Wrap what lies between opener and closer in a new node, inlines.py:420-433. -/
def wrapBetween (k : Kind) (openId closeId : Nat) (items : List Item) : List Item :=
  match splitAtId openId items with
  | none => items
  | some (pre, o, post) =>
    let (inner, rest) := spanToId closeId post
    pre ++ [o, ⟨0, mkNode k (inner.map (·.node))⟩] ++ rest

/-- One iteration of the main loop, inlines.py:375-472, for the closer `cl` with `rest` above it. -/
def emphStep (st : EmphState) (cl : Delim) (rest : List Delim) : EmphState :=
  if !cl.canClose then { st with before := cl :: st.before, after := rest }
  else
    let (found, odd) := findOpener cl (st.openersBottom cl.cc) st.before st.oddMatch
    let prev := st.before.head?.map (·.node)
    -- inlines.py:462-472, shared by all branches without an opener
    let notFound (items : List Item) : EmphState :=
      if odd then
        { st with before := cl :: st.before, after := rest, items := items, oddMatch := odd }
      else
        { before := if cl.canOpen then cl :: st.before else st.before
          after := rest
          items := items
          openersBottom := fun ch => if ch == cl.cc then prev else st.openersBottom ch
          oddMatch := odd }
    if cl.cc == '*' || cl.cc == '_' then
      match found with
      | none => notFound st.items
      | some (op, below) =>
        let use := if cl.numdelims ≥ 2 && op.numdelims ≥ 2 then 2 else 1
        let op' := { op with numdelims := op.numdelims - use }
        let cl' := { cl with numdelims := cl.numdelims - use }
        let items := setLiteral op.node (dropEnd use) st.items
        let items := setLiteral cl.node (dropEnd use) items
        let items := wrapBetween (if use == 1 then .emph else .strong) op.node cl.node items
        let items := if op'.numdelims == 0 then removeId op.node items else items
        let items := if cl'.numdelims == 0 then removeId cl.node items else items
        { st with
          before := if op'.numdelims == 0 then below else op' :: below
          after := if cl'.numdelims == 0 then rest else cl' :: rest
          items := items
          oddMatch := odd }
    else if cl.cc == '\'' then
      let items := setLiteral cl.node (fun _ => [rsquo]) st.items
      match found with
      | none => notFound items
      | some (op, _) =>
        { st with before := cl :: st.before, after := rest, oddMatch := odd
                  items := setLiteral op.node (fun _ => [lsquo]) items }
    else
      let items := setLiteral cl.node (fun _ => [rdquo]) st.items
      match found with
      | none => notFound items
      | some (op, _) =>
        { st with before := cl :: st.before, after := rest, oddMatch := odd
                  items := setLiteral op.node (fun _ => [ldquo]) items }

/-- The main loop, inlines.py:375-472. -/
def emphLoop : Nat → EmphState → Except PyErr (List Item)
  | 0, _ => .error .hang
  | fuel + 1, st =>
    match st.after with
    | [] => .ok st.items
    | cl :: rest => emphLoop fuel (emphStep st cl rest)

/-- Iterations that can be needed: every one consumes a delimiter character or moves on. -/
def emphFuel (ds : List Delim) : Nat := (ds.map fun d => d.numdelims + 1).sum + 1

/-- `processEmphasis(stack_bottom)` on the delimiters `above` (bottom to top) that lie above
`stack_bottom` and on the siblings that contain their nodes. -/
def processEmphasis (above : List Delim) (items : List Item) : Except PyErr (List Item) :=
  emphLoop (emphFuel above)
    { before := [], after := above, items := items, openersBottom := fun _ => none, oddMatch := false }

/-- Split the stack (top first) at `stack_bottom`: delimiters above it (bottom to top) and the stack
from it on.  `none` is the bottom of the stack. -/
def splitDelims (bottom : Option Nat) (ds : List Delim) : List Delim × List Delim :=
  let above := ds.takeWhile fun d => some d.node != bottom
  (above.reverse, ds.drop above.length)

/-! ### Links -/

/-- `parseLinkTitle`, inlines.py:478-488. -/
def parseLinkTitle (c : Ctx) (pos : Nat) : Option (Str × Nat) :=
  (c.match_ reLinkTitle pos).map fun (m, p) => (unescapeString (chop m), p)

/-- The hand-written loop of `parseLinkDestination`, inlines.py:501-523: number of characters
consumed. -/
def scanDest : Nat → Str → Nat
  | _, [] => 0
  | opens, '\\' :: d :: cs =>
    if isEscapable d then 2 + scanDest opens cs else 1 + scanDest opens (d :: cs)
  | opens, ch :: cs =>
    if ch == '(' then 1 + scanDest (opens + 1) cs
    else if ch == ')' then
      if opens < 1 then 0 else 1 + scanDest (opens - 1) cs
    else if isWhitespaceChar ch then 0
    else 1 + scanDest opens cs

/-- `parseLinkDestination`, inlines.py:490-530. -/
def parseLinkDestination (c : Ctx) (pos : Nat) : Option (Str × Nat) :=
  match c.match_ reLinkDestinationBraces pos with
  | some (m, p) => some (normalizeUri (unescapeString (chop m)), p)
  | none =>
    if c.peek pos == some '<' then none
    else
      let n := scanDest 0 (c.rest pos)
      if n == 0 && c.peek pos != some ')' then none
      else some (normalizeUri (unescapeString (slice c.subject pos (pos + n))), pos + n)

/-- `parseLinkLabel`, inlines.py:532-543: the returned number and the new position (which has moved
even when an over-long label is rejected). -/
def parseLinkLabel (c : Ctx) (pos : Nat) : Nat × Nat :=
  match c.match_ reLinkLabel pos with
  | none => (0, pos)
  | some (m, p) => if m.length > 1001 then (0, p) else (m.length, p)

/-- `addBracket`, inlines.py:691-702, with the text node pushed before it. -/
def addBracket (st : IState) (s : Str) (index : Nat) (image : Bool) : IState :=
  let id := st.nextId
  { st with
    children := st.children ++ [⟨id, textNode s⟩]
    brackets := ⟨id, st.delims.head?.map (·.node), index, image, true⟩ :: st.brackets
    nextId := id + 1 }

/-- `parseOpenBracket`, inlines.py:545-558. -/
def parseOpenBracket (st : IState) : IState :=
  addBracket { st with pos := st.pos + 1 } (lit "[") st.pos false

/-- `parseBang`, inlines.py:560-579. -/
def parseBang (c : Ctx) (st : IState) : IState :=
  if c.peek (st.pos + 1) == some '[' then
    addBracket { st with pos := st.pos + 2 } (lit "![") (st.pos + 1) true
  else { st with pos := st.pos + 1 }.push (textNode (lit "!"))

/-- The inline-link attempt of `parseCloseBracket`, inlines.py:613-628: destination and title if
matched, and the position afterwards (which is *not* rewound when a destination was found but no
closing parenthesis). -/
def inlineLink (c : Ctx) (pos : Nat) : Option (Str × Option Str) × Nat :=
  if c.peek pos == some '(' then
    let p := c.spnl (pos + 1)
    match parseLinkDestination c p with
    | none => (none, pos)
    | some (dest, p) =>
      let p := c.spnl p
      let (title, p) :=
        match c.subject[p - 1]? with
        | some ch =>
          if isWhitespaceChar ch then
            match parseLinkTitle c p with
            | some (t, p') => (some t, p')
            | none => (none, p)
          else (none, p)
        | none => (none, p)
      let p := c.spnl p
      if c.peek p == some ')' then (some (dest, title), p + 1) else (none, p)
  else (none, pos)

/-- The reference attempt of `parseCloseBracket`, inlines.py:630-652. `savepos` is the position after
`]`, `before` the position where the inline attempt stopped. -/
def referenceLink (c : Ctx) (opener : Bracket) (savepos before : Nat) : Option (Str × Str) × Nat :=
  let (n, p) := parseLinkLabel c before
  let reflabel :=
    if n > 2 then slice c.subject before (before + n) else slice c.subject opener.index savepos
  let p := if n == 0 then savepos else p
  if reflabel.isEmpty then (none, p)
  else
    match c.refmap.get (normalizeReference reflabel) with
    | some d => (some (d.destination, d.title), p)
    | none => (none, p)

/-- Deactivate earlier link openers, inlines.py:674-680. -/
def deactivate (bs : List Bracket) : List Bracket :=
  bs.map fun b => if b.image then b else { b with active := false }

/-- Build the link or image, inlines.py:654-682. -/
def closeLink (opener : Bracket) (bs : List Bracket) (dest title : Str) (st : IState) :
    Except PyErr IState := do
  let (pre, post) :=
    match splitAtId opener.node st.children with
    | some (a, _, b) => (a, b)
    | none => (st.children, [])
  let (above, below) := splitDelims opener.prevDelim st.delims
  let inner ← processEmphasis above post
  let node := linkNode (if opener.image then .image else .link) dest title (inner.map (·.node))
  return { st with
    children := pre ++ [⟨0, node⟩]
    delims := below
    brackets := if opener.image then bs else deactivate bs }

/-- `parseCloseBracket`, inlines.py:581-689. -/
def parseCloseBracket (c : Ctx) (st0 : IState) : Except PyErr IState :=
  let startpos := st0.pos + 1
  let st := { st0 with pos := startpos }
  match st.brackets with
  | [] => .ok (st.push (textNode (lit "]")))
  | opener :: bs =>
    if !opener.active then .ok ({ st with brackets := bs }.push (textNode (lit "]")))
    else
      match inlineLink c startpos with
      | (some (dest, title), p) => closeLink opener bs dest (title.getD []) { st with pos := p }
      | (none, before) =>
        match referenceLink c opener startpos before with
        | (some (dest, title), p) => closeLink opener bs dest title { st with pos := p }
        | (none, _) =>
          .ok ({ st with brackets := bs, pos := startpos }.push (textNode (lit "]")))

/-! ### Entities, text, newlines -/

/-- `parseEntity`, inlines.py:707-714. -/
def parseEntity (c : Ctx) (st : IState) : Bool × IState :=
  match c.match_ reENTITY st.pos with
  | some (m, p) => (true, { st with pos := p }.push (textNode (htmlUnescape m)))
  | none => (false, st)

def ellipsis : Char := Char.ofNat 0x2026

/-- `parseString`, inlines.py:716-731. -/
def parseString (c : Ctx) (st : IState) : Bool × IState :=
  match c.match_ reMain st.pos with
  | some (m, p) =>
    let s :=
      if c.smart then reDash.sub smartDashes (reEllipses.sub (fun _ => [ellipsis]) m) else m
    (true, { st with pos := p }.push (textNode s))
  | none => (false, st)

/-- `re.sub(r' *$', '', s)`, inlines.py:743, for `s` not ending in a newline. -/
def stripFinalSpace (s : Str) : Str := rstripBy (· == ' ') s

/-- Replace the literal of the last child. -/
def setLastLiteral (s : Str) : List Item → List Item
  | [] => []
  | [⟨i, .node d cs⟩] => [⟨i, .node { d with literal := some s } cs⟩]
  | it :: jt :: r => it :: setLastLiteral s (jt :: r)

/-- `self.match(reInitialSpace)`, inlines.py:753. -/
def Ctx.gobble (c : Ctx) (pos : Nat) : Nat :=
  match c.match_ reInitialSpace pos with
  | some (_, p) => p
  | none => pos

/-- `parseNewline`, inlines.py:733-754.  `lastc.literal[-1]` raises IndexError when the literal is
empty. -/
def parseNewline (c : Ctx) (st : IState) : Except PyErr IState :=
  let next := c.gobble (st.pos + 1)
  let soft : IState := { st with pos := next }.push (mkNode .softbreak [])
  match st.children.getLast? with
  | some ⟨_, .node d _⟩ =>
    if d.t == .text then
      match d.literal with
      | none => .error .typeError
      | some l =>
        match l.getLast? with
        | none => .error .indexError
        | some ch =>
          if ch == ' ' then
            let hard := l.length ≥ 2 && l[l.length - 2]? == some ' '
            let st := { st with pos := next, children := setLastLiteral (stripFinalSpace l) st.children }
            .ok (st.push (mkNode (if hard then .linebreak else .softbreak) []))
          else .ok soft
    else .ok soft
  | none => .ok soft

/-! ### parseReference, inlines.py:756-824 -/

/-- `parseReference(s, refmap)`: number of characters consumed (0 = none) and the new map. -/
def parseReference (s : Str) (refmap : RefMap) : Nat × RefMap :=
  let c : Ctx := ⟨s, [], false⟩
  let (n, p) := parseLinkLabel c 0
  if n == 0 || n == 2 then (0, refmap)
  else
    let rawlabel := s.take n
    if c.peek p != some ':' then (0, refmap)
    else
      let p := c.spnl (p + 1)
      match parseLinkDestination c p with
      | none => (0, refmap)
      | some (dest, beforetitle) =>
        let p := c.spnl beforetitle
        let found := if p != beforetitle then parseLinkTitle c p else none
        let (title, p) :=
          match found with
          | some (t, p') => (t, p')
          | none => ([], beforetitle)
        -- lines 794-807; line 803 is `title == ''`, which has no effect
        let endpos : Option Nat :=
          match c.match_ reSpaceAtEndOfLine p with
          | some (_, e) => some e
          | none =>
            if title.isEmpty then none
            else (c.match_ reSpaceAtEndOfLine beforetitle).map (·.2)
        match endpos with
        | none => (0, refmap)
        | some e =>
          let norm := normalizeReference rawlabel
          if norm.isEmpty then (0, refmap)
          else
            match refmap.get norm with
            | some _ => (e, refmap)
            | none => (e, refmap ++ [(norm, ⟨dest, title⟩)])

/-! ### parseInline and parseInlines, inlines.py:826-880 -/

/-- `if not res: self.pos += 1; block.append_child(text(c))`, inlines.py:861-863. -/
def fallback (ch : Char) (r : Bool × IState) : IState :=
  if r.1 then r.2 else { r.2 with pos := r.2.pos + 1 }.push (textNode [ch])

/-- `parseInline`, inlines.py:826-865: `none` at the end of the subject. -/
def parseInline (c : Ctx) (st : IState) : Except PyErr (Option IState) :=
  match c.peek st.pos with
  | none => .ok none
  | some ch =>
    if ch == '\n' then do return some (← parseNewline c st)
    else if ch == '\\' then .ok (some (parseBackslash c st))
    else if ch == '`' then do return some (fallback ch (← parseBackticks c st))
    else if ch == '*' || ch == '_' then .ok (some (fallback ch (handleDelim c ch st)))
    else if ch == '\'' || ch == '"' then
      .ok (some (fallback ch (if c.smart then handleDelim c ch st else (false, st))))
    else if ch == '[' then .ok (some (parseOpenBracket st))
    else if ch == '!' then .ok (some (parseBang c st))
    else if ch == ']' then do return some (← parseCloseBracket c st)
    else if ch == '<' then
      .ok (some (fallback ch
        (match parseAutolink c st with
         | (true, s) => (true, s)
         | (false, s) => parseHtmlTag c s)))
    else if ch == '&' then .ok (some (fallback ch (parseEntity c st)))
    else .ok (some (fallback ch (parseString c st)))

/-- The loop of `parseInlines`, inlines.py:876-877. -/
def inlineLoop (c : Ctx) : Nat → IState → Except PyErr IState
  | 0, _ => .error .hang
  | fuel + 1, st => do
    match ← parseInline c st with
    | none => return st
    | some st' => inlineLoop c fuel st'

/-- `parseInlines`, inlines.py:867-878: the inline children of a block with the given
`string_content`. -/
def parseInlines (smart : Bool) (refmap : RefMap) (content : Str) : Except PyErr (List Tree) := do
  let subject := strip content
  let c : Ctx := ⟨subject, refmap, smart⟩
  let st ← inlineLoop c (subject.length + 1) ⟨0, [], [], [], 1⟩
  let items ← processEmphasis st.delims.reverse st.children
  return items.map (·.node)

end CM
