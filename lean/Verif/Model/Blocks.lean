import Verif.Model.Inlines
/-
Model of /repo/commonmark/blocks.py.

Representation.  During block parsing the open nodes are exactly the chain from the document to
`self.tip`; everything else is closed.  The chain is the list `spine` (tip first) of `OpenBlk`s, each
with its already closed children; closing the tip appends it to the children of the next block.
A Python reference to an open block is its depth (the document has depth 1).
-/
namespace CM

/-! ### Patterns, blocks.py:10-49 -/

/-- `[ \t]`. -/
def isSpTab (c : Char) : Bool := c == ' ' || c == '\t'

/-- `[ \t]*`. -/
def reSpTab0 : Re := .star (.chr isSpTab)
/-- `[ \t]+`. -/
def reSpTab1 : Re := .plus (.chr isSpTab)

/-- Tag names of HTML block type 6, blocks.py:19-24. -/
def blockTags : List String :=
  ["address", "article", "aside", "base", "basefont", "blockquote", "body",
   "caption", "center", "col", "colgroup", "dd", "details", "dialog", "dir", "div", "dl", "dt",
   "fieldset", "figcaption", "figure", "footer", "form", "frame", "frameset", "h1", "head",
   "header", "hr", "html", "iframe", "legend", "li", "link", "main", "menu", "menuitem",
   "nav", "noframes", "ol", "optgroup", "option", "p", "param", "section", "source", "title",
   "summary", "table", "tbody", "td", "tfoot", "th", "thead", "title", "tr", "track", "ul"]

/-- `script|pre|style` under IGNORECASE, blocks.py:13,33. -/
def reScriptPreStyle : Re :=
  .alts [.ciWord (lit "script"), .ciWord (lit "pre"), .ciWord (lit "style")]

/-- `reHtmlBlockOpen[i]`, blocks.py:11-30. -/
def reHtmlBlockOpen : Nat → Re
  | 1 => .seqs [.lit1 '<', reScriptPreStyle, .alts [.chr isPySpace, .lit1 '>', .eos]]
  | 2 => .word (lit "<!--")
  | 3 => .word (lit "<?")
  | 4 => .seq (.word (lit "<!")) (.chr (inRange 'A' 'Z'))
  | 5 => .word (lit "<![CDATA[")
  | 6 => .seqs [.lit1 '<', .opt (.lit1 '/'), .alts (blockTags.map fun t => .ciWord (lit t)),
      .alts [.chr isPySpace, .seq (.opt (.lit1 '/')) (.lit1 '>'), .eos]]
  | 7 => .seqs [.alt reOPENTAG reCLOSETAG, reWs0, .eos]
  | _ => .chr isDot

/-- `reHtmlBlockClose[i]`, blocks.py:31-38. -/
def reHtmlBlockClose : Nat → Re
  | 1 => .seqs [.word (lit "</"), reScriptPreStyle, .lit1 '>']
  | 2 => .word (lit "-->")
  | 3 => .word (lit "?>")
  | 4 => .lit1 '>'
  | 5 => .word (lit "]]>")
  | _ => .chr isDot

/-- `(?:c[ \t]*){3,}`. -/
def reBreakRun (c : Char) : Re := .atLeast 3 (.seq (.lit1 c) reSpTab0)

/-- `reThematicBreak`, blocks.py:39-40. -/
def reThematicBreak : Re :=
  .seqs [.alts [reBreakRun '*', reBreakRun '_', reBreakRun '-'], reSpTab0, .eos]

/-- `reMaybeSpecial`, blocks.py:41, on the first character. -/
def isMaybeSpecial (c : Char) : Bool := (lit "#`~*+_=<>-").contains c || isDig c

/-- `reNonSpace`, blocks.py:42: `[^ \t\f\v\r\n]`. -/
def isNonSpace (c : Char) : Bool := !(c == ' ' || (9 ≤ c.toNat && c.toNat ≤ 13))

/-- `reBulletListMarker`, blocks.py:43, on the first character. -/
def isBulletChar (c : Char) : Bool := c == '*' || c == '+' || c == '-'

/-- `\d`. -/
def isPyDigit (c : Char) : Bool := ndRanges.any fun r => r.1 ≤ c.toNat && c.toNat ≤ r.2

/-- `reOrderedListMarker`, blocks.py:44: `^(\d{1,9})([.)])` -/
def reOrderedListMarker : Re :=
  .seq (.between 1 9 (.chr isPyDigit)) (.chr fun c => c == '.' || c == ')')

/-- `reATXHeadingMarker`, blocks.py:45: `^#{1,6}(?:[ \t]+|$)` -/
def reATXHeadingMarker : Re := .seq (.between 1 6 (.lit1 '#')) (.alt reSpTab1 .eos)

/-- `reCodeFence`, blocks.py:46 -/
def reCodeFence : Re :=
  .alt (.seq (.atLeast 3 (.lit1 '`')) (.nlook (.seq (.star (.chr isDot)) (.lit1 '`'))))
    (.atLeast 3 (.lit1 '~'))

/-- `reClosingCodeFence`, blocks.py:47 -/
def reClosingCodeFence : Re :=
  .seq (.alt (.atLeast 3 (.lit1 '`')) (.atLeast 3 (.lit1 '~')))
    (.look (.seq (.star (.lit1 ' ')) .eos))

/-- `reSetextHeadingLine`, blocks.py:48 -/
def reSetextHeadingLine : Re :=
  .seqs [.alt (.plus (.lit1 '=')) (.plus (.lit1 '-')), reSpTab0, .eos]

/-- `^[ \t]*#+[ \t]*$`, blocks.py:466 -/
def reAtxEmpty : Re := .seqs [.bos, reSpTab0, .plus (.lit1 '#'), reSpTab0, .eos]

/-- `[ \t]+#+[ \t]*$`, blocks.py:465 -/
def reAtxTrail : Re := .seqs [reSpTab1, .plus (.lit1 '#'), reSpTab0, .eos]

/-- `(\n *)+$`, blocks.py:359,381 -/
def reTrailNl : Re := .seq (.plus (.seq (.lit1 '\n') (.star (.lit1 ' ')))) .eos

/-! ### Helpers, blocks.py:52-82 -/

/-- `is_blank`, blocks.py:52-54 -/
def isBlank (s : Str) : Bool := !(s.any isNonSpace)

/-- `peek`, blocks.py:61-65 -/
def peekAt (s : Str) (i : Nat) : Option Char := s[i]?

/-- `is_space_or_tab(peek(..))`, blocks.py:57-58 -/
def isSpTabOpt : Option Char → Bool
  | some c => isSpTab c
  | none => false

mutual
/-- `ends_with_blank_line`, blocks.py:68-82, with the `last_line_checked` flags it sets. -/
def endsWithBlankLine : Tree → Bool × Tree
  | .node d cs =>
    if d.lastLineBlank then (true, .node d cs)
    else if !d.lastLineChecked && (d.t == .list || d.t == .item) then
      let (b, cs') := endsWithBlankLast cs
      (b, .node { d with lastLineChecked := true } cs')
    else (false, .node { d with lastLineChecked := true } cs)
/-- The `block = block.last_child` step of `ends_with_blank_line`. -/
def endsWithBlankLast : List Tree → Bool × List Tree
  | [] => (false, [])
  | [t] => let (b, t') := endsWithBlankLine t; (b, [t'])
  | t :: u :: r => let (b, r') := endsWithBlankLast (u :: r); (b, t :: r')
end

/-! ### Parser state, blocks.py:588-609 -/

/-- An open block: its node and the closed children. -/
structure OpenBlk where
  data : NodeData
  children : List Tree

/-- The attributes of `Parser`.  `oldtip` and `lastMatched` are depths. -/
structure PState where
  spine : List OpenBlk
  doc : Option Tree
  oldtip : Nat
  currentLine : Str
  lineNumber : Nat
  offset : Nat
  column : Nat
  nextNonspace : Nat
  nextNonspaceColumn : Nat
  indent : Nat
  indented : Bool
  blank : Bool
  partiallyConsumedTab : Bool
  allClosed : Bool
  lastMatched : Nat
  refmap : RefMap
  lastLineLength : Nat

/-- `Node('document', [[1, 1], [0, 0]])`. -/
def docNode : NodeData := { t := .document, sourcepos := some ((1, 1), (0, 0)) }

/-- `Parser.__init__`, blocks.py:589-609. -/
def PState.init : PState :=
  { spine := [⟨docNode, []⟩], doc := none, oldtip := 1, currentLine := [], lineNumber := 0,
    offset := 0, column := 0, nextNonspace := 0, nextNonspaceColumn := 0, indent := 0,
    indented := false, blank := false, partiallyConsumedTab := false, allClosed := true,
    lastMatched := 1, refmap := [], lastLineLength := 0 }

/-! ### Offsets, blocks.py:645-709 -/

/-- The loop of `find_next_nonspace`, blocks.py:650-667, on the text at the offset: new offset, new
column and the first other character. -/
def skipWs : Str → Nat → Nat → Nat × Nat × Option Char
  | [], i, cols => (i, cols, none)
  | c :: cs, i, cols =>
    if c == ' ' then skipWs cs (i + 1) (cols + 1)
    else if c == '\t' then skipWs cs (i + 1) (cols + (4 - cols % 4))
    else (i, cols, some c)

/-- `find_next_nonspace`, blocks.py:645-673. -/
def findNextNonspace (p : PState) : PState :=
  let (i, cols, c) := skipWs (p.currentLine.drop p.offset) p.offset p.column
  { p with
    blank := match c with
      | none => true
      | some c => c == '\n' || c == '\r'
    nextNonspace := i
    nextNonspaceColumn := cols
    indent := cols - p.column
    indented := decide (cols - p.column ≥ 4) }

/-- `advance_next_nonspace`, blocks.py:675-678. -/
def advanceNextNonspace (p : PState) : PState :=
  { p with offset := p.nextNonspace, column := p.nextNonspaceColumn, partiallyConsumedTab := false }

/-- The loop of `advance_offset`, blocks.py:686-709; `fuel` bounds `count`, which every iteration
decreases. -/
def advanceLoop (line : Str) (columns : Bool) : Nat → Nat → Nat → Nat → Bool → Nat × Nat × Bool
  | 0, _, off, col, pct => (off, col, pct)
  | fuel + 1, count, off, col, pct =>
    if count == 0 then (off, col, pct)
    else
      match line[off]? with
      | none => (off, col, pct)
      | some c =>
        if c == '\t' then
          let toTab := 4 - col % 4
          if columns then
            let pct' := decide (toTab > count)
            let adv := min count toTab
            advanceLoop line columns fuel (count - adv) (if pct' then off else off + 1) (col + adv) pct'
          else advanceLoop line columns fuel (count - 1) (off + 1) (col + toTab) false
        else advanceLoop line columns fuel (count - 1) (off + 1) (col + 1) false

/-- `advance_offset`, blocks.py:680-709. -/
def advanceOffset (count : Nat) (columns : Bool) (p : PState) : PState :=
  let (off, col, pct) :=
    advanceLoop p.currentLine columns count count p.offset p.column p.partiallyConsumedTab
  { p with offset := off, column := col, partiallyConsumedTab := pct }

/-! ### Finalising blocks -/

/-- `can_contain`, blocks.py:177-414. -/
def canContain (parent child : Kind) : Bool :=
  match parent with
  | .document | .blockQuote | .item => child != .item
  | .list => child == .item
  | _ => false

/-- `accepts_lines`, blocks.py:166-391. -/
def acceptsLines : Kind → Bool
  | .codeBlock | .htmlBlock | .paragraph => true
  | _ => false

/-- Inner loop of `List.finalize`, blocks.py:214-220, over the children of an item; `itemNxt` says
that the item has a next sibling.  Returns whether the list became loose and the children with
their flags updated. -/
def checkSubitems (itemNxt : Bool) : List Tree → Bool × List Tree
  | [] => (false, [])
  | t :: ts =>
    let (b, t') := endsWithBlankLine t
    if b && (itemNxt || !ts.isEmpty) then (true, t' :: ts)
    else
      let (r, ts') := checkSubitems itemNxt ts
      (r, t' :: ts')

/-- Outer loop of `List.finalize`, blocks.py:206-221: whether the list is loose, and the items. -/
def checkItems : List Tree → Bool × List Tree
  | [] => (false, [])
  | t :: ts =>
    let (b, t') := endsWithBlankLine t
    if b && !ts.isEmpty then (true, t' :: ts)
    else
      match t' with
      | .node d cs =>
        let (b2, cs') := checkSubitems (!ts.isEmpty) cs
        let (r, ts') := checkItems ts
        (b2 || r, .node d cs' :: ts')

/-- `list_data['tight'] = False`. -/
def loosen (d : NodeData) : NodeData :=
  { d with listData := d.listData.map fun l => { l with tight := false } }

/-- `List.finalize`, blocks.py:205-221.  The list shares its `list_data` dict with its first item
(blocks.py:565,569), so the first item sees the change too. -/
def finalizeList (d : NodeData) (cs : List Tree) : Tree :=
  let (loose, cs') := checkItems cs
  if loose then
    .node (loosen d)
      (match cs' with
       | [] => []
       | .node di ci :: r => .node (loosen di) ci :: r)
  else .node d cs'

/-- Position of the first `\n` (`content.index('\n')`). -/
def splitFirstLine (s : Str) : Option (Str × Str) :=
  match s.dropWhile (· != '\n') with
  | [] => none
  | _ :: rest => some (s.takeWhile (· != '\n'), rest)

/-- `CodeBlock.finalize`, blocks.py:348-361. -/
def finalizeCode (d : NodeData) : Except PyErr NodeData :=
  match d.stringContent with
  | none => .error .typeError
  | some content =>
    if d.isFenced then
      match splitFirstLine content with
      | none => .error .valueError
      | some (first, rest) =>
        .ok { d with info := some (unescapeString (strip first)), literal := some rest,
                     stringContent := none }
    else
      .ok { d with literal := some (reTrailNl.sub (fun _ => ['\n']) content), stringContent := none }

/-- `HtmlBlock.finalize`, blocks.py:380-383. -/
def finalizeHtml (d : NodeData) : Except PyErr NodeData :=
  match d.stringContent with
  | none => .error .typeError
  | some content =>
    .ok { d with literal := some (reTrailNl.sub (fun _ => []) content), stringContent := none }

/-- The reference-definition loop, blocks.py:402-408 and 522-527: the remaining content, the new map
and whether a definition was found. -/
def refLoop : Nat → Str → RefMap → Bool → Except PyErr (Str × RefMap × Bool)
  | 0, _, _, _ => .error .hang
  | fuel + 1, content, refmap, has =>
    if peekAt content 0 == some '[' then
      let (n, refmap') := parseReference content refmap
      if n == 0 then .ok (content, refmap', has)
      else refLoop fuel (content.drop n) refmap' true
    else .ok (content, refmap, has)

/-- `Paragraph.finalize`, blocks.py:398-410: `none` if the paragraph is unlinked. -/
def finalizeParagraph (d : NodeData) (refmap : RefMap) : Except PyErr (Option NodeData × RefMap) :=
  match d.stringContent with
  | none => .error .typeError
  | some content => do
    let (content', refmap', has) ← refLoop (content.length + 1) content refmap false
    if has && isBlank content' then return (none, refmap')
    else return (some { d with stringContent := some content' }, refmap')

/-- The `finalize` method of each block class, as a function of the block being closed. -/
def finalizeBlock (d : NodeData) (cs : List Tree) (refmap : RefMap) :
    Except PyErr (Option Tree × RefMap) :=
  match d.t with
  | .list => .ok (some (finalizeList d cs), refmap)
  | .codeBlock => do return (some (.node (← finalizeCode d) cs), refmap)
  | .htmlBlock => do return (some (.node (← finalizeHtml d) cs), refmap)
  | .paragraph => do
    let (r, refmap') ← finalizeParagraph d refmap
    return (r.map fun d' => .node d' cs, refmap')
  | _ => .ok (some (.node d cs), refmap)

/-- `Parser.finalize(self.tip, line_number)`, blocks.py:851-863. -/
def finalizeTip (line : Nat) (p : PState) : Except PyErr PState :=
  match p.spine with
  | [] => .error .attributeError
  | b :: rest => do
    let d := { b.data with
      isOpen := false
      sourcepos := b.data.sourcepos.map fun sp => (sp.1, (line, p.lastLineLength)) }
    let (t, refmap') ← finalizeBlock d b.children p.refmap
    match rest with
    | [] => return { p with spine := [], doc := t, refmap := refmap' }
    | par :: up =>
      return { p with
        spine := { par with children := par.children ++ t.toList } :: up
        refmap := refmap' }

/-- `close_unmatched_blocks`, blocks.py:636-643 (the loop). -/
def closeLoop : Nat → PState → Except PyErr PState
  | 0, _ => .error .hang
  | fuel + 1, p =>
    if p.oldtip == p.lastMatched then .ok p
    else do
      let p ← finalizeTip (p.lineNumber - 1) p
      closeLoop fuel { p with oldtip := p.oldtip - 1 }

def closeUnmatched (p : PState) : Except PyErr PState :=
  if p.allClosed then .ok p
  else do
    let p ← closeLoop (p.oldtip + 1) p
    return { p with allClosed := true }

/-- `add_child`, blocks.py:622-634; `f` sets the attributes that the caller assigns on the new node. -/
def addChildLoop (tag : Kind) : Nat → PState → Except PyErr PState
  | 0, _ => .error .hang
  | fuel + 1, p =>
    match p.spine with
    | [] => .error .attributeError
    | b :: _ =>
      if canContain b.data.t tag then .ok p
      else do
        let p ← finalizeTip (p.lineNumber - 1) p
        addChildLoop tag fuel p

def addChild (tag : Kind) (offset : Nat) (f : NodeData → NodeData) (p : PState) :
    Except PyErr PState := do
  let p ← addChildLoop tag (p.spine.length + 1) p
  let d : NodeData := { t := tag, sourcepos := some ((p.lineNumber, offset + 1), (0, 0)) }
  return { p with spine := ⟨f d, []⟩ :: p.spine }

/-- Modify the tip. -/
def modifyTip (f : NodeData → NodeData) (p : PState) : PState :=
  match p.spine with
  | [] => p
  | b :: r => { p with spine := { b with data := f b.data } :: r }

/-- `self.tip.string_content += s`. -/
def appendContent (s : Str) (p : PState) : Except PyErr PState :=
  match p.spine with
  | [] => .error .attributeError
  | b :: r =>
    match b.data.stringContent with
    | none => .error .typeError
    | some c => .ok { p with spine := { b with data := { b.data with stringContent := some (c ++ s) } } :: r }

/-- `add_line`, blocks.py:611-620. -/
def addLine (p : PState) : Except PyErr PState :=
  if p.partiallyConsumedTab then
    let p := { p with offset := p.offset + 1 }
    appendContent (List.replicate (4 - p.column % 4) ' ' ++ (p.currentLine.drop p.offset ++ ['\n'])) p
  else appendContent (p.currentLine.drop p.offset ++ ['\n']) p

/-! ### continue_, blocks.py:165-414 -/

/-- `while i > 0 and is_space_or_tab(peek(ln, parser.offset))`, blocks.py:333-336. -/
def skipFenceOffset : Nat → PState → PState
  | 0, p => p
  | i + 1, p =>
    if isSpTabOpt (peekAt p.currentLine p.offset) then skipFenceOffset i (advanceOffset 1 true p)
    else p

/-- Result of `continue_`: 0, 1 or 2. -/
inductive Cont where
  | matched | failed | done
deriving DecidableEq, Repr

/-- Optional space after `>`, blocks.py:235-238 and 440-444. -/
def eatQuoteMarker (p : PState) : PState :=
  let p := advanceOffset 1 false (advanceNextNonspace p)
  if isSpTabOpt (peekAt p.currentLine p.offset) then advanceOffset 1 true p else p

/-- The closing-fence test, blocks.py:323-327. -/
def isClosingFence (d : NodeData) (p : PState) : Bool :=
  decide (p.indent ≤ 3) && decide (p.currentLine.length ≥ p.nextNonspace + 1) &&
    (p.currentLine[p.nextNonspace]? == d.fenceChar) &&
    (match reClosingCodeFence.matchPrefix (p.currentLine.drop p.nextNonspace) with
     | some m => decide (m.length ≥ d.fenceLength)
     | none => false)

/-- `continue_` of the block classes.  `hasChild` is `container.first_child is not None`.
`done` (2) stands for the closing fence; the caller finalises the block. -/
def continueBlock (d : NodeData) (hasChild : Bool) (p : PState) : Cont × PState :=
  match d.t with
  | .document | .list => (.matched, p)
  | .blockQuote =>
    if !p.indented && peekAt p.currentLine p.nextNonspace == some '>' then
      (.matched, eatQuoteMarker p)
    else (.failed, p)
  | .item =>
    if p.blank then
      if hasChild then (.matched, advanceNextNonspace p) else (.failed, p)
    else
      let w := match d.listData with
        | some l => l.markerOffset + l.padding
        | none => 0
      if p.indent ≥ w then (.matched, advanceOffset w true p) else (.failed, p)
  | .codeBlock =>
    if d.isFenced then
      if isClosingFence d p then (.done, p) else (.matched, skipFenceOffset d.fenceOffset p)
    else if p.indent ≥ 4 then (.matched, advanceOffset 4 true p)
    else if p.blank then (.matched, advanceNextNonspace p)
    else (.failed, p)
  | .htmlBlock =>
    if p.blank && (d.htmlBlockType == 6 || d.htmlBlockType == 7) then (.failed, p) else (.matched, p)
  | .paragraph => if p.blank then (.failed, p) else (.matched, p)
  | _ => (.failed, p)

/-! ### parse_list_marker, blocks.py:85-151 -/

/-- `int()` of a string of Unicode decimal digits. -/
def pyDigitVal (c : Char) : Nat :=
  match ndRanges.find? fun r => r.1 ≤ c.toNat && c.toNat ≤ r.2 with
  | some r => (c.toNat - r.1) % 10
  | none => 0

def pyInt (s : Str) : Nat := s.foldl (fun a c => a * 10 + pyDigitVal c) 0

/-- The marker text and its data, blocks.py:100-111. -/
def listMarker (containerKind : Kind) (rest : Str) :
    Option (Str × ListType × Option Char × Option Nat × Option Char) :=
  match rest with
  | [] => none
  | c :: _ =>
    if isBulletChar c then some ([c], .bullet, some c, none, none)
    else
      match reOrderedListMarker.matchPrefix rest with
      | none => none
      | some m =>
        if containerKind != .paragraph || m.dropLast == ['1'] then
          some (m, .ordered, none, some (pyInt m.dropLast), m.getLast?)
        else none

/-- `while True:` loop, blocks.py:130-137. -/
def markerSpaces (startCol : Nat) : Nat → PState → Except PyErr PState
  | 0, _ => .error .hang
  | fuel + 1, p =>
    let p := advanceOffset 1 true p
    if p.column - startCol < 5 && isSpTabOpt (peekAt p.currentLine p.offset) then
      markerSpaces startCol fuel p
    else .ok p

/-- `parse_list_marker`, blocks.py:85-151. -/
def parseListMarker (containerKind : Kind) (p : PState) : Except PyErr (Option ListData × PState) :=
  if p.indent ≥ 4 then .ok (none, p)
  else
    match listMarker containerKind (p.currentLine.drop p.nextNonspace) with
    | none => .ok (none, p)
    | some (m, ty, bullet, start, delim) =>
      let nextc := peekAt p.currentLine (p.nextNonspace + m.length)
      if !(nextc.isNone || isSpTabOpt nextc) then .ok (none, p)
      else if containerKind == .paragraph &&
          !((p.currentLine.drop (p.nextNonspace + m.length)).any isNonSpace) then .ok (none, p)
      else do
        let marker := p.indent
        let p := advanceOffset m.length true (advanceNextNonspace p)
        let startCol := p.column
        let startOff := p.offset
        let p ← markerSpaces startCol 6 p
        let blankItem := (peekAt p.currentLine p.offset).isNone
        let spaces := p.column - startCol
        let (padding, p) :=
          if spaces ≥ 5 || spaces < 1 || blankItem then
            let p := { p with column := startCol, offset := startOff }
            (m.length + 1,
              if isSpTabOpt (peekAt p.currentLine p.offset) then advanceOffset 1 true p else p)
          else (m.length + spaces, p)
        return (some ⟨ty, true, bullet, start, delim, padding, marker⟩, p)

/-- `lists_match`, blocks.py:154-162. -/
def listsMatch (a : Option ListData) (b : ListData) : Bool :=
  match a with
  | none => false
  | some a => a.type == b.type && a.delimiter == b.delimiter && a.bulletChar == b.bulletChar

/-! ### Block starts, blocks.py:417-585 -/

/-- Result of a block start: 0, 1 or 2. -/
inductive Start where
  | none | container | leaf
deriving DecidableEq, Repr

/-- `parser.advance_offset(len(parser.current_line) - parser.offset, False)`. -/
def advanceToEnd (p : PState) : PState := advanceOffset (p.currentLine.length - p.offset) false p

/-- `block_quote`, blocks.py:436-449. -/
def startBlockQuote (p : PState) : Except PyErr (Start × PState) :=
  if !p.indented && peekAt p.currentLine p.nextNonspace == some '>' then do
    let p := eatQuoteMarker p
    let p ← closeUnmatched p
    let p ← addChild .blockQuote p.nextNonspace id p
    return (.container, p)
  else .ok (.none, p)

/-- Content of an ATX heading, blocks.py:464-468. -/
def atxContent (s : Str) : Str := reAtxTrail.sub (fun _ => []) (reAtxEmpty.sub (fun _ => []) s)

/-- `atx_heading`, blocks.py:451-473. -/
def startAtx (p : PState) : Except PyErr (Start × PState) :=
  if p.indented then .ok (.none, p)
  else
    match reATXHeadingMarker.matchPrefix (p.currentLine.drop p.nextNonspace) with
    | none => .ok (.none, p)
    | some m => do
      let p := advanceOffset m.length false (advanceNextNonspace p)
      let p ← closeUnmatched p
      let content := atxContent (p.currentLine.drop p.offset)
      let p ← addChild .heading p.nextNonspace
        (fun d => { d with level := some (strip m).length, stringContent := some content }) p
      return (.leaf, advanceToEnd p)

/-- `fenced_code_block`, blocks.py:475-494. -/
def startFenced (p : PState) : Except PyErr (Start × PState) :=
  if p.indented then .ok (.none, p)
  else
    match reCodeFence.matchPrefix (p.currentLine.drop p.nextNonspace) with
    | none => .ok (.none, p)
    | some m => do
      let p ← closeUnmatched p
      let p ← addChild .codeBlock p.nextNonspace
        (fun d => { d with isFenced := true, fenceLength := m.length, fenceChar := m.head?,
                           fenceOffset := p.indent }) p
      return (.leaf, advanceOffset m.length false (advanceNextNonspace p))

/-- The search `for block_type in range(1, 8)`, blocks.py:502-504. -/
def htmlBlockType (containerKind : Kind) (s : Str) : Option Nat :=
  [1, 2, 3, 4, 5, 6, 7].find? fun i =>
    ((reHtmlBlockOpen i).matchPrefix s).isSome && (decide (i < 7) || containerKind != .paragraph)

/-- `html_block`, blocks.py:496-511. -/
def startHtml (containerKind : Kind) (p : PState) : Except PyErr (Start × PState) :=
  if !p.indented && peekAt p.currentLine p.nextNonspace == some '<' then
    match htmlBlockType containerKind (p.currentLine.drop p.nextNonspace) with
    | some i => do
      let p ← closeUnmatched p
      let p ← addChild .htmlBlock p.offset (fun d => { d with htmlBlockType := i }) p
      return (.leaf, p)
    | none => .ok (.none, p)
  else .ok (.none, p)

/-- `setext_heading`, blocks.py:513-541.  A paragraph that is the container is also the tip. -/
def startSetext (containerKind : Kind) (p : PState) : Except PyErr (Start × PState) :=
  if !p.indented && containerKind == .paragraph then
    match reSetextHeadingLine.matchPrefix (p.currentLine.drop p.nextNonspace) with
    | none => .ok (.none, p)
    | some m => do
      let p ← closeUnmatched p
      match p.spine with
      | [] => .error .attributeError
      | b :: rest =>
        match b.data.stringContent with
        | none => .error .typeError
        | some content =>
          let (content', refmap', _) ← refLoop (content.length + 1) content p.refmap false
          if content'.isEmpty then
            return (.none, { p with
              refmap := refmap'
              spine := { b with data := { b.data with stringContent := some content' } } :: rest })
          else
            let heading : NodeData :=
              { t := .heading, sourcepos := b.data.sourcepos,
                level := some (if m.head? == some '=' then 1 else 2), stringContent := some content' }
            return (.leaf, advanceToEnd { p with refmap := refmap', spine := ⟨heading, []⟩ :: rest })
  else .ok (.none, p)

/-- `thematic_break`, blocks.py:543-552. -/
def startThematic (p : PState) : Except PyErr (Start × PState) :=
  if !p.indented && (reThematicBreak.matchPrefix (p.currentLine.drop p.nextNonspace)).isSome then do
    let p ← closeUnmatched p
    let p ← addChild .thematicBreak p.nextNonspace id p
    return (.leaf, advanceToEnd p)
  else .ok (.none, p)

/-- `parser.tip.t`. -/
def tipKind (p : PState) : Option Kind := p.spine.head?.map (·.data.t)

/-- `list_item`, blocks.py:554-572. -/
def startListItem (container : NodeData) (p : PState) : Except PyErr (Start × PState) :=
  if !p.indented || container.t == .list then do
    let (data, p) ← parseListMarker container.t p
    match data with
    | none => return (.none, p)
    | some l =>
      let p ← closeUnmatched p
      let p ←
        if tipKind p != some .list || !(listsMatch container.listData l) then
          addChild .list p.nextNonspace (fun d => { d with listData := some l }) p
        else pure p
      let p ← addChild .item p.nextNonspace (fun d => { d with listData := some l }) p
      return (.container, p)
  else .ok (.none, p)

/-- `indented_code_block`, blocks.py:574-585. -/
def startIndented (p : PState) : Except PyErr (Start × PState) :=
  if p.indented && tipKind p != some .paragraph && !p.blank then do
    let p := advanceOffset 4 true p
    let p ← closeUnmatched p
    let p ← addChild .codeBlock p.offset id p
    return (.leaf, p)
  else .ok (.none, p)

/-- `BlockStarts.METHODS` in order, blocks.py:425-434. -/
def blockStarts (container : NodeData) : List (PState → Except PyErr (Start × PState)) :=
  [startBlockQuote, startAtx, startFenced, startHtml container.t, startSetext container.t,
   startThematic, startListItem container, startIndented]

/-- The inner loop over METHODS, blocks.py:782-793. -/
def tryStarts : List (PState → Except PyErr (Start × PState)) → PState →
    Except PyErr (Start × PState)
  | [], p => .ok (.none, p)
  | f :: fs, p => do
    let (r, p) ← f p
    match r with
    | .none => tryStarts fs p
    | .container => return (.container, p)
    | .leaf => return (.leaf, p)

/-! ### incorporate_line, blocks.py:711-849 -/

/-- The data of the open block at depth `n`. -/
def blockAt (p : PState) (n : Nat) : Option NodeData := (p.spine.reverse[n - 1]?).map (·.data)

/-- The outer loop of block starts, blocks.py:773-798; `container` is the current container. -/
def startsLoop : Nat → NodeData → PState → Except PyErr PState
  | 0, _, _ => .error .hang
  | fuel + 1, container, p => do
    let p := findNextNonspace p
    let special := match peekAt p.currentLine p.nextNonspace with
      | some c => isMaybeSpecial c
      | none => false
    if !p.indented && !special then return advanceNextNonspace p
    else
      let (r, p) ← tryStarts (blockStarts container) p
      match r with
      | .none => return advanceNextNonspace p
      | .leaf => return p
      | .container =>
        match p.spine with
        | [] => .error .attributeError
        | b :: _ => startsLoop fuel b.data p

/-- The continuation loop, blocks.py:736-762, over the open blocks below depth `depth` (outermost
first).  `inl p` is the early return at a closing fence, `inr (depth, p)` the depth of the last
matched container. -/
def contLoop : List OpenBlk → Nat → PState → Except PyErr (PState ⊕ (Nat × PState))
  | [], depth, p => .ok (.inr (depth, p))
  | b :: bs, depth, p =>
    let p := findNextNonspace p
    match continueBlock b.data (!b.children.isEmpty || !bs.isEmpty) p with
    | (.matched, p) => contLoop bs (depth + 1) p
    | (.failed, p) => .ok (.inr (depth, p))
    | (.done, p) => do
      let p ← finalizeTip p.lineNumber p
      return .inl { p with lastLineLength := p.currentLine.length }

/-- `last_line_blank` of the container, blocks.py:820-825. -/
def lineBlankFlag (b : OpenBlk) (p : PState) : Bool :=
  p.blank && !(b.data.t == .blockQuote ||
    (b.data.t == .codeBlock && b.data.isFenced) ||
    (b.data.t == .item && b.children.isEmpty && (b.data.sourcepos.map (·.1.1)) == some p.lineNumber))

/-- `container.last_child.last_line_blank = True`, blocks.py:810-811. -/
def markLastChild : List Tree → List Tree
  | [] => []
  | [.node d cs] => [.node { d with lastLineBlank := true } cs]
  | t :: u :: r => t :: markLastChild (u :: r)

/-- What remains of the line after the block starts, blocks.py:800-849. -/
def addText (p : PState) : Except PyErr PState := do
  if !p.allClosed && !p.blank && tipKind p == some .paragraph then
    addLine p
  else
    let p ← closeUnmatched p
    match p.spine with
    | [] => .error .attributeError
    | b :: rest =>
      let b := if p.blank then { b with children := markLastChild b.children } else b
      let flag := lineBlankFlag b p
      let p := { p with
        spine := (b :: rest).map fun x => { x with data := { x.data with lastLineBlank := flag } } }
      if acceptsLines b.data.t then
        let p ← addLine p
        if b.data.t == .htmlBlock && decide (b.data.htmlBlockType ≥ 1) &&
            decide (b.data.htmlBlockType ≤ 5) &&
            (reHtmlBlockClose b.data.htmlBlockType).found (p.currentLine.drop p.offset) then
          finalizeTip p.lineNumber p
        else return p
      else if p.offset < p.currentLine.length && !p.blank then
        let p ← addChild .paragraph p.offset id p
        addLine (advanceNextNonspace p)
      else return p

/-- `incorporate_line`, blocks.py:711-849. -/
def incorporateLine (p0 : PState) (ln0 : Str) : Except PyErr PState := do
  -- blocks.py:727-729
  let ln := replaceChar (Char.ofNat 0) (Char.ofNat 0xFFFD) ln0
  let p := { p0 with
    oldtip := p0.spine.length, offset := 0, column := 0, blank := false,
    partiallyConsumedTab := false, lineNumber := p0.lineNumber + 1, currentLine := ln }
  match ← contLoop (p.spine.reverse.drop 1) 1 p with
  | .inl p => return p
  | .inr (depth, p) =>
    let p := { p with allClosed := depth == p.oldtip, lastMatched := depth }
    match blockAt p depth with
    | none => .error .attributeError
    | some container =>
      let matchedLeaf := container.t != .paragraph && acceptsLines container.t
      let p ← if matchedLeaf then pure p else startsLoop (ln.length + 1) container p
      let p ← addText p
      return { p with lastLineLength := ln.length }

/-! ### parse, blocks.py:865-902 -/

/-- `re.split(r'\r\n|\n|\r', s)`, blocks.py:49,892. -/
def splitLineEndings : Str → List Str
  | [] => [[]]
  | '\r' :: '\n' :: cs => [] :: splitLineEndings cs
  | c :: cs =>
    if c == '\n' || c == '\r' then [] :: splitLineEndings cs
    else match splitLineEndings cs with
      | [] => [[c]]
      | l :: ls => (c :: l) :: ls

/-- The lines that are processed, blocks.py:892-896. -/
def inputLines (s : Str) : List Str :=
  let lines := splitLineEndings s
  if s.getLast? == some '\n' then lines.dropLast else lines

mutual
/-- `process_inlines`, blocks.py:865-879: inline-parse every paragraph and heading, in document
order. -/
def processInlines (smart : Bool) (refmap : RefMap) : Tree → Except PyErr Tree
  | .node d cs => do
    let cs' ← processInlinesList smart refmap cs
    if d.t == .paragraph || d.t == .heading then
      match d.stringContent with
      | none => .error .attributeError
      | some content =>
        let inl ← parseInlines smart refmap content
        return .node d (cs' ++ inl)
    else return .node d cs'
def processInlinesList (smart : Bool) (refmap : RefMap) : List Tree → Except PyErr (List Tree)
  | [] => .ok []
  | t :: ts => do
    let t' ← processInlines smart refmap t
    let ts' ← processInlinesList smart refmap ts
    return t' :: ts'
end

/-- `while (self.tip): self.finalize(self.tip, length)`, blocks.py:899-900. -/
def finalizeAll (len : Nat) : Nat → PState → Except PyErr PState
  | 0, _ => .error .hang
  | fuel + 1, p =>
    match p.spine with
    | [] => .ok p
    | _ :: _ => do
      let p ← finalizeTip len p
      finalizeAll len fuel p

/-- The reset at the start of `parse`, blocks.py:883-891. -/
def PState.reset (p : PState) : PState :=
  { p with spine := [⟨docNode, []⟩], doc := none, refmap := [], lineNumber := 0, lastLineLength := 0,
           offset := 0, column := 0, lastMatched := 1, currentLine := [] }

/-- The block phase of `Parser.parse` on an existing parser object, blocks.py:883-900. -/
def blockPhase (p : PState) (s : Str) : Except PyErr PState := do
  let lines := inputLines s
  let p ← lines.foldlM incorporateLine p.reset
  finalizeAll lines.length (p.spine.length + 1) p

/-- `Parser.parse` on an existing parser object: the document and the parser afterwards. -/
def parseWith (smart : Bool) (p : PState) (s : Str) : Except PyErr (Tree × PState) := do
  let p ← blockPhase p s
  match p.doc with
  | none => .error .attributeError
  | some doc =>
    let doc' ← processInlines smart p.refmap doc
    return (doc', { p with doc := some doc' })

/-- `Parser(options).parse(s)`. -/
def parse (smart : Bool) (s : Str) : Except PyErr Tree := do
  let (t, _) ← parseWith smart PState.init s
  return t

end CM
