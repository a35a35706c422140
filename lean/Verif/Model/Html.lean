import Verif.Model.Blocks
import Verif.Model.Events
/-
Model of /repo/commonmark/render/renderer.py and /repo/commonmark/render/html.py.
-/
namespace CM

/-- `reUnsafeProtocol`, html.py:10-11 (IGNORECASE).  `^` binds only the first alternative. -/
def reUnsafeProtocol : Re :=
  .alts [.seq .bos (.ciWord (lit "javascript:")), .ciWord (lit "vbscript:"), .ciWord (lit "file:"),
    .ciWord (lit "data:")]

/-- `reSafeDataProtocol`, html.py:12-13 (IGNORECASE). -/
def reSafeDataProtocol : Re :=
  .seqs [.bos, .ciWord (lit "data:image/"),
    .alts [.ciWord (lit "png"), .ciWord (lit "gif"), .ciWord (lit "jpeg"), .ciWord (lit "webp")]]

/-- `potentially_unsafe`, html.py:16-18. -/
def potentiallyUnsafe (url : Str) : Bool :=
  reUnsafeProtocol.found url && !(reSafeDataProtocol.found url)

/-- `HtmlRenderer.options` after the constructor has filled in `softbreak` (html.py:24).  Values are
taken as booleans where the code only tests them. -/
structure HtmlOpts where
  softbreak : Str := ['\n']
  safe : Bool := false
  sourcepos : Bool := false
deriving DecidableEq, Repr

/-- The attributes `buf`, `last_out`, `disable_tags`. -/
structure HState where
  buf : Str
  lastOut : Str
  disableTags : Int
deriving DecidableEq, Repr

abbrev Attrs := List (Str × Str)

namespace HState

/-- `Renderer.lit`, renderer.py:24-30. -/
def lit (s : Str) (st : HState) : HState := { st with buf := st.buf ++ s, lastOut := s }

/-- `lit` of a possibly missing string: `self.buf += None` raises TypeError. -/
def litOpt : Option Str → HState → Except PyErr HState
  | none, _ => .error .typeError
  | some s, st => .ok (st.lit s)

/-- `Renderer.cr`, renderer.py:32-34. -/
def cr (st : HState) : HState := if st.lastOut != ['\n'] then st.lit ['\n'] else st

/-- `HtmlRenderer.out`, html.py:216-217. -/
def out (s : Option Str) (st : HState) : HState := st.lit (escapeXmlOpt s)

/-- The text of a tag, html.py:40-48. -/
def tagText (name : Str) (attrs : Attrs) (selfclosing : Bool) : Str :=
  '<' :: (name ++ (attrs.flatMap fun a => ' ' :: (a.1 ++ ('=' :: '"' :: (a.2 ++ ['"'])))) ++
    ((if selfclosing then [' ', '/'] else []) ++ ['>']))

/-- `HtmlRenderer.tag`, html.py:35-49. -/
def tag (name : Str) (attrs : Attrs := []) (selfclosing : Bool := false) (st : HState) : HState :=
  if st.disableTags > 0 then st
  else { st with buf := st.buf ++ tagText name attrs selfclosing, lastOut := ['>'] }

end HState

/-- `str(pos[0][0]) + ':' + ...`, html.py:224-226. -/
def sourceposText (p : (Nat × Nat) × (Nat × Nat)) : Str :=
  natToStr p.1.1 ++ (':' :: natToStr p.1.2) ++ ('-' :: natToStr p.2.1) ++ (':' :: natToStr p.2.2)

/-- `attrs`, html.py:219-228. -/
def htmlAttrs (o : HtmlOpts) (d : NodeData) : Attrs :=
  if o.sourcepos then
    match d.sourcepos with
    | some p => [(lit "data-sourcepos", sourceposText p)]
    | none => []
  else []

/-- Truth value of an optional string. -/
def truthy : Option Str → Bool
  | some s => !s.isEmpty
  | none => false

/-- `options.get('safe') and potentially_unsafe(dest)`; `re.search` on `None` raises TypeError. -/
def unsafeDest (o : HtmlOpts) (dest : Option Str) : Except PyErr Bool :=
  if o.safe then
    match dest with
    | none => .error .typeError
    | some u => .ok (potentiallyUnsafe u)
  else .ok false

/-- `link`, html.py:63-75. -/
def htmlLink (o : HtmlOpts) (e : Event) (st : HState) : Except PyErr HState :=
  let attrs := htmlAttrs o e.node
  if e.entering then do
    let bad ← unsafeDest o e.node.destination
    let attrs := if bad then attrs else attrs ++ [(lit "href", escapeXmlOpt e.node.destination)]
    let attrs :=
      if truthy e.node.title then attrs ++ [(lit "title", escapeXmlOpt e.node.title)] else attrs
    return st.tag (lit "a") attrs
  else .ok (st.tag (lit "/a"))

/-- `image`, html.py:77-93. -/
def htmlImage (o : HtmlOpts) (e : Event) (st : HState) : Except PyErr HState :=
  if e.entering then do
    let st ←
      if st.disableTags == 0 then do
        let bad ← unsafeDest o e.node.destination
        if bad then pure (st.lit (lit "<img src=\"\" alt=\""))
        else pure (st.lit (lit "<img src=\"" ++ escapeXmlOpt e.node.destination ++ lit "\" alt=\""))
      else pure st
    return { st with disableTags := st.disableTags + 1 }
  else
    let st := { st with disableTags := st.disableTags - 1 }
    if st.disableTags == 0 then
      let st :=
        if truthy e.node.title then st.lit (lit "\" title=\"" ++ escapeXmlOpt e.node.title) else st
      .ok (st.lit (lit "\" />"))
    else .ok st

/-- `paragraph`, html.py:101-113. -/
def htmlParagraph (o : HtmlOpts) (e : Event) (st : HState) : Except PyErr HState :=
  match e.parent with
  | none => .error .attributeError
  | some _ => do
    let tight ←
      match e.grandparent with
      | some g =>
        if g.t == .list then
          match g.listData with
          | none => .error .keyError
          | some l => .ok l.tight
        else .ok false
      | none => .ok false
    if tight then return st
    else if e.entering then return st.cr.tag (lit "p") (htmlAttrs o e.node)
    else return (st.tag (lit "/p")).cr

/-- `'h' + str(node.level)`, html.py:116. -/
def headingTag (level : Option Nat) : Str :=
  'h' :: (match level with
    | some n => natToStr n
    | none => lit "None")

/-- `heading`, html.py:115-123. -/
def htmlHeading (o : HtmlOpts) (e : Event) (st : HState) : HState :=
  if e.entering then st.cr.tag (headingTag e.node.level) (htmlAttrs o e.node)
  else (st.tag ('/' :: headingTag e.node.level)).cr

/-- The class attribute of a code block, html.py:131-135 (`split()` yields no empty words). -/
def codeClass (info : Option Str) : Attrs :=
  match info with
  | none => []
  | some i =>
    match splitWords i with
    | [] => []
    | w :: _ => [(lit "class", lit "language-" ++ escapeXml w)]

/-- `code_block`, html.py:130-143. -/
def htmlCodeBlock (o : HtmlOpts) (e : Event) (st : HState) : HState :=
  let st := st.cr.tag (lit "pre")
  let st := st.tag (lit "code") (htmlAttrs o e.node ++ codeClass e.node.info)
  ((st.out e.node.literal).tag (lit "/code")).tag (lit "/pre") |>.cr

/-- `list`, html.py:162-176. -/
def htmlList (o : HtmlOpts) (e : Event) (st : HState) : Except PyErr HState :=
  match e.node.listData with
  | none => .error .keyError
  | some l =>
    let name := if l.type == .bullet then lit "ul" else lit "ol"
    if e.entering then
      let attrs := htmlAttrs o e.node
      let attrs :=
        match l.start with
        | some n => if n != 1 then attrs ++ [(lit "start", natToStr n)] else attrs
        | none => attrs
      .ok (st.cr.tag name attrs).cr
    else .ok (st.cr.tag ('/' :: name)).cr

def rawOmitted : Str := lit "<!-- raw HTML omitted -->"

/-- The renderer method for one event, html.py:53-212, dispatched by renderer.py:16-20. -/
def htmlEvent (o : HtmlOpts) (st : HState) (e : Event) : Except PyErr HState :=
  let d := e.node
  let attrs := htmlAttrs o d
  match d.t with
  | .document => .ok st
  | .text => .ok (st.out d.literal)
  | .softbreak => .ok (st.lit o.softbreak)
  | .linebreak => .ok (st.tag (lit "br") [] true).cr
  | .link => htmlLink o e st
  | .image => htmlImage o e st
  | .emph => .ok (st.tag (if e.entering then lit "em" else lit "/em"))
  | .strong => .ok (st.tag (if e.entering then lit "strong" else lit "/strong"))
  | .paragraph => htmlParagraph o e st
  | .heading => .ok (htmlHeading o e st)
  | .code => .ok (((st.tag (lit "code")).out d.literal).tag (lit "/code"))
  | .codeBlock => .ok (htmlCodeBlock o e st)
  | .thematicBreak => .ok (st.cr.tag (lit "hr") attrs true).cr
  | .blockQuote =>
    if e.entering then .ok (st.cr.tag (lit "blockquote") attrs).cr
    else .ok (st.cr.tag (lit "/blockquote")).cr
  | .list => htmlList o e st
  | .item => if e.entering then .ok (st.tag (lit "li") attrs) else .ok (st.tag (lit "/li")).cr
  | .htmlInline => if o.safe then .ok (st.lit rawOmitted) else st.litOpt d.literal
  | .htmlBlock => do
    let st := st.cr
    let st ← if o.safe then pure (st.lit rawOmitted) else st.litOpt d.literal
    return st.cr
  | .customInline =>
    if e.entering && truthy d.onEnter then st.litOpt d.onEnter
    else if !e.entering && truthy d.onExit then st.litOpt d.onExit
    else .ok st
  | .customBlock => do
    let st := st.cr
    let st ←
      if e.entering && truthy d.onEnter then st.litOpt d.onEnter
      else if !e.entering && truthy d.onExit then st.litOpt d.onExit
      else pure st
    return st.cr

/-- `HtmlRenderer.render(ast)` on a renderer whose `disable_tags` is `disable` (0 after the
constructor), renderer.py:5-22: the final state, whose `buf` is the result. -/
def renderWith (o : HtmlOpts) (disable : Int) (t : Tree) : Except PyErr HState :=
  (events none none t).foldlM (htmlEvent o) ⟨[], ['\n'], disable⟩

/-- `HtmlRenderer(options).render(ast)`. -/
def renderHtml (o : HtmlOpts) (t : Tree) : Except PyErr Str := do
  return (← renderWith o 0 t).buf

/-- `HtmlRenderer(opts).render(Parser({'smart': smart}).parse(text))`. -/
def toHtml (smart : Bool) (o : HtmlOpts) (s : Str) : Except PyErr Str := do
  renderHtml o (← parse smart s)

end CM
