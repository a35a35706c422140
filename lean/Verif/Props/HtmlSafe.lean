import Verif.Proofs.HtmlSafe
/-
C07 (well-nested output), C08 (only renderer-made tags), C09 (dangerous URLs) for arbitrary trees.
`Verif.Props.ParsedHtml` instantiates them to parsed documents.
-/
namespace CM
open Spec

/-- C07: what `render` writes is read by the tokenizer as text, comments, void tags and properly
nested elements, in safe mode and, without safe mode, for every tree without raw HTML. -/
theorem C07_nested (o : HtmlOpts) (t : Tree) (out : Str) (hsb : PlainText o.softbreak)
    (ht : AllNodes (RenderableNode False o) t) (h : renderHtml o t = .ok out) :
    ∃ toks, tokenize out = some toks ∧ nested [] toks = true := by
  obtain ⟨ts, h1, _, h3⟩ := (renderHtml_good hsb ht h).tokenize
  exact ⟨ts, h1, h3⟩

/-- C08: every tag has one of the renderer's own names and attributes, and the only comment is the
renderer's own. -/
theorem C08_allowed (o : HtmlOpts) (t : Tree) (out : Str) (hsb : PlainText o.softbreak)
    (ht : AllNodes (RenderableNode False o) t) (h : renderHtml o t = .ok out) :
    ∃ toks, tokenize out = some toks ∧ ∀ tok ∈ toks, tok.allowed fun _ _ => True := by
  obtain ⟨ts, h1, h2, _⟩ := (renderHtml_good hsb ht h).tokenize
  refine ⟨ts, h1, fun tok ht => ?_⟩
  have := h2 tok ht
  cases tok with
  | opening n as => exact ⟨this.1, fun a ha => ⟨(this.2 a ha).1, trivial⟩⟩
  | void n as => exact ⟨this.1, fun a ha => ⟨(this.2 a ha).1, trivial⟩⟩
  | chr c => exact this
  | comment b => exact this
  | closing n => exact this

/-- C09: in safe mode the decoded value of every `href` and `src` is harmless. -/
theorem C09_urls (o : HtmlOpts) (t : Tree) (out : Str) (hs : o.safe = true) (hsb : PlainText o.softbreak)
    (ht : AllNodes (RenderableNode True o) t) (h : renderHtml o t = .ok out) :
    ∃ toks, tokenize out = some toks ∧ ∀ tok ∈ toks, tok.allowed fun n v =>
      n = "href".toList ∨ n = "src".toList → dangerous (xmlDecode v) = false := by
  obtain ⟨ts, h1, h2, _⟩ := (renderHtml_good hsb ht h).tokenize
  refine ⟨ts, h1, fun tok ht => ?_⟩
  have := h2 tok ht
  cases tok with
  | opening n as => exact ⟨this.1, fun a ha => ⟨(this.2 a ha).1, fun hn => (this.2 a ha).2 trivial hn hs⟩⟩
  | void n as => exact ⟨this.1, fun a ha => ⟨(this.2 a ha).1, fun hn => (this.2 a ha).2 trivial hn hs⟩⟩
  | chr c => exact this
  | comment b => exact this
  | closing n => exact this

/-- C09: exactly which (ASCII) destinations are dropped. -/
theorem C09_potentiallyUnsafe (u : Str) (hu : Ascii u) : potentiallyUnsafe u = true ↔
    (ciPrefix "javascript:".toList u = true ∨ ciOccurs "vbscript:".toList u ∨
      ciOccurs "file:".toList u ∨ ciOccurs "data:".toList u) ∧
    ciPrefix "data:image/png".toList u = false ∧ ciPrefix "data:image/gif".toList u = false ∧
    ciPrefix "data:image/jpeg".toList u = false ∧ ciPrefix "data:image/webp".toList u = false := by
  unfold potentiallyUnsafe
  rw [reSafe_found u hu, Bool.and_eq_true, reUnsafe_found u hu]
  simp only [Bool.not_eq_true', Bool.or_eq_false_iff, and_assoc]

/-- C09: dangerous URLs are among them. -/
theorem C09_dangerous_dropped (u : Str) (hu : Ascii u) (h : dangerous u = true) :
    potentiallyUnsafe u = true := dangerous_unsafe hu h

/-- C09: a link destination that is not dropped is written, escaped, as the `href`. -/
theorem C09_kept (o : HtmlOpts) (d : NodeData) (p g f : Option NodeData) (st : HState) (u : Str)
    (hd : d.t = .link) (hu : d.destination = some u) (hb : o.safe = true → potentiallyUnsafe u = false)
    (h0 : st.disableTags = 0) (hsp : o.sourcepos = false) (hti : d.title = none) :
    htmlEvent o st ⟨true, d, p, g, f⟩ =
      .ok ⟨st.buf ++ ("<a href=\"".toList ++ escapeXml u ++ "\">".toList), ['>'], 0⟩ := by
  have e : unsafeDest o (some u) = .ok false := by
    unfold unsafeDest
    cases hs : o.safe
    · rfl
    · simp [hb hs]
  simp [htmlEvent, hd, htmlLink, hu, e, htmlAttrs, hsp, hti, truthy, HState.tag, h0, HState.tagText,
    escapeXmlOpt, lit, bind, Except.bind, pure, Except.pure]

/-- C09 (violated converse): a harmless destination is dropped because a word occurs in it. -/
theorem C09_overblocking_counterexample :
    dangerous "http://a/profile:x".toList = false ∧
    (toHtml false { safe := true } "[a](http://a/profile:x)".toList).toOption =
      some "<p><a>a</a></p>\n".toList := by
  decide +kernel

/-- C09: for trees not made by the parser ASCII is needed; a dotless `ı` makes a `data:` URL pass. -/
theorem C09_nonascii_counterexample :
    dangerous "data:ımage/png".toList = true ∧ potentiallyUnsafe "data:ımage/png".toList = false := by
  decide +kernel

/-- C07 (violated without safe mode): raw HTML is copied, also into an image description. -/
theorem C07_raw_html_counterexample :
    ((toHtml false {} "<b>".toList).toOption.bind tokenize).map (nested []) = some false ∧
    (toHtml false {} "![<a href=\"x\">](c)".toList).toOption =
      some "<p><img src=\"c\" alt=\"<a href=\"x\">\" /></p>\n".toList ∧
    (toHtml false {} "![<a href=\"x\">](c)".toList).toOption.bind tokenize = none := by
  decide +kernel

/-- The hypotheses hold for a tree with markup, a hostile link and raw HTML. -/
example : ∃ t out, AllNodes (RenderableNode True { safe := true }) t ∧
    (renderHtml { safe := true } t).toOption = some out ∧
    out = "<p><!-- raw HTML omitted --><a>&lt;</a></p>\n".toList := by
  refine ⟨.node { t := .document } [.node { t := .paragraph } [.node { t := .htmlInline, literal := some ['<', 'b', '>'] } [],
    .node { t := .link, destination := some "JavaScript:1".toList } [.node { t := .text, literal := some ['<'] } []]]],
    _, ?_, ?_, rfl⟩
  · simp [AllNodes, AllNodesList, RenderableNode, Ascii]
  · decide +kernel

example : (toHtml false { safe := true } "<b>\n\n![<a href=\"x\">](c)".toList).toOption.bind tokenize ≠ none := by
  decide +kernel

end CM
