import Verif.Proofs.ParsedHtml
import Verif.Props.Compose
/-
C07, C08, C09, C43 for the HTML of any Markdown text: no condition on the tree is left.
-/
namespace CM
open Spec

/-- C07: the safe-mode HTML of any text is read by the tokenizer and is properly nested. -/
theorem C07_parsed_safe (smart : Bool) (o : HtmlOpts) (s out : Str) (hs : o.safe = true) (hsb : PlainText o.softbreak)
    (h : toHtml smart o s = .ok out) : ∃ toks, tokenize out = some toks ∧ nested [] toks = true := by
  obtain ⟨t, h1, h2⟩ := toHtml_ok h
  exact C07_nested o t out hsb (AllNodes.mono (fun d hd => ⟨hd.1, hd.2.1, hd.2.2.1, hd.2.2.2.1, fun h => h.elim⟩) t
    (parsed_safe hs h1)) h2

/-- C07: without safe mode the same holds for the documents without raw HTML. -/
theorem C07_parsed_no_raw (smart : Bool) (o : HtmlOpts) (s out : Str) (hsb : PlainText o.softbreak)
    (t : Tree) (ht : parse smart s = .ok t) (hr : AllNodes (fun d => d.t ≠ .htmlInline ∧ d.t ≠ .htmlBlock) t)
    (h : renderHtml o t = .ok out) : ∃ toks, tokenize out = some toks ∧ nested [] toks = true := by
  refine C07_nested o t out hsb ?_ h
  exact AllNodes.and (allNodes_of (Q := fun d => (d.t ≠ .htmlInline ∧ d.t ≠ .htmlBlock) → RenderableNode False o d)
    (fun d ks hn hr => by
      have := parsed_renderable (o := o) hn fun _ => hr
      exact ⟨this.1, this.2.1, this.2.2.1, this.2.2.2.1, fun h => h.elim⟩) t (parse_doc ht).2.2.2) hr

/-- C08: in the safe-mode HTML of any text every tag has one of the renderer's own names and
attributes, and every comment is the renderer's own. -/
theorem C08_parsed_safe (smart : Bool) (o : HtmlOpts) (s out : Str) (hs : o.safe = true) (hsb : PlainText o.softbreak)
    (h : toHtml smart o s = .ok out) :
    ∃ toks, tokenize out = some toks ∧ ∀ tok ∈ toks, tok.allowed fun _ _ => True := by
  obtain ⟨t, h1, h2⟩ := toHtml_ok h
  exact C08_allowed o t out hsb (AllNodes.mono (fun d hd => ⟨hd.1, hd.2.1, hd.2.2.1, hd.2.2.2.1, fun h => h.elim⟩) t
    (parsed_safe hs h1)) h2

/-- C09: in the safe-mode HTML of any text the decoded value of every `href` and `src` is harmless. -/
theorem C09_parsed_safe (smart : Bool) (o : HtmlOpts) (s out : Str) (hs : o.safe = true) (hsb : PlainText o.softbreak)
    (h : toHtml smart o s = .ok out) :
    ∃ toks, tokenize out = some toks ∧ ∀ tok ∈ toks, tok.allowed fun n v =>
      n = "href".toList ∨ n = "src".toList → dangerous (xmlDecode v) = false := by
  obtain ⟨t, h1, h2⟩ := toHtml_ok h
  exact C09_urls o t out hs hsb (parsed_safe hs h1) h2

/-- C43: the HTML of any parsed document is the concatenation of the HTML of its blocks. -/
theorem C43_parsed (smart : Bool) (o : HtmlOpts) (s : Str) (d : NodeData) (cs : List Tree)
    (h : parse smart s = .ok (.node d cs)) :
    renderHtml o (.node d cs) = (cs.mapM fun c => renderHtml o (.node d [c])).map List.flatten := by
  obtain ⟨h1, _, _, h2⟩ := parse_doc h
  have h1 : d.t = .document := h1
  refine C43_concat o d cs h1 ?_
  intro c hc
  have h3 := (everyNode_iff.1 h2).1
  have hk : c.data ∈ cs.map Tree.data := List.mem_map.2 ⟨c, hc, rfl⟩
  cases h3 with
  | block hb =>
    rcases hb.fits c.data hk with ⟨_, hf⟩ | ⟨hl, _⟩
    · have : ∀ k ∈ flowKinds, k ∈ topLevelKinds := by decide
      exact this _ hf
    · rw [h1] at hl; cases hl
  | leaf hb hp => rw [h1] at hp; simp at hp
  | inline hi => exfalso; generalize cs.map Tree.data = ks at hi; cases hi <;> cases h1

/-- A hostile text and its safe-mode HTML. -/
example : (toHtml false { safe := true } "[a](java&#115;cript:x) <b>\n\n<script>\n".toList).toOption =
    some "<p><a>a</a> <!-- raw HTML omitted --></p>\n<!-- raw HTML omitted -->\n".toList := by decide +kernel
example : PlainText ({} : HtmlOpts).softbreak := by unfold PlainText; decide

end CM
