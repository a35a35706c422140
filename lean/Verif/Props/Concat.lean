import Verif.Proofs.Concat
/-
C55: texts separated by an empty line are parsed independently.
-/
namespace CM
open Spec

/-- C55: two texts with an empty line between them parse to the blocks of the first text followed by the blocks of the second
one, moved down by the lines of the first text and the empty line (columns not compared), if the first text ends with a
paragraph, a heading, a thematic break or a block quote and no line has `]:` (so that neither text defines references). -/
theorem C55_concat (smart : Bool) (s1 s2 s : Str) (as bs : List Str) (h1 : TextLines s1 as) (h2 : TextLines s2 bs)
    (hs : TextLines s (as ++ [] :: bs)) (hn : ∀ l ∈ as ++ bs, ¬ "]:".toList <:+: l)
    (d1 d2 : NodeData) (xs1 xs2 : List Tree) (e1 : parse smart s1 = .ok (.node d1 xs1)) (e2 : parse smart s2 = .ok (.node d2 xs2))
    (hk : ∀ t, xs1.getLast? = some t → t.data.t ∈ [.paragraph, .heading, .thematicBreak, .blockQuote]) :
    ∃ d ys1 ys2, parse smart s = .ok (.node d (ys1 ++ ys2)) ∧ ys1.map unblank = xs1.map unblank ∧
      noColsL ys2 = noColsL (movedL (as.length + 1) xs2) := by
  rcases concat_parse (smart := smart) h1 h2 hs hn e1 hk with ⟨e, h, _⟩ | ⟨β, d2', d, ys2, ys, h3, h4, h5, h6, h7⟩
  · rw [e2] at h; cases h
  · rw [e2] at h3
    cases h3
    exact ⟨d, _, _, h4, unblank_mark xs1, moved_list (parse_hasEnd e2) h7⟩

/-- C55: if the second text makes the parser fail (see C02), so do both texts. -/
theorem C55_concat_error (smart : Bool) (s1 s2 s : Str) (as bs : List Str) (h1 : TextLines s1 as) (h2 : TextLines s2 bs)
    (hs : TextLines s (as ++ [] :: bs)) (hn : ∀ l ∈ as ++ bs, ¬ "]:".toList <:+: l)
    (d1 : NodeData) (xs1 : List Tree) (e : PyErr) (e1 : parse smart s1 = .ok (.node d1 xs1)) (e2 : parse smart s2 = .error e)
    (hk : ∀ t, xs1.getLast? = some t → t.data.t ∈ [.paragraph, .heading, .thematicBreak, .blockQuote]) :
    parse smart s = .error e := by
  rcases concat_parse (smart := smart) h1 h2 hs hn e1 hk with ⟨e', h, h'⟩ | ⟨β, d2', d, ys2, ys, h3, _⟩
  · rw [e2] at h; cases h; exact h'
  · rw [e2] at h3; cases h3

/-- C55: the HTML of two texts with an empty line between them is the HTML of the first followed by the HTML of the second. -/
theorem C55_html (smart : Bool) (o : HtmlOpts) (ho : o.sourcepos = false) (s1 s2 s : Str) (as bs : List Str) (h1 : TextLines s1 as)
    (h2 : TextLines s2 bs) (hs : TextLines s (as ++ [] :: bs)) (hn : ∀ l ∈ as ++ bs, ¬ "]:".toList <:+: l)
    (d1 : NodeData) (xs1 : List Tree) (e1 : parse smart s1 = .ok (.node d1 xs1))
    (hk : ∀ t, xs1.getLast? = some t → t.data.t ∈ [.paragraph, .heading, .thematicBreak, .blockQuote]) (x y : Str)
    (hx : toHtml smart o s1 = .ok x) (hy : toHtml smart o s2 = .ok y) : toHtml smart o s = .ok (x ++ y) := by
  rcases concat_parse (smart := smart) h1 h2 hs hn e1 hk with ⟨e', h, h'⟩ | ⟨β, d2, d, xs2, ys, h3, h4, h5, h6, h7⟩
  · unfold toHtml at hy; rw [h] at hy; cases hy
  · have := concat_render ho (d := d) (d1 := d1) (d2 := d2) h6 (parse_doc e1).1 h5 (bareL_mark xs1) (bareL_rel h7).symm (top_kinds e1) (top_kinds h3)
    unfold toHtml at hx hy ⊢
    rw [e1] at hx
    rw [h3] at hy
    rw [h4]
    have hx : renderHtml o (.node d1 xs1) = .ok x := hx
    have hy : renderHtml o (.node d2 xs2) = .ok y := hy
    show renderHtml o _ = _
    rw [this, hx, hy]; rfl

/-- A text that ends inside a block quote, with an open paragraph, before a text with a list and an open fence. -/
example : TextLines "# a\n> - b\n".toList ["# a".toList, "> - b".toList] ∧
    TextLines "- c\n\n  ```\n  d".toList ["- c".toList, [], "  ```".toList, "  d".toList] ∧
    TextLines "# a\n> - b\n\n- c\n\n  ```\n  d\n".toList
      (["# a".toList, "> - b".toList] ++ [] :: ["- c".toList, [], "  ```".toList, "  d".toList]) ∧
    (∀ l ∈ ["# a".toList, "> - b".toList, "- c".toList, [], "  ```".toList, "  d".toList], ¬ "]:".toList <:+: l) ∧
    ((parse false "# a\n> - b\n".toList).toOption.map fun t => t.children.map (·.data.t)) = some [.heading, .blockQuote] ∧
    (toHtml false {} "# a\n> - b\n".toList).toOption =
      some "<h1>a</h1>\n<blockquote>\n<ul>\n<li>b</li>\n</ul>\n</blockquote>\n".toList ∧
    (toHtml false {} "- c\n\n  ```\n  d".toList).toOption =
      some "<ul>\n<li>\n<p>c</p>\n<pre><code>d\n</code></pre>\n</li>\n</ul>\n".toList := by
  refine ⟨(textLines_iff _ _).2 (by decide), (textLines_iff _ _).2 (by decide), (textLines_iff _ _).2 (by decide), by decide, ?_, ?_, ?_⟩ <;>
    decide +kernel

/-- The condition on the last block is needed: a list goes on after an empty line, and so does code. -/
example : (toHtml false {} "- a\n".toList).toOption = some "<ul>\n<li>a</li>\n</ul>\n".toList ∧
    (toHtml false {} "- a\n\n- a\n".toList).toOption = some "<ul>\n<li>\n<p>a</p>\n</li>\n<li>\n<p>a</p>\n</li>\n</ul>\n".toList := by
  refine ⟨?_, ?_⟩ <;> decide +kernel

/-- So is the condition on definitions: they reach the whole text. -/
example : (toHtml false {} "[a]\n".toList).toOption = some "<p>[a]</p>\n".toList ∧
    (toHtml false {} "[a]: /b\n".toList).toOption = some [] ∧
    (toHtml false {} "[a]\n\n[a]: /b\n".toList).toOption = some "<p><a href=\"/b\">a</a></p>\n".toList := by
  refine ⟨?_, ?_, ?_⟩ <;> decide +kernel

end CM
