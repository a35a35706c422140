import Verif.Proofs.QuoteDoc
/-
C50: block quotes add structure only.
-/
namespace CM
open Spec

/-- C50: a text every line of which is marked as part of a block quote (`> `, or `>` before a line that does not begin with
a space or tab, after up to three spaces; of width 4 if there are tabs in the line), parses to one block quote, which has the blocks of the text as children;
they differ in nothing but the columns of the source positions. -/
theorem C50_quote (smart : Bool) (s s' : Str) (ls qs : List Str) (hs : TextLines s ls) (hs' : TextLines s' qs)
    (hq : Quoted ls qs) (d : NodeData) (cs : List Tree) (h : parse smart s = .ok (.node d cs)) :
    ∃ d' q cs', parse smart s' = .ok (.node d' [.node q cs']) ∧ d'.t = .document ∧ q.t = .blockQuote ∧
      noColsL cs' = noColsL cs := by
  have hne : ls ≠ [] := by cases hs <;> simp
  rcases quote_parse (smart := smart) (inputLines_of hs) (inputLines_of hs') hq hne with ⟨e, h1, _⟩ | ⟨_, d', q, _, cs', h1, h2, _, h4, h5, h6⟩
  · rw [h] at h1; cases h1
  · rw [h] at h1
    cases h1
    exact ⟨d', q, cs', h2, h4, h5, h6⟩

/-- C50: if the text makes the parser fail (see C02), so does the quoted text, with the same exception. -/
theorem C50_quote_error (smart : Bool) (s s' : Str) (ls qs : List Str) (hs : TextLines s ls) (hs' : TextLines s' qs)
    (hq : Quoted ls qs) (e : PyErr) (h : parse smart s = .error e) : parse smart s' = .error e := by
  have hne : ls ≠ [] := by cases hs <;> simp
  rcases quote_parse (smart := smart) (inputLines_of hs) (inputLines_of hs') hq hne with ⟨e, h1, h2⟩ | ⟨_, d', q, _, cs', h1, _⟩
  · rw [h] at h1; cases h1; exact h2
  · rw [h] at h1; cases h1

/-- C50: the HTML of the quoted text is the HTML of the text between `<blockquote>` and `</blockquote>`. -/
theorem C50_html (smart : Bool) (o : HtmlOpts) (s s' : Str) (ls qs : List Str) (hs : TextLines s ls) (hs' : TextLines s' qs)
    (hq : Quoted ls qs) (ho : o.sourcepos = false) :
    toHtml smart o s' = (toHtml smart o s).map fun h => "<blockquote>\n".toList ++ h ++ "</blockquote>\n".toList := by
  have hne : ls ≠ [] := by cases hs <;> simp
  unfold toHtml
  rcases quote_parse (smart := smart) (inputLines_of hs) (inputLines_of hs') hq hne with ⟨e, h1, h2⟩ |
    ⟨d, d', q, cs, cs', h1, h2, h3, h4, h5, h6⟩
  · rw [h1, h2]; rfl
  · rw [h1, h2]
    exact quote_render ho h3 h4 h5 (noCols_bare h6) (top_kinds h1)

/-- A text with a list, a fence that is not closed and a blank line, and the text quoted with different markers. -/
example : TextLines "- a\n\n  ```\n  # b\n".toList ["- a".toList, [], "  ```".toList, "  # b".toList] ∧
    TextLines ">- a\n   >\n>   ```\n >   # b\n".toList [">- a".toList, "   >".toList, ">   ```".toList, " >   # b".toList] ∧
    Quoted ["- a".toList, [], "  ```".toList, "  # b".toList]
      [">- a".toList, "   >".toList, ">   ```".toList, " >   # b".toList] ∧
    (parse false "- a\n\n  ```\n  # b\n".toList).toOption.isSome = true ∧
    (toHtml false {} ">- a\n   >\n>   ```\n >   # b\n".toList).toOption =
      some ("<blockquote>\n<ul>\n<li>\n<p>a</p>\n<pre><code># b\n".toList ++
        "</code></pre>\n</li>\n</ul>\n</blockquote>\n".toList) := by
  refine ⟨(textLines_iff _ _).2 (by decide), (textLines_iff _ _).2 (by decide), ?_, by decide +kernel, by decide +kernel⟩
  refine .cons (pre := ">".toList) ⟨0, by decide, .inr ⟨rfl, by decide, by decide⟩⟩ (.inl (by decide)) ?_
  refine .cons (pre := "   >".toList) ⟨3, by decide, .inr ⟨rfl, by decide, by decide⟩⟩ (.inl (by decide)) ?_
  refine .cons (pre := "> ".toList) ⟨0, by decide, .inl rfl⟩ (.inl (by decide)) ?_
  refine .cons (pre := " > ".toList) ⟨1, by decide, .inl rfl⟩ (.inl (by decide)) .nil

/-- A text with tabs, quoted with markers of width 4. -/
example : Quoted ["a".toList, [], "\t\tb\tc".toList] ["> a".toList, ">".toList, "  > \t\tb\tc".toList] ∧
    (toHtml false {} "a\n\n\t\tb\tc\n".toList).toOption = some "<p>a</p>\n<pre><code>\tb\tc\n</code></pre>\n".toList ∧
    (toHtml false {} "> a\n>\n  > \t\tb\tc\n".toList).toOption =
      some ("<blockquote>\n<p>a</p>\n<pre><code>\tb\tc\n</code></pre>\n".toList ++ "</blockquote>\n".toList) := by
  refine ⟨?_, by decide +kernel, by decide +kernel⟩
  refine .cons (pre := "> ".toList) ⟨0, by decide, .inl rfl⟩ (.inl (by decide)) ?_
  refine .cons (pre := ">".toList) ⟨0, by decide, .inr ⟨rfl, by decide, by decide⟩⟩ (.inl (by decide)) ?_
  refine .cons (pre := "  > ".toList) ⟨2, by decide, .inl rfl⟩ (.inr rfl) .nil

/-- Without the condition on tabs the claim fails: the width of a tab depends on the column. -/
example : (toHtml false {} "a\n\n\tb\n".toList).toOption = some "<p>a</p>\n<pre><code>b\n</code></pre>\n".toList ∧
    (toHtml false {} "> a\n>\n> \tb\n".toList).toOption = some "<blockquote>\n<p>a</p>\n<p>b</p>\n</blockquote>\n".toList := by
  refine ⟨?_, ?_⟩ <;> decide +kernel

end CM
