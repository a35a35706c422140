import Verif.Proofs.WriteBlocks
/-
C73: everything can be written: a simple program that writes documents as CommonMark text is exact.
-/
namespace CM
open Spec

/-- C73: the text that the program of `Spec.Write` writes for a document (paragraphs of any number of lines with soft and hard line breaks, headings, thematic breaks, code in any language, block quotes, and
tight and loose lists, nested to any depth, with any characters, code spans, emphasis, links and images in their text)
gives the HTML of that document, in safe mode too. -/
theorem C73_written {smart : Bool} {o : HtmlOpts} (h1 : o.sourcepos = false) {bs : List Block} (h : BlocksOk bs) :
    toHtml smart o (writeDoc bs) = .ok (blocksHtml o.safe o.softbreak bs) := by
  by_cases hne : bs = []
  · subst hne
    rw [writeDoc, writeBlocks, blocksHtml]
    rfl
  · obtain ⟨xs, k1, k2, k3⟩ := blocks_doc (smart := smart) (o := o) (refs := fun _ => none) bs h hne true
    obtain ⟨⟨l, more, e, _⟩, hall⟩ := k3
    have hs : TextLines (writeDoc bs) (writeBlocks true bs ++ List.replicate 0 []) := by
      rw [List.replicate_zero, List.append_nil]
      exact textLines_lf (by rw [e]; simp) hall
    rw [← k2]
    exact doc_html h1 (phraseHtml_inline h1) k1 hs

/-- C73: a paragraph of words alone. -/
theorem C73_paragraph {smart : Bool} {o : HtmlOpts} (h1 : o.sourcepos = false) {xs : List Word} (h : ParaOk xs) :
    toHtml smart o (writeWords xs ++ ['\n']) = .ok ("<p>".toList ++ wordsHtml o.safe xs ++ "</p>\n".toList) := by
  have := C73_written (smart := smart) h1 (bs := [.para xs []]) ⟨⟨h, by simp⟩, trivial⟩
  have e1 : writeDoc [.para xs []] = writeWords xs ++ ['\n'] := by
    rw [writeDoc, writeBlocks, writeBlock]; simp [writeLines]
  have e2 : blocksHtml o.safe o.softbreak [.para xs []] = "<p>".toList ++ wordsHtml o.safe xs ++ "</p>\n".toList := by
    rw [blocksHtml, blocksHtml, blockHtml, List.append_nil]; rfl
  rw [e1, e2] at this
  exact this

/-! ### Example -/

def sampleWords : List Word :=
  [.text "1.".toList, .emph false [.text "a".toList, .link false "/u v".toList "\"T\"".toList [.code "`x".toList], .text "*b".toList], .text "<&>".toList]

def sampleMore : List (Bool × List Word) := [(true, [.text "1)".toList]), (false, [.emph true [.text "c".toList]]), (false, [.text "d".toList])]

def sampleDoc : List Block :=
  [.heading 2 [.text "C#".toList],
   .para sampleWords sampleMore,
   .list (some 7) [[.para [.text "-".toList, .text "x".toList] [], .code "c++".toList ["```".toList, [], "  y".toList]], [.rule]],
   .tight (some 3) [.item [.text "p".toList] none [.item [.text "q".toList] (some 1) [.item [.text "r".toList] none []]], .item [.text "s".toList] none []],
   .quote [.list none [[.tight none [.item [.text "t".toList] none []]], [.quote [.rule, .rule]]]]]

theorem textOk (s : Str) (h : s ≠ []) (h' : ∀ c ∈ s, c ≠ Char.ofNat 0 ∧ isPySpace c = false) : WordOk (.text s) := ⟨h, h'⟩

theorem paraOk_text (s : Str) (xs : List Word) (h : WordsOk (.text s :: xs)) : ParaOk (.text s :: xs) :=
  ⟨by simp, h, by intro d t ys h; cases h⟩

theorem sampleWords_ok : WordsOk sampleWords := by
  refine ⟨textOk _ (by decide) (by decide +kernel), ⟨⟨'a', [], _, rfl, by decide +kernel⟩, ⟨'b', ['*'], [_, _], rfl, by decide +kernel⟩, ?_⟩,
    textOk _ (by decide) (by decide +kernel), trivial⟩
  refine ⟨textOk _ (by decide) (by decide +kernel), ⟨?_, ?_, by decide, ⟨⟨'x', by decide, by decide⟩, ?_⟩, trivial⟩,
    textOk _ (by decide) (by decide +kernel), trivial⟩
  all_goals unfold LineChar; decide +kernel

theorem sampleMore_ok : ∀ y ∈ sampleMore, ParaOk y.2 := by
  intro ys hy
  simp only [sampleMore, List.mem_cons, List.not_mem_nil, or_false] at hy
  rcases hy with rfl | rfl | rfl
  · exact paraOk_text _ _ ⟨textOk _ (by decide) (by decide +kernel), trivial⟩
  · refine ⟨by simp, ⟨⟨⟨'c', [], [], rfl, by decide +kernel⟩, ⟨'c', [], [], rfl, by decide +kernel⟩, textOk _ (by decide) (by decide +kernel), trivial⟩, trivial⟩, ?_⟩
    intro d t ys h; cases h
  · exact paraOk_text _ _ ⟨textOk _ (by decide) (by decide +kernel), trivial⟩

theorem sampleDoc_ok : BlocksOk sampleDoc := by
  have t : ∀ s : Str, s ≠ [] → (∀ c ∈ s, c ≠ Char.ofNat 0 ∧ isPySpace c = false) → ParaOk [.text s] :=
    fun s h1 h2 => paraOk_text s [] ⟨⟨h1, h2⟩, trivial⟩
  refine ⟨⟨by decide, by decide, by simp, textOk _ (by decide) (by decide +kernel), trivial⟩, ⟨paraOk_text _ _ sampleWords_ok, sampleMore_ok⟩,
    ⟨?_, by simp, .inl (by decide), ⟨by simp, ⟨⟨paraOk_text _ _ ⟨textOk _ (by decide) (by decide +kernel), textOk _ (by decide) (by decide +kernel), trivial⟩, by simp⟩,
      ⟨by unfold LangOk; decide +kernel, ?_⟩, trivial⟩,
      by simp, ⟨trivial, trivial⟩, trivial⟩⟩,
    ⟨?_, by simp, ⟨t _ (by decide) (by decide +kernel), .inl rfl, ⟨t _ (by decide) (by decide +kernel), .inr rfl,
      ⟨t _ (by decide) (by decide +kernel), .inl rfl, trivial⟩, trivial⟩, trivial⟩, ⟨t _ (by decide) (by decide +kernel), .inl rfl, trivial⟩, trivial⟩,
    ⟨by simp, ⟨?_, by simp, .inl (by decide), ⟨by simp, ⟨⟨?_, by simp, ⟨t _ (by decide) (by decide +kernel), .inl rfl, trivial⟩, trivial⟩, trivial⟩,
      by simp, ⟨⟨by simp, trivial, trivial, trivial⟩, trivial⟩, trivial⟩⟩, trivial⟩, trivial⟩
  · intro n h; cases h; decide
  · intro l hl
    simp only [List.mem_cons, List.not_mem_nil, or_false] at hl
    rcases hl with rfl | rfl | rfl
    · exact ⟨.inr ⟨'`', by decide, by decide⟩, by decide⟩
    · exact ⟨.inl rfl, by simp⟩
    · exact ⟨.inr ⟨'y', by decide, by decide⟩, by decide⟩
  · intro n h; cases h; decide
  · intro n h; cases h
  · intro n h; cases h

/-- What is written. -/
example : writeDoc sampleDoc =
    "## C\\#\n\n1\\. *a [`` `x ``](<\\/u v> \"\\\"T\\\"\") \\*b* \\<\\&\\>\\\n1\\)\n".toList ++
    "**c**\nd\n\n7. \\- x\n\n   ``````c++\n   ```\n\n     y\n   ``````\n\n7. ***\n\n3) p\n   + q\n     1) r\n3) s\n\n".toList ++
    "> - + t\n> \n> - > ***\n>   > \n>   > ***\n".toList := by decide +kernel

/-- The HTML of it: numbers, lists in lists, links in emphasis, and no change to any character. -/
example : toHtml false {} (writeDoc sampleDoc) = .ok (
    "<h2>C#</h2>\n<p>1. <em>a <a href=\"/u%20v\" title=\"&quot;T&quot;\">".toList ++
    "<code>`x</code></a> *b</em> &lt;&amp;&gt;<br />\n1)\n".toList ++
    "<strong>c</strong>\nd</p>\n<ol start=\"7\">\n<li>\n".toList ++
    "<p>- x</p>\n<pre><code class=\"language-c++\">```\n\n  y\n</code></pre>\n".toList ++
    "</li>\n<li>\n<hr />\n</li>\n</ol>\n".toList ++
    "<ol start=\"3\">\n<li>p\n<ul>\n<li>q\n<ol>\n<li>r</li>\n</ol>\n</li>\n</ul>\n</li>\n".toList ++
    "<li>s</li>\n</ol>\n<blockquote>\n<ul>\n<li>\n<ul>\n<li>t</li>\n</ul>\n</li>\n<li>\n".toList ++
    "<blockquote>\n<hr />\n<hr />\n</blockquote>\n</li>\n</ul>\n</blockquote>\n".toList) :=
  (C73_written rfl sampleDoc_ok).trans (by decide +kernel)

/-- The words of a paragraph. -/
example : toHtml false {} (writeWords sampleWords ++ ['\n']) = .ok ("<p>".toList ++ wordsHtml false sampleWords ++ "</p>\n".toList) :=
  C73_paragraph rfl (paraOk_text _ _ sampleWords_ok)

/-- Raw HTML: a comment with an empty line in it, and a list with an element and a paragraph in an item. -/
def sampleRaw : List Block :=
  [.html ["<!-- a".toList, [], "*b* -->".toList],
   .list none [[.html ["<div>".toList, "*c*</div>".toList], .para [.text "<d>".toList] []]]]

theorem htmlStart_by {i : Nat} {l : Str} (hi : 1 ≤ i ∧ i ≤ 7) (hl : '\n' ∉ l)
    (h : ((reHtmlBlockOpen i).matchPrefix l).isSome = true ∧ ∀ j < i, 1 ≤ j → ((reHtmlBlockOpen j).matchPrefix l).isSome = false) :
    HtmlStart i l := by
  refine ⟨(htmlOpen_iff hl hi.1 hi.2).1 h.1, fun j hj ho => ?_⟩
  have hr := htmlOpen_range ho
  have := h.2 j hj hr.1
  rw [(htmlOpen_iff hl hr.1 hr.2).2 ho] at this
  cases this

theorem sampleRaw_ok : BlocksOk sampleRaw := by
  refine ⟨⟨?_, .inr ⟨2, _, ["<!-- a".toList, []], _, rfl, rfl, htmlStart_by (by decide) (by decide) (by decide +kernel), ?_, ?_⟩⟩,
    ⟨?_, by simp, .inr ⟨_, List.mem_singleton.2 rfl, by decide⟩, ⟨by simp, ⟨⟨?_, .inl ⟨6, _, _, rfl, .inl rfl, htmlStart_by (by decide) (by decide) (by decide +kernel), ?_⟩⟩,
      ⟨paraOk_text _ _ ⟨textOk _ (by decide) (by decide +kernel), trivial⟩, by simp⟩, trivial⟩, trivial⟩⟩, trivial⟩
  · intro l hl
    simp only [List.mem_cons, List.not_mem_nil, or_false] at hl
    rcases hl with rfl | rfl | rfl
    · exact ⟨.inr ⟨'a', by decide, by decide⟩, by decide⟩
    · exact ⟨.inl rfl, by simp⟩
    · exact ⟨.inr ⟨'b', by decide, by decide⟩, by decide⟩
  · intro l hl
    rw [← htmlEnd_iff (by decide) (by decide)]
    revert hl; revert l; decide +kernel
  · exact ⟨"*b* ".toList, [], by decide⟩
  · intro n h; cases h
  · intro l hl
    simp only [List.mem_cons, List.not_mem_nil, or_false] at hl
    rcases hl with rfl | rfl
    · exact ⟨.inr ⟨'d', by decide, by decide⟩, by decide⟩
    · exact ⟨.inr ⟨'c', by decide, by decide⟩, by decide⟩
  · intro l hl
    rw [List.mem_singleton] at hl
    subst hl
    exact ⟨'c', by decide, by decide⟩

example : writeDoc sampleRaw = "<!-- a\n\n*b* -->\n\n+ <div>\n  *c*</div>\n\n  \\<d\\>\n".toList := by decide +kernel

example : toHtml false {} (writeDoc sampleRaw) = .ok (
    "<!-- a\n\n*b* -->\n<ul>\n<li>\n<div>\n*c*</div>\n<p>&lt;d&gt;</p>\n</li>\n</ul>\n".toList) :=
  (C73_written rfl sampleRaw_ok).trans (by decide +kernel)

/-- In safe mode. -/
example : toHtml false { safe := true } (writeDoc sampleRaw) = .ok (
    "<!-- raw HTML omitted -->\n<ul>\n<li>\n<!-- raw HTML omitted -->\n<p>&lt;d&gt;</p>\n</li>\n</ul>\n".toList) :=
  (C73_written rfl sampleRaw_ok).trans (by decide +kernel)

end CM
