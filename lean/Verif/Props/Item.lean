import Verif.Proofs.ItemDoc
/-
C56: list items add structure only.
-/
namespace CM
open Spec

theorem markBullet {m : Str} {ty : ListType} {b : Option Char} {st : Option Nat} {dl : Option Char} (h : ListMark m ty b st dl) :
    ty = .bullet → st = none := by
  cases h with
  | bullet => intro _; rfl
  | ordered => intro h; cases h

/-- C56: a text put into a list item (its first line after a list marker and one to four spaces, the others indented as far)
parses to one list with one item, which has the blocks of the text as children.  They differ in nothing but the columns of the
source positions (and the mark that the tightness check leaves).  The list has the type, number and delimiter of the marker. -/
theorem C56_item (smart : Bool) (s s' : Str) (ls qs : List Str) (hs : TextLines s ls) (hs' : TextLines s' qs)
    (m : Str) (ty : ListType) (b : Option Char) (st : Option Nat) (dl : Option Char) (hm : ListMark m ty b st dl)
    (hq : ItemOf m ls qs) (d : NodeData) (cs : List Tree) (h : parse smart s = .ok (.node d cs)) :
    ∃ d' e i cs' tight pad off, parse smart s' = .ok (.node d' [.node e [.node i cs']]) ∧ d'.t = .document ∧ e.t = .list ∧
      e.listData = some ⟨ty, tight, b, st, dl, pad, off⟩ ∧ i.t = .item ∧ plainL cs' = plainL cs ∧
      (cs.length ≤ 1 → tight = true) := by
  rcases item_parse (smart := smart) hs hs' hm hq with ⟨e, h1, _⟩ | ⟨_, d', e, i, _, cs', tight, pad, off, h1, h2, _, h4, h5, h6, h7, _, _, h10, h11⟩
  · rw [h] at h1; cases h1
  · rw [h] at h1
    cases h1
    exact ⟨d', e, i, cs', tight, pad, off, h2, h4, h5, h6, h7, h10, h11⟩

/-- C56: if the text makes the parser fail (see C02), so does the list, with the same exception. -/
theorem C56_item_error (smart : Bool) (s s' : Str) (ls qs : List Str) (hs : TextLines s ls) (hs' : TextLines s' qs)
    (m : Str) (ty : ListType) (b : Option Char) (st : Option Nat) (dl : Option Char) (hm : ListMark m ty b st dl)
    (hq : ItemOf m ls qs) (e : PyErr) (h : parse smart s = .error e) : parse smart s' = .error e := by
  rcases item_parse (smart := smart) hs hs' hm hq with ⟨e, h1, h2⟩ | ⟨_, d', e, i, _, cs', tight, pad, off, h1, _⟩
  · rw [h] at h1; cases h1; exact h2
  · rw [h] at h1; cases h1

/-- C56: the HTML of the list is the HTML of the text between the tags of the list and the item, if the text has no
paragraph outside of other blocks, or the list is loose. -/
theorem C56_html (smart : Bool) (o : HtmlOpts) (s s' : Str) (ls qs : List Str) (hs : TextLines s ls) (hs' : TextLines s' qs)
    (m : Str) (ty : ListType) (b : Option Char) (st : Option Nat) (dl : Option Char) (hm : ListMark m ty b st dl)
    (hq : ItemOf m ls qs) (ho : o.sourcepos = false)
    (ht : (∀ d cs, parse smart s = .ok (.node d cs) → ∀ c ∈ cs, c.kind ≠ .paragraph) ∨
      ∀ d e is l, parse smart s' = .ok (.node d [.node e is]) → e.listData = some l → l.tight = false) :
    toHtml smart o s' = (toHtml smart o s).map fun h =>
      listTag ty st ++ "\n<li>\n".toList ++ h ++ "</li>\n".toList ++ listEnd ty ++ "\n".toList := by
  unfold toHtml
  rcases item_parse (smart := smart) hs hs' hm hq with ⟨e, h1, h2⟩ |
    ⟨d, d', e, i, cs, cs', tight, pad, off, h1, h2, h3, h4, h5, h6, h7, _, h9, h10, h11⟩
  · rw [h1, h2]; rfl
  · rw [h1, h2]
    refine item_render ho h3 h4 h5 h6 h7 (markBullet hm) ?_ (top_kinds h1) h9 ?_
    · rw [← bareL_plain, h10, bareL_plain]
    · rcases ht with ht | ht
      · exact .inr (ht d cs h1)
      · exact .inl (ht _ _ _ _ h2 h6)

/-- C56: the HTML of the list, if the text is one paragraph: the `<p>` tags are left out. -/
theorem C56_html_paragraph (smart : Bool) (o : HtmlOpts) (s s' : Str) (ls qs : List Str) (hs : TextLines s ls) (hs' : TextLines s' qs)
    (m : Str) (ty : ListType) (b : Option Char) (st : Option Nat) (dl : Option Char) (hm : ListMark m ty b st dl)
    (hq : ItemOf m ls qs) (ho : o.sourcepos = false)
    (ht : ∀ d cs, parse smart s = .ok (.node d cs) → cs.map Tree.kind = [.paragraph]) (h : Str) (hh : toHtml smart o s = .ok h) :
    ∃ x, h = "<p>".toList ++ x ++ "</p>\n".toList ∧
      toHtml smart o s' = .ok (listTag ty st ++ "\n<li>".toList ++ x ++ "</li>\n".toList ++ listEnd ty ++ "\n".toList) := by
  unfold toHtml at hh ⊢
  rcases item_parse (smart := smart) hs hs' hm hq with ⟨e, h1, h2⟩ |
    ⟨d, d', e, i, cs, cs', tight, pad, off, h1, h2, h3, h4, h5, h6, h7, _, h9, h10, h11⟩
  · rw [h1] at hh; cases hh
  · rw [h1] at hh
    rw [h2]
    have hk := ht d cs h1
    have hlen : cs.length ≤ 1 := by
      have := congrArg List.length hk
      simp only [List.length_map, List.length_cons, List.length_nil] at this
      omega
    rw [h11 hlen] at h6
    have hh : renderHtml o (.node d cs) = .ok h := hh
    have hb : bareL cs' = bareL cs := by rw [← bareL_plain, h10, bareL_plain]
    rcases item_render_tight ho h3 h4 h5 h6 h7 (markBullet hm) hb hk with ⟨er, g1, _⟩ | ⟨x, g1, g2⟩
    · rw [g1] at hh; cases hh
    · rw [g1] at hh
      cases hh
      exact ⟨x, rfl, g2⟩

/-- A text with a list, a blank line and a fence that is not closed, as an item of an ordered list that begins with 7; the
blank line is written with spaces. -/
example : TextLines "- a\n\n> b\n\n```\nc\n".toList ["- a".toList, [], "> b".toList, [], "```".toList, "c".toList] ∧
    TextLines " 7)  - a\n \n     > b\n\n     ```\n     c\n".toList
      [" 7)  - a".toList, " ".toList, "     > b".toList, [], "     ```".toList, "     c".toList] ∧
    ListMark "7)".toList .ordered none (some 7) (some ')') ∧
    ItemOf "7)".toList ["- a".toList, [], "> b".toList, [], "```".toList, "c".toList]
      [" 7)  - a".toList, " ".toList, "     > b".toList, [], "     ```".toList, "     c".toList] ∧
    (parse false "- a\n\n> b\n\n```\nc\n".toList).toOption.isSome = true ∧
    (toHtml false {} " 7)  - a\n \n     > b\n\n     ```\n     c\n".toList).toOption =
      some ("<ol start=\"7\">\n<li>\n<ul>\n<li>a</li>\n</ul>\n<blockquote>\n<p>b</p>\n".toList ++
        "</blockquote>\n<pre><code>c\n</code></pre>\n</li>\n</ol>\n".toList) := by
  refine ⟨(textLines_iff _ _).2 (by decide), (textLines_iff _ _).2 (by decide), ?_, ?_, by decide +kernel, by decide +kernel⟩
  · exact .ordered (ds := ['7']) (by decide) (by decide) (by decide) (.inr rfl)
  · refine .mk (n := 1) (k := 2) (c := '-') (r := " a".toList) (by decide) (by decide) (by decide) (by decide) (by decide) (by decide)
      (.inl (by decide)) ?_ ?_
    · rintro ⟨c, hc, hh, _⟩
      cases hh
      revert hc; decide
    · refine .blank (k := 1) (.text ⟨'b', by decide, by decide⟩ (.inl (by decide)) (.blank (k := 0) (.text ⟨'`', by decide, by decide⟩ (.inl (by decide))
        (.text ⟨'c', by decide, by decide⟩ (.inl (by decide)) .nil))))

/-- A paragraph with a tab as a list item of width 4. -/
example : ItemOf "*".toList ["a\tb".toList, "c".toList] [" * a\tb".toList, "    c".toList] → False := by
  intro h
  generalize hq : [" * a\tb".toList, "    c".toList] = qs at h
  generalize hl : ["a\tb".toList, "c".toList] = ls at h
  cases h with
  | @mk n k c r ls qs hn hk hk4 _ _ _ ht _ _ =>
    have h1 := (List.cons.inj hq).1
    have h2 := (List.cons.inj hl).1
    rw [← h2] at h1 ht
    have := congrArg List.length h1
    have e1 : ("*".toList).length = 1 := rfl
    have e2 : (" * a\tb".toList).length = 6 := rfl
    have e3 : ("a\tb".toList).length = 3 := rfl
    simp only [List.length_append, List.length_replicate, e1, e2, e3] at this
    rcases ht with ht | ht
    · exact ht (by decide)
    · rw [e1] at ht; omega

example : ItemOf "*".toList ["a\tb".toList, "c".toList] [" *  a\tb".toList, "    c".toList] ∧
    (toHtml false {} "a\tb\nc".toList).toOption = some "<p>a\tb\nc</p>\n".toList ∧
    (toHtml false {} " *  a\tb\n    c".toList).toOption = some "<ul>\n<li>a\tb\nc</li>\n</ul>\n".toList := by
  refine ⟨?_, by decide +kernel, by decide +kernel⟩
  refine .mk (n := 1) (k := 2) (c := 'a') (r := "\tb".toList) (by decide) (by decide) (by decide) (by decide) (by decide) (by decide)
      (.inr (by decide)) ?_ (.text ⟨'c', by decide, by decide⟩ (.inl (by decide)) .nil)
  rintro ⟨c, hc, hh, hx, _⟩
  cases hh
  have := hx 'a' (by decide)
  revert this; decide

/-- Without the condition on thematic breaks the claim fails. -/
example : (toHtml false {} "- -".toList).toOption = some "<ul>\n<li>\n<ul>\n<li></li>\n</ul>\n</li>\n</ul>\n".toList ∧
    (toHtml false {} "- - -".toList).toOption = some "<hr />\n".toList := by
  refine ⟨?_, ?_⟩ <;> decide +kernel

/-- Lines of spaces are not the same as empty lines: a blank line in a code block loses its spaces in a list item, even those
beyond the indentation. -/
example : (toHtml false {} "```\na\n  \n```".toList).toOption = some "<pre><code>a\n  \n</code></pre>\n".toList ∧
    (toHtml false {} "- ```\n  a\n    \n  ```".toList).toOption =
      some "<ul>\n<li>\n<pre><code>a\n\n</code></pre>\n</li>\n</ul>\n".toList := by
  refine ⟨?_, ?_⟩ <;> decide +kernel

/-- A reference definition at the beginning, the other condition on the first line: the item ends at the second blank line. -/
example : (toHtml false {} "[foo]: /url\n\n\nbar".toList).toOption = some "<p>bar</p>\n".toList ∧
    (toHtml false {} "- [foo]: /url\n\n\n  bar".toList).toOption = some "<ul>\n<li></li>\n</ul>\n<p>bar</p>\n".toList := by
  refine ⟨?_, ?_⟩ <;> decide +kernel

end CM
