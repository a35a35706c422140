import Verif.Proofs.SourceDoc
import Verif.Proofs.Wraps
/-
Where inline nodes come from: C28, C29, C30, C45, C53.
-/
namespace CM
open Spec

/-! ### C53 -/

/-- C53.  The inline nodes of every paragraph and heading stand for its text, from beginning to end, as `Spec.Source`
describes: every node is made from its own stretch of text, these stretches follow one another, and the definitions of
the document give the destinations of reference links. -/
theorem C53_source (smart : Bool) (p : PState) (s : Str) (t : Tree) (p' : PState)
    (h : parseWith smart p s = .ok (t, p')) :
    EverySubtree (fun d cs => d.t = .paragraph ∨ d.t = .heading → ∃ x, d.stringContent = some x ∧
      Source smart false (fun l => p'.refmap.get (normalizeReference l)) (strip x) true cs 0 (strip x).length) t := by
  refine EverySubtree.mono ?_ t (parseWith_from smart p s h).1
  intro d cs hd hk
  obtain ⟨x, h1, h2⟩ := hd hk
  exact ⟨x, h1, parseInlines_source (by intro h; cases h) h2⟩

/-- The same for a fresh parser. -/
theorem C53_source_parse (smart : Bool) (s : Str) (t : Tree) (h : parse smart s = .ok t) :
    ∃ refmap : RefMap, EverySubtree (fun d cs => d.t = .paragraph ∨ d.t = .heading → ∃ x, d.stringContent = some x ∧
      Source smart false (fun l => refmap.get (normalizeReference l)) (strip x) true cs 0 (strip x).length) t := by
  obtain ⟨p', h⟩ := parse_with h
  exact ⟨p'.refmap, C53_source smart _ s t p' h⟩

/-- C53.  Every node takes up some of the text. -/
theorem C53_nonempty {smart strict : Bool} {refs : Str → Option RefDef} {S : Str} {L : Bool} {ts : List Tree} {i j : Nat}
    (h : Source smart strict refs S L ts i j) : ts.length ≤ j - i ∧ i ≤ j := by
  induction h with
  | nil => simp
  | append h1 h2 ih1 ih2 => rw [List.length_append]; omega
  | lineEnd h _ _ _ _ => have := (source_pos h).2.2 (by simp); simp; omega
  | plain a b c d e => have := (source_pos (.plain (smart := _) (strict := strict) (refs := refs) (L := true) a b c d e)).2.2 (by simp); simp; omega
  | smartPlain a b c d e f =>
    have := (source_pos (.smartPlain (strict := strict) (refs := refs) (L := true) a b c d e f)).2.2 (by simp); simp; omega
  | ref a b => have := (source_pos (.ref (smart := smart) (strict := strict) (refs := refs) (L := true) a b)).2.2 (by simp); simp; omega
  | html a b => have := (source_pos (.html (smart := smart) (strict := strict) (refs := refs) (L := true) a b)).2.2 (by simp); simp; omega
  | emph _ _ _ ih | strong _ _ _ ih => simp; omega
  | link a b c d ih =>
    have := (source_pos (.link a b c d)).2.2 (by simp); simp; omega
  | image a b c d e ih =>
    have := (source_pos (.image a b c d e)).2.2 (by simp); simp; omega
  | _ => simp <;> omega

/-- Paragraphs with emphasis, links, references, code, autolinks, raw HTML, entities and line breaks. -/
example : ((parse false "*a **b*** [c *d*](/e \"f\") <http://g> ![h][i] <j> &amp;  \n`k` \\* [i]\n\n[i]: /l".toList).toOption.map
    fun t => t.children.map fun c => c.children.map (·.data.t)) =
    some [[.emph, .text, .link, .text, .link, .text, .image, .text, .htmlInline, .text, .text, .text, .linebreak, .code,
      .text, .text, .text, .link]] := by decide +kernel

/-! ### C28 -/

/-- C28.  `processEmphasis`, for every stack of delimiters and list of siblings that it refers to, only wraps siblings and
removes delimiters in equal pairs: the result consists of the same symbols in the same order, with `emph` or `strong` in
place of one or two equal delimiters on either side of a stretch. -/
theorem C28_conserves (ds : List Delim) (its : List Item) (h : StackFor ds its) :
    ∃ its', processEmphasis ds its = .ok its' ∧ Wraps (its'.map (·.node)) (its.flatMap symbols) :=
  processEmphasis_wraps h

/-- The siblings and stack of `**a*b_`. -/
def C28_items : List Item := [⟨1, textNode ['*', '*']⟩, ⟨0, textNode ['a']⟩, ⟨2, textNode ['*']⟩, ⟨0, textNode ['b']⟩, ⟨3, textNode ['_']⟩]
def C28_stack : List Delim := [⟨'*', 2, 2, 1, true, false⟩, ⟨'*', 1, 1, 2, false, true⟩, ⟨'_', 1, 1, 3, false, true⟩]

example : StackFor C28_stack C28_items where
  inc := by decide
  text := by
    intro it hit h0
    simp only [C28_items, List.mem_cons, List.not_mem_nil, or_false] at hit
    rcases hit with rfl | rfl | rfl | rfl | rfl
    · exact .run (n := 2) (c := '*') (by decide) (by decide)
    · exact absurd rfl h0
    · exact .run (n := 1) (c := '*') (by decide) (by decide)
    · exact absurd rfl h0
    · exact .run (n := 1) (c := '_') (by decide) (by decide)
  order := by decide
  entry := by
    intro d hd
    simp only [C28_stack, List.mem_cons, List.not_mem_nil, or_false] at hd
    rcases hd with rfl | rfl | rfl
    · exact ⟨by decide, _, List.mem_cons_self .., rfl, _, rfl, .inl ⟨by decide, by decide, rfl⟩⟩
    · exact ⟨by decide, ⟨2, textNode ['*']⟩, by simp [C28_items], rfl, _, rfl, .inl ⟨by decide, by decide, rfl⟩⟩
    · exact ⟨by decide, ⟨3, textNode ['_']⟩, by simp [C28_items], rfl, _, rfl, .inl ⟨by decide, by decide, rfl⟩⟩

example : processEmphasis C28_stack C28_items =
    .ok [⟨1, textNode ['*']⟩, ⟨0, mkNode .emph [textNode ['a']]⟩, ⟨0, textNode ['b']⟩, ⟨3, textNode ['_']⟩] := by rfl

/-! ### C29 -/

/-- C29, as far as it holds.  A link is made from an autolink, or all links in it, at any depth, are made from autolinks.
Missing: that there are no autolinks in links (`C29_counterexample`). -/
theorem C29_links_partial (smart : Bool) (s : Str) (t : Tree) (h : parse smart s = .ok t) :
    EverySubtree (fun d cs => d.t = .paragraph ∨ d.t = .heading → ∃ x, d.stringContent = some x ∧
      EverySubtreeList (fun e ds => e.t = .link → AutolinkOf (strip x) e ds ∨
        EverySubtreeList (fun f fs => f.t = .link → AutolinkOf (strip x) f fs) ds) cs) t := by
  obtain ⟨p', h⟩ := parse_with h
  refine EverySubtree.mono ?_ t (C53_source smart _ s t p' h)
  intro d cs hd hk
  obtain ⟨x, h1, h2⟩ := hd hk
  exact ⟨x, h1, everySubtreeList_iff.2 (source_links h2).1⟩

/-- C29.  In a text without `<` no link contains a link, at any depth. -/
theorem C29_no_angle_partial (smart : Bool) (s : Str) (t : Tree) (hs : '<' ∉ s) (h : parse smart s = .ok t) :
    EverySubtree (fun d cs => d.t = .link → EverySubtreeList (fun e _ => e.t ≠ .link) cs) t := by
  have hdoc := parse_doc h
  have hc := parse_content h
  have hl := C29_links_partial smart s t h
  refine everySubtree_blocks (T := TextOf s) (G := (· ≠ Char.ofNat 0)) ?_ t (by rw [hdoc.1]; decide) ?_
  · intro d cs hk h; rw [h] at hk; exact absurd hk (by decide)
  · have h1 := everySubtree_and t hdoc.2.2.2 (everySubtree_and t hc hl)
    refine EverySubtree.mono ?_ t h1
    rintro d cs ⟨hn, ⟨hx, _⟩, hl⟩
    refine ⟨hn, fun hk => ?_⟩
    obtain ⟨x, e, hx⟩ := hx hk
    obtain ⟨y, e', hy⟩ := hl hk
    rw [e] at e'; simp only [Option.some.injEq] at e'; subst e'
    have hno : ∀ d cs, ¬ AutolinkOf (strip x) d cs := by
      rintro d cs ⟨u, hi, _⟩
      have : '<' ∈ x := ((hi.trans (strip_infix x)).subset (by simp))
      rcases content_mem hx _ this with h | h | h | h
      · cases h
      · cases h
      · revert h; decide
      · exact hs h
    refine EverySubtreeList.mono ?_ cs hy
    intro e ds he hk
    rcases he hk with h | h
    · exact absurd h (hno _ _)
    · refine EverySubtreeList.mono ?_ ds h
      intro f fs hf h
      exact hno _ _ (hf h)

/-- A link with a link in it: `[<http://a.b>](c)`. -/
theorem C29_counterexample : (toHtml false {} "[<http://a.b>](c)".toList).toOption =
    some "<p><a href=\"c\"><a href=\"http://a.b\">http://a.b</a></a></p>\n".toList := by decide +kernel

example : (toHtml false {} "[a [b](c) ![d [e](f)](g)](h)".toList).toOption =
    some "<p>[a <a href=\"c\">b</a> <img src=\"g\" alt=\"d e\" />](h)</p>\n".toList := by decide +kernel

/-! ### C30 -/

/-- Text is lost: `(url ` is in no node. -/
theorem C30_counterexample : (toHtml false {} "[bar]: /b\n\n[foo](url [bar]".toList).toOption =
    some "<p><a href=\"/b\">foo</a></p>\n".toList := by decide +kernel

/-- C30, as far as it holds.  In a paragraph or heading without `](` nothing stands between a link text and the label
after it (`strict = true` in `Spec.Source`).  Missing: the same with `](`, where the text between them can be the
beginning of an inline link (`Spec.Skipped`, `C53_source`). -/
theorem C30_nothing_skipped_partial (smart : Bool) (p : PState) (s : Str) (t : Tree) (p' : PState)
    (h : parseWith smart p s = .ok (t, p')) :
    EverySubtree (fun d cs => d.t = .paragraph ∨ d.t = .heading → ∃ x, d.stringContent = some x ∧
      (¬ [']', '('] <:+: strip x →
        Source smart true (fun l => p'.refmap.get (normalizeReference l)) (strip x) true cs 0 (strip x).length)) t := by
  refine EverySubtree.mono ?_ t (parseWith_from smart p s h).1
  intro d cs hd hk
  obtain ⟨x, h1, h2⟩ := hd hk
  exact ⟨x, h1, fun hx => parseInlines_source (fun _ => hx) h2⟩

example : (toHtml false {} "[foo][baz] [foo] [baz][]\n\n[foo]: /a\n[baz]: /b".toList).toOption =
    some "<p><a href=\"/b\">foo</a> <a href=\"/a\">foo</a> <a href=\"/b\">baz</a></p>\n".toList := by decide +kernel

/-! ### C45 -/

/-- Two empty paragraphs. -/
theorem C45_counterexample_definition : (toHtml false {} "[foo]: /url\n---".toList).toOption =
    some "<p></p>\n<hr />\n".toList := by decide +kernel
theorem C45_counterexample_space : (toHtml false {} "\u00a0".toList).toOption =
    some "<p></p>\n".toList := by decide +kernel

/-- C45, as far as it holds.  A paragraph or heading without inline content has nothing but white space as its text. -/
theorem C45_blank_partial (smart : Bool) (s : Str) (t : Tree) (h : parse smart s = .ok t) :
    EverySubtree (fun d cs => d.t = .paragraph ∨ d.t = .heading → cs = [] →
      ∃ x, d.stringContent = some x ∧ Blank x) t := by
  obtain ⟨p', h⟩ := parse_with h
  refine EverySubtree.mono ?_ t (C53_source smart _ s t p' h)
  intro d cs hd hk hcs
  obtain ⟨x, h1, h2⟩ := hd hk
  have := (source_pos h2).2.1 hcs
  have hx : strip x = [] := List.length_eq_zero_iff.1 this.symm
  exact ⟨x, h1, strip_nil hx⟩

/-- C45.  A text without `[` and without white space other than spaces, tabs and line endings has no empty paragraph. -/
theorem C45_nonempty_partial (smart : Bool) (s : Str) (t : Tree) (hb : '[' ∉ s)
    (hs : ∀ c ∈ s, isPySpace c = true → c ∈ [' ', '\t', '\n', '\r']) (h : parse smart s = .ok t) :
    EverySubtree (fun d cs => d.t = .paragraph → cs ≠ []) t := by
  refine EverySubtree.mono ?_ t (everySubtree_and t (parse_content h) (C45_blank_partial smart s t h))
  rintro d cs ⟨⟨_, hp⟩, he⟩ hk hcs
  obtain ⟨x, e, hx⟩ := hp hk
  obtain ⟨y, e', hy⟩ := he (.inl hk) hcs
  rw [e] at e'; simp only [Option.some.injEq] at e'; subst e'
  rcases hx with ⟨l, hl, hm⟩ | ⟨l, c, hl, hm, hcx, h1, h2⟩
  · rcases textOf_mem hl _ hm with h | h
    · revert h; decide
    · exact hb h.1
  · have hsp := hy c hcx
    rcases textOf_mem hl _ hm with h | ⟨hcs, _, h3⟩
    · subst h; revert hsp; decide
    · have := hs c hcs hsp
      simp only [List.mem_cons, List.not_mem_nil, or_false] at this
      rcases this with h | h | h | h
      · exact h1 h
      · exact h2 h
      · exact h3 h
      · exact textOf_cr hl (h ▸ hm)

example : (toHtml false {} "a\n---\n> b\n- c".toList).toOption = some
    "<h2>a</h2>\n<blockquote>\n<p>b</p>\n</blockquote>\n<ul>\n<li>c</li>\n</ul>\n".toList := by decide +kernel

end CM
