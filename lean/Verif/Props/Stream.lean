import Verif.Proofs.Stream
import Verif.Proofs.ParsedHtml
/-
C80: lines that follow change only the last block.
-/
namespace CM
open Spec

/-- C80: the document of a text that goes on after the lines `as` begins with the blocks of the document of `as`, but for the last
one: the same nodes, with the same positions, content and descendants (`last_line_blank`, which says whether an empty line
follows, not compared). No line has `]:`, so that there are no reference definitions. -/
theorem C80_blocks (smart : Bool) (s1 s : Str) (as bs : List Str) (h1 : TextLines s1 as) (hs : TextLines s (as ++ bs))
    (hn : ∀ l ∈ as ++ bs, ¬ "]:".toList <:+: l) (d1 d : NodeData) (xs1 xs : List Tree)
    (e1 : parse smart s1 = .ok (.node d1 xs1)) (e : parse smart s = .ok (.node d xs)) :
    ∃ ys1 ys2, xs = ys1 ++ ys2 ∧ ys1.map unblank = xs1.dropLast.map unblank := by
  obtain ⟨y, hy⟩ := stream_parse h1 hs hn e1 e
  refine ⟨xs.take xs1.dropLast.length, xs.drop xs1.dropLast.length, (List.take_append_drop _ _).symm, ?_⟩
  rw [List.map_take, ← hy, List.take_append_of_le_length (by simp), List.take_of_length_le (by simp)]

/-- C80: with reference definitions, too, the blocks stay, down to the paragraphs and headings in them with their positions;
only what is inside these can change. -/
theorem C80_outline (smart : Bool) (s1 s : Str) (as bs : List Str) (h1 : TextLines s1 as) (hs : TextLines s (as ++ bs))
    (d1 d : NodeData) (xs1 xs : List Tree) (e1 : parse smart s1 = .ok (.node d1 xs1)) (e : parse smart s = .ok (.node d xs)) :
    ∃ ys1 ys2, xs = ys1 ++ ys2 ∧ ys1.map (fun t => unblank (blocksOf t)) = xs1.dropLast.map (fun t => unblank (blocksOf t)) := by
  obtain ⟨y, hy⟩ := stream_outline h1 hs e1 e
  refine ⟨xs.take xs1.dropLast.length, xs.drop xs1.dropLast.length, (List.take_append_drop _ _).symm, ?_⟩
  rw [List.map_take, ← hy, List.take_append_of_le_length (by simp), List.take_of_length_le (by simp)]

/-- C80: the HTML of the blocks before the last one stays the beginning of the HTML of the text, whatever lines follow. -/
theorem C80_html (smart : Bool) (o : HtmlOpts) (s1 s : Str) (as bs : List Str) (h1 : TextLines s1 as)
    (hs : TextLines s (as ++ bs)) (hn : ∀ l ∈ as ++ bs, ¬ "]:".toList <:+: l) (d1 : NodeData) (xs1 : List Tree)
    (e1 : parse smart s1 = .ok (.node d1 xs1)) (z : Str) (hz : toHtml smart o s = .ok z) :
    ∃ x, renderHtml o (.node d1 xs1.dropLast) = .ok x ∧ x <+: z := by
  obtain ⟨t, e, hr⟩ := toHtml_ok hz
  obtain ⟨d, xs⟩ := t
  obtain ⟨ys1, ys2, rfl, hy⟩ := C80_blocks smart s1 s as bs h1 hs hn d1 d xs1 xs e1 e
  have hb : unmarkL ys1 = unmarkL xs1.dropLast := by rw [← unmarkL_unblank, hy, unmarkL_unblank]
  rw [stream_render (d := d) (d1 := d1) (x := xs1.dropLast) (w := ys2) (parse_doc e).1 (parse_doc e1).1 hb
    (fun c hc => top_kinds e1 c (List.dropLast_subset _ hc)) (fun c hc => top_kinds e c (List.mem_append_right _ hc))] at hr
  cases hx : renderHtml o (.node d1 xs1.dropLast) with
  | error => rw [hx] at hr; cases hr
  | ok x =>
    rw [hx] at hr
    simp only [Except.bind] at hr
    cases hw : renderHtml o (.node d1 ys2) with
    | error => rw [hw] at hr; cases hr
    | ok w =>
      rw [hw] at hr
      cases hr
      exact ⟨x, rfl, List.prefix_append _ _⟩

/-- Three blocks, and lines that follow: the paragraph in the last block becomes a heading, and the list goes on. -/
example : TextLines "# a\n> *b*\n\n- c".toList ["# a".toList, "> *b*".toList, [], "- c".toList] ∧
    TextLines "# a\n> *b*\n\n- c\n  ---\n- d\n".toList
      (["# a".toList, "> *b*".toList, [], "- c".toList] ++ ["  ---".toList, "- d".toList]) ∧
    (∀ l ∈ ["# a".toList, "> *b*".toList, [], "- c".toList, "  ---".toList, "- d".toList], ¬ "]:".toList <:+: l) ∧
    ((parse false "# a\n> *b*\n\n- c".toList).toOption.map fun t => t.children.map (·.data.t)) = some [.heading, .blockQuote, .list] ∧
    ((parse false "# a\n> *b*\n\n- c".toList).toOption.map fun t =>
        (renderHtml {} (.node t.data t.children.dropLast)).toOption) =
      some (some "<h1>a</h1>\n<blockquote>\n<p><em>b</em></p>\n</blockquote>\n".toList) ∧
    (toHtml false {} "# a\n> *b*\n\n- c\n  ---\n- d\n".toList).toOption =
      some ("<h1>a</h1>\n<blockquote>\n<p><em>b</em></p>\n</blockquote>\n".toList ++
        "<ul>\n<li>\n<h2>c</h2>\n</li>\n<li>d</li>\n</ul>\n".toList) := by
  refine ⟨(textLines_iff _ _).2 (by decide), (textLines_iff _ _).2 (by decide), by decide, ?_, ?_, ?_⟩ <;> decide +kernel

/-- The last block itself can change: a paragraph becomes a heading. -/
example : (toHtml false {} "a\n".toList).toOption = some "<p>a</p>\n".toList ∧
    (toHtml false {} "a\n---\n".toList).toOption = some "<h2>a</h2>\n".toList := by
  refine ⟨?_, ?_⟩ <;> decide +kernel

/-- The condition on definitions is needed: one that follows makes links of what was text. -/
example : (toHtml false {} "[a]\n\nb\n".toList).toOption = some "<p>[a]</p>\n<p>b</p>\n".toList ∧
    (toHtml false {} "[a]\n\nb\n\n[a]: /c\n".toList).toOption = some "<p><a href=\"/c\">a</a></p>\n<p>b</p>\n".toList := by
  refine ⟨?_, ?_⟩ <;> decide +kernel

/-- Definitions before, in and after the last block. -/
example : TextLines "[x]: /y
> [a]

b
".toList ["[x]: /y".toList, "> [a]".toList, [], "b".toList] ∧
    TextLines "[x]: /y
> [a]

b

[a]: /c".toList (["[x]: /y".toList, "> [a]".toList, [], "b".toList] ++ [[], "[a]: /c".toList]) ∧
    ((parse false "[x]: /y
> [a]

b
".toList).toOption.map fun t => t.children.map (·.data.t)) = some [.blockQuote, .paragraph] ∧
    ((parse false "[x]: /y
> [a]

b

[a]: /c".toList).toOption.map fun t => t.children.map (·.data.t)) =
      some [.blockQuote, .paragraph] := by
  refine ⟨(textLines_iff _ _).2 (by decide), (textLines_iff _ _).2 (by decide), ?_, ?_⟩ <;> decide +kernel

end CM
