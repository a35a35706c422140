import Verif.Proofs.Positions
import Verif.Props.Parsed
/-
C77: asking for source positions only adds attributes.
-/
namespace CM
open Spec

/-- C77.  For every tree, also one built by hand, and all other options: the HTML with positions is the HTML without them
with the attribute put in directly after the names of the tags of the nodes that have positions, in order, and nothing
else.  (Or both fail, in the same way.) -/
theorem C77_positions (o : HtmlOpts) (t : Tree) :
    (∃ ps : List Part,
      renderHtml { o with sourcepos := false } t = .ok (ps.flatMap Part.plain) ∧
      renderHtml { o with sourcepos := true } t = .ok (ps.flatMap Part.full) ∧
      tags ps = posTags false false false t) ∨
    ∃ e, renderHtml { o with sourcepos := false } t = .error e ∧ renderHtml { o with sourcepos := true } t = .error e :=
  render_both o t

/-- C77.  For every text. -/
theorem C77_parsed (smart : Bool) (o : HtmlOpts) (s : Str) (t : Tree) (h : parse smart s = .ok t) :
    ∃ ps : List Part,
      toHtml smart { o with sourcepos := false } s = .ok (ps.flatMap Part.plain) ∧
      toHtml smart { o with sourcepos := true } s = .ok (ps.flatMap Part.full) ∧
      tags ps = posTags false false false t := by
  rcases C77_positions o t with ⟨ps, h1, h2, h3⟩ | ⟨e, h1, -⟩
  · exact ⟨ps, by simp only [toHtml, h, bind, Except.bind, h1], by simp only [toHtml, h, bind, Except.bind, h2], h3⟩
  · obtain ⟨html, hr⟩ := C51_render_total smart { o with sourcepos := false } s t h
    rw [h1] at hr; cases hr

/-- C77.  A document without positions has the same HTML with and without the option. -/
theorem C77_none (o : HtmlOpts) (t : Tree) (h : posTags false false false t = []) :
    renderHtml { o with sourcepos := true } t = renderHtml { o with sourcepos := false } t := by
  rcases C77_positions o t with ⟨ps, h1, h2, h3⟩ | ⟨e, h1, h2⟩
  · rw [h] at h3
    have : ps.flatMap Part.full = ps.flatMap Part.plain := by
      clear h1 h2
      induction ps with
      | nil => rfl
      | cons p ps ih =>
        cases p with
        | text s =>
          simp only [List.flatMap_cons, Part.full, Part.plain]
          rw [ih (by simpa [tags] using h3)]
        | tag n q => simp [tags] at h3
    rw [h1, h2, this]
  · rw [h1, h2]

/-- The tags of a quote with a heading, a tight list, code and a link: the paragraph of the item has no tag, the link no
position. -/
example : (parse false "> # a\n> - *b*\n\n```c\nd\n```\n\n[e](f)\n".toList).toOption.map (posTags false false false) =
    some [("blockquote".toList, (1, 1), 2, 7), ("h1".toList, (1, 3), 1, 5), ("ul".toList, (2, 3), 2, 7),
      ("li".toList, (2, 3), 2, 7), ("code".toList, (4, 1), 6, 1), ("p".toList, (8, 1), 8, 6)] := by decide +kernel

example : (toHtml false { sourcepos := true } "> # a\n\n[e](f)\n".toList).toOption =
    some ("<blockquote data-sourcepos=\"1:1-1:5\">\n<h1 data-sourcepos=\"1:3-1:5\">a</h1>\n</blo".toList ++
      "ckquote>\n<p data-sourcepos=\"3:1-3:6\"><a href=\"f\">e</a></p>\n".toList) := by decide +kernel

end CM
