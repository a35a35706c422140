import Verif.Proofs.Reuse
import Verif.Props.Parsed
import Verif.Props.Compose
/-
C70: renderers that are used again.  For HTML a renderer object is as good as new after every document; a
reStructuredText renderer is not, after it has raised inside a block quote, a list item or an image.
-/
namespace CM
open Spec

/-- C70.  An HTML renderer gives for every document in a series of parsed documents what a new renderer gives, and is as
it was at the end. -/
theorem C70_html (o : HtmlOpts) (ts : List Tree) (h : ∀ t ∈ ts, ∃ smart s, parse smart s = .ok t) :
    renderAll HtmlRenderer.render ⟨o, 0⟩ ts = (ts.map (renderHtml o), ⟨o, 0⟩) := by
  induction ts with
  | nil => rfl
  | cons t ts ih =>
    obtain ⟨smart, s, hp⟩ := h t (by simp)
    obtain ⟨out, ho⟩ := C51_render_total smart o s t hp
    have h1 := html_render_fresh o t
    have h2 := html_render_ok (h1.trans ho)
    rw [renderAll, h2, ih (fun t ht => h t (by simp [ht])), h1]
    rfl

/-- C70.  Whatever the trees are, a call that does not raise leaves the renderer as it was. -/
theorem C70_success (r : RstRenderer) (q : HtmlRenderer) (t : Tree) :
    ((∃ out, (r.render t).1 = .ok out) → (r.render t).2 = r) ∧ ((∃ out, (q.render t).1 = .ok out) → (q.render t).2 = q) :=
  ⟨fun ⟨_, h⟩ => rst_render_ok h, fun ⟨_, h⟩ => html_render_ok h⟩

/-- C70.  What a reStructuredText renderer does after any series of parsed documents.  Each document with a heading that
cannot be written leaves the indentation of the first such heading behind, and these add up to `n`.  The next document is
written as it would be if it was `n` characters deep in another one, or raises if one of its own headings cannot be
written. -/
theorem C70_rst_history (ic : Str) (hic : '\n' ∉ ic) (ts : List Tree) (h : ∀ t ∈ ts, ∃ smart s, parse smart s = .ok t)
    (t : Tree) (ht : ∃ smart s, parse smart s = .ok t) :
    let n := (ts.map fun t => (stopsAt 0 t).getD 0).sum
    let r := (renderAll RstRenderer.render ⟨ic, 0⟩ ts).2
    (stopsAt 0 t = none → r.render t = (.ok (layout ic true (rstPieces ic n false t)), r)) ∧
    (∀ m, stopsAt 0 t = some m → ∃ x, r.render t = (.error x, ⟨ic, (n + m : Nat)⟩)) := by
  have key : ∀ (ts : List Tree) (k : Nat), (∀ t ∈ ts, ∃ smart s, parse smart s = .ok t) →
      (renderAll RstRenderer.render ⟨ic, k⟩ ts).2 = ⟨ic, ((k + (ts.map fun t => (stopsAt 0 t).getD 0).sum : Nat) : Int)⟩ := by
    intro ts
    induction ts with
    | nil => intro k _; rfl
    | cons t ts ih =>
      intro k h
      obtain ⟨smart, s, hp⟩ := h t (by simp)
      have hs := stopsAt_shift k 0 t
      rw [Nat.add_zero] at hs
      rw [renderAll]
      rcases rst_render hp ⟨ic, k⟩ k rfl hic with ⟨h1, h2⟩ | ⟨m, x, h1, h2⟩
      · rw [h2]
        dsimp only
        rw [ih k fun t ht => h t (by simp [ht])]
        rw [hs] at h1
        have h3 : stopsAt 0 t = none := by simpa using h1
        simp [h3]
      · rw [h2]
        dsimp only
        rw [ih m fun t ht => h t (by simp [ht])]
        rw [hs] at h1
        obtain ⟨m0, h3, h4⟩ := Option.map_eq_some_iff.1 h1
        simp only [List.map_cons, List.sum_cons, h3, Option.getD_some]
        rw [← h4, Nat.add_assoc]
  intro n r
  have hr : r = ⟨ic, (n : Int)⟩ := by
    have := key ts 0 h
    rw [Nat.zero_add] at this
    exact this
  have hs := stopsAt_shift n 0 t
  rw [Nat.add_zero] at hs
  obtain ⟨smart, s, hp⟩ := ht
  rw [hr]
  rcases rst_render hp ⟨ic, n⟩ n rfl hic with ⟨h1, h2⟩ | ⟨m, x, h1, h2⟩
  · rw [hs] at h1
    have h3 : stopsAt 0 t = none := by simpa using h1
    exact ⟨fun _ => h2, fun m hm => by rw [h3] at hm; cases hm⟩
  · rw [hs] at h1
    obtain ⟨m0, h3, h4⟩ := Option.map_eq_some_iff.1 h1
    refine ⟨fun hm => by simp [h3] at hm, fun m' hm => ?_⟩
    rw [h3] at hm
    cases hm
    exact ⟨x, by rw [h2, ← h4]⟩

/-- C70 (partial: none of the earlier documents has a heading without text in a block quote, a list item or an image before all
others).  The renderer gives for every document what a new one gives, also after documents that raised. -/
theorem C70_rst_partial (ic : Str) (hic : '\n' ∉ ic) (ts : List Tree) (h : ∀ t ∈ ts, ∃ smart s, parse smart s = .ok t)
    (hs : ∀ t ∈ ts, ∀ m, stopsAt 0 t = some m → m = 0) :
    renderAll RstRenderer.render ⟨ic, 0⟩ ts = (ts.map (renderRst ic), ⟨ic, 0⟩) := by
  induction ts with
  | nil => rfl
  | cons t ts ih =>
    obtain ⟨smart, s, hp⟩ := h t (by simp)
    have h2 : (RstRenderer.render ⟨ic, 0⟩ t).2 = ⟨ic, 0⟩ := by
      rcases rst_render hp ⟨ic, 0⟩ 0 rfl hic with ⟨h1, h2⟩ | ⟨m, x, h1, h2⟩
      · rw [h2]
      · rw [h2, hs t (by simp) m h1]; rfl
    rw [renderAll, h2, ih (fun t ht => h t (by simp [ht])) (fun t ht => hs t (by simp [ht])), rst_render_fresh]
    rfl

/-- C70 fails for reStructuredText: `> # *a*` raises, and the next document comes out four characters deep; after two of them,
eight.  For trees that a program builds it fails for HTML too: an exception in an image leaves the tags off. -/
theorem C70_counterexample :
    (["> # *a*\n".toList, "b\n".toList, "> #\n".toList, "b\n".toList].mapM (parse false)).toOption.map
        (fun ts => (renderAll RstRenderer.render {} ts).1.map Except.toOption) =
      some [none, some "\n    b\n".toList, none, some "\n        b\n".toList] ∧
    (parse false "b\n".toList).toOption.map (fun t => (renderRst [' '] t).toOption) = some (some "\nb\n".toList) ∧
    (renderAll HtmlRenderer.render {}
        [.node { t := .image, destination := some [] } [.node { t := .htmlInline } []],
          .node { t := .emph } [.node { t := .text, literal := some ['b'] } []]]).1.map Except.toOption =
      [none, some "b".toList] := by
  decide +kernel

/-- A series with documents that raise, each at a heading that is not indented: it meets the condition of `C70_rst_partial`. -/
example : (["> a\n\n# *a*\n\n> # *b*\n".toList, "> c\n".toList, "#\n".toList].mapM (parse false)).toOption.map
      (fun ts => (ts.map (stopsAt 0), (renderAll RstRenderer.render {} ts).1.map Except.toOption)) =
    some ([some 0, none, some 0], [none, some "\n    c\n".toList, none]) := by decide +kernel

/-- A series of documents for `C70_html`, with an image. -/
example : (["![*a*](b)\n".toList, "*a*\n".toList].mapM (parse false)).toOption.map
      (fun ts => (renderAll HtmlRenderer.render {} ts).1.map Except.toOption) =
    some [some "<p><img src=\"b\" alt=\"a\" /></p>\n".toList, some "<p><em>a</em></p>\n".toList] := by decide +kernel

end CM
