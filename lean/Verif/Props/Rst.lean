import Verif.Proofs.Rst
/-
C39: the reStructuredText renderer.  The property is false as it stands: a heading that is empty, or
that begins with emphasis, a link or an image, makes `render` raise.  Those documents are the only
ones.
-/
namespace CM
open Spec

/-- C39 fails: `#` and `# *foo*` are documents that the renderer does not accept. -/
theorem C39_counterexample :
    (∃ t, parse false "#".toList = .ok t ∧ renderRst [' '] t = .error .attributeError) ∧
    (∃ t, parse false "# *foo*".toList = .ok t ∧ renderRst [' '] t = .error .typeError) := by
  have key : ∀ (s : Str) (err : PyErr),
      (match parse false s with
        | .ok t => (match renderRst [' '] t with | .error e => decide (e = err) | .ok _ => false)
        | .error _ => false) = true →
      ∃ t, parse false s = .ok t ∧ renderRst [' '] t = .error err := by
    intro s err h
    cases hp : parse false s with
    | error e => rw [hp] at h; cases h
    | ok t =>
      refine ⟨t, rfl, ?_⟩
      rw [hp] at h
      dsimp only at h
      cases hr : renderRst [' '] t with
      | ok x => rw [hr] at h; cases h
      | error e => rw [hr] at h; simp only [decide_eq_true_eq] at h; rw [h]
  exact ⟨key _ _ (by decide +kernel), key _ _ (by decide +kernel)⟩

/-- C39 (partial: the documents whose headings all begin with an inline that has text of its own): for
every indentation character and whatever indentation the renderer starts from, rendering a parsed
document succeeds and leaves the indentation as it was. -/
theorem C39_headings_partial (smart : Bool) (s : Str) (t : Tree) (ic : Str) (indent : Int)
    (h : parse smart s = .ok t) (ht : HeadingsHaveText t) :
    ∃ st, renderRstWith ic indent t = .ok st ∧ st.indentLength = indent := by
  obtain ⟨h1, _, _, h2⟩ := parse_doc h
  have hr : EveryNode RstReady t := EveryNode.mono (fun _ _ => nodeOk_rst) h2
  have hn : ∀ e ∈ events none none t, ¬ rstRaises e := fun e he hre =>
    (events_raise none none t hr (by rw [h1]; exact fun h => by cases h)).1 ⟨e, he, hre⟩ ht
  obtain ⟨st, h3, h4⟩ := rstRun_ok ic _ ⟨[], ['\n'], indent⟩ hn
  exact ⟨st, h3, by rw [h4, rst_delta]; simp⟩

/-- C39: every other document is rejected, so the condition of `C39_headings_partial` is the exact
one. -/
theorem C39_otherwise_raises (smart : Bool) (s : Str) (t : Tree) (ic : Str) (indent : Int)
    (h : parse smart s = .ok t) (ht : ¬ HeadingsHaveText t) :
    ∃ err, renderRstWith ic indent t = .error err := by
  obtain ⟨h1, _, _, h2⟩ := parse_doc h
  have hr : EveryNode RstReady t := EveryNode.mono (fun _ _ => nodeOk_rst) h2
  exact rstRun_raises ic _ _ ((events_raise none none t hr (by rw [h1]; exact fun h => by cases h)).2 ht)

/-- C39: a document without headings is always rendered. -/
theorem C39_no_headings (smart : Bool) (s : Str) (t : Tree) (ic : Str) (indent : Int)
    (h : parse smart s = .ok t) (ht : EveryNode (fun d _ => d.t ≠ .heading) t) :
    ∃ st, renderRstWith ic indent t = .ok st ∧ st.indentLength = indent :=
  C39_headings_partial smart s t ic indent h (EveryNode.mono (fun _ _ hd hh => absurd hh hd) ht)

/-- A document with a heading and a quoted image in a list that meets the condition of
`C39_headings_partial`: it is rendered, so `C39_otherwise_raises` leaves no other case. -/
example : (match parse false "# `b`\n\n1. > ![c](d)\n".toList with
    | .ok t => (renderRst [' '] t).toOption ==
        some ("\n``b``\n#\n\n#. ".toList ++ "\n       .. image:: d\n           :alt: c\n\n".toList)
    | .error _ => false) = true := by decide +kernel

end CM
