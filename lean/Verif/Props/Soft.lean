import Verif.Proofs.Soft
import Verif.Props.Parsed
/-
C82: the option 'softbreak' is written for soft line breaks, and changes nothing else.
-/
namespace CM
open Spec

/-- C82: the HTML consists of the same parts whatever the option `softbreak` is, and between them, for every soft line break of the
tree, the text given by the option. If a newline has to follow directly, it is not written a second time after a newline. An
exception does not depend on the option. -/
theorem C82_parts (o : HtmlOpts) (t : Tree) : (∃ e, ∀ x, renderHtml { o with softbreak := x } t = .error e) ∨
    ∃ (parts : List (Str × Bool)) (last : Str), parts.length = softs t ∧
      ∀ x, renderHtml { o with softbreak := x } t = .ok (parts.flatMap (fun p => p.1 ++ softText x p.2) ++ last) := by
  have h := events_all o (events none none t) ⟨[], [], some ['\n'], 0, by intro h; cases h⟩
  rcases h with ⟨e, h⟩ | ⟨w, h1, h2⟩
  · refine .inl ⟨e, fun x => ?_⟩
    have := h x
    unfold renderHtml renderWith
    change List.foldlM (htmlEvent (o.soft x)) ⟨[], ['\n'], 0⟩ _ = _ at this
    rw [this]; rfl
  · refine .inr ⟨w.done, w.cur, by rw [h1, events_softs]; simp, fun x => ?_⟩
    have := h2 x
    unfold renderHtml renderWith
    change List.foldlM (htmlEvent (o.soft x)) ⟨[], ['\n'], 0⟩ _ = _ at this
    rw [this]; rfl

/-- C82: if every soft line break is followed by an inline that begins with a text or a tag, or by a closing tag, then exactly the text given by the option
stands between the parts. (In the description of an image there are no tags, so there it has to be followed by text, code, raw HTML or
another soft line break.) -/
theorem C82_exact (o : HtmlOpts) (t : Tree) (ht : t.data.t ≠ .softbreak) (hs : SoftInside false t) :
    (∃ e, ∀ x, renderHtml { o with softbreak := x } t = .error e) ∨
    ∃ (parts : List Str) (last : Str), parts.length = softs t ∧
      ∀ x, renderHtml { o with softbreak := x } t = .ok (parts.flatMap (· ++ x) ++ last) := by
  have h := tree_calm o t false none none 0 0 ⟨[], [], some ['\n'], 0, by intro h; cases h⟩ hs
    ⟨(by intro p hp; cases hp), rfl, rfl⟩ (fun _ => rfl) (Int.le_refl 0) (.inl (by intro h; cases h))
  rcases h with ⟨e, h⟩ | ⟨w, ⟨⟨h1, h3, _⟩, _⟩, h2⟩
  · refine .inl ⟨e, fun x => ?_⟩
    have := h x
    unfold renderHtml renderWith
    change List.foldlM (htmlEvent (o.soft x)) ⟨[], ['\n'], 0⟩ _ = _ at this
    rw [this]; rfl
  · refine .inr ⟨w.done.map (·.1), w.cur, by rw [List.length_map, h3, Nat.zero_add], fun x => ?_⟩
    have := h2 x
    unfold renderHtml renderWith
    change List.foldlM (htmlEvent (o.soft x)) ⟨[], ['\n'], 0⟩ _ = _ at this
    rw [this]
    have e : (w.done.map (·.1)).flatMap (· ++ x) = w.done.flatMap fun p => p.1 ++ softText x p.2 := by
      rw [List.flatMap_map]
      rw [List.flatMap_def, List.flatMap_def]
      refine congrArg List.flatten (List.map_congr_left fun p hp => ?_)
      simp [softText, h1 p hp]
    rw [e]; rfl

/-- C82: a soft line break is written like a custom inline whose text is the option's: this text as it is, once, and nothing else. -/
theorem C82_custom (o : HtmlOpts) (t : Tree) (x : Str) (hx : x ≠ []) :
    renderHtml { o with softbreak := x } t = renderHtml o (customSofts x t) := by
  unfold renderHtml renderWith
  rw [custom_tree o hx]

/-- C82: a custom inline writes its text as it is, once, and nothing else, wherever it stands in a paragraph of text. -/
theorem C82_custom_text (o : HtmlOpts) (x a b : Str) (hx : x ≠ []) (ho : o.sourcepos = false) :
    renderHtml o (.node { t := .document } [.node { t := .paragraph } [.node { t := .text, literal := some a } [],
        .node { t := .customInline, onEnter := some x } [], .node { t := .text, literal := some b } []]]) =
      .ok ("<p>".toList ++ escapeXml a ++ x ++ escapeXml b ++ "</p>\n".toList) := by
  obtain ⟨c, x, rfl⟩ := List.exists_cons_of_ne_nil hx
  simp [renderHtml, renderWith, events, eventsList, isContainer, htmlEvent, htmlParagraph, htmlAttrs, ho, truthy, HState.litOpt,
    HState.lit, HState.cr, HState.out, HState.tag, HState.tagText, escapeXmlOpt, bind, Except.bind, pure, Except.pure]
  rfl

/-- Two soft line breaks, one of them in the description of an image. -/
example : (renderHtml { softbreak := "<br>".toList } (.node { t := .document } [.node { t := .paragraph } [.node { t := .softbreak } [],
      .node { t := .image, destination := some ['u'] } [.node { t := .softbreak } []]]])).toOption =
      some "<p><br><img src=\"u\" alt=\"<br>\" /></p>\n".toList ∧
    customSofts "<br>".toList (.node { t := .paragraph } [.node { t := .softbreak } []]) =
      .node { t := .paragraph } [.node { t := .customInline, onEnter := some "<br>".toList } []] := by
  refine ⟨by decide +kernel, by simp [customSofts, customSoftsAll]⟩

/-- C82: for texts. -/
theorem C82_text (smart : Bool) (o : HtmlOpts) (s : Str) (t : Tree) (h : parse smart s = .ok t) :
    ∃ (parts : List (Str × Bool)) (last : Str), parts.length = softs t ∧
      ∀ x, toHtml smart { o with softbreak := x } s = .ok (parts.flatMap (fun p => p.1 ++ softText x p.2) ++ last) := by
  rcases C82_parts o t with ⟨e, he⟩ | ⟨ps, l, h1, h2⟩
  · obtain ⟨out, ho⟩ := C51_render_total smart { o with softbreak := [] } s t h
    rw [he] at ho; cases ho
  · refine ⟨ps, l, h1, fun x => ?_⟩
    rw [← h2 x]
    unfold toHtml
    rw [h]; rfl

/-- C82: for texts in which every soft line break is followed by an inline that begins with a text or a tag, or by a closing tag. -/
theorem C82_text_exact (smart : Bool) (o : HtmlOpts) (s : Str) (t : Tree) (h : parse smart s = .ok t) (hs : SoftInside false t) :
    ∃ (parts : List Str) (last : Str), parts.length = softs t ∧
      ∀ x, toHtml smart { o with softbreak := x } s = .ok (parts.flatMap (· ++ x) ++ last) := by
  rcases C82_exact o t (by rw [(parse_doc h).1]; decide) hs with ⟨e, he⟩ | ⟨ps, l, h1, h2⟩
  · obtain ⟨out, ho⟩ := C51_render_total smart { o with softbreak := [] } s t h
    rw [he] at ho; cases ho
  · refine ⟨ps, l, h1, fun x => ?_⟩
    rw [← h2 x]
    unfold toHtml
    rw [h]; rfl

theorem soft_check {smart : Bool} {s : Str} {n : Nat}
    (h : ((parse smart s).toOption.map fun t => softInside false t && softs t == n) = some true) :
    ∃ t, parse smart s = .ok t ∧ SoftInside false t ∧ softs t = n := by
  cases e : parse smart s with
  | error => rw [e] at h; cases h
  | ok t =>
    rw [e] at h
    simp only [Except.toOption, Option.map_some, Option.some.injEq, Bool.and_eq_true, beq_iff_eq] at h
    exact ⟨t, rfl, softInside_of h.1, h.2⟩

/-- Four soft line breaks, before text, a tag and an image, and in the description of an image. -/
example : (∃ t, parse false "a\n*b*\n![c\nd](e) f\\\ng\nh\n".toList = .ok t ∧ SoftInside false t ∧ softs t = 4) ∧
    (toHtml false {} "a\n*b*\n![c\nd](e) f\\\ng\nh\n".toList).toOption =
      some "<p>a\n<em>b</em>\n<img src=\"e\" alt=\"c\nd\" /> f<br />\ng\nh</p>\n".toList ∧
    (toHtml false { softbreak := "<br />".toList } "a\n*b*\n![c\nd](e) f\\\ng\nh\n".toList).toOption =
      some "<p>a<br /><em>b</em><br /><img src=\"e\" alt=\"c<br />d\" /> f<br />\ng<br />h</p>\n".toList := by
  refine ⟨soft_check (by decide +kernel), ?_, ?_⟩ <;> decide +kernel

/-- A soft line break that is the last in a link, and one that is the last in the description of an image. -/
example : (∃ t, parse false "[a\n](b) ![c\n](d)\n".toList = .ok t ∧ SoftInside false t ∧ softs t = 2) ∧
    (toHtml false { softbreak := "|".toList } "[a\n](b) ![c\n](d)\n".toList).toOption =
      some "<p><a href=\"b\">a|</a> <img src=\"d\" alt=\"c|\" /></p>\n".toList := by
  refine ⟨soft_check (by decide +kernel), ?_⟩ <;> decide +kernel

/-- Two line breaks in the description of an image, where the second writes only the newline that has to stand there. -/
example : ((parse false "![a\n\\\nb](c)\n".toList).toOption.map fun t => softInside false t) = some false ∧
    (toHtml false {} "![a\n\\\nb](c)\n".toList).toOption = some "<p><img src=\"c\" alt=\"a\nb\" /></p>\n".toList ∧
    (toHtml false { softbreak := [' '] } "![a\n\\\nb](c)\n".toList).toOption = some "<p><img src=\"c\" alt=\"a \nb\" /></p>\n".toList := by
  refine ⟨?_, ?_, ?_⟩ <;> decide +kernel

end CM
