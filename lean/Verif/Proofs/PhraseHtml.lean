import Verif.Proofs.PhraseRun
import Verif.Proofs.RunDoc
/-
The nodes and the HTML of a text that `Spec.Phrase` describes.
-/
set_option linter.unusedVariables false
namespace CM
open Spec

/-! ### Nodes -/

theorem parseInlines_phrase {smart : Bool} {m : RefMap} {x t : Str} {xs : List Span} (hx : strip x = t) (h : Phrase smart m.get [] [] t [] xs) :
    parseInlines smart m x = .ok (spanTrees xs) := by
  have hst : IdsOk ⟨0, [], [], [], 1⟩ := ⟨by decide, by simp, by simp⟩
  have hnl : NlOk ⟨0, [], [], [], 1⟩ (t ++ []) := by intro _ it hit; cases hit
  obtain ⟨st', ⟨its, ds, a1, a2, a3, a4, a5, a6⟩, _⟩ := phrase_run (c := ⟨t, m, smart⟩) (fun _ => rfl) h
    (st := ⟨0, [], [], [], 1⟩) (by simp) (by simp) rfl hst hnl
  obtain ⟨its', e1, e2⟩ := processEmphasis_stretch a6
  have hstop : Run ⟨t, m, smart⟩ st' st' := Run.stop (by
    rw [a2]; simp [Ctx.rest])
  have hrun := a1.run hstop
  simp only [List.nil_append, List.append_nil] at a3 a4
  unfold parseInlines
  rw [hx]
  simp only
  rw [hrun _ (by simp)]
  simp only [bind, Except.bind, pure, Except.pure, a4, a3, List.reverse_reverse, e1, e2]

/-! ### HTML -/

/-- What was written last. -/
def lastAlt : Str → List (Option Str) → Str
  | last, [] => last
  | _, some s :: r => lastAlt s r
  | last, none :: r => if last = ['\n'] then lastAlt last r else lastAlt ['\n'] r

theorem writeAlt_append : ∀ (a b : List (Option Str)) (last : Str),
    writeAlt last (a ++ b) = writeAlt last a ++ writeAlt (lastAlt last a) b
  | [], b, last => rfl
  | some s :: a, b, last => by simp only [List.cons_append, writeAlt, lastAlt, writeAlt_append a b, List.append_assoc]
  | none :: a, b, last => by
    simp only [List.cons_append, writeAlt, lastAlt, writeAlt_append a b]
    split <;> rfl

theorem lastAlt_append : ∀ (a b : List (Option Str)) (last : Str), lastAlt last (a ++ b) = lastAlt (lastAlt last a) b
  | [], b, last => rfl
  | some s :: a, b, last => by simp only [List.cons_append, lastAlt, lastAlt_append a b]
  | none :: a, b, last => by
    simp only [List.cons_append, lastAlt, lastAlt_append a b]
    split <;> rfl

theorem writeAlt_start : ∀ (a : List (Option Str)) (l l' : Str), l ≠ ['\n'] → l' ≠ ['\n'] → writeAlt l a = writeAlt l' a
  | [], _, _, _, _ => rfl
  | some s :: a, _, _, _, _ => rfl
  | none :: a, l, l', h, h' => by simp only [writeAlt, h, h', if_false]

theorem runEvents_node {o : HtmlOpts} {s s1 s2 s3 : HState} {d : NodeData} {ts : List Tree} {p g : Option NodeData}
    (hc : isContainer d.t = true) (e1 : ∀ f, htmlEvent o s ⟨true, d, p, g, f⟩ = .ok s1)
    (e : runEvents o s1 (eventsList (some d) p ts) = .ok s2) (e2 : ∀ f, htmlEvent o s2 ⟨false, d, p, g, f⟩ = .ok s3) :
    runEvents o s (events p g (.node d ts)) = .ok s3 := by
  rw [events]
  simp only [hc, if_true, runEvents_cons, e1, Except.bind, runEvents_append, e, e2, runEvents_nil]

theorem runEvents_leaf {o : HtmlOpts} {s s1 : HState} {d : NodeData} {ts : List Tree} {p g : Option NodeData}
    (hc : isContainer d.t = false) (e1 : ∀ f, htmlEvent o s ⟨true, d, p, g, f⟩ = .ok s1) :
    runEvents o s (events p g (.node d ts)) = .ok s1 := by
  rw [events]
  simp only [hc, Bool.false_eq_true, if_false, runEvents_cons, e1, Except.bind, runEvents_nil]

/-- Tags are not written in the description of an image. -/
theorem tag_alt {b lo : Str} {n : Int} (hn : 0 < n) (name : Str) (attrs : List (Str × Str)) (sc : Bool) :
    (HState.mk b lo n).tag name attrs sc = ⟨b, lo, n⟩ := by
  unfold HState.tag
  exact if_pos hn

theorem html_event (o : HtmlOpts) (s b lo : Str) (n : Int) (p g f : Option NodeData) :
    htmlEvent o ⟨b, lo, n⟩ ⟨true, { t := .htmlInline, literal := some s }, p, g, f⟩ = .ok ⟨b ++ tagHtml o.safe s, tagHtml o.safe s, n⟩ := by
  show (if o.safe = true then Except.ok ((HState.mk b lo n).lit rawOmitted) else (HState.mk b lo n).litOpt (some s)) = _
  unfold tagHtml
  split <;> rfl

theorem unsafeDest_some (o : HtmlOpts) (d : Str) : unsafeDest o (some d) = .ok (blockedUrl o.safe d) := by
  unfold unsafeDest blockedUrl
  cases o.safe <;> rfl

theorem link_alt {o : HtmlOpts} {b lo : Str} {n : Int} (hn : 0 < n) (d t : Str) (p g f : Option NodeData) :
    htmlEvent o ⟨b, lo, n⟩ ⟨true, { t := .link, destination := some d, title := some t }, p, g, f⟩ = .ok ⟨b, lo, n⟩ := by
  simp only [htmlEvent, htmlLink, if_true, unsafeDest_some, bind, Except.bind, tag_alt hn, pure, Except.pure]

mutual
/-- In the description of an image. -/
theorem render_alt {o : HtmlOpts} {n : Int} (hn : 0 < n) : ∀ (x : Span) (p g : Option NodeData) (b lo : Str),
    runEvents o ⟨b, lo, n⟩ (events p g (spanTree x)) =
      .ok ⟨b ++ writeAlt lo (altParts o.safe o.softbreak x), lastAlt lo (altParts o.safe o.softbreak x), n⟩
  | .text s, p, g, b, lo => by
    rw [spanTree]
    refine runEvents_leaf rfl (fun f => ?_)
    simp only [htmlEvent, HState.out, HState.lit, escapeXmlOpt, altParts, writeAlt, lastAlt, List.append_nil]
  | .code s, p, g, b, lo => by
    rw [spanTree]
    refine runEvents_leaf rfl (fun f => ?_)
    simp only [htmlEvent, HState.out, HState.lit, escapeXmlOpt, tag_alt hn, altParts, writeAlt, lastAlt, List.append_nil]
  | .html s, p, g, b, lo => by
    rw [spanTree]
    refine runEvents_leaf rfl (fun f => ?_)
    rw [html_event]
    simp only [altParts, writeAlt, lastAlt, List.append_nil]
  | .autolink d l, p, g, b, lo => by
    rw [spanTree]
    refine runEvents_node (s1 := ⟨b, lo, n⟩) (s2 := ⟨b ++ escapeXml l, escapeXml l, n⟩) rfl (fun f => ?_) ?_ (fun f => ?_)
    · exact link_alt hn ..
    · rw [eventsList, eventsList, List.append_nil]
      exact runEvents_leaf rfl (fun f => by simp only [htmlEvent, HState.out, HState.lit, escapeXmlOpt])
    · simp only [htmlEvent, htmlLink, Bool.false_eq_true, if_false, tag_alt hn, altParts, writeAlt, lastAlt, List.append_nil]
  | .soft, p, g, b, lo => by
    rw [spanTree]
    refine runEvents_leaf rfl (fun f => ?_)
    simp only [htmlEvent, HState.lit, altParts, writeAlt, lastAlt, List.append_nil]
  | .hard, p, g, b, lo => by
    rw [spanTree]
    refine runEvents_leaf rfl (fun f => ?_)
    by_cases hl : lo = ['\n']
    · simp [htmlEvent, tag_alt hn, HState.cr, hl, altParts, writeAlt, lastAlt]
    · simp [htmlEvent, tag_alt hn, HState.cr, HState.lit, hl, altParts, writeAlt, lastAlt]
  | .emph xs, p, g, b, lo => by
    rw [spanTree]
    refine runEvents_node (s1 := ⟨b, lo, n⟩) rfl (fun f => ?_) (render_alts hn xs _ _ _ _) (fun f => ?_) <;>
      simp only [htmlEvent, tag_alt hn, altParts]
  | .strong xs, p, g, b, lo => by
    rw [spanTree]
    refine runEvents_node (s1 := ⟨b, lo, n⟩) rfl (fun f => ?_) (render_alts hn xs _ _ _ _) (fun f => ?_) <;>
      simp only [htmlEvent, tag_alt hn, altParts]
  | .link d t xs, p, g, b, lo => by
    rw [spanTree]
    refine runEvents_node (s1 := ⟨b, lo, n⟩) rfl (fun f => ?_) (render_alts hn xs _ _ _ _) (fun f => ?_)
    · exact link_alt hn ..
    · simp only [htmlEvent, htmlLink, Bool.false_eq_true, if_false, tag_alt hn, altParts]
  | .image d t xs, p, g, b, lo => by
    have hn0 : (n == 0) = false := by rw [beq_eq_false_iff_ne]; omega
    have hn1 : n + 1 - 1 = n := by omega
    rw [spanTree]
    refine runEvents_node (s1 := ⟨b, lo, n + 1⟩) rfl (fun f => ?_)
      (render_alts (by omega : (0 : Int) < n + 1) xs _ _ _ _) (fun f => ?_)
    · simp only [htmlEvent, htmlImage, if_true, hn0, bind, Except.bind, Bool.false_eq_true, if_false, pure, Except.pure]
    · simp only [htmlEvent, htmlImage, hn0, hn1, Bool.false_eq_true, if_false, altParts]
theorem render_alts {o : HtmlOpts} {n : Int} (hn : 0 < n) : ∀ (xs : List Span) (p g : Option NodeData) (b lo : Str),
    runEvents o ⟨b, lo, n⟩ (eventsList p g (spanTrees xs)) =
      .ok ⟨b ++ writeAlt lo (altPartsList o.safe o.softbreak xs), lastAlt lo (altPartsList o.safe o.softbreak xs), n⟩
  | [], p, g, b, lo => by simp [spanTrees, eventsList, altPartsList, writeAlt, lastAlt, pure, Except.pure]
  | x :: xs, p, g, b, lo => by
    rw [spanTrees, eventsList, runEvents_append, render_alt hn x]
    simp only [Except.bind, render_alts hn xs, altPartsList, writeAlt_append, lastAlt_append, List.append_assoc]
end

/-- The start of an image. -/
def imgStart (safe : Bool) (d : Str) : Str := lit "<img src=\"" ++ (if blockedUrl safe d then [] else escapeXml d) ++ lit "\" alt=\""

theorem imgStart_ne (safe : Bool) (d : Str) : imgStart safe d ≠ ['\n'] := by
  intro h
  have : (imgStart safe d).head? = some '<' := rfl
  rw [h] at this
  exact absurd this (by decide)

theorem imageHtml_eq (safe : Bool) (d t x : Str) : imageHtml safe d t x = imgStart safe d ++ (x ++ (lit "\"" ++ (titleAttr t ++ lit " />"))) := by
  unfold imageHtml imgStart
  show _ = ("<img src=\"".toList ++ _ ++ "\" alt=\"".toList) ++ (x ++ ("\"".toList ++ (titleAttr t ++ " />".toList)))
  simp only [List.append_assoc]

theorem linkHtml_eq (safe : Bool) (d t x : Str) : linkHtml safe d t x = (lit "<a" ++ hrefAttr safe d ++ titleAttr t ++ lit ">") ++ (x ++ lit "</a>") := by
  unfold linkHtml
  show _ = ("<a".toList ++ hrefAttr safe d ++ titleAttr t ++ ">".toList) ++ (x ++ "</a>".toList)
  simp only [List.append_assoc]

theorem titleAttr_nil : titleAttr [] = [] := rfl
theorem titleAttr_cons (c : Char) (t : Str) : titleAttr (c :: t) = lit " title=\"" ++ escapeXml (c :: t) ++ lit "\"" := rfl

theorem image_exit (o : HtmlOpts) (b lo d t : Str) (p g f : Option NodeData) :
    htmlEvent o ⟨b, lo, 1⟩ ⟨false, { t := .image, destination := some d, title := some t }, p, g, f⟩ =
      .ok ⟨b ++ (lit "\"" ++ (titleAttr t ++ lit " />")), lit "\" />", 0⟩ := by
  have e1 : lit "\" />" = lit "\"" ++ lit " />" := rfl
  have e2 : lit "\" title=\"" = lit "\"" ++ lit " title=\"" := rfl
  cases t with
  | nil => show Except.ok (HState.mk (b ++ lit "\" />") (lit "\" />") 0) = _; rfl
  | cons c t =>
    show Except.ok (HState.mk ((b ++ (lit "\" title=\"" ++ escapeXml (c :: t))) ++ lit "\" />") (lit "\" />") 0) = _
    rw [titleAttr_cons, e2, e1]
    simp only [List.append_assoc]

theorem link_enter {o : HtmlOpts} (h1 : o.sourcepos = false) (b lo d t : Str) (p g f : Option NodeData) :
    htmlEvent o ⟨b, lo, 0⟩ ⟨true, { t := .link, destination := some d, title := some t }, p, g, f⟩ =
      .ok ⟨b ++ (lit "<a" ++ hrefAttr o.safe d ++ titleAttr t ++ lit ">"), ['>'], 0⟩ := by
  unfold hrefAttr
  cases t with
  | nil =>
    cases hb : blockedUrl o.safe d <;>
    simp [htmlEvent, htmlLink, HState.tag, HState.tagText, lit, unsafeDest_some, hb, htmlAttrs, h1, truthy, escapeXmlOpt, bind,
      Except.bind, pure, Except.pure, titleAttr_nil]
  | cons x t =>
    rw [titleAttr_cons]
    cases hb : blockedUrl o.safe d <;>
    simp [htmlEvent, htmlLink, HState.tag, HState.tagText, lit, unsafeDest_some, hb, htmlAttrs, h1, truthy, escapeXmlOpt, bind,
      Except.bind, pure, Except.pure]

theorem link_exit (o : HtmlOpts) (b lo d t : Str) (p g f : Option NodeData) :
    htmlEvent o ⟨b, lo, 0⟩ ⟨false, { t := .link, destination := some d, title := some t }, p, g, f⟩ =
      .ok ⟨b ++ lit "</a>", ['>'], 0⟩ := by
  simp [htmlEvent, htmlLink, HState.tag, HState.tagText, lit]

mutual
theorem render_span {o : HtmlOpts} (h1 : o.sourcepos = false) : ∀ (x : Span) (p g : Option NodeData) (b lo : Str),
    ∃ lo', runEvents o ⟨b, lo, 0⟩ (events p g (spanTree x)) = .ok ⟨b ++ spanHtml o.safe o.softbreak x, lo', 0⟩
  | .text s, p, g, b, lo => by
    rw [spanTree, spanHtml]; exact render_piece h1 p g b lo (.text s) (fun _ _ h => by cases h)
  | .code s, p, g, b, lo => by
    rw [spanTree, spanHtml]; exact render_piece h1 p g b lo (.code s) (fun _ _ h => by cases h)
  | .html s, p, g, b, lo => by
    rw [spanTree, spanHtml]
    exact ⟨tagHtml o.safe s, runEvents_leaf rfl fun f => html_event ..⟩
  | .autolink d l, p, g, b, lo => by
    rw [spanTree, spanHtml, linkHtml_eq]
    refine ⟨['>'], runEvents_node (s2 := ⟨b ++ (lit "<a" ++ hrefAttr o.safe (normalizeUri d) ++ titleAttr [] ++ lit ">") ++ escapeXml l, escapeXml l, 0⟩)
      rfl (fun f => link_enter h1 ..) ?_ (fun f => ?_)⟩
    · rw [eventsList, eventsList, List.append_nil]
      exact runEvents_leaf rfl (fun f => by simp only [htmlEvent, HState.out, HState.lit, escapeXmlOpt])
    · rw [link_exit, List.append_assoc, List.append_assoc]
  | .soft, p, g, b, lo => by
    rw [spanTree, spanHtml]; exact render_piece h1 p g b lo .soft (fun _ _ h => by cases h)
  | .hard, p, g, b, lo => by
    rw [spanTree, spanHtml]; exact render_piece h1 p g b lo .hard (fun _ _ h => by cases h)
  | .emph xs, p, g, b, lo => by
    obtain ⟨lo', e⟩ := render_spans h1 xs (some { t := .emph }) p (b ++ "<em>".toList) ['>']
    rw [spanTree, spanHtml]
    refine ⟨['>'], runEvents_node rfl (fun f => ?_) e (fun f => ?_)⟩ <;>
    simp [htmlEvent, HState.tag, HState.tagText, lit, tagged]
  | .strong xs, p, g, b, lo => by
    obtain ⟨lo', e⟩ := render_spans h1 xs (some { t := .strong }) p (b ++ "<strong>".toList) ['>']
    rw [spanTree, spanHtml]
    refine ⟨['>'], runEvents_node rfl (fun f => ?_) e (fun f => ?_)⟩ <;>
    simp [htmlEvent, HState.tag, HState.tagText, lit, tagged]
  | .link d t xs, p, g, b, lo => by
    obtain ⟨lo', e⟩ := render_spans h1 xs (some { t := .link, destination := some d, title := some t }) p
      (b ++ (lit "<a" ++ hrefAttr o.safe d ++ titleAttr t ++ lit ">")) ['>']
    rw [spanTree, spanHtml, linkHtml_eq]
    refine ⟨['>'], runEvents_node rfl (fun f => link_enter h1 ..) e (fun f => ?_)⟩
    rw [link_exit, List.append_assoc, List.append_assoc]
  | .image d t xs, p, g, b, lo => by
    have e3 := writeAlt_start (altPartsList o.safe o.softbreak xs) _ [] (imgStart_ne o.safe d) (by simp)
    rw [spanTree, spanHtml]
    refine ⟨lit "\" />", runEvents_node
      (s1 := ⟨b ++ imgStart o.safe d, imgStart o.safe d, 1⟩)
      rfl (fun f => ?_) (render_alts (by decide : (0 : Int) < 1) xs _ _ _ _) (fun f => ?_)⟩
    · simp only [htmlEvent, htmlImage, if_true, HState.lit, unsafeDest_some, escapeXmlOpt, bind, Except.bind, pure, Except.pure,
        beq_self_eq_true]
      unfold imgStart
      cases blockedUrl o.safe d <;> rfl
    · rw [e3, imageHtml_eq]
      rw [image_exit, List.append_assoc, List.append_assoc]
theorem render_spans {o : HtmlOpts} (h1 : o.sourcepos = false) : ∀ (xs : List Span) (p g : Option NodeData) (b lo : Str),
    ∃ lo', runEvents o ⟨b, lo, 0⟩ (eventsList p g (spanTrees xs)) = .ok ⟨b ++ spansHtml o.safe o.softbreak xs, lo', 0⟩
  | [], p, g, b, lo => ⟨lo, by simp [spanTrees, eventsList, spansHtml, pure, Except.pure]⟩
  | x :: xs, p, g, b, lo => by
    obtain ⟨l1, e1⟩ := render_span h1 x p g b lo
    obtain ⟨l2, e2⟩ := render_spans h1 xs p g (b ++ spanHtml o.safe o.softbreak x) l1
    refine ⟨l2, ?_⟩
    rw [spanTrees, eventsList, runEvents_append, e1]
    simp only [Except.bind, e2, spansHtml, List.append_assoc]
end

theorem phraseWith_inline {smart : Bool} {o : HtmlOpts} (h1 : o.sourcepos = false) (m : RefMap) : InlineHtml (smart, m) o (PhraseWith smart o m.get) := by
  rintro t h ⟨xs, hp, rfl⟩ x hx
  exact ⟨_, parseInlines_phrase hx hp, fun p g b lo => render_spans h1 xs p g b lo⟩

theorem phraseHtml_inline {smart : Bool} {o : HtmlOpts} (h1 : o.sourcepos = false) : InlineHtml (smart, []) o (PhraseHtml smart o) :=
  phraseWith_inline h1 []

end CM
