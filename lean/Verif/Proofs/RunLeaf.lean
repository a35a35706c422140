import Verif.Proofs.RunQuote
import Verif.Proofs.CodeHtml
/-
Runs over the lines of a leaf block (C57).
-/
set_option linter.unusedVariables false
namespace CM
open Spec

/-- What is known about the HTML of inline text. -/
def InlineHtml (sm : Reading) (o : HtmlOpts) (I : Str → Str → Prop) : Prop :=
  ∀ t h, I t h → ∀ x, strip x = t → ∃ ts, parseInlines sm.1 sm.2 x = .ok ts ∧ Inl o ts h

theorem atDoc_new (p : PState) : ∃ k, AtDoc p.reset docNode [] [] 0 k := ⟨_, rfl, rfl, rfl, rfl, rfl⟩

/-- An open leaf block. -/
theorem at_leaf {sm : Reading} {o : HtmlOpts} {p : PState} {e d : NodeData} {n k : Nat} {f : Bool} {y : Tree} {b : Blk} (h : AtLeaf p e d [] [] n k)
    (hd : d.lastLineBlank = f) (he : e.lastLineBlank = f) (hfin : finalizeBlock (closeData n k e) [] [] = .ok (some y, [])) (hs : Shows sm o [y] [b])
    (hy : EndsIn y f) (hsh : Shape b.kind f [⟨e, []⟩]) (ht : f = true → e.t ≠ .paragraph) : At sm o p [b] false f := by
  refine ⟨[⟨e, []⟩], ⟨d, []⟩, [y], [f], ⟨h.spine, h.doc, h.refmap, ?_⟩, ?_, hs, .cons hy .nil, rfl, rfl, ⟨b, rfl, hsh⟩, ?_⟩
  · simp only [List.length_singleton, closeN, Except.bind]
    rw [finalizeTip_run (b := ⟨e, []⟩) (par := ⟨d, []⟩) (up := []) (t := some y) (m := []) h.spine (by rw [h.line, h.len, h.refmap]; exact hfin)]
    simp [h.refmap]
  · intro x hx
    rw [h.spine] at hx
    simp only [List.mem_cons, List.not_mem_nil, or_false] at hx
    rcases hx with rfl | rfl
    · exact he
    · exact hd
  · intro hf
    rw [tip_of h.spine]
    simpa using ht hf

/-- A closed block. -/
theorem at_doc {sm : Reading} {o : HtmlOpts} {p : PState} {d : NodeData} {n k : Nat} {f : Bool} {y : Tree} {b : Blk} (h : AtDoc p d [y] [] n k)
    (hd : d.lastLineBlank = f) (hs : Shows sm o [y] [b]) (hy : EndsIn y f) (hsh : Shape b.kind f []) : At sm o p [b] false f := by
  refine ⟨[], ⟨d, [y]⟩, [y], [f], ⟨h.spine, h.doc, h.refmap, ?_⟩, ?_, hs, .cons hy .nil, rfl, rfl, ⟨b, rfl, hsh⟩, ?_⟩
  · simp only [List.length_nil, closeN]
    rw [← h.spine]
  · intro x hx
    rw [h.spine] at hx
    simp only [List.mem_cons, List.not_mem_nil, or_false] at hx
    rw [hx]; exact hd
  · intro hf
    rw [tip_of h.spine]
    show some d.t ≠ _
    rw [h.doc]; simp

/-! ### HTML -/

theorem shows_code {sm : Reading} {o : HtmlOpts} (ho : o.sourcepos = false) {e : NodeData} (he : e.t = .codeBlock) {body : Str} (hb : e.literal = some body)
    {tag : Str} (hi : lit "<pre>" ++ HState.tagText (lit "code") (codeClass e.info) false = tag) {k : BKind} (hk : kindOf k = .codeBlock) :
    Shows sm o [.node e []] [⟨k, tag ++ escapeXml body ++ "</code></pre>\n".toList⟩] := by
  refine ⟨[.node e []], ?_, .cons (rend_of_render ho (d := docNode) (by rintro rfl; cases hk) (he.trans hk.symm) (by show e.t ∈ _; rw [he]; decide) rfl ?_) .nil⟩
  · simp [processInlinesList, processInlines, he, bind, Except.bind, pure, Except.pure]
  · rw [render_code rfl he hb ho, hi]

theorem shows_rule {sm : Reading} {o : HtmlOpts} (ho : o.sourcepos = false) {e : NodeData} (he : e.t = .thematicBreak) :
    Shows sm o [.node e []] [⟨.rule, "<hr />\n".toList⟩] := by
  refine ⟨[.node e []], ?_, .cons (rend_of_render ho (d := docNode) (by simp) he (by show e.t ∈ _; rw [he]; decide) rfl ?_) .nil⟩
  · simp [processInlinesList, processInlines, he, bind, Except.bind, pure, Except.pure]
  · unfold renderHtml
    rw [renderWith_document _ _ _ rfl]
    simp [eventsList, events, he, isContainer, runEvents, htmlEvent, htmlAttrs, ho, HState.cr, HState.tag,
      HState.lit, HState.tagText, bind, Except.bind, pure, Except.pure, lit]

theorem shows_para {sm : Reading} {o : HtmlOpts} {I : Str → Str → Prop} (hI : InlineHtml sm o I) {e : NodeData} (he : e.t = .paragraph) {x t h : Str}
    (hx : e.stringContent = some x) (hst : strip x = t) (hi : I t h) (h1 : h ≠ []) (h2 : h.getLast? ≠ some '\n') :
    Shows sm o [.node e []] [⟨.para, h⟩] := by
  obtain ⟨ts, e1, e2⟩ := hI t h hi x hst
  refine ⟨[.node e ts], ?_, .cons (.inl ⟨rfl, _, ts, rfl, he, e2, h1, h2⟩) .nil⟩
  simp [processInlinesList, processInlines, he, hx, e1, bind, Except.bind, pure, Except.pure]

theorem shows_heading {sm : Reading} {o : HtmlOpts} (ho : o.sourcepos = false) {I : Str → Str → Prop} (hI : InlineHtml sm o I) {e : NodeData} (he : e.t = .heading) {x t h : Str}
    {n : Nat} (hl : e.level = some n) (hx : e.stringContent = some x) (hst : strip x = t) (hi : I t h) :
    Shows sm o [.node e []]
      [⟨.heading, headingHtml n h⟩] := by
  obtain ⟨ts, e1, e2⟩ := hI t h hi x hst
  refine ⟨[.node e ts], ?_, .cons (.inr ⟨by simp, ?_, ?_, ?_⟩) .nil⟩
  · simp [processInlinesList, processInlines, he, hx, e1, bind, Except.bind, pure, Except.pure]
  · exact he
  · show e.t ∈ _; rw [he]; decide
  · intro i g s hi
    have a : htmlAttrs o e = [] := by simp [htmlAttrs, ho]
    have t1 : headingTag e.level = 'h' :: Nat.toDigits 10 n := by rw [hl]; rfl
    have k1 : ∀ f, htmlEvent o ⟨s, ['\n'], 0⟩ ⟨true, e, some i, g, f⟩ = .ok ⟨s ++ ("<h".toList ++ Nat.toDigits 10 n ++ ">".toList), ['>'], 0⟩ := by
      intro f
      rw [htmlEvent]
      simp only [he, htmlHeading, t1, a]
      simp [HState.tag, HState.tagText, HState.cr]
    have k2 : ∀ f x lo, htmlEvent o ⟨x, lo, 0⟩ ⟨false, e, some i, g, f⟩ = .ok ⟨x ++ ("</h".toList ++ Nat.toDigits 10 n ++ ">\n".toList), ['\n'], 0⟩ := by
      intro f x lo
      rw [htmlEvent]
      simp only [he, htmlHeading, t1]
      simp [HState.tag, HState.tagText, HState.cr, HState.lit]
    obtain ⟨lo, k3⟩ := e2 (some e) (some i) (s ++ ("<h".toList ++ Nat.toDigits 10 n ++ ">".toList)) ['>']
    unfold events
    simp only [he, isContainer, if_true]
    rw [runEvents_cons, k1]
    simp only [Except.bind, runEvents_append, k3, runEvents_cons, k2, runEvents_nil]
    simp [headingHtml]

/-! ### Paragraphs -/

theorem runs_para {sm : Reading} {o : HtmlOpts} (ho : o.sourcepos = false) {I : Str → Str → Prop} (hI : InlineHtml sm o I) {l0 h : Str} {ls : List Str}
    (hp : ParaText l0 ls) (hi : I (joinLines (l0 :: ls)) h) (h1 : h ≠ []) (h2 : h.getLast? ≠ some '\n') (hone : ∀ l ∈ l0 :: ls, OneLine l) :
    Runs sm o (l0 :: ls) [⟨.para, h⟩] false := by
  have hne := startsNoBlock_ne hp.first
  refine ⟨hone, ⟨l0, ls, rfl, ?_⟩, ?_⟩
  · intro p0 p1 hp1
    obtain ⟨k, a0⟩ := atDoc_new p0
    obtain ⟨p1', e1, a1⟩ := first_line a0 (textLine_of hp.first (hone _ (by simp)))
    rw [hp1] at e1
    cases e1
    rw [a1.spine]
    refine .more rfl (.inr fun _ => ?_)
    exact ⟨l0 ++ ['\n'], rfl, by simp, fun y => by simpa using hp.bracket y⟩
  · intro p0 n
    refine runs_blanks ho (p0 := p0) (g := false) (by intro x hx; cases hx; exact trivial) ?_ n
    obtain ⟨k, a0⟩ := atDoc_new p0
    obtain ⟨p1, e1, a1⟩ := first_line a0 (textLine_of hp.first (hone _ (by simp)))
    obtain ⟨p2, k2, e2, a2⟩ := para_lines rfl ls a1 (fun l hl => textLine_of (hp.more l hl) (hone l (by simp [hl])))
    have hx : l0 ++ ['\n'] ++ ls.flatMap (fun ln => ln ++ ['\n']) = joinLines (l0 :: ls) ++ ['\n'] := by
      rw [← lines_join]; simp
    rw [hx] at a2
    have hhead := joinLines_head (ls := ls) hne
    have hjne : joinLines (l0 :: ls) ≠ [] := by
      intro e; rw [e] at hhead
      cases l0 with
      | nil => exact hne rfl
      | cons => cases hhead
    refine ⟨p2, by rw [List.foldlM_cons, e1]; exact e2, by rw [a2.line, List.length_cons]; omega, ?_⟩
    refine at_leaf (b := ⟨.para, h⟩) (y := .node (closeData (0 + 1 + ls.length) k2 (paraNode (0 + 1) (joinLines (l0 :: ls) ++ ['\n']))) []) ⟨a2.spine, a2.doc, a2.refmap, a2.line, a2.len⟩ rfl rfl ?_
      (shows_para hI rfl rfl ?_ hi h1 h2) (ends_false rfl) (by simp only [Shape, Bool.false_eq_true, if_false]; exact ⟨_, rfl, rfl⟩) (by intro h; cases h)
    · refine finalize_para rfl rfl ?_
      rw [← hx]
      simpa using hp.bracket (ls.flatMap fun ln => ln ++ ['\n'])
    · refine strip_text ?_ ?_ (by decide) hjne
      · rw [hhead]; exact hp.begins
      · cases hl : (l0 :: ls).getLast? with
        | none => simp at hl
        | some l =>
          have hl' : l ∈ l0 :: ls := List.mem_of_getLast? hl
          have : l ≠ [] := by
            rcases List.mem_cons.1 hl' with rfl | hl'
            · exact hne
            · exact startsNoBlock_ne (hp.more l hl')
          rw [joinLines_last hl this]
          exact fun c => hp.ends l c hl

/-! ### Fenced code -/

theorem runs_fenced {sm : Reading} {o : HtmlOpts} (ho : o.sourcepos = false) {c : Char} {f : Nat} {info tag first close : Str} {ls : List Str}
    (h1 : CodeFence c f info first) (ht : CodeTag info tag) (h2 : ∀ l ∈ ls, ¬ ClosesFence c f l) (h3 : ClosesFence c f close)
    (hone : ∀ l ∈ first :: (ls ++ [close]), OneLine l) :
    Runs sm o (first :: (ls ++ [close])) [⟨.fenced, tag ++ escapeXml (codeLines ls) ++ "</code></pre>\n".toList⟩] false := by
  have hf : 3 ≤ f := h1.1
  have hn : noNul info = info := by
    cases ht with
    | plain => simp [noNul]
    | lang _ _ _ hp =>
      apply noNul_none
      intro hc
      rcases List.mem_append.1 hc with hc | hc
      · exact absurd (List.eq_of_mem_replicate hc) (by decide)
      · exact (hp _ hc).2.2 rfl
  have hnl : '\n' ∉ info := by
    intro hc
    have := h1.2.1
    exact ((hone first (by simp)) '\n' (by rw [this]; simp [hc])).1 rfl
  have hc : c = '`' ∨ c = '~' := by rcases h1.2.2.2 with ⟨h, _⟩ | h <;> simp [h]
  refine ⟨hone, ⟨_, _, rfl, ?_⟩, ?_⟩
  · intro p0 p1 hp1
    obtain ⟨k0, a0⟩ := atDoc_new p0
    obtain ⟨p1', e1, a1⟩ := fence_open a0 h1 (hone _ (by simp))
    rw [hp1] at e1
    cases e1
    rw [a1.spine]
    exact .more rfl (.inr fun h => by cases h)
  · intro p0 n
    refine runs_blanks ho (p0 := p0) (g := false) (by intro x hx; cases hx; exact trivial) ?_ n
    obtain ⟨k0, a0⟩ := atDoc_new p0
    obtain ⟨p1, e1, a1⟩ := fence_open a0 h1 (hone _ (by simp))
    obtain ⟨p2, k2, e2, a2⟩ := fence_lines rfl hf hc ls a1 (fun l hl => ⟨hone l (by simp [hl]), h2 l hl⟩)
    rw [List.append_assoc] at a2
    obtain ⟨p3, e3, a3⟩ := fence_close a2 hf hc (by rw [hn]; exact hnl) (hone close (by simp)) h3
    refine ⟨p3, ?_, by rw [a3.line, List.length_cons, List.length_append, List.length_singleton]; omega, ?_⟩
    · rw [List.foldlM_cons, e1]
      show List.foldlM _ p1 _ = _
      rw [List.foldlM_append, e2]
      show List.foldlM _ p2 _ = _
      rw [List.foldlM_cons, e3]; rfl
    · refine at_doc (b := ⟨.fenced, _⟩) a3 rfl (shows_code ho rfl rfl ?_ rfl) (ends_false rfl) rfl
      show lit "<pre>" ++ HState.tagText (lit "code") (codeClass (some (unescapeString (strip (noNul info))))) false = tag
      rw [hn]
      cases ht with
      | plain => rw [codeClass_blank]; rfl
      | lang g1 g2 g3 g4 =>
        rw [codeClass_word g2 g1 g3 (fun hc => (g4 _ hc).1 rfl) (fun hc => (g4 _ hc).2.1 rfl)]
        simp [HState.tagText, lit]

end CM
