import Verif.Spec.Positions
import Verif.Proofs.HtmlTree
/-
Two renderers, one without and one with positions, event by event.
-/
namespace CM
open Spec

/-- The options with or without positions. -/
abbrev HtmlOpts.pos (o : HtmlOpts) (b : Bool) : HtmlOpts := { o with sourcepos := b }

/-- The two renderers have written the same parts, with these tags that have positions. -/
structure Coupled (ms : List (Str × SrcPos)) (a b : HState) : Prop where
  last : a.lastOut = b.lastOut
  off : a.disableTags = b.disableTags
  parts : ∃ ps : List Part, a.buf = ps.flatMap Part.plain ∧ b.buf = ps.flatMap Part.full ∧ tags ps = ms

variable {ms : List (Str × SrcPos)} {a b : HState}

theorem Coupled.lit (h : Coupled ms a b) (s : Str) : Coupled ms (a.lit s) (b.lit s) := by
  obtain ⟨ps, h1, h2, h3⟩ := h.parts
  exact ⟨rfl, h.off, ps ++ [.text s], by simp [HState.lit, h1, Part.plain], by simp [HState.lit, h2, Part.full],
    by simp [tags, ← h3]⟩

theorem Coupled.out (h : Coupled ms a b) (s : Option Str) : Coupled ms (a.out s) (b.out s) := h.lit _

theorem Coupled.cr (h : Coupled ms a b) : Coupled ms a.cr b.cr := by
  unfold HState.cr
  rw [h.last]
  split
  · exact h.lit _
  · exact h

theorem Coupled.tag (h : Coupled ms a b) (n : Str) (at' : Attrs) (sc : Bool) : Coupled ms (a.tag n at' sc) (b.tag n at' sc) := by
  unfold HState.tag
  rw [h.off]
  split
  · exact h
  · obtain ⟨ps, h1, h2, h3⟩ := h.parts
    exact ⟨rfl, rfl, ps ++ [.text (HState.tagText n at' sc)], by simp [h1, Part.plain], by simp [h2, Part.full],
      by simp [tags, ← h3]⟩

/-- The tag of a node, if it has a position. -/
def markOf (n : Str) (d : NodeData) : List (Str × SrcPos) :=
  match d.sourcepos with
  | some p => [(n, p)]
  | none => []

theorem Coupled.posTag (h : Coupled ms a b) (o : HtmlOpts) (n : Str) (d : NodeData) (at' : Attrs) (sc : Bool) :
    Coupled (ms ++ if 0 < a.disableTags then [] else markOf n d) (a.tag n (htmlAttrs (o.pos false) d ++ at') sc)
      (b.tag n (htmlAttrs (o.pos true) d ++ at') sc) := by
  have e0 : htmlAttrs (o.pos false) d = [] := rfl
  rw [e0, List.nil_append]
  by_cases hk : 0 < a.disableTags
  · rw [if_pos hk, tag_off hk, tag_off (h.off ▸ hk), List.append_nil]; exact h
  · rw [if_neg hk]
    cases hp : d.sourcepos with
    | none =>
      have e1 : htmlAttrs (o.pos true) d = [] := by simp [htmlAttrs, hp]
      rw [e1, List.nil_append, show markOf n d = [] by simp [markOf, hp], List.append_nil]
      exact h.tag _ _ _
    | some p =>
      obtain ⟨ps, h1, h2, h3⟩ := h.parts
      have hk' : ¬ 0 < b.disableTags := h.off ▸ hk
      obtain ⟨⟨l, c⟩, l', c'⟩ := p
      have e1 : htmlAttrs (o.pos true) d = [(CM.lit "data-sourcepos", sourceposText ((l, c), (l', c')))] := by
        simp [htmlAttrs, hp]
      rw [e1, show markOf n d = [(n, ((l, c), (l', c')))] by simp [markOf, hp]]
      refine ⟨by simp only [HState.tag, if_neg hk, if_neg hk'], by simp only [HState.tag, if_neg hk, if_neg hk']; exact h.off,
        ps ++ [.tag n ((l, c), (l', c')),
          .text (attrsText at' ++ ((if sc then [' ', '/'] else []) ++ ['>']))], ?_, ?_, ?_⟩
      · simp [HState.tag, if_neg hk, h1, HState.tagText, Part.plain, attrsText]
      · simp [HState.tag, if_neg hk', h2, HState.tagText, Part.full, attrsText, attr, sourceposText, CM.lit, decimal, natToStr]
      · simp [tags, ← h3]

theorem Coupled.disable (h : Coupled ms a b) (k : Int) :
    Coupled ms { a with disableTags := a.disableTags + k } { b with disableTags := b.disableTags + k } := by
  exact ⟨h.last, by simp [h.off], h.parts⟩

/-- Both renderers go on, or both raise the same exception. -/
def TwoRuns (ms : List (Str × SrcPos)) (x y : Except PyErr HState) : Prop :=
  (∃ a b, x = .ok a ∧ y = .ok b ∧ Coupled ms a b) ∨ ∃ e, x = .error e ∧ y = .error e

theorem Coupled.both (h : Coupled ms a b) : TwoRuns ms (.ok a) (.ok b) := .inl ⟨a, b, rfl, rfl, h⟩

theorem TwoRuns.bind {x y : Except PyErr HState} {f g : HState → Except PyErr HState} {ns : List (Str × SrcPos)} (h : TwoRuns ms x y)
    (hf : ∀ a b, x = .ok a → Coupled ms a b → TwoRuns ns (f a) (g b)) : TwoRuns ns (x.bind f) (y.bind g) := by
  rcases h with ⟨a, b, rfl, rfl, h⟩ | ⟨e, rfl, rfl⟩
  · exact hf a b rfl h
  · exact .inr ⟨e, rfl, rfl⟩

theorem Coupled.litOpt (h : Coupled ms a b) (s : Option Str) : TwoRuns ms (a.litOpt s) (b.litOpt s) := by
  cases s with
  | none => exact .inr ⟨_, rfl, rfl⟩
  | some s => exact (h.lit s).both

/-- The tag with a position that an event writes. -/
def eventTags (off : Bool) (e : Event) : List (Str × SrcPos) :=
  if !e.entering || (off || (e.node.t == .paragraph && tightNode e.grandparent)) then [] else ownTag e.node

theorem eventTags_exit {off : Bool} {e : Event} (h : e.entering = false) : eventTags off e = [] := by simp [eventTags, h]

theorem eventTags_none {off : Bool} {e : Event} (h : Spec.posTag e.node = none) : eventTags off e = [] := by
  unfold eventTags ownTag; rw [h]; split <;> rfl

theorem eventTags_some {k : Int} {e : Event} {n : Str} (he : e.entering = true) (h : Spec.posTag e.node = some n)
    (hp : (e.node.t == .paragraph && tightNode e.grandparent) = false) :
    eventTags (decide (0 < k)) e = if 0 < k then [] else markOf n e.node := by
  unfold eventTags ownTag markOf
  rw [h, hp, he]
  by_cases hk : 0 < k
  · simp [hk]
  · simp [hk]
    cases e.node.sourcepos <;> rfl

theorem disable_cr' (st : HState) : st.cr.disableTags = st.disableTags := by simp

/-- The tight flag of the grandparent, or the exception. -/
theorem paragraph_both (h : Coupled ms a b) (o : HtmlOpts) (e : Event) (ht : e.node.t = .paragraph) :
    TwoRuns (ms ++ eventTags (decide (0 < a.disableTags)) e) (htmlParagraph (o.pos false) e a) (htmlParagraph (o.pos true) e b) := by
  unfold htmlParagraph
  cases e.parent with
  | none => exact .inr ⟨_, rfl, rfl⟩
  | some p =>
    have fin : ∀ tight : Bool, tight = tightNode e.grandparent →
        TwoRuns (ms ++ eventTags (decide (0 < a.disableTags)) e)
          (if tight = true then .ok a else if e.entering = true then .ok (a.cr.tag (lit "p") (htmlAttrs (o.pos false) e.node))
            else .ok (a.tag (lit "/p")).cr)
          (if tight = true then .ok b else if e.entering = true then .ok (b.cr.tag (lit "p") (htmlAttrs (o.pos true) e.node))
            else .ok (b.tag (lit "/p")).cr) := by
      intro tight htt
      cases tight with
      | true =>
        rw [show eventTags (decide (0 < a.disableTags)) e = [] by simp [eventTags, ht, ← htt], List.append_nil]
        exact h.both
      | false =>
        simp only [Bool.false_eq_true, if_false]
        cases he : e.entering with
        | false =>
          rw [eventTags_exit he, List.append_nil]
          exact ((h.tag _ _ _).cr).both
        | true =>
          rw [eventTags_some (n := lit "p") he (by simp [Spec.posTag, ht, lit]) (by simp [← htt])]
          have := (h.cr.posTag o (lit "p") e.node [] false)
          simp only [List.append_nil, disable_cr] at this
          exact this.both
    simp only [bind, Except.bind, pure, Except.pure]
    cases hg : e.grandparent with
    | none => exact fin false (by simp [hg, tightNode])
    | some g =>
      simp only
      by_cases hl : g.t = .list
      · simp only [hl, beq_self_eq_true, if_true]
        cases hd : g.listData with
        | none => exact .inr ⟨_, rfl, rfl⟩
        | some l => exact fin l.tight (by simp [hg, tightNode, tightList, hl, hd])
      · have hl' : (g.t == Kind.list) = false := by simpa using hl
        simp only [hl', Bool.false_eq_true, if_false]
        exact fin false (by simp [hg, tightNode, tightList, hl'])

theorem link_both (h : Coupled ms a b) (o : HtmlOpts) (e : Event) (ht : e.node.t = .link) :
    TwoRuns (ms ++ eventTags (decide (0 < a.disableTags)) e) (htmlLink (o.pos false) e a) (htmlLink (o.pos true) e b) := by
  unfold htmlLink
  cases he : e.entering with
  | false =>
    rw [eventTags_exit he, List.append_nil]
    exact (h.tag _ _ _).both
  | true =>
    simp only [if_true, bind, Except.bind, pure, Except.pure]
    rw [show unsafeDest (o.pos true) e.node.destination = unsafeDest (o.pos false) e.node.destination from rfl]
    cases unsafeDest (o.pos false) e.node.destination with
    | error x => exact .inr ⟨_, rfl, rfl⟩
    | ok bad =>
      rw [eventTags_some (n := lit "a") he (by simp [Spec.posTag, ht, lit]) (by simp [ht])]
      have key := fun at' => (h.posTag o (lit "a") e.node at' false).both
      cases bad <;> by_cases hti : truthy e.node.title = true <;> simp only [hti, if_true, if_false, Bool.false_eq_true]
      · rw [List.append_assoc, List.append_assoc]; exact key _
      · exact key _
      · exact key _
      · have := key []; simp only [List.append_nil] at this; exact this

theorem image_both (h : Coupled ms a b) (o : HtmlOpts) (e : Event) :
    TwoRuns ms (htmlImage (o.pos false) e a) (htmlImage (o.pos true) e b) := by
  unfold htmlImage
  cases he : e.entering with
  | true =>
    simp only [if_true, bind, Except.bind, pure, Except.pure]
    rw [show unsafeDest (o.pos true) e.node.destination = unsafeDest (o.pos false) e.node.destination from rfl, ← h.off]
    by_cases hz : (a.disableTags == 0) = true
    · simp only [hz, if_true]
      cases unsafeDest (o.pos false) e.node.destination with
      | error x => exact .inr ⟨_, rfl, rfl⟩
      | ok bad => cases bad <;> exact ((h.lit _).disable 1).both
    · simp only [hz, Bool.false_eq_true, if_false]
      have h' := h.disable 1
      rw [← h.off] at h'
      exact h'.both
  | false =>
    have h' := h.disable (-1)
    simp only [Bool.false_eq_true, if_false, ← h.off]
    have e1 : ∀ k : Int, k - 1 = k + -1 := fun k => by omega
    rw [e1]
    rw [← h.off] at h'
    by_cases hz : (a.disableTags + -1 == 0) = true
    · simp only [hz, if_true]
      split
      · exact ((h'.lit _).lit _).both
      · exact (h'.lit _).both
    · simp only [hz, Bool.false_eq_true, if_false]
      exact h'.both

theorem list_both (h : Coupled ms a b) (o : HtmlOpts) (e : Event) (ht : e.node.t = .list) :
    TwoRuns (ms ++ eventTags (decide (0 < a.disableTags)) e) (htmlList (o.pos false) e a) (htmlList (o.pos true) e b) := by
  unfold htmlList
  cases hl : e.node.listData with
  | none => exact .inr ⟨_, rfl, rfl⟩
  | some l =>
    simp only
    cases he : e.entering with
    | false =>
      rw [eventTags_exit he, List.append_nil]
      exact ((h.cr.tag _ _ _).cr).both
    | true =>
      have hn : listName (some l) = if (l.type == .bullet) = true then lit "ul" else lit "ol" := by
        unfold listName; by_cases hb : l.type = .bullet <;> simp [hb, lit]
      rw [eventTags_some (n := if (l.type == .bullet) = true then lit "ul" else lit "ol") he
        (by simp only [Spec.posTag, ht, hl, hn]) (by simp [ht])]
      have key := fun at' => (h.cr.posTag o (if (l.type == .bullet) = true then lit "ul" else lit "ol") e.node at' false).cr.both
      simp only [disable_cr] at key
      have key0 := key []
      simp only [List.append_nil] at key0
      simp only [if_true]
      cases l.start with
      | none => exact key0
      | some n =>
        by_cases hs : (n != 1) = true
        · simp only [hs, if_true]; exact key _
        · simp only [hs, Bool.false_eq_true, if_false]; exact key0

theorem custom_both (h : Coupled ms a b) (x y : Option Str) (c : Bool) :
    TwoRuns ms (if (c && truthy x) = true then a.litOpt x else if (!c && truthy y) = true then a.litOpt y else .ok a)
      (if (c && truthy x) = true then b.litOpt x else if (!c && truthy y) = true then b.litOpt y else .ok b) := by
  split
  · exact h.litOpt _
  · split
    · exact h.litOpt _
    · exact h.both

theorem raw_both (h : Coupled ms a b) (o : HtmlOpts) (x : Option Str) :
    TwoRuns ms (if o.safe = true then .ok (a.lit rawOmitted) else a.litOpt x)
      (if o.safe = true then .ok (b.lit rawOmitted) else b.litOpt x) := by
  split
  · exact (h.lit _).both
  · exact h.litOpt _

theorem event_both (h : Coupled ms a b) (o : HtmlOpts) (e : Event) (hl : isContainer e.node.t = false → e.entering = true) :
    TwoRuns (ms ++ eventTags (decide (0 < a.disableTags)) e) (htmlEvent (o.pos false) a e) (htmlEvent (o.pos true) b e) := by
  have none' : Spec.posTag e.node = none → ms ++ eventTags (decide (0 < a.disableTags)) e = ms := fun hn => by
    rw [eventTags_none hn, List.append_nil]
  unfold htmlEvent
  cases ht : e.node.t <;> simp only [ht]
  case document => rw [none' (by simp [Spec.posTag, ht])]; exact h.both
  case text => rw [none' (by simp [Spec.posTag, ht])]; exact (h.out _).both
  case softbreak => rw [none' (by simp [Spec.posTag, ht])]; exact (h.lit _).both
  case linebreak => rw [none' (by simp [Spec.posTag, ht])]; exact (h.tag _ _ _).cr.both
  case link => exact link_both h o e ht
  case image => rw [none' (by simp [Spec.posTag, ht])]; exact image_both h o e
  case emph => rw [none' (by simp [Spec.posTag, ht])]; exact (h.tag _ _ _).both
  case strong => rw [none' (by simp [Spec.posTag, ht])]; exact (h.tag _ _ _).both
  case paragraph => exact paragraph_both h o e ht
  case code => rw [none' (by simp [Spec.posTag, ht])]; exact (((h.tag _ _ _).out _).tag _ _ _).both
  case list => exact list_both h o e ht
  case htmlInline => rw [none' (by simp [Spec.posTag, ht])]; exact raw_both h o _
  case htmlBlock =>
    rw [none' (by simp [Spec.posTag, ht])]
    split
    · exact (h.cr.lit _).cr.both
    · exact (h.cr.litOpt _).bind fun _ _ _ h => h.cr.both
  case customInline => rw [none' (by simp [Spec.posTag, ht])]; exact custom_both h _ _ _
  case customBlock =>
    rw [none' (by simp [Spec.posTag, ht])]
    split
    · exact (h.cr.litOpt _).bind fun _ _ _ h => h.cr.both
    · split
      · exact (h.cr.litOpt _).bind fun _ _ _ h => h.cr.both
      · exact h.cr.cr.both
  case heading =>
    unfold htmlHeading
    cases he : e.entering with
    | false =>
      rw [eventTags_exit he, List.append_nil]
      exact ((h.tag _ _ _).cr).both
    | true =>
      have hn : hTag e.node = headingTag e.node.level := by
        unfold hTag headingTag; cases e.node.level <;> simp [decimal, natToStr, lit]
      rw [eventTags_some (n := headingTag e.node.level) he (by simp [Spec.posTag, ht, hn]) (by simp [ht])]
      have := (h.cr.posTag o (headingTag e.node.level) e.node [] false).both
      simp only [List.append_nil, disable_cr] at this
      exact this
  case codeBlock =>
    unfold htmlCodeBlock
    rw [eventTags_some (n := lit "code") (hl (by rw [ht]; rfl)) (by simp [Spec.posTag, ht, lit]) (by simp [ht])]
    have := ((h.cr.tag (lit "pre") [] false).posTag o (lit "code") e.node (codeClass e.node.info) false)
    simp only [disable_cr, disable_tag] at this
    exact ((((this.out _).tag _ _ _).tag _ _ _).cr).both
  case thematicBreak =>
    rw [eventTags_some (n := lit "hr") (hl (by rw [ht]; rfl)) (by simp [Spec.posTag, ht, lit]) (by simp [ht])]
    have := (h.cr.posTag o (lit "hr") e.node [] true).cr.both
    simp only [List.append_nil, disable_cr] at this
    exact this
  case blockQuote =>
    cases he : e.entering with
    | false =>
      rw [eventTags_exit he, List.append_nil]
      exact ((h.cr.tag _ _ _).cr).both
    | true =>
      rw [eventTags_some (n := lit "blockquote") he (by simp [Spec.posTag, ht, lit]) (by simp [ht])]
      have := (h.cr.posTag o (lit "blockquote") e.node [] false).cr.both
      simp only [List.append_nil, disable_cr] at this
      exact this
  case item =>
    cases he : e.entering with
    | false =>
      rw [eventTags_exit he, List.append_nil]
      exact ((h.tag _ _ _).cr).both
    | true =>
      rw [eventTags_some (n := lit "li") he (by simp [Spec.posTag, ht, lit]) (by simp [ht])]
      have := (h.posTag o (lit "li") e.node [] false).both
      simp only [List.append_nil] at this
      exact this

mutual
theorem events_both (o : HtmlOpts) : ∀ (t : Tree) {p g : Option NodeData} {ms : List (Str × SrcPos)} {a b : HState}, 0 ≤ a.disableTags →
    Coupled ms a b → TwoRuns (ms ++ posTags (decide (0 < a.disableTags)) (tightNode p) (tightNode g) t)
      (runEvents (o.pos false) a (events p g t)) (runEvents (o.pos true) b (events p g t))
  | .node d cs, p, g, ms, a, b, hk, h => by
    have hm : ∀ f : Option NodeData, (if (decide (0 < a.disableTags) || (d.t == .paragraph && tightNode g)) = true then [] else ownTag d) = eventTags (decide (0 < a.disableTags)) ⟨true, d, p, g, f⟩ := fun f => by
      simp [eventTags]
    rw [events, posTags]
    by_cases hc : isContainer d.t = true
    · rw [if_pos hc, if_pos hc, hm (cs.head?.map (·.data)), ← List.append_assoc]
      simp only [runEvents_cons, runEvents_append, runEvents_nil]
      refine (event_both h o ⟨true, d, p, g, cs.head?.map (·.data)⟩ (fun _ => rfl)).bind fun a1 b1 h1 c1 => ?_
      have hd := image_deeper hc h1
      have hz : decide (0 < a1.disableTags) = (decide (0 < a.disableTags) || d.t == .image) := by
        rw [hd, Bool.eq_iff_iff]
        by_cases hi : d.t = .image
        · simp [hi]; omega
        · simp [hi]
      have := eventsList_both o cs (p := some d) (g := p) (by rw [hd]; split <;> omega) c1
      rw [hz] at this
      refine this.bind fun a2 b2 _ c2 => ?_
      have := event_both c2 o ⟨false, d, p, g, cs.head?.map (·.data)⟩ (fun hf => by rw [hc] at hf; cases hf)
      rw [eventTags_exit (e := ⟨false, d, p, g, cs.head?.map (·.data)⟩) rfl, List.append_nil] at this
      exact this.bind fun _ _ _ c => c.both
    · rw [if_neg hc, if_neg hc, hm (cs.head?.map (·.data)), List.append_nil]
      simp only [runEvents_cons, runEvents_nil]
      exact (event_both h o ⟨true, d, p, g, cs.head?.map (·.data)⟩ (fun _ => rfl)).bind fun _ _ _ c => c.both
theorem eventsList_both (o : HtmlOpts) : ∀ (ts : List Tree) {p g : Option NodeData} {ms : List (Str × SrcPos)} {a b : HState},
    0 ≤ a.disableTags → Coupled ms a b →
    TwoRuns (ms ++ posTagsList (decide (0 < a.disableTags)) (tightNode p) (tightNode g) ts)
      (runEvents (o.pos false) a (eventsList p g ts)) (runEvents (o.pos true) b (eventsList p g ts))
  | [], p, g, ms, a, b, hk, h => by
    rw [eventsList, posTagsList, List.append_nil]
    exact h.both
  | t :: ts, p, g, ms, a, b, hk, h => by
    rw [eventsList, posTagsList, ← List.append_assoc, runEvents_append, runEvents_append]
    refine (events_both o t hk h).bind fun a1 b1 h1 c1 => ?_
    obtain ⟨k1, -⟩ := events_written (o.pos false) t hk h1
    have := eventsList_both o ts (p := p) (g := g) (by omega) c1
    rwa [k1] at this
end

theorem render_both (o : HtmlOpts) (t : Tree) :
    (∃ ps, renderHtml (o.pos false) t = .ok (ps.flatMap Part.plain) ∧ renderHtml (o.pos true) t = .ok (ps.flatMap Part.full) ∧
      tags ps = posTags false false false t) ∨
    ∃ e, renderHtml (o.pos false) t = .error e ∧ renderHtml (o.pos true) t = .error e := by
  have h0 : Coupled [] ⟨[], ['\n'], 0⟩ ⟨[], ['\n'], 0⟩ := ⟨rfl, rfl, [], rfl, rfl, rfl⟩
  have e : ∀ b, renderHtml (o.pos b) t = (runEvents (o.pos b) ⟨[], ['\n'], 0⟩ (events none none t)).bind (fun st => .ok st.buf) :=
    fun _ => rfl
  rw [e, e]
  rcases events_both o t (p := none) (g := none) (by simp) h0 with ⟨a, b, ha, hb, c⟩ | ⟨x, ha, hb⟩
  · obtain ⟨ps, h1, h2, h3⟩ := c.parts
    rw [ha, hb]
    exact .inl ⟨ps, by simp [Except.bind, h1], by simp [Except.bind, h2], by rw [h3]; simp [tightNode]⟩
  · rw [ha, hb]; exact .inr ⟨x, rfl, rfl⟩

end CM
