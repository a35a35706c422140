import Verif.Model.Main
/-
Lemmas about the HTML renderer.
-/
set_option linter.unusedSimpArgs false
namespace CM

/-- Rendering a list of events from a state. -/
abbrev runEvents (o : HtmlOpts) (st : HState) (es : List Event) : Except PyErr HState :=
  es.foldlM (htmlEvent o) st

theorem runEvents_append (o : HtmlOpts) (st : HState) (a b : List Event) :
    runEvents o st (a ++ b) = (runEvents o st a).bind fun st' => runEvents o st' b := by
  simp only [runEvents, List.foldlM_append]; rfl

theorem runEvents_cons (o : HtmlOpts) (st : HState) (e : Event) (b : List Event) :
    runEvents o st (e :: b) = (htmlEvent o st e).bind fun st' => runEvents o st' b := by
  simp only [runEvents, List.foldlM_cons]; rfl

theorem runEvents_nil (o : HtmlOpts) (st : HState) : runEvents o st [] = .ok st := rfl

/-! ### Output is only ever appended -/

/-- The state with more text before it. -/
def HState.prepend (b : Str) (st : HState) : HState := { st with buf := b ++ st.buf }

@[simp] theorem prepend_lit (b s : Str) (st : HState) : (st.prepend b).lit s = (st.lit s).prepend b := by
  simp [HState.lit, HState.prepend]

@[simp] theorem prepend_lastOut (b : Str) (st : HState) : (st.prepend b).lastOut = st.lastOut := rfl
@[simp] theorem prepend_disable (b : Str) (st : HState) : (st.prepend b).disableTags = st.disableTags := rfl

@[simp] theorem prepend_cr (b : Str) (st : HState) : (st.prepend b).cr = st.cr.prepend b := by
  unfold HState.cr
  by_cases h : (st.lastOut != ['\n']) = true
  · have h' : ((st.prepend b).lastOut != ['\n']) = true := h
    rw [if_pos h, if_pos h', prepend_lit]
  · have h' : ¬ ((st.prepend b).lastOut != ['\n']) = true := h
    rw [if_neg h, if_neg h']

@[simp] theorem prepend_tag (b n : Str) (a : Attrs) (sc : Bool) (st : HState) :
    (st.prepend b).tag n a sc = (st.tag n a sc).prepend b := by
  simp only [HState.tag, prepend_disable]
  by_cases h : st.disableTags > 0
  · simp only [h, if_true]
  · simp only [h, if_false]; simp [HState.prepend]

@[simp] theorem prepend_out (b : Str) (s : Option Str) (st : HState) :
    (st.prepend b).out s = (st.out s).prepend b := by simp [HState.out]

@[simp] theorem prepend_litOpt (b : Str) (s : Option Str) (st : HState) :
    (st.prepend b).litOpt s = (st.litOpt s).map (HState.prepend b) := by
  cases s <;> simp [HState.litOpt, Except.map]

theorem prepend_addDisable (b : Str) (st : HState) (k : Int) :
    { st.prepend b with disableTags := k } = { st with disableTags := k }.prepend b := rfl

theorem map_ite {α : Type} (c : Bool) (f : α → α) (a b : Except PyErr α) :
    Except.map f (if c then a else b) = if c then Except.map f a else Except.map f b := by
  cases c <;> rfl

theorem map_bind {α β : Type} (f : α → α) (x : Except PyErr β) (g : β → Except PyErr α) :
    Except.map f (x >>= g) = (x >>= fun y => Except.map f (g y)) := by
  cases x <;> rfl

theorem bind_map {α β : Type} (f : α → α) (x : Except PyErr α) (g : α → Except PyErr β) :
    ((Except.map f x) >>= g) = (x >>= fun y => g (f y)) := by
  cases x <;> rfl

theorem map_ok {α : Type} (f : α → α) (a : α) : Except.map (ε := PyErr) f (.ok a) = .ok (f a) := rfl
theorem map_pure {α : Type} (f : α → α) (a : α) :
    Except.map (ε := PyErr) f (pure a) = pure (f a) := rfl
theorem map_err {α : Type} (f : α → α) (e : PyErr) : Except.map f (.error e) = .error e := rfl

theorem ite_prepend (c : Bool) (b : Str) (x y : HState) :
    (if c then x.prepend b else y.prepend b) = (if c then x else y).prepend b := by
  cases c <;> rfl

/-- Whether paragraphs below this grandparent are rendered without tags. -/
def tightOf : Option NodeData → Except PyErr Bool
  | some g =>
    if g.t == .list then
      match g.listData with
      | none => .error .keyError
      | some l => .ok l.tight
    else .ok false
  | none => .ok false

theorem htmlParagraph_eq (o : HtmlOpts) (e : Event) (st : HState) :
    htmlParagraph o e st = match e.parent with
      | none => .error .attributeError
      | some _ => tightOf e.grandparent >>= fun tight =>
        if tight then pure st
        else if e.entering then pure (st.cr.tag (lit "p") (htmlAttrs o e.node))
        else pure (st.tag (lit "/p")).cr := by
  unfold htmlParagraph tightOf
  cases e.parent with
  | none => rfl
  | some p =>
    cases e.grandparent with
    | none => rfl
    | some g =>
      simp only
      cases g.t == Kind.list
      · rfl
      · simp only [if_true]
        cases g.listData <;> rfl

theorem htmlEvent_prepend (o : HtmlOpts) (b : Str) (st : HState) (e : Event) :
    htmlEvent o (st.prepend b) e = (htmlEvent o st e).map (HState.prepend b) := by
  obtain ⟨en, d, p, g, fi⟩ := e
  unfold htmlEvent
  cases ht : d.t <;> simp only [ht, prepend_lit, prepend_cr, prepend_tag, prepend_out, prepend_litOpt,
    map_ite, map_bind, map_ok, map_pure, bind_map]
  case link =>
    unfold htmlLink
    simp only [prepend_tag, map_ite, map_bind, map_ok, map_pure]
  case image =>
    unfold htmlImage
    simp only [prepend_disable, prepend_lit, map_ite, map_bind, map_ok, map_pure, prepend_addDisable,
      ite_prepend]
    cases en
    · simp only [Bool.false_eq_true, if_false]
    · simp only [if_true]
      cases st.disableTags == 0
      · rfl
      · simp only [if_true]
        cases unsafeDest o d.destination with
        | error => rfl
        | ok bad => cases bad <;> rfl
  case paragraph =>
    simp only [htmlParagraph_eq]
    cases p with
    | none => rfl
    | some p => simp only [prepend_cr, prepend_tag, map_bind, map_ite, map_pure]
  case heading => unfold htmlHeading; cases en <;> simp
  case codeBlock => unfold htmlCodeBlock; simp
  case list =>
    unfold htmlList
    simp only
    cases d.listData with
    | none => rfl
    | some l => simp only [prepend_cr, prepend_tag, map_ite, map_ok]
  case htmlBlock =>
    cases o.safe <;> simp [bind_map, map_bind, map_pure]
  case customBlock =>
    cases en <;> cases truthy d.onEnter <;> cases truthy d.onExit <;> simp [bind_map, map_bind, map_pure]

theorem runEvents_prepend (o : HtmlOpts) (b : Str) (es : List Event) (st : HState) :
    runEvents o (st.prepend b) es = (runEvents o st es).map (HState.prepend b) := by
  induction es generalizing st with
  | nil => rfl
  | cons e es ih =>
    simp only [runEvents_cons, htmlEvent_prepend]
    cases htmlEvent o st e with
    | error => rfl
    | ok st' => exact ih st'

/-- Rendering continues from what was written: only `lastOut` and `disableTags` matter. -/
theorem runEvents_from (o : HtmlOpts) (es : List Event) (b lo : Str) (k : Int) :
    runEvents o ⟨b, lo, k⟩ es = (runEvents o ⟨[], lo, k⟩ es).map (HState.prepend b) := by
  rw [← runEvents_prepend]; simp [HState.prepend]

/-! ### `disable_tags` is balanced -/

@[simp] theorem lit_disable (s : Str) (st : HState) : (st.lit s).disableTags = st.disableTags := rfl
@[simp] theorem out_disable (s : Option Str) (st : HState) : (st.out s).disableTags = st.disableTags := rfl
@[simp] theorem cr_disable (st : HState) : st.cr.disableTags = st.disableTags := by
  unfold HState.cr; split <;> rfl
@[simp] theorem tag_disable (n : Str) (a : Attrs) (sc : Bool) (st : HState) :
    (st.tag n a sc).disableTags = st.disableTags := by
  unfold HState.tag; split <;> rfl
theorem litOpt_disable {s : Option Str} {st st' : HState} (h : st.litOpt s = .ok st') :
    st'.disableTags = st.disableTags := by
  cases s <;> simp [HState.litOpt] at h; subst h; rfl

/-- Change of `disable_tags` by an event. -/
def disableDelta (e : Event) : Int :=
  if e.node.t = .image then (if e.entering then 1 else -1) else 0

theorem htmlEvent_disable {o : HtmlOpts} {st st' : HState} {e : Event} (h : htmlEvent o st e = .ok st') :
    st'.disableTags = st.disableTags + disableDelta e := by
  unfold htmlEvent at h
  unfold disableDelta
  cases ht : e.node.t <;> simp only [ht] at h <;> simp only [reduceCtorEq, if_false, if_true, Int.add_zero]
  case document | text | softbreak | linebreak | emph | strong | code | thematicBreak =>
    simp only [Except.ok.injEq] at h; subst h; simp
  case heading => unfold htmlHeading at h; simp only [Except.ok.injEq] at h; subst h; split <;> simp
  case codeBlock => unfold htmlCodeBlock at h; simp only [Except.ok.injEq] at h; subst h; simp
  case link =>
    unfold htmlLink at h
    split at h
    · cases hu : unsafeDest o e.node.destination with
      | error => simp [hu, bind, Except.bind] at h
      | ok bad => simp [hu, bind, Except.bind, pure, Except.pure] at h; subst h; simp
    · simp at h; subst h; simp
  case image =>
    unfold htmlImage at h
    split at h
    · rename_i hen; simp only [hen, if_true]
      split at h
      · cases hu : unsafeDest o e.node.destination with
        | error => simp [hu, bind, Except.bind] at h
        | ok bad => cases bad <;> simp [hu, bind, Except.bind, pure, Except.pure] at h <;> subst h <;> rfl
      · simp [bind, Except.bind, pure, Except.pure] at h; subst h; rfl
    · rename_i hen; simp only [hen, if_false]
      cases hd : (st.disableTags - 1 == 0) <;> simp only [hd, Bool.false_eq_true, if_false, if_true] at h <;>
        simp only [Except.ok.injEq] at h <;> subst h
      · simp; omega
      · cases truthy e.node.title <;> simp <;> omega
  case paragraph =>
    rw [htmlParagraph_eq] at h
    split at h
    · simp at h
    · cases hg : tightOf e.grandparent with
      | error => simp [hg, bind, Except.bind] at h
      | ok tight =>
        cases tight <;> cases hn : e.entering <;>
          simp [hg, hn, bind, Except.bind, pure, Except.pure] at h <;> subst h <;> simp
  case list =>
    unfold htmlList at h
    split at h
    · simp at h
    · cases hn : e.entering <;> simp only [hn, Bool.false_eq_true, if_true, if_false, Except.ok.injEq] at h <;>
        subst h <;> simp
  case blockQuote => split at h <;> simp only [Except.ok.injEq] at h <;> subst h <;> simp
  case item => split at h <;> simp only [Except.ok.injEq] at h <;> subst h <;> simp
  case htmlInline =>
    split at h
    · simp only [Except.ok.injEq] at h; subst h; simp
    · exact litOpt_disable h
  case htmlBlock =>
    have key : ∀ x : Except PyErr HState, (∀ y, x = .ok y → y.disableTags = st.disableTags) →
        (x >>= fun y => pure y.cr) = .ok st' → st'.disableTags = st.disableTags := by
      intro x hx hh
      cases x with
      | error => simp [bind, Except.bind] at hh
      | ok y =>
        simp [bind, Except.bind, pure, Except.pure] at hh
        subst hh; rw [cr_disable]; exact hx y rfl
    cases hs : o.safe <;> simp only [hs, if_true, if_false, Bool.false_eq_true] at h <;>
      refine key _ ?_ h <;> intro y hy
    · have := litOpt_disable hy; simpa using this
    · simp only [pure, Except.pure, Except.ok.injEq] at hy; subst hy; simp
  case customInline =>
    split at h
    · exact litOpt_disable h
    · split at h
      · exact litOpt_disable h
      · simp at h; subst h; rfl
  case customBlock =>
    have key : ∀ x : Except PyErr HState, (∀ y, x = .ok y → y.disableTags = st.disableTags) →
        (x >>= fun y => pure y.cr) = .ok st' → st'.disableTags = st.disableTags := by
      intro x hx hh
      cases x with
      | error => simp [bind, Except.bind] at hh
      | ok y =>
        simp [bind, Except.bind, pure, Except.pure] at hh
        subst hh; rw [cr_disable]; exact hx y rfl
    split at h
    · refine key _ ?_ h; intro y hy
      have := litOpt_disable hy; simpa using this
    · split at h
      · refine key _ ?_ h; intro y hy
        have := litOpt_disable hy; simpa using this
      · refine key _ ?_ h; intro y hy
        simp only [pure, Except.pure, Except.ok.injEq] at hy; subst hy; simp

theorem runEvents_disable {o : HtmlOpts} (es : List Event) {st st' : HState}
    (h : runEvents o st es = .ok st') :
    st'.disableTags = st.disableTags + (es.map disableDelta).sum := by
  induction es generalizing st with
  | nil => rw [runEvents_nil] at h; simp only [Except.ok.injEq] at h; subst h; simp
  | cons e es ih =>
    rw [runEvents_cons] at h
    cases he : htmlEvent o st e with
    | error => rw [he] at h; simp [Except.bind] at h
    | ok st1 =>
      rw [he] at h; simp only [Except.bind] at h
      rw [ih h, htmlEvent_disable he]; simp; omega

mutual
theorem events_delta (p g : Option NodeData) : ∀ t : Tree, ((events p g t).map disableDelta).sum = 0
  | .node d cs => by
    unfold events
    simp only
    split
    · simp only [List.map_cons, List.map_append, List.sum_cons, List.sum_append, List.map_nil, List.sum_nil,
        eventsList_delta (some d) p cs, disableDelta]
      split <;> simp
    · rename_i hc
      have : d.t ≠ .image := by rintro h; rw [h] at hc; exact hc rfl
      simp [disableDelta, this]
theorem eventsList_delta (p g : Option NodeData) :
    ∀ ts : List Tree, ((eventsList p g ts).map disableDelta).sum = 0
  | [] => rfl
  | t :: ts => by
    unfold eventsList
    simp [List.map_append, events_delta p g t, eventsList_delta p g ts]
end

end CM
