import Verif.Proofs.Render
import Verif.Spec.Render
/-
Lemmas for renderer composition, reuse and JSON dump properties.
-/
set_option linter.unusedSimpArgs false
namespace CM
open Spec

/-! ### C43 -/

theorem cr_lastOut (st : HState) : st.cr.lastOut = ['\n'] := by
  unfold HState.cr
  by_cases h : (st.lastOut != ['\n']) = true
  · rw [if_pos h]; rfl
  · rw [if_neg h]; simpa using h

theorem bind_cr_lastOut {x : Except PyErr HState} {st' : HState}
    (h : (x >>= fun y => pure y.cr) = .ok st') : st'.lastOut = ['\n'] := by
  cases x with
  | error => simp [bind, Except.bind] at h
  | ok y => simp [bind, Except.bind, pure, Except.pure] at h; subst h; exact cr_lastOut y

theorem htmlEvent_last_lastOut {o : HtmlOpts} {st st' : HState} {e : Event}
    (hk : e.node.t ∈ topLevelKinds) (hg : e.grandparent = none)
    (hl : isContainer e.node.t = true → e.entering = false)
    (h : htmlEvent o st e = .ok st') : st'.lastOut = ['\n'] := by
  obtain ⟨en, d, p, g, fi⟩ := e
  simp only at hg hk hl; subst hg
  unfold htmlEvent at h
  simp only [topLevelKinds, List.mem_cons, List.not_mem_nil, or_false] at hk
  rcases hk with hk | hk | hk | hk | hk | hk | hk | hk <;> simp only [hk] at h hl
  · cases hl rfl
    rw [htmlParagraph_eq] at h
    cases p with
    | none => simp at h
    | some p =>
      simp [tightOf, bind, Except.bind, pure, Except.pure] at h; subst h; exact cr_lastOut _
  · cases hl rfl
    simp [htmlHeading] at h; subst h; exact cr_lastOut _
  · simp [htmlCodeBlock] at h; subst h; exact cr_lastOut _
  · split at h <;> exact bind_cr_lastOut h
  · simp at h; subst h; exact cr_lastOut _
  · cases hl rfl
    simp at h; subst h; exact cr_lastOut _
  · cases hl rfl
    unfold htmlList at h
    simp only at h
    cases hld : d.listData with
    | none => simp [hld] at h
    | some l => simp [hld] at h; subst h; exact cr_lastOut _
  · split at h
    · exact bind_cr_lastOut h
    · split at h <;> exact bind_cr_lastOut h

theorem block_final {o : HtmlOpts} {b lo : Str} {st' : HState} {d : NodeData} {c : Tree}
    (hk : c.kind ∈ topLevelKinds)
    (h : runEvents o ⟨b, lo, 0⟩ (events (some d) none c) = .ok st') :
    st'.lastOut = ['\n'] ∧ st'.disableTags = 0 := by
  constructor
  · obtain ⟨dc, cs⟩ := c
    unfold events at h
    simp only at h
    split at h
    · rw [← List.cons_append, runEvents_append] at h
      cases hx : runEvents o ⟨b, lo, 0⟩ ((⟨true, dc, some d, none, cs.head?.map (·.data)⟩ : Event) ::
          eventsList (some dc) (some d) cs) with
      | error => rw [hx] at h; simp [Except.bind] at h
      | ok st1 =>
        rw [hx] at h
        simp only [Except.bind, runEvents_cons] at h
        split at h
        · simp at h
        · rename_i v hv
          rw [runEvents_nil] at h
          simp only [Except.ok.injEq] at h
          subst h
          exact htmlEvent_last_lastOut hk rfl (fun _ => rfl) hv
    · rename_i hc
      rw [runEvents_cons] at h
      simp only [Except.bind] at h
      split at h
      · simp at h
      · rename_i v hv
        rw [runEvents_nil] at h
        simp only [Except.ok.injEq] at h
        subst h
        exact htmlEvent_last_lastOut hk rfl (fun h' => absurd h' hc) hv
  · have := runEvents_disable _ h
    rw [events_delta] at this
    simpa using this

theorem runEvents_blocks {o : HtmlOpts} {d : NodeData} (cs : List Tree)
    (hk : ∀ c ∈ cs, c.kind ∈ topLevelKinds) (b : Str) :
    runEvents o ⟨b, ['\n'], 0⟩ (eventsList (some d) none cs) =
      (cs.mapM fun c => (runEvents o ⟨[], ['\n'], 0⟩ (events (some d) none c)).map (·.buf)).map
        fun outs => ⟨b ++ outs.flatten, ['\n'], 0⟩ := by
  induction cs generalizing b with
  | nil => simp [eventsList, runEvents_nil, Except.map, pure, Except.pure]
  | cons c cs ih =>
    unfold eventsList
    rw [runEvents_append, List.mapM_cons, runEvents_from]
    cases hx : runEvents o ⟨[], ['\n'], 0⟩ (events (some d) none c) with
    | error => simp [Except.map, Except.bind, bind]
    | ok st1 =>
      obtain ⟨h1, h2⟩ := block_final (hk c (by simp)) hx
      obtain ⟨b1, lo1, k1⟩ := st1
      simp only at h1 h2; subst h1 h2
      simp only [Except.map, Except.bind, HState.prepend, bind]
      rw [ih (fun c hc => hk c (by simp [hc]))]
      simp only [Except.map, pure, Except.pure]
      generalize (List.mapM (m := Except PyErr) _ cs) = ys
      cases ys <;> simp

theorem renderWith_document (o : HtmlOpts) (d : NodeData) (cs : List Tree) (hd : d.t = .document)
    (k : Int) :
    renderWith o k (.node d cs) = runEvents o ⟨[], ['\n'], k⟩ (eventsList (some d) none cs) := by
  have e1 : ∀ b st, htmlEvent o st ⟨b, d, none, none, cs.head?.map (·.data)⟩ = .ok st := by
    intro b st; simp [htmlEvent, hd]
  have := runEvents_cons o ⟨[], ['\n'], k⟩ ⟨true, d, none, none, cs.head?.map (·.data)⟩
    (eventsList (some d) none cs ++ [⟨false, d, none, none, cs.head?.map (·.data)⟩])
  unfold renderWith events
  simp only [hd, isContainer, if_true]
  rw [show (List.foldlM (htmlEvent o) ⟨[], ['\n'], k⟩ _) = _ from this, e1]
  simp only [Except.bind]
  rw [runEvents_append]
  cases runEvents o ⟨[], ['\n'], k⟩ (eventsList (some d) none cs) with
  | error => rfl
  | ok st => simp only [Except.bind, runEvents_cons, e1, runEvents_nil]

theorem except_mapM_congr {α β : Type} {f g : α → Except PyErr β} (h : ∀ x, f x = g x) (xs : List α) :
    xs.mapM f = xs.mapM g := by
  have : f = g := funext h
  rw [this]

/-! ### C41 -/

/-! ### C48 -/

/-- An event with the text of raw HTML forgotten. -/
def eraseEvent (e : Event) : Event :=
  ⟨e.entering, eraseRawData e.node, e.parent.map eraseRawData, e.grandparent.map eraseRawData,
    e.first.map eraseRawData⟩

theorem erase_t (d : NodeData) : (eraseRawData d).t = d.t := by
  unfold eraseRawData; split <;> rfl

theorem erase_listData (d : NodeData) : (eraseRawData d).listData = d.listData := by
  unfold eraseRawData; split <;> rfl

theorem erase_sourcepos (d : NodeData) : (eraseRawData d).sourcepos = d.sourcepos := by
  unfold eraseRawData; split <;> rfl

theorem erase_eq {d : NodeData} (h1 : d.t ≠ .htmlInline) (h2 : d.t ≠ .htmlBlock) :
    eraseRawData d = d := by
  unfold eraseRawData; simp [h1, h2]

theorem erase_data (t : Tree) : (eraseRaw t).data = eraseRawData t.data := by
  cases t; simp [eraseRaw, Tree.data]

theorem eraseList_head (cs : List Tree) :
    (eraseRawList cs).head?.map (·.data) = (cs.head?.map (·.data)).map eraseRawData := by
  cases cs with
  | nil => rfl
  | cons c cs => simp [eraseRawList, erase_data]

mutual
theorem events_erase (p g : Option NodeData) : ∀ t : Tree,
    events (p.map eraseRawData) (g.map eraseRawData) (eraseRaw t) = (events p g t).map eraseEvent
  | .node d cs => by
    have := eventsList_erase (some d) p cs
    simp only [Option.map_some] at this
    simp only [eraseRaw, events, erase_t, eraseList_head, this]
    split <;> simp [eraseEvent]
theorem eventsList_erase (p g : Option NodeData) : ∀ ts : List Tree,
    eventsList (p.map eraseRawData) (g.map eraseRawData) (eraseRawList ts) =
      (eventsList p g ts).map eraseEvent
  | [] => rfl
  | t :: ts => by
    simp only [eraseRawList, eventsList, List.map_append, events_erase p g t, eventsList_erase p g ts]
end

theorem htmlEvent_erase (o : HtmlOpts) (hs : o.safe = true) (st : HState) (e : Event) :
    htmlEvent o st (eraseEvent e) = htmlEvent o st e := by
  obtain ⟨en, d, p, g, fi⟩ := e
  by_cases h1 : d.t = .htmlInline
  · simp [htmlEvent, eraseEvent, erase_t, h1, hs]
  · by_cases h2 : d.t = .htmlBlock
    · simp [htmlEvent, eraseEvent, erase_t, h2, hs]
    · have hd : eraseRawData d = d := erase_eq h1 h2
      unfold htmlEvent eraseEvent
      simp only [hd]
      cases ht : d.t <;> simp only [ht] <;> try rfl
      rw [htmlParagraph_eq, htmlParagraph_eq]
      cases p with
      | none => rfl
      | some p =>
        simp only [Option.map_some]
        have : tightOf (g.map eraseRawData) = tightOf g := by
          cases g with
          | none => rfl
          | some g => simp [tightOf, erase_t, erase_listData]
        rw [this]

theorem runEvents_erase (o : HtmlOpts) (hs : o.safe = true) (es : List Event) (st : HState) :
    runEvents o st (es.map eraseEvent) = runEvents o st es := by
  induction es generalizing st with
  | nil => rfl
  | cons e es ih =>
    simp only [List.map_cons, runEvents_cons, htmlEvent_erase o hs]
    cases htmlEvent o st e with
    | error => rfl
    | ok st' => exact ih st'

theorem renderHtml_erase (o : HtmlOpts) (hs : o.safe = true) (t : Tree) :
    renderHtml o (eraseRaw t) = renderHtml o t := by
  unfold renderHtml renderWith
  have h1 : events none none (eraseRaw t) = (events none none t).map eraseEvent := events_erase none none t
  have h2 := runEvents_erase o hs (events none none t) ⟨[], ['\n'], 0⟩
  simp only [runEvents] at h2
  rw [h1, h2]

/-! ### C17 -/

theorem fill_default (d : OptDict) (h : d = {} ∨ d = OptDict.fill {}) : d.fill = OptDict.fill {} := by
  rcases h with rfl | rfl <;> rfl

/-! ### C38 -/

mutual
theorem events_leave_container (p g : Option NodeData) : ∀ t : Tree,
    ∀ e ∈ events p g t, e.entering = false → isContainer e.node.t = true
  | .node d cs => by
    unfold events
    simp only
    split
    · rename_i hd
      intro e he hn
      simp only [List.mem_cons, List.mem_append, List.not_mem_nil, or_false] at he
      rcases he with rfl | he | rfl
      · exact hd
      · exact eventsList_leave_container (some d) p cs e he hn
      · exact hd
    · intro e he hn
      simp only [List.mem_singleton] at he
      subst he; simp at hn
theorem eventsList_leave_container (p g : Option NodeData) : ∀ ts : List Tree,
    ∀ e ∈ eventsList p g ts, e.entering = false → isContainer e.node.t = true
  | [] => by intro e he; simp [eventsList] at he
  | t :: ts => by
    intro e he hn
    simp only [eventsList, List.mem_append] at he
    rcases he with he | he
    · exact events_leave_container p g t e he hn
    · exact eventsList_leave_container p g ts e he hn
end

theorem prepare_spec (t : Tree) : ∃ rs, prepare t = .ok rs ∧
    flattenReps rs = (events none none t).map (·.node) ∧
    rs.map (·.node) = t.data :: ((events none none t).filter fun e => !e.entering).map (·.node) := by
  have key : ∀ (es : List Event) (r : Rep) (rs : List Rep),
      (∀ e ∈ es, e.entering = false → isContainer e.node.t = true) → r.children.isSome = true →
      ∃ rs', es.foldlM prepareStep (r :: rs) = Except.ok (ε := PyErr) rs' ∧
        flattenReps rs'.reverse = flattenReps (r :: rs).reverse ++ es.map (·.node) ∧
        rs'.reverse.map (·.node) = (r :: rs).reverse.map (·.node) ++
          (es.filter fun e => !e.entering).map (·.node) := by
    intro es
    induction es with
    | nil => intro r rs _ _; exact ⟨r :: rs, rfl, by simp, by simp⟩
    | cons e es ih =>
      intro r rs hc hs
      rw [List.foldlM_cons]
      cases hn : e.entering with
      | true =>
        obtain ⟨cs, hcs⟩ := Option.isSome_iff_exists.mp hs
        obtain ⟨rs', h1, h2, h3⟩ := ih { r with children := some (cs ++ [e.node]) } rs
          (fun e he => hc e (by simp [he])) rfl
        refine ⟨rs', ?_, ?_, ?_⟩
        · simp [prepareStep, hn, hcs, bind, Except.bind, h1]
        · rw [h2]; simp [flattenReps, hcs]
        · rw [h3]; simp [hn]
      | false =>
        have hcon := hc e (by simp) hn
        obtain ⟨rs', h1, h2, h3⟩ := ih (mkRep e.node) (r :: rs)
          (fun e he => hc e (by simp [he])) (by simp [mkRep, hcon])
        refine ⟨rs', ?_, ?_, ?_⟩
        · simp [prepareStep, hn, bind, Except.bind, h1]
        · rw [h2]; simp [flattenReps, mkRep, hcon]
        · rw [h3]; simp [hn, mkRep]
  obtain ⟨d, cs⟩ := t
  unfold prepare
  have hev := events_leave_container none none (.node d cs)
  unfold events at hev ⊢
  simp only at hev ⊢
  split
  · rename_i hd
    simp only [hd, if_true] at hev
    obtain ⟨rs', h1, h2, h3⟩ := key (eventsList (some d) none cs ++
      [⟨false, d, none, none, cs.head?.map (·.data)⟩]) (mkRep d) [] (fun e he => hev e (by simp at he ⊢; right; exact he))
      (by simp [mkRep, hd])
    refine ⟨rs'.reverse, ?_, ?_, ?_⟩
    · rw [List.foldlM_cons]
      simp only [prepareStep, bind, Except.bind] at h1 ⊢
      rw [show (mkRep d : Rep) = mkRep d from rfl]
      simp [h1, pure, Except.pure]
    · rw [h2]; simp [flattenReps, mkRep, hd]
    · rw [h3]; simp [mkRep, Tree.data]
  · rename_i hd
    refine ⟨[mkRep d], rfl, by simp [flattenReps, mkRep, hd], by simp [mkRep, Tree.data]⟩

end CM
