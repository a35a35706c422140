import Verif.Proofs.Compose
/-
C17 (renderer reuse), C38 (JSON dump), C41 (tight lists), C43 (compositional rendering), C48 (safe
rendering ignores raw HTML).
-/
set_option linter.unusedSimpArgs false
namespace CM
open Spec

/-- C43: the HTML of a document is the concatenation of the HTML of the one-block documents made of
its blocks (and if rendering one of them fails, so does rendering the document). -/
theorem C43_concat (o : HtmlOpts) (d : NodeData) (cs : List Tree) (hd : d.t = .document)
    (hk : ∀ c ∈ cs, c.kind ∈ topLevelKinds) :
    renderHtml o (.node d cs) =
      (cs.mapM fun c => renderHtml o (.node d [c])).map List.flatten := by
  have single : ∀ c, renderHtml o (.node d [c]) =
      (runEvents o ⟨[], ['\n'], 0⟩ (events (some d) none c)).map (·.buf) := by
    intro c
    unfold renderHtml
    rw [renderWith_document o d _ hd]
    simp only [eventsList, List.append_nil]
    cases runEvents o ⟨[], ['\n'], 0⟩ (events (some d) none c) <;> rfl
  rw [except_mapM_congr single]
  unfold renderHtml
  rw [renderWith_document o d _ hd, runEvents_blocks cs hk]
  generalize (List.mapM (m := Except PyErr) _ cs) = ys
  cases ys <;> rfl

/-- C43: appending blocks to a document appends to its HTML. -/
theorem C43_append (o : HtmlOpts) (d : NodeData) (as bs : List Tree) (hd : d.t = .document)
    (ha : ∀ c ∈ as, c.kind ∈ topLevelKinds) (hb : ∀ c ∈ bs, c.kind ∈ topLevelKinds) (x y : Str)
    (hx : renderHtml o (.node d as) = .ok x) (hy : renderHtml o (.node d bs) = .ok y) :
    renderHtml o (.node d (as ++ bs)) = .ok (x ++ y) := by
  rw [C43_concat o d as hd ha] at hx
  rw [C43_concat o d bs hd hb] at hy
  rw [C43_concat o d _ hd (by
    intro c hc
    rcases List.mem_append.mp hc with h | h
    · exact ha c h
    · exact hb c h),
    List.mapM_append]
  revert hx hy
  generalize (List.mapM (m := Except PyErr) _ as) = ys
  generalize (List.mapM (m := Except PyErr) _ bs) = zs
  cases ys <;> cases zs <;> simp [Except.map, bind, Except.bind, pure, Except.pure]
  rintro rfl rfl; rfl

/-- A document with a paragraph and a thematic break meets the hypotheses. -/
example : ∃ d cs, (.ok (.node d cs) : Except PyErr Tree).toOption.map (fun _ => ()) = some () ∧
    d.t = .document ∧ (∀ c ∈ cs, c.kind ∈ topLevelKinds) ∧ cs.length = 2 ∧
    (renderHtml {} (.node d cs)).toOption = some "<p>a</p>\n<hr />\n".toList := by
  refine ⟨{ t := .document }, [.node { t := .paragraph } [.node { t := .text, literal := some ['a'] } []],
    .node { t := .thematicBreak } []], rfl, rfl, ?_, rfl, ?_⟩
  · decide
  · decide +kernel

/-- C41: a paragraph whose grandparent is a tight list is rendered as its content alone. -/
theorem C41_tight (o : HtmlOpts) (st : HState) (d p g : NodeData) (l : ListData) (cs : List Tree)
    (hd : d.t = .paragraph) (hg : g.t = .list) (hl : g.listData = some l) (ht : l.tight = true) :
    (events (some p) (some g) (.node d cs)).foldlM (htmlEvent o) st =
      (eventsList (some d) (some p) cs).foldlM (htmlEvent o) st := by
  have e1 : ∀ b st, htmlEvent o st ⟨b, d, some p, some g, cs.head?.map (·.data)⟩ = .ok st := by
    intro b st
    simp [htmlEvent, hd, htmlParagraph_eq, tightOf, hg, hl, ht, bind, Except.bind, pure, Except.pure]
  show runEvents o st _ = runEvents o st _
  unfold events
  simp only [hd, isContainer, if_true]
  rw [runEvents_cons, e1]
  simp only [Except.bind]
  rw [runEvents_append]
  cases runEvents o st (eventsList (some d) (some p) cs) with
  | error => rfl
  | ok st => simp only [Except.bind, runEvents_cons, e1, runEvents_nil]

/-- C41: every other paragraph (grandparent absent, not a list, or a loose list) is wrapped in
`<p>` and `</p>`, on lines of their own. -/
theorem C41_loose (o : HtmlOpts) (st : HState) (d p : NodeData) (g : Option NodeData) (cs : List Tree)
    (hd : d.t = .paragraph)
    (hg : ∀ g', g = some g' → g'.t = .list → ∃ l, g'.listData = some l ∧ l.tight = false) :
    (events (some p) g (.node d cs)).foldlM (htmlEvent o) st =
      ((eventsList (some d) (some p) cs).foldlM (htmlEvent o)
        (st.cr.tag "p".toList (htmlAttrs o d))).map fun st' => (st'.tag "/p".toList).cr := by
  have ht : tightOf g = .ok false := by
    unfold tightOf
    cases g with
    | none => rfl
    | some g' =>
      by_cases h : g'.t = .list
      · obtain ⟨l, h1, h2⟩ := hg g' rfl h
        simp [h, h1, h2]
      · simp [h]
  have e1 : ∀ st, htmlEvent o st ⟨true, d, some p, g, cs.head?.map (·.data)⟩ =
      .ok (st.cr.tag "p".toList (htmlAttrs o d)) := by
    intro st
    simp [htmlEvent, hd, htmlParagraph_eq, ht, bind, Except.bind, pure, Except.pure, lit]
  have e2 : ∀ st, htmlEvent o st ⟨false, d, some p, g, cs.head?.map (·.data)⟩ =
      .ok (st.tag "/p".toList).cr := by
    intro st
    simp [htmlEvent, hd, htmlParagraph_eq, ht, bind, Except.bind, pure, Except.pure, lit]
  show runEvents o st _ = (runEvents o _ _).map _
  unfold events
  simp only [hd, isContainer, if_true]
  rw [runEvents_cons, e1]
  simp only [Except.bind]
  rw [runEvents_append]
  generalize runEvents o (st.cr.tag "p".toList (htmlAttrs o d)) (eventsList (some d) (some p) cs) = x
  cases x with
  | error => rfl
  | ok st => simp only [Except.bind, runEvents_cons, e2, runEvents_nil]; rfl

/-- Both cases occur in parsed documents. -/
example : (toHtml false {} "- a\n- b\n".toList).toOption =
      some "<ul>\n<li>a</li>\n<li>b</li>\n</ul>\n".toList ∧
    (toHtml false {} "- a\n\n- b\n".toList).toOption =
      some "<ul>\n<li>\n<p>a</p>\n</li>\n<li>\n<p>b</p>\n</li>\n</ul>\n".toList := by
  decide +kernel

/-- C48: in safe mode documents that differ only in the text of raw HTML nodes render alike. -/
theorem C48_noninterference (o : HtmlOpts) (hs : o.safe = true) (t t' : Tree)
    (h : eraseRaw t = eraseRaw t') : renderHtml o t = renderHtml o t' := by
  rw [← renderHtml_erase o hs t, h, renderHtml_erase o hs t']

/-- Documents with different raw HTML that agree otherwise. -/
example : ∃ t t' : Tree, eraseRaw t = eraseRaw t' ∧
    (renderHtml {} t).toOption ≠ (renderHtml {} t').toOption ∧
    (renderHtml { safe := true } t).toOption =
      some "<!-- raw HTML omitted -->\n".toList := by
  refine ⟨.node { t := .document } [.node { t := .htmlBlock, literal := some ['a'] } []],
    .node { t := .document } [.node { t := .htmlBlock, literal := some ['b'] } []], rfl, ?_, ?_⟩
  · decide
  · decide +kernel

/-- C17: whatever documents a renderer has rendered before, rendering gives what a fresh one gives.
(`render` resets the output buffer itself; `disable_tags` is what survives.) -/
theorem C17_reuse (o : HtmlOpts) (earlier : List Tree) (k : Int) (t : Tree)
    (h : earlier.foldlM (fun k t => (renderWith o k t).map (·.disableTags)) 0 = .ok k) :
    renderWith o k t = renderWith o 0 t := by
  have hk : ∀ (ts : List Tree) (k0 k : Int),
      ts.foldlM (fun k t => (renderWith o k t).map (·.disableTags)) k0 = Except.ok (ε := PyErr) k → k = k0 := by
    intro ts
    induction ts with
    | nil =>
      intro k0 k h
      simp only [List.foldlM_nil, pure, Except.pure, Except.ok.injEq] at h
      exact h.symm
    | cons t ts ih =>
      intro k0 k h
      rw [List.foldlM_cons] at h
      cases hx : renderWith o k0 t with
      | error => rw [hx] at h; simp [Except.map, bind, Except.bind] at h
      | ok st =>
        rw [hx] at h
        have h1 := runEvents_disable _ hx
        rw [events_delta] at h1
        have h2 := ih _ _ h
        simp only [Int.add_zero] at h1
        rw [h2]; exact h1
  rw [hk _ _ _ h]

example : (["![*a*](b)".toList, "x".toList].mapM (parse false)).toOption.map
    (fun ts => (ts.foldlM (fun k t => (renderWith {} k t).map (·.disableTags)) 0).toOption) =
      some (some 0) := by decide +kernel

/-- C17: as long as the program does not write to the default dictionary itself, a
default-constructed renderer has the default options, whatever other renderers were constructed,
with whatever options, and however their dictionaries were changed. -/
theorem C17_defaults (dicts : Nat → OptDict) (ops : List OptionsOp)
    (h : ∀ op ∈ ops, ∀ f, op ≠ .write 0 f) :
    let w := (ops.foldl OptionsOp.run (startWorld dicts)).newRenderer 0
    w.optsOf (w.renderers.length - 1) = some {} := by
  have key : ∀ (ops : List OptionsOp) (w : World), (∀ op ∈ ops, ∀ f, op ≠ .write 0 f) →
      (w.dicts 0 = {} ∨ w.dicts 0 = OptDict.fill {}) →
      ((ops.foldl OptionsOp.run w).dicts 0 = {} ∨
        (ops.foldl OptionsOp.run w).dicts 0 = OptDict.fill {}) := by
    intro ops
    induction ops with
    | nil => intro w _ h; exact h
    | cons op ops ih =>
      intro w hops h
      rw [List.foldl_cons]
      apply ih _ (fun o ho => hops o (by simp [ho]))
      cases op with
      | construct r =>
        simp only [OptionsOp.run, World.newRenderer]
        split
        · rename_i hr; subst hr; right; exact fill_default _ h
        · exact h
      | write r f =>
        have : r ≠ 0 := by
          rintro rfl; exact hops _ (by simp) f rfl
        simp only [OptionsOp.run, World.update]
        rw [if_neg (Ne.symm this)]
        exact h
  have h0 := key ops (startWorld dicts) h (by left; rfl)
  simp only [World.newRenderer, World.optsOf, List.length_append, List.length_singleton,
    Nat.add_sub_cancel]
  rw [List.getElem?_append_right (Nat.le_refl _)]
  rcases h0 with h0 | h0 <;> simp [h0, OptDict.read, OptDict.fill]

/-- C17: constructing a renderer with one dictionary does not change the options of renderers that
hold another one. -/
theorem C17_separate (w : World) (r k ref : Nat) (hk : w.renderers[k]? = some ref) (hr : ref ≠ r) :
    (w.newRenderer r).optsOf k = w.optsOf k := by
  unfold World.optsOf World.newRenderer
  rw [List.getElem?_append_left (List.getElem?_eq_some_iff.mp hk).1]
  simp [hk, hr]

/-- C17.  What a renderer made from a dictionary does is determined by that dictionary: a missing or
empty soft break stands for a newline, missing flags are off. -/
theorem C17_given_options (w : World) (r : Nat) :
    (w.newRenderer r).optsOf w.renderers.length = some
      { softbreak := if ((w.dicts r).softbreak.getD []) = [] then ['\n'] else (w.dicts r).softbreak.getD []
        safe := (w.dicts r).safe.getD false
        sourcepos := (w.dicts r).sourcepos.getD false } := by
  simp only [World.optsOf, World.newRenderer, List.getElem?_concat_length, Option.map_some, if_true,
    OptDict.read, OptDict.fill]
  cases (w.dicts r).softbreak with
  | none => simp
  | some s => cases s <;> simp

example : ((startWorld fun _ => { softbreak := some [], safe := some true }).newRenderer 1).optsOf 0 =
    some { softbreak := ['\n'], safe := true } := by decide

/-- C17 (violated part): writing to the options of a default-constructed renderer changes what
later default-constructed renderers do. -/
theorem C17_shared_default_counterexample :
    let w := ([.construct 0, .write 0 (fun d => { d with safe := some true }), .construct 0] :
      List OptionsOp).foldl OptionsOp.run (startWorld fun _ => {})
    w.optsOf 1 = some { safe := true } ∧ w.optsOf 1 ≠ some {} := by
  decide

/-- C38: `dumpJSON` never fails on any tree; the nodes it lists, read in order, are those of the walk
(entering events and, for containers, leaving events). -/
theorem C38_flatten (t : Tree) : ∃ rs, prepare t = .ok rs ∧
    flattenReps rs = (events none none t).map (·.node) ∧
    dumpJSON t = .ok ((Json.arr (rs.map Rep.json)).dump 0) := by
  obtain ⟨rs, h1, h2, _⟩ := prepare_spec t
  exact ⟨rs, h1, h2, by simp [dumpJSON, h1, bind, Except.bind, pure, Except.pure]⟩

/-- C38: the top-level entries are the root and, for every container, its leaving event; so the dump
is flat rather than nested. -/
theorem C38_toplevel (t : Tree) (rs : List Rep) (h : prepare t = .ok rs) :
    rs.map (·.node) = t.data :: ((events none none t).filter fun e => !e.entering).map (·.node) := by
  obtain ⟨rs', h1, _, h3⟩ := prepare_spec t
  rw [h1] at h; simp only [Except.ok.injEq] at h; subst h; exact h3

/-- A block quote with a paragraph: 1 root entry and 3 leaving entries; 7 events in all. -/
example : ((parse false "> a".toList).toOption.bind fun t => (prepare t).toOption.map fun rs =>
    (rs.length, (flattenReps rs).length)) = some (4, 7) := by decide +kernel

end CM
