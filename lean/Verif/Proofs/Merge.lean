import Verif.Proofs.Shows
/-
Texts with definitions, one after the other: C72.
-/
namespace CM
open Spec

/-! ### The inline phase looks up labels only -/

theorem backtickLoop_refs (s : Str) (m m' : RefMap) (sm : Bool) (ticks : Str) : ∀ n pos : Nat,
    backtickLoop ⟨s, m, sm⟩ ticks n pos = backtickLoop ⟨s, m', sm⟩ ticks n pos
  | 0, _ => rfl
  | n + 1, pos => by
    unfold backtickLoop
    rw [show Ctx.search_ ⟨s, m, sm⟩ reTicks pos = Ctx.search_ ⟨s, m', sm⟩ reTicks pos from rfl]
    cases Ctx.search_ ⟨s, m', sm⟩ reTicks pos with
    | none => rfl
    | some x =>
      simp only
      by_cases h : (x.1 == ticks) = true
      · rw [if_pos h, if_pos h]
      · rw [if_neg h, if_neg h]; exact backtickLoop_refs s m m' sm ticks n x.2

theorem parseCloseBracket_refs {s : Str} {m m' : RefMap} {sm : Bool} (h : ∀ k, m.get k = m'.get k) (st : IState) :
    parseCloseBracket ⟨s, m, sm⟩ st = parseCloseBracket ⟨s, m', sm⟩ st := by
  have hr : ∀ o a b, referenceLink ⟨s, m, sm⟩ o a b = referenceLink ⟨s, m', sm⟩ o a b := by
    intro o a b
    simp only [referenceLink, h]
    rfl
  simp only [parseCloseBracket, hr]
  rfl

theorem parseInline_refs {s : Str} {m m' : RefMap} {sm : Bool} (h : ∀ k, m.get k = m'.get k) (st : IState) :
    parseInline ⟨s, m, sm⟩ st = parseInline ⟨s, m', sm⟩ st := by
  have hb : parseBackticks ⟨s, m, sm⟩ st = parseBackticks ⟨s, m', sm⟩ st := by
    simp only [parseBackticks, backtickLoop_refs s m m' sm]
    rfl
  unfold parseInline
  rw [parseCloseBracket_refs h, hb]
  rfl

theorem inlineLoop_refs {s : Str} {m m' : RefMap} {sm : Bool} (h : ∀ k, m.get k = m'.get k) : ∀ (n : Nat) (st : IState),
    inlineLoop ⟨s, m, sm⟩ n st = inlineLoop ⟨s, m', sm⟩ n st
  | 0, _ => rfl
  | n + 1, st => by
    unfold inlineLoop
    rw [parseInline_refs h]
    cases parseInline ⟨s, m', sm⟩ st with
    | error => rfl
    | ok r =>
      cases r with
      | none => rfl
      | some r => exact inlineLoop_refs h n r

theorem parseInlines_refs {m m' : RefMap} {sm : Bool} (h : ∀ k, m.get k = m'.get k) (x : Str) : parseInlines sm m x = parseInlines sm m' x := by
  unfold parseInlines
  simp only [inlineLoop_refs h]

mutual
theorem inlines_refs {m m' : RefMap} {sm : Bool} (h : ∀ k, m.get k = m'.get k) : ∀ t : Tree, processInlines sm m t = processInlines sm m' t
  | .node d cs => by
    unfold processInlines
    rw [inlinesList_refs h cs]
    simp only [parseInlines_refs h]
theorem inlinesList_refs {m m' : RefMap} {sm : Bool} (h : ∀ k, m.get k = m'.get k) : ∀ ts : List Tree,
    processInlinesList sm m ts = processInlinesList sm m' ts
  | [] => rfl
  | t :: ts => by
    rw [processInlinesList, processInlinesList, inlines_refs h t, inlinesList_refs h ts]
end

theorem bareL_length : ∀ cs : List Tree, (bareL cs).length = cs.length
  | [] => rfl
  | _ :: cs => by rw [bareL, List.length_cons, List.length_cons, bareL_length cs]

/-! ### Both parses -/

theorem text_blocks (s : Str) : ∃ r d cs, blockPhase PState.init s = .ok r ∧ r.doc = some (.node d cs) ∧ d.t = .document := by
  obtain ⟨r, _, _, _, h1, _, _, _, h2, _, _, h3, _⟩ := blockPhase_ok PState.init s
  exact ⟨r, _, _, h1, h3, h2⟩

/-- The blocks of a text with the definitions `m`, without their positions. -/
def blocksWith (smart : Bool) (m : RefMap) (cs : List Tree) : Except PyErr (List Tree) := (processInlinesList smart m cs).map bareL

theorem blocksWith_refs {smart : Bool} {m m' : RefMap} (h : ∀ k, m.get k = m'.get k) (cs : List Tree) : blocksWith smart m cs = blocksWith smart m' cs := by
  unfold blocksWith
  rw [inlinesList_refs h]

theorem parse_inlines {smart : Bool} {s : Str} {r : PState} {d : NodeData} {cs : List Tree} (h1 : blockPhase PState.init s = .ok r)
    (h2 : r.doc = some (.node d cs)) (h3 : d.t = .document) : parse smart s = (processInlinesList smart r.refmap cs).map fun xs => .node d xs := by
  rw [parse_blocks h1 h2, processInlines]
  simp only [h3, bind, Except.bind]
  cases processInlinesList smart r.refmap cs <;> rfl

theorem parse_blocksWith {smart : Bool} {s : Str} {r : PState} {d : NodeData} {cs : List Tree} (h1 : blockPhase PState.init s = .ok r)
    (h2 : r.doc = some (.node d cs)) (h3 : d.t = .document) :
    (parse smart s).map (fun t => bareL t.children) = blocksWith smart r.refmap cs := by
  rw [parse_inlines h1 h2 h3, blocksWith]
  cases processInlinesList smart r.refmap cs <;> rfl

theorem parse_of_blocks {smart : Bool} {s : Str} {r : PState} {d d1 : NodeData} {cs xs : List Tree} (h1 : blockPhase PState.init s = .ok r)
    (h2 : r.doc = some (.node d cs)) (h3 : d.t = .document) (h : parse smart s = .ok (.node d1 xs)) :
    processInlinesList smart r.refmap cs = .ok xs := by
  rw [parse_inlines h1 h2 h3] at h
  cases e : processInlinesList smart r.refmap cs with
  | error => rw [e] at h; cases h
  | ok y => rw [e] at h; cases h; rfl

/-- The blocks of both texts. -/
theorem merge_blocks_of {s1 s2 s : Str} {as bs : List Str} (h1 : TextLines s1 as) (h2 : TextLines s2 bs) (h : TextLines s (as ++ [] :: bs))
    {r1 r2 : PState} (e1 : blockPhase PState.init s1 = .ok r1) (e2 : blockPhase PState.init s2 = .ok r2) {d1 d2 : NodeData} {cs1 cs2 : List Tree}
    (hd1 : r1.doc = some (.node d1 cs1)) (hd2 : r2.doc = some (.node d2 cs2)) {smart : Bool}
    (hk' : ∀ t, cs1.getLast? = some t → t.data.t ∈ endKinds) :
    ∃ r d cs, blockPhase PState.init s = .ok r ∧ r.refmap = mergeRefs r1.refmap r2.refmap ∧ r.doc = some (.node d (markLastChild cs1 ++ cs)) ∧
      d.t = .document ∧ cs.length = cs2.length ∧ (∀ m, blocksWith smart m cs = blocksWith smart m cs2) ∧
      (∀ m, blocksWith smart m (markLastChild cs1) = blocksWith smart m cs1) ∧
      ∀ m, blocksWith smart m (markLastChild cs1 ++ cs) =
        (blocksWith smart m cs1).bind fun x => (blocksWith smart m cs2).map fun y => x ++ y := by
  obtain ⟨β, r, d2', d, cs2', cs, _, k1, k2, k3, k4, k5, k6, k7⟩ := concat_blocks h1 h2 h e1 e2 hd1 hk'
  rw [hd2] at k3
  cases k3
  have k8 : ∀ m, blocksWith smart m cs = blocksWith smart m cs2 := by
    intro m
    unfold blocksWith
    rw [← inlines_bareL smart m cs, ← bareL_rel k7, inlines_bareL]
  have k9 : ∀ m, blocksWith smart m (markLastChild cs1) = blocksWith smart m cs1 := by
    intro m
    unfold blocksWith
    rw [← inlines_bareL smart m (markLastChild cs1), bareL_mark, inlines_bareL]
  have k10 : cs.length = cs2.length := by
    have := congrArg List.length (bareL_rel k7)
    rw [bareL_length, bareL_length] at this
    exact this.symm
  refine ⟨r, d, cs, k1, k2, k4, k6, k10, k8, k9, fun m => ?_⟩
  rw [← k8 m, ← k9 m]
  unfold blocksWith
  rw [inlines_append]
  cases processInlinesList smart m (markLastChild cs1) with
  | error => rfl
  | ok x =>
    cases processInlinesList smart m cs with
    | error => rfl
    | ok y => simp [Except.map, Except.bind, bareL_append]

theorem merge_blocks {s1 s2 s : Str} {as bs : List Str} (h1 : TextLines s1 as) (h2 : TextLines s2 bs) (h : TextLines s (as ++ [] :: bs))
    {r1 r2 : PState} (e1 : blockPhase PState.init s1 = .ok r1) (e2 : blockPhase PState.init s2 = .ok r2) {d1 d2 : NodeData} {cs1 cs2 : List Tree}
    (hd1 : r1.doc = some (.node d1 cs1)) (hd2 : r2.doc = some (.node d2 cs2)) (ht1 : d1.t = .document) {smart : Bool} {d0 : NodeData} {xs1 : List Tree}
    (hp : parse smart s1 = .ok (.node d0 xs1)) (hk : ∀ t, xs1.getLast? = some t → t.data.t ∈ endKinds) :
    ∃ r d cs, blockPhase PState.init s = .ok r ∧ r.refmap = mergeRefs r1.refmap r2.refmap ∧ r.doc = some (.node d (markLastChild cs1 ++ cs)) ∧
      d.t = .document ∧ cs.length = cs2.length ∧ (∀ m, blocksWith smart m cs = blocksWith smart m cs2) ∧
      (∀ m, blocksWith smart m (markLastChild cs1) = blocksWith smart m cs1) ∧
      ∀ m, blocksWith smart m (markLastChild cs1 ++ cs) =
        (blocksWith smart m cs1).bind fun x => (blocksWith smart m cs2).map fun y => x ++ y := by
  refine merge_blocks_of h1 h2 h e1 e2 hd1 hd2 ?_
  intro t ht
  obtain ⟨u, hu1, hu2⟩ := inlines_last smart _ (parse_of_blocks e1 hd1 ht1 hp) ht
  rw [← hu2]; exact hk u hu1

/-! ### HTML -/

theorem html_bare {o : HtmlOpts} (ho : o.sourcepos = false) {d d' : NodeData} {x y : List Tree} (h : d.t = .document) (h' : d'.t = .document)
    (he : bareL x = bareL y) : renderHtml o (.node d x) = renderHtml o (.node d' y) := by
  have t0 : tightOf (some d) = .ok false := by simp [tightOf, h]
  have t1 : tightOf (some d') = .ok false := by simp [tightOf, h']
  have e0 := eventsList_same (p := some d) (p' := some d') (g := none) (g' := none) rfl (t0.trans t1.symm) rfl he
  unfold renderHtml
  rw [renderWith_document o d _ h, renderWith_document o d' _ h', runEvents_same ho e0]

theorem html_same {smart : Bool} {o : HtmlOpts} (ho : o.sourcepos = false) {s s' : Str}
    (h : (parse smart s).map (fun t => bareL t.children) = (parse smart s').map fun t => bareL t.children) : toHtml smart o s = toHtml smart o s' := by
  unfold toHtml
  cases e1 : parse smart s with
  | error x =>
    rw [e1] at h
    cases e2 : parse smart s' with
    | error y => rw [e2] at h; cases h; rfl
    | ok t => rw [e2] at h; cases h
  | ok t =>
    rw [e1] at h
    cases e2 : parse smart s' with
    | error y => rw [e2] at h; cases h
    | ok t' =>
      rw [e2] at h
      obtain ⟨d, x⟩ := t
      obtain ⟨d', y⟩ := t'
      simp only [Except.map, Except.ok.injEq] at h
      exact html_bare ho (parse_doc e1).1 (parse_doc e2).1 h

/-- The HTML of the first blocks and that of the others. -/
theorem html_parts {o : HtmlOpts} (ho : o.sourcepos = false) {d : NodeData} (hd : d.t = .document) {x y : List Tree}
    (hx : ∀ c ∈ x ++ y, c.kind ∈ topLevelKinds) {z : Str} (h : renderHtml o (.node d (x ++ y)) = .ok z) :
    ∃ a b, renderHtml o (.node d x) = .ok a ∧ renderHtml o (.node d y) = .ok b ∧ z = a ++ b := by
  have := concat_render ho (d := d) (d1 := d) (d2 := d) (x := x) (y := y) (z := x) (w := y) hd hd hd rfl rfl
    (fun c hc => hx c (List.mem_append_left _ hc)) (fun c hc => hx c (List.mem_append_right _ hc))
  rw [h] at this
  cases e1 : renderHtml o (.node d x) with
  | error => rw [e1] at this; cases this
  | ok a =>
    cases e2 : renderHtml o (.node d y) with
    | error => rw [e1, e2] at this; cases this
    | ok b =>
      rw [e1, e2] at this
      refine ⟨a, b, rfl, rfl, ?_⟩
      simpa [Except.bind, Except.map] using this

end CM
