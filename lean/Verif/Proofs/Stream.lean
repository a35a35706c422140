import Verif.Proofs.Concat
import Verif.Proofs.Merge
import Verif.Spec.Stream
/-
Lines that follow change only the last block (C80): the closed blocks of the document stay.
-/
namespace CM
open Spec

/-- The closed blocks of the document begin with `U`. -/
inductive Based (U : List Tree) : List OpenBlk → Prop
  | doc {b : OpenBlk} : b.data.t = .document → U <+: b.children.map unblank → Based U [b]
  | cons {a b : OpenBlk} {r : List OpenBlk} : Based U (b :: r) → Based U (a :: b :: r)

variable {U : List Tree}

theorem Based.head {b b' : OpenBlk} {r : List OpenBlk} (h : Based U (b :: r)) (hb : b.data.t ≠ .document) : Based U (b' :: r) := by
  cases h with
  | doc h1 _ => exact absurd h1 hb
  | cons h => exact .cons h

theorem Based.rel {l l' : List OpenBlk} (h : Based U l) (hr : List.Forall₂ (fun b b' => b'.data.t = b.data.t ∧
    b.children.map unblank <+: b'.children.map unblank) l l') : Based U l' := by
  induction h generalizing l' with
  | doc h1 h2 =>
    cases hr with
    | cons a hr => cases hr; exact .doc (by rw [a.1]; exact h1) (h2.trans a.2)
  | cons h ih =>
    cases hr with
    | cons a hr =>
      have := ih hr
      cases hr with
      | cons b hr => exact .cons this

theorem Based.close {b par : OpenBlk} {up : List OpenBlk} (t : Option Tree) (h : Based U (b :: par :: up)) :
    Based U ({ par with children := par.children ++ t.toList } :: up) := by
  cases h with
  | cons h =>
    refine h.rel (.cons ⟨rfl, ?_⟩ (List.forall₂_same.2 fun x _ => ⟨rfl, List.prefix_rfl⟩))
    rw [List.map_append]
    exact List.prefix_append _ _

theorem based_step {c c' : Core} (h : Based U c.spine) (hs : Step c c') : Based U c'.spine := by
  cases hs with
  | close l e _ _ hf => rw [e] at h; exact h.close _
  | push e _ _ => rw [e] at h; show Based U (_ :: c.spine); rw [e]; exact .cons h
  | paragraph off e _ _ _ _ => rw [e] at h; show Based U (_ :: c.spine); rw [e]; exact .cons h
  | pushItem col l e _ _ _ => rw [e] at h; show Based U (_ :: c.spine); rw [e]; exact .cons h
  | pushList col l e _ _ => rw [e] at h; show Based U (_ :: _ :: c.spine); rw [e]; exact .cons (.cons h)
  | @addLine b r x k off e h1 h2 =>
    rw [e] at h
    exact h.head (by intro hd; rw [hd] at h1; cases h1)
  | @flags b r blank flag e =>
    rw [e] at h
    refine h.rel (.cons ⟨?_, ?_⟩ ?_)
    · cases blank <;> rfl
    · cases blank with
      | false => exact List.prefix_rfl
      | true =>
        show _ <+: (markLastChild b.children).map unblank
        rw [unblank_mark]
        exact List.prefix_rfl
    · rw [List.forall₂_map_right_iff]
      exact List.forall₂_same.2 fun x _ => ⟨rfl, List.prefix_rfl⟩
  | @refs b r x m hh e h1 h2 h3 =>
    rw [e] at h
    exact h.head (by rw [h1]; decide)
  | @setext b r x x' m hh lvl e h1 h2 h3 =>
    rw [e] at h
    exact h.head (by rw [h1]; decide)

theorem based_lineSteps {c c' : Core} (h : Based U c.spine) (hs : LineSteps c c') : Based U c'.spine := by
  have key : ∀ {c1 : Core}, Steps c c1 → Based U c1.spine := by
    intro c1 hs
    induction hs with
    | refl => exact h
    | tail _ hs ih => exact based_step ih hs
  cases hs with
  | steps hs => exact key hs
  | final hs hf =>
    have := key hs
    cases hf with
    | close e _ _ hf => rw [e] at this; exact this.close _

theorem based_lines : ∀ (ls : List Str) {p p' : PState}, Based U p.spine → Ready p → ls.foldlM incorporateLine p = .ok p' → Based U p'.spine := by
  intro ls
  induction ls with
  | nil => intro p p' h _ e; cases e; exact h
  | cons l ls ih =>
    intro p p' h hr e
    obtain ⟨p1, c, e1, e2, e3, e4⟩ := incorporateLine_ok hr l
    rw [List.foldlM_cons, e1] at e
    refine ih ?_ e4 e
    have e5 : p1.spine = c.spine := (congrArg Core.spine e3 :)
    rw [e5]
    exact based_lineSteps (c := lineCore p l) h e2

theorem based_closing {c c' : Core} (h : Based U c.spine) (hs : Relation.ReflTransGen Closing c c') : Based U c'.spine := by
  induction hs with
  | refl => exact h
  | tail _ hs ih => exact based_step ih hs.step

/-- The blocks of the document are `D`, or `D` and the last one. -/
def Ended (D : List Tree) (sp : List OpenBlk) : Prop :=
  (∃ b o, sp = [b] ∧ b.children = D ++ Option.toList o) ∨ ∃ x A b, sp = x :: A ++ [b] ∧ b.children = D

theorem ended_closing {D : List Tree} {c c' : Core} (h : Ended D c.spine) (hs : Relation.ReflTransGen Closing c c') : Ended D c'.spine := by
  induction hs with
  | refl => exact h
  | tail _ hs ih =>
    obtain ⟨l, b, par, up, t, m, h1, h2, h3, h4, rfl⟩ := hs
    rw [h1] at ih
    rcases ih with ⟨b', o, g, _⟩ | ⟨x, A, b', g, hb⟩
    · cases g
    · cases A with
      | nil =>
        cases g
        exact .inl ⟨_, t, rfl, by rw [← hb]⟩
      | cons y A =>
        cases g
        exact .inr ⟨_, A, b', rfl, hb⟩

/-- The blocks that are there after the lines of a text are those of the document, but the last. -/
theorem stream_end {len : Nat} {p : PState} (hr : Ready p) (hl : p.lineNumber = len) :
    ∃ r d D cs, finalizeAll len (p.spine.length + 1) p = .ok r ∧ r.doc = some (.node d cs) ∧ d.t = .document ∧
      Based (D.map unblank) p.spine ∧ cs.dropLast <+: D ∧ ∀ U, Based U p.spine → U <+: cs.map unblank := by
  obtain ⟨p', c2, b, f1, f2, f3, f4, f5, f6, f7, f8⟩ := finalizeAll_ok p.spine (p.spine.length + 1) len
    { p with lineNumber := len + 1 } rfl (by omega) hr.good rfl
    (by
      intro d hd hnd
      rcases hr.le d hd with h | h
      · exact Nat.le_trans h (Nat.le_of_eq hl)
      · exact absurd h.1 hnd)
  rw [finalizeAll_line] at f1
  cases hfin : finalizeAll len (p.spine.length + 1) p with
  | error e => rw [hfin] at f1; simp [Except.map] at f1
  | ok q =>
    rw [hfin] at f1
    simp only [Except.map, Except.ok.injEq] at f1
    obtain ⟨d, hd1, hd2⟩ := hr.good.chain.last_doc
    obtain ⟨A, b0, hA⟩ : ∃ A b, p.spine = A ++ [b] := by
      rcases List.eq_nil_or_concat p.spine with h0 | ⟨A, b, h0⟩
      · rw [PState.ds, h0] at hd1; simp at hd1
      · exact ⟨A, b, by simpa using h0⟩
    have hb : b0.data.t = .document := by
      rw [PState.ds, hA] at hd1
      simp at hd1
      rw [hd1]; exact hd2
    refine ⟨q, closeData len c2.prevLen b.data, b0.children, b.children, rfl, by rw [← f7, ← f1], f4, ?_, ?_, ?_⟩
    · rw [hA]
      clear hA hd1
      induction A with
      | nil => exact .doc hb List.prefix_rfl
      | cons a A ih =>
        cases A with
        | nil => exact .cons ih
        | cons x A => exact .cons ih
    · have h0 : Ended b0.children p.spine := by
        cases A with
        | nil => exact .inl ⟨b0, none, hA, by simp⟩
        | cons a A => exact .inr ⟨a, A, b0, hA, rfl⟩
      have := ended_closing (c := ({ p with lineNumber := len + 1 } : PState).core) h0 f2
      rw [f3] at this
      rcases this with ⟨b', o, g, hb'⟩ | ⟨x, A, b', g, hb'⟩
      · cases g
        rw [hb']
        cases o with
        | none => simpa using List.dropLast_prefix _
        | some t => simp
      · simp at g
    · intro U hU
      have := based_closing (c := ({ p with lineNumber := len + 1 } : PState).core) hU f2
      rw [f3] at this
      cases this with
      | doc _ h => exact h

/-- The block structures of a text and of a text that goes on. -/
theorem stream_blocks {s1 s : Str} {as bs : List Str} (h1 : TextLines s1 as) (h : TextLines s (as ++ bs)) :
    ∃ r1 r d1 d cs1 cs, blockPhase PState.init s1 = .ok r1 ∧ blockPhase PState.init s = .ok r ∧ r1.doc = some (.node d1 cs1) ∧
      r.doc = some (.node d cs) ∧ d1.t = .document ∧ d.t = .document ∧ cs1.dropLast.map unblank <+: cs.map unblank := by
  unfold blockPhase
  simp only [inputLines_of h1, inputLines_of h]
  obtain ⟨p1, f1, f2, f3⟩ := lines_ok as [] PState.init.reset (ready_reset PState.init).1 (ready_reset PState.init).2
  obtain ⟨p2, g1, g2, g3⟩ := lines_ok bs _ p1 f2 f3
  obtain ⟨r1, d1, D, cs1, a1, a2, a3, a4, a5, -⟩ := stream_end (len := as.length) f2 (by have h := f3.line_eq; rw [List.nil_append] at h; exact h)
  obtain ⟨r, d, _, cs, b1, b2, b3, -, -, b6⟩ := stream_end (len := (as ++ bs).length) g2 (by have h := g3.line_eq; rw [List.nil_append] at h; exact h)
  refine ⟨r1, r, d1, d, cs1, cs, ?_, ?_, a2, b2, a3, b3, ?_⟩
  · rw [f1]; exact a1
  · rw [foldlM_append_ok f1, g1]; exact b1
  · obtain ⟨x, hx⟩ := a5
    refine List.IsPrefix.trans ?_ (b6 _ (based_lines bs a4 f2 g1))
    rw [← hx, List.map_append]
    exact List.prefix_append _ _

/-! ### Inlines -/

theorem inlines_forall {sm : Bool} {m : RefMap} : ∀ {cs xs : List Tree}, processInlinesList sm m cs = .ok xs →
    List.Forall₂ (fun t u => processInlines sm m t = .ok u) cs xs
  | [], xs, h => by rw [processInlinesList] at h; cases h; exact .nil
  | t :: cs, xs, h => by
    rw [processInlinesList] at h
    cases h1 : processInlines sm m t with
    | error => rw [h1] at h; cases h
    | ok y =>
      cases h2 : processInlinesList sm m cs with
      | error => rw [h1, h2] at h; cases h
      | ok z => rw [h1, h2] at h; cases h; exact .cons h1 (inlines_forall h2)

theorem inlines_unblank {sm : Bool} {m : RefMap} {t u : Tree} (h : processInlines sm m t = .ok u) :
    processInlines sm m (unblank t) = .ok (unblank u) := by
  obtain ⟨d, cs⟩ := t
  obtain ⟨t, sp, a1, a2, a3, sc, a5, a6, a7, a8, a9, a10, a11, a12, a13, a14, a15, a16, a17⟩ := d
  simp only [unblank, Tree.data, Tree.children, processInlines] at h ⊢
  cases h1 : processInlinesList sm m cs with
  | error => rw [h1] at h; cases h
  | ok x =>
    rw [h1] at h
    simp only [Except.bind, bind, pure, Except.pure] at h ⊢
    by_cases hp : (t == .paragraph || t == .heading) = true
    · rw [if_pos hp] at h ⊢
      cases sc with
      | none => cases h
      | some c =>
        simp only [] at h ⊢
        cases h2 : parseInlines sm m c with
        | error => rw [h2] at h; cases h
        | ok => rw [h2] at h; cases h; rfl
    · rw [if_neg hp] at h ⊢; cases h; rfl

theorem forall_prefix {α β : Type} {R : α → β → Prop} (hR : ∀ a b c, R a b → R a c → b = c) : ∀ {as bs : List α} {xs ys : List β},
    List.Forall₂ R as xs → List.Forall₂ R bs ys → as <+: bs → xs <+: ys
  | _, _, _, _, .nil, _, _ => List.nil_prefix
  | _, _, _, _, .cons _ _, .nil, h => by simp at h
  | _, _, _, _, .cons h1 h2, .cons h3 h4, h => by
    rw [List.cons_prefix_cons] at h
    obtain ⟨rfl, h⟩ := h
    rw [hR _ _ _ h1 h3, List.cons_prefix_cons]
    exact ⟨rfl, forall_prefix hR h2 h4 h⟩

theorem stream_inlines {sm : Bool} {m : RefMap} {cs1 cs xs1 xs : List Tree} (h1 : processInlinesList sm m cs1 = .ok xs1)
    (h : processInlinesList sm m cs = .ok xs) (hp : cs1.dropLast.map unblank <+: cs.map unblank) :
    xs1.dropLast.map unblank <+: xs.map unblank := by
  have un : ∀ {a b : List Tree}, List.Forall₂ (fun t u => processInlines sm m t = .ok u) a b →
      List.Forall₂ (fun t u => processInlines sm m t = .ok u) (a.map unblank) (b.map unblank) := by
    intro a b h
    rw [List.forall₂_map_left_iff, List.forall₂_map_right_iff]
    exact h.imp fun _ _ h => inlines_unblank h
  have f1 := inlines_forall h1
  have f2 := inlines_forall h
  have hl := f1.length_eq
  have f3 : List.Forall₂ (fun t u => processInlines sm m t = .ok u) cs1.dropLast xs1.dropLast := by
    rw [List.dropLast_eq_take, List.dropLast_eq_take, hl]
    exact List.forall₂_take _ f1
  refine forall_prefix ?_ (un f3) (un f2) hp
  intro a b c hb hc
  rw [hb] at hc
  exact Except.ok.inj hc

theorem stream_parse {smart : Bool} {s1 s : Str} {as bs : List Str} (h1 : TextLines s1 as) (h : TextLines s (as ++ bs))
    (hn : ∀ l ∈ as ++ bs, ¬ [']', ':'] <:+: l) {d1 d : NodeData} {xs1 xs : List Tree}
    (e1 : parse smart s1 = .ok (.node d1 xs1)) (e : parse smart s = .ok (.node d xs)) :
    xs1.dropLast.map unblank <+: xs.map unblank := by
  obtain ⟨r1, r, d1', d', cs1, cs, a1, a2, a3, a4, a5, a6, a7⟩ := stream_blocks h1 h
  have m1 := no_definitions h1 (fun l hl => hn l (List.mem_append_left _ hl)) a1
  have m := no_definitions h hn a2
  have f1 := parse_of_blocks a1 a3 a5 e1
  have f := parse_of_blocks a2 a4 a6 e
  rw [m1] at f1
  rw [m] at f
  exact stream_inlines f1 f a7

/-! ### Blocks without the text in them -/

mutual
theorem inlines_blocksOf {sm : Bool} {m : RefMap} : ∀ {t u : Tree}, processInlines sm m t = .ok u → blocksOf u = blocksOf t
  | .node d cs, u, h => by
    unfold processInlines at h
    cases h1 : processInlinesList sm m cs with
    | error => rw [h1] at h; cases h
    | ok x =>
      have ih := inlines_blocksOfAll h1
      rw [h1] at h
      simp only [Except.bind, bind, pure, Except.pure] at h
      by_cases hp : (d.t == .paragraph || d.t == .heading) = true
      · rw [if_pos hp] at h
        cases hc : d.stringContent with
        | none => rw [hc] at h; cases h
        | some c =>
          rw [hc] at h
          cases h2 : parseInlines sm m c with
          | error => simp only [h2] at h; cases h
          | ok =>
            simp only [h2] at h
            cases h
            rw [blocksOf, blocksOf]
            rcases (by simpa using hp : d.t = .paragraph ∨ d.t = .heading) with e | e <;> rw [e]
      · rw [if_neg hp] at h
        cases h
        rw [blocksOf, blocksOf, ih]
theorem inlines_blocksOfAll {sm : Bool} {m : RefMap} : ∀ {ts us : List Tree}, processInlinesList sm m ts = .ok us → blocksOfAll us = blocksOfAll ts
  | [], us, h => by rw [processInlinesList] at h; cases h; rfl
  | t :: cs, xs, h => by
    rw [processInlinesList] at h
    cases h1 : processInlines sm m t with
    | error => rw [h1] at h; cases h
    | ok y =>
      cases h2 : processInlinesList sm m cs with
      | error => rw [h1, h2] at h; cases h
      | ok z =>
        rw [h1, h2] at h
        cases h
        rw [blocksOfAll, blocksOfAll, inlines_blocksOf h1, inlines_blocksOfAll h2]
end

theorem blocksOf_unblank : ∀ t : Tree, blocksOf (unblank t) = unblank (blocksOf t)
  | .node d cs => by rw [blocksOf]; rfl

theorem blocks_map {sm : Bool} {m : RefMap} {ts us : List Tree} (h : List.Forall₂ (fun t u => processInlines sm m t = .ok u) ts us) :
    us.map (fun t => unblank (blocksOf t)) = (ts.map unblank).map blocksOf := by
  induction h with
  | nil => rfl
  | cons h _ ih => rw [List.map_cons, List.map_cons, List.map_cons, ih, inlines_blocksOf h, blocksOf_unblank]

theorem stream_outline {smart : Bool} {s1 s : Str} {as bs : List Str} (h1 : TextLines s1 as) (h : TextLines s (as ++ bs))
    {d1 d : NodeData} {xs1 xs : List Tree} (e1 : parse smart s1 = .ok (.node d1 xs1)) (e : parse smart s = .ok (.node d xs)) :
    xs1.dropLast.map (fun t => unblank (blocksOf t)) <+: xs.map (fun t => unblank (blocksOf t)) := by
  obtain ⟨r1, r, d1', d', cs1, cs, a1, a2, a3, a4, a5, a6, a7⟩ := stream_blocks h1 h
  have f1 := inlines_forall (parse_of_blocks a1 a3 a5 e1)
  have f := inlines_forall (parse_of_blocks a2 a4 a6 e)
  obtain ⟨y, hy⟩ := a7
  rw [blocks_map f, List.map_dropLast, blocks_map f1, ← List.map_dropLast, ← List.map_dropLast, ← hy, List.map_append]
  exact List.prefix_append _ _

/-! ### HTML, with source positions or without -/

/-- A node without the flag that says whether an empty line follows. -/
def unmark (d : NodeData) : NodeData := { d with lastLineBlank := false }

mutual
def unmarkT : Tree → Tree
  | .node d cs => .node (unmark d) (unmarkL cs)
def unmarkL : List Tree → List Tree
  | [] => []
  | t :: ts => unmarkT t :: unmarkL ts
end

theorem unmarkL_append : ∀ a b : List Tree, unmarkL (a ++ b) = unmarkL a ++ unmarkL b
  | [], _ => rfl
  | t :: a, b => by rw [List.cons_append, unmarkL, unmarkL, unmarkL_append a b, List.cons_append]

theorem unmarkL_unblank : ∀ ts : List Tree, unmarkL (ts.map unblank) = unmarkL ts
  | [] => rfl
  | .node d cs :: ts => by rw [List.map_cons, unmarkL, unmarkL, unmarkL_unblank ts]; rfl

/-- What a renderer sees of an event. -/
structure LikeEvent (e e' : Event) : Prop where
  entering : e.entering = e'.entering
  node : unmark e.node = unmark e'.node
  parent : e.parent.isSome = e'.parent.isSome
  tight : tightOf e.grandparent = tightOf e'.grandparent

theorem htmlEvent_like {o : HtmlOpts} {e e' : Event} (h : LikeEvent e e') (st : HState) :
    htmlEvent o st e = htmlEvent o st e' := by
  obtain ⟨en, d, p, g, f⟩ := e
  obtain ⟨en', d', p', g', f'⟩ := e'
  obtain ⟨rfl, h2, h3, h4⟩ := h
  simp only at h2 h3 h4
  have n1 : d.t = d'.t := (congrArg NodeData.t h2 :)
  have n2 : d.literal = d'.literal := (congrArg NodeData.literal h2 :)
  have n3 : d.listData = d'.listData := (congrArg NodeData.listData h2 :)
  have n4 : d.info = d'.info := (congrArg NodeData.info h2 :)
  have n5 : d.destination = d'.destination := (congrArg NodeData.destination h2 :)
  have n6 : d.title = d'.title := (congrArg NodeData.title h2 :)
  have n7 : d.level = d'.level := (congrArg NodeData.level h2 :)
  have n8 : d.onEnter = d'.onEnter := (congrArg NodeData.onEnter h2 :)
  have n9 : d.onExit = d'.onExit := (congrArg NodeData.onExit h2 :)
  have n10 : d.sourcepos = d'.sourcepos := (congrArg NodeData.sourcepos h2 :)
  have ha : htmlAttrs o d = htmlAttrs o d' := by unfold htmlAttrs; rw [n10]
  have hp : htmlParagraph o ⟨en, d, p, g, f⟩ st = htmlParagraph o ⟨en, d', p', g', f'⟩ st := by
    rw [htmlParagraph_eq, htmlParagraph_eq]
    cases p <;> cases p' <;> first | rfl | cases h3 | skip
    simp only [h4, ha]
  unfold htmlEvent
  simp only [hp, htmlLink, htmlImage, htmlHeading, htmlCodeBlock, htmlList, ha, n1, n2, n3, n4, n5, n6, n7, n8, n9]

theorem runEvents_like {o : HtmlOpts} {es es' : List Event} (h : List.Forall₂ LikeEvent es es') :
    ∀ st, runEvents o st es = runEvents o st es' := by
  induction h with
  | nil => intro st; rfl
  | @cons e e' es es' h1 _ ih =>
    intro st
    rw [runEvents_cons, runEvents_cons, htmlEvent_like h1]
    congr 1
    funext st'
    exact ih st'

theorem tightOf_unmark {d d' : NodeData} (h : unmark d = unmark d') : tightOf (some d) = tightOf (some d') := by
  have n1 : d.t = d'.t := (congrArg NodeData.t h :)
  have n3 : d.listData = d'.listData := (congrArg NodeData.listData h :)
  simp only [tightOf, n1, n3]

mutual
theorem events_like {p p' g g' : Option NodeData} (h1 : p.isSome = p'.isSome) (h2 : tightOf p = tightOf p') (h3 : tightOf g = tightOf g') :
    ∀ {t t' : Tree}, unmarkT t = unmarkT t' → List.Forall₂ LikeEvent (events p g t) (events p' g' t')
  | .node d cs, .node d' cs', h => by
    rw [unmarkT, unmarkT] at h
    have hd : unmark d = unmark d' := by injection h
    have hc : unmarkL cs = unmarkL cs' := by injection h
    have hl := eventsList_like (p := some d) (p' := some d') (g := p) (g' := p') rfl (tightOf_unmark hd) h2 hc
    have n1 : d.t = d'.t := (congrArg NodeData.t hd :)
    unfold events
    simp only [n1]
    split
    · refine .cons ⟨rfl, hd, h1, h3⟩ (List.rel_append hl (.cons ⟨rfl, hd, h1, h3⟩ .nil))
    · exact .cons ⟨rfl, hd, h1, h3⟩ .nil
theorem eventsList_like {p p' g g' : Option NodeData} (h1 : p.isSome = p'.isSome) (h2 : tightOf p = tightOf p')
    (h3 : tightOf g = tightOf g') :
    ∀ {ts ts' : List Tree}, unmarkL ts = unmarkL ts' → List.Forall₂ LikeEvent (eventsList p g ts) (eventsList p' g' ts')
  | [], [], _ => .nil
  | [], _ :: _, h => by rw [unmarkL, unmarkL] at h; cases h
  | _ :: _, [], h => by rw [unmarkL, unmarkL] at h; cases h
  | t :: ts, t' :: ts', h => by
    rw [unmarkL, unmarkL, List.cons.injEq] at h
    unfold eventsList
    exact List.rel_append (events_like h1 h2 h3 h.1) (eventsList_like h1 h2 h3 h.2)
end

theorem stream_render {o : HtmlOpts} {d d1 : NodeData} {x z w : List Tree} (h : d.t = .document) (h1 : d1.t = .document)
    (hx : unmarkL z = unmarkL x) (kx : ∀ c ∈ x, c.kind ∈ topLevelKinds) (kw : ∀ c ∈ w, c.kind ∈ topLevelKinds) :
    renderHtml o (.node d (z ++ w)) = (renderHtml o (.node d1 x)).bind fun a => (renderHtml o (.node d1 w)).map fun b => a ++ b := by
  have t0 : tightOf (some d) = .ok false := by simp [tightOf, h]
  have t1 : tightOf (some d1) = .ok false := by simp [tightOf, h1]
  have e0 := eventsList_like (p := some d) (p' := some d1) (g := none) (g' := none) rfl (t0.trans t1.symm) rfl
    (ts := z ++ w) (ts' := x ++ w) (by rw [unmarkL_append, unmarkL_append, hx])
  unfold renderHtml
  rw [renderWith_document o d _ h, renderWith_document o d1 _ h1, renderWith_document o d1 _ h1, runEvents_like e0,
    runEvents_blocks _ kx, runEvents_blocks _ kw, runEvents_blocks _ (fun c hc => (List.mem_append.1 hc).elim (kx c) (kw c))]
  rw [List.mapM_append]
  generalize (List.mapM (m := Except PyErr) _ x) = xs
  generalize (List.mapM (m := Except PyErr) _ w) = ys
  cases xs with
  | error => rfl
  | ok x =>
    cases ys with
    | error => rfl
    | ok y => simp [Except.map, Except.bind, bind, pure, Except.pure]

end CM
