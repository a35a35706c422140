import Verif.Proofs.Nest
import Verif.Proofs.SourceDoc
import Verif.Proofs.Compose
/-
Trees that differ in book-keeping only: inline parsing and rendering do not look at it.
-/
namespace CM
open Spec

variable {φ ψ : Pos → Pos}

/-! ### Inlines -/

/-- Inline nodes have no source position. -/
theorem source_er {smart strict : Bool} {refs : Str → Option RefDef} {S : Str} {L : Bool} {ts : List Tree} {i j : Nat}
    (h : Source smart strict refs S L ts i j) : erL φ ts = ts := by
  induction h <;> first | rfl | simp_all [noColsL_append, erL, erT, er]

theorem parseInlines_er {sm : Bool} {m : RefMap} {c : Str} {ts : List Tree} (h : parseInlines sm m c = .ok ts) : erL φ ts = ts :=
  source_er (parseInlines_source (strict := false) (by intro h; cases h) h)

mutual
/-- Inline parsing does not look at source positions. -/
theorem inlines_er (sm : Bool) (m : RefMap) : ∀ t : Tree, processInlines sm m (erT φ t) = (processInlines sm m t).map (erT φ)
  | .node d cs => by
    have ih := inlines_erL sm m cs
    rw [erT]
    unfold processInlines
    rw [ih]
    cases h1 : processInlinesList sm m cs with
    | error e => rfl
    | ok x =>
      simp only [Except.bind, bind, Except.map]
      have ht : (er φ d).t = d.t := rfl
      have hc : (er φ d).stringContent = d.stringContent := rfl
      rw [ht, hc]
      by_cases hp : (d.t == .paragraph || d.t == .heading) = true
      · rw [if_pos hp, if_pos hp]
        cases d.stringContent with
        | none => rfl
        | some c =>
          cases hi : parseInlines sm m c with
          | error => simp only [hi]
          | ok inl =>
            simp only [hi, pure, Except.pure, erT, noColsL_append, parseInlines_er hi]
      · rw [if_neg hp, if_neg hp]
        simp only [pure, Except.pure, erT]
theorem inlines_erL (sm : Bool) (m : RefMap) : ∀ cs : List Tree,
    processInlinesList sm m (erL φ cs) = (processInlinesList sm m cs).map (erL φ)
  | [] => rfl
  | t :: ts => by
    have h1 := inlines_er sm m t
    have h2 := inlines_erL sm m ts
    rw [erL]
    unfold processInlinesList
    rw [h1, h2]
    cases processInlines sm m t with
    | error => rfl
    | ok => cases processInlinesList sm m ts <;> rfl
end

theorem inlines_rel (sm : Bool) (m : RefMap) {cs cs' : List Tree} (h : erL φ cs = erL ψ cs') :
    (processInlinesList sm m cs').map (erL ψ) = (processInlinesList sm m cs).map (erL φ) := by
  rw [← inlines_erL sm m cs, h, inlines_erL]

/-! ### Trees without book-keeping -/

theorem bare_er (d : NodeData) : bare (er φ d) = bare d := rfl

mutual
theorem bareT_er : ∀ t : Tree, bareT (erT φ t) = bareT t
  | .node d cs => by rw [erT, bareT, bareT, bare_er, bareL_er cs]
theorem bareL_er : ∀ cs : List Tree, bareL (erL φ cs) = bareL cs
  | [] => rfl
  | t :: ts => by rw [erL, bareL, bareL, bareT_er t, bareL_er ts]
end

theorem bareL_rel {cs cs' : List Tree} (h : erL φ cs = erL ψ cs') : bareL cs = bareL cs' := by
  rw [← bareL_er (φ := φ), h, bareL_er]

theorem bareL_append : ∀ a b : List Tree, bareL (a ++ b) = bareL a ++ bareL b
  | [], _ => rfl
  | t :: a, b => by rw [List.cons_append, bareL, bareL, bareL_append a b, List.cons_append]

theorem bareL_mark : ∀ cs : List Tree, bareL (markLastChild cs) = bareL cs
  | [] => rfl
  | [.node d cs] => rfl
  | t :: u :: r => by rw [markLastChild, bareL, bareL_mark (u :: r), ← bareL]

/-! ### HTML -/

/-- What a renderer without source positions sees of an event. -/
structure SameEvent (e e' : Event) : Prop where
  entering : e.entering = e'.entering
  node : bare e.node = bare e'.node
  parent : e.parent.isSome = e'.parent.isSome
  tight : tightOf e.grandparent = tightOf e'.grandparent

theorem htmlEvent_same {o : HtmlOpts} (ho : o.sourcepos = false) {e e' : Event} (h : SameEvent e e') (st : HState) :
    htmlEvent o st e = htmlEvent o st e' := by
  obtain ⟨en, d, p, g, f⟩ := e
  obtain ⟨en', d', p', g', f'⟩ := e'
  obtain ⟨rfl, h2, h3, h4⟩ := h
  simp only at h2 h3 h4
  have ha : ∀ x, htmlAttrs o x = [] := by intro x; simp [htmlAttrs, ho]
  have n1 : d.t = d'.t := (congrArg NodeData.t h2 :)
  have n2 : d.literal = d'.literal := (congrArg NodeData.literal h2 :)
  have n3 : d.listData = d'.listData := (congrArg NodeData.listData h2 :)
  have n4 : d.info = d'.info := (congrArg NodeData.info h2 :)
  have n5 : d.destination = d'.destination := (congrArg NodeData.destination h2 :)
  have n6 : d.title = d'.title := (congrArg NodeData.title h2 :)
  have n7 : d.level = d'.level := (congrArg NodeData.level h2 :)
  have n8 : d.onEnter = d'.onEnter := (congrArg NodeData.onEnter h2 :)
  have n9 : d.onExit = d'.onExit := (congrArg NodeData.onExit h2 :)
  have hp : htmlParagraph o ⟨en, d, p, g, f⟩ st = htmlParagraph o ⟨en, d', p', g', f'⟩ st := by
    rw [htmlParagraph_eq, htmlParagraph_eq]
    cases p <;> cases p' <;> first | rfl | cases h3 | skip
    simp only [h4, ha]
  unfold htmlEvent
  simp only [hp, htmlLink, htmlImage, htmlHeading, htmlCodeBlock, htmlList, ha, n1, n2, n3, n4, n5, n6, n7, n8, n9]

theorem runEvents_same {o : HtmlOpts} (ho : o.sourcepos = false) {es es' : List Event} (h : List.Forall₂ SameEvent es es') :
    ∀ st, runEvents o st es = runEvents o st es' := by
  induction h with
  | nil => intro st; rfl
  | @cons e e' es es' h1 _ ih =>
    intro st
    rw [runEvents_cons, runEvents_cons, htmlEvent_same ho h1]
    congr 1
    funext st'
    exact ih st'

theorem tightOf_bare {d d' : NodeData} (h : bare d = bare d') : tightOf (some d) = tightOf (some d') := by
  have n1 : d.t = d'.t := (congrArg NodeData.t h :)
  have n3 : d.listData = d'.listData := (congrArg NodeData.listData h :)
  simp only [tightOf, n1, n3]

mutual
theorem events_same {p p' g g' : Option NodeData} (h1 : p.isSome = p'.isSome) (h2 : tightOf p = tightOf p') (h3 : tightOf g = tightOf g') :
    ∀ {t t' : Tree}, bareT t = bareT t' → List.Forall₂ SameEvent (events p g t) (events p' g' t')
  | .node d cs, .node d' cs', h => by
    rw [bareT, bareT] at h
    have hd : bare d = bare d' := by injection h
    have hc : bareL cs = bareL cs' := by injection h
    have hl := eventsList_same (p := some d) (p' := some d') (g := p) (g' := p') rfl (tightOf_bare hd) h2 hc
    have n1 : d.t = d'.t := (congrArg NodeData.t hd :)
    unfold events
    simp only [n1]
    split
    · refine .cons ⟨rfl, hd, h1, h3⟩ (List.rel_append hl (.cons ⟨rfl, hd, h1, h3⟩ .nil))
    · exact .cons ⟨rfl, hd, h1, h3⟩ .nil
theorem eventsList_same {p p' g g' : Option NodeData} (h1 : p.isSome = p'.isSome) (h2 : tightOf p = tightOf p')
    (h3 : tightOf g = tightOf g') :
    ∀ {ts ts' : List Tree}, bareL ts = bareL ts' → List.Forall₂ SameEvent (eventsList p g ts) (eventsList p' g' ts')
  | [], [], _ => .nil
  | [], _ :: _, h => by rw [bareL, bareL] at h; cases h
  | _ :: _, [], h => by rw [bareL, bareL] at h; cases h
  | t :: ts, t' :: ts', h => by
    rw [bareL, bareL, List.cons.injEq] at h
    unfold eventsList
    exact List.rel_append (events_same h1 h2 h3 h.1) (eventsList_same h1 h2 h3 h.2)
end

end CM
