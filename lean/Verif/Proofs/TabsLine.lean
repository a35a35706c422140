import Verif.Proofs.TabsRun
import Verif.Proofs.Blank
/-
Tabs that stand for spaces: a whole line, and the rest of the text (C67).
-/
set_option linter.unusedVariables false
namespace CM
open Spec

variable {C : CursorAt → CursorAt → Prop} {X : Sim} {p q : PState} {c c' : NodeData}

/-! ### Both runs succeed -/

/-- If both succeed the results are related. -/
def BothOk {α β : Type} (R : α → β → Prop) (x : Except PyErr α) (y : Except PyErr β) : Prop := ∀ a b, x = .ok a → y = .ok b → R a b

theorem BothOk.ok {α β : Type} {R : α → β → Prop} {a : α} {b : β} (h : R a b) : BothOk R (.ok a) (.ok b) := by
  intro a' b' e e'; cases e; cases e'; exact h

theorem BothOk.of {α β : Type} {R : α → β → Prop} {x : Except PyErr α} {y : Except PyErr β} (h : ERel R x y) : BothOk R x y := by
  intro a b e e'
  obtain ⟨b', h1, h2⟩ := h a e
  rw [e'] at h1; cases h1; exact h2

theorem BothOk.bind {α β γ δ : Type} {R : α → β → Prop} {S : γ → δ → Prop} {x : Except PyErr α} {y : Except PyErr β}
    {f : α → Except PyErr γ} {g : β → Except PyErr δ} (h : BothOk R x y) (hf : ∀ a b, R a b → BothOk S (f a) (g b)) :
    BothOk S (x >>= f) (y >>= g) := by
  intro c d hc hd
  cases x with
  | error => cases hc
  | ok a =>
    cases y with
    | error => cases hd
    | ok b => exact hf a b (h a b rfl rfl) c d hc hd

theorem BothOk.ite {α β : Type} {R : α → β → Prop} {P : Prop} [Decidable P] {a c : Except PyErr α} {b d : Except PyErr β}
    (h1 : P → BothOk R a b) (h2 : ¬ P → BothOk R c d) : BothOk R (if P then a else c) (if P then b else d) := by
  by_cases h : P
  · rw [if_pos h, if_pos h]; exact h1 h
  · rw [if_neg h, if_neg h]; exact h2 h

/-! ### The loop of block starts -/

theorem TuE.fin (h : TuE p.curs q.curs) : Fin' (advanceNextNonspace p).curs (advanceNextNonspace q).curs :=
  ⟨h.dropN, h.blank, rfl, rfl, fun _ => rfl, fun _ => rfl⟩

/-- May the character begin a block? -/
def specialOpt (o : Option Char) : Bool := match o with
  | some c => isMaybeSpecial c
  | none => false

theorem startsLoop_special (n : Nat) (c : NodeData) (p : PState) : startsLoop (n + 1) c p =
    if !(findNextNonspace p).indented && !specialOpt (peekAt (findNextNonspace p).currentLine (findNextNonspace p).nextNonspace) then
      .ok (advanceNextNonspace (findNextNonspace p))
    else tryStarts (blockStarts c) (findNextNonspace p) >>= fun x => match x.1 with
      | .none => .ok (advanceNextNonspace x.2)
      | .leaf => .ok x.2
      | .container => match x.2.spine with
        | [] => .error .attributeError
        | b :: _ => startsLoop n b.data x.2 := rfl

theorem startsLoop_tab (hX : X.Ok) : ∀ (n m : Nat) {free : Place} {c c' : NodeData} {p q : PState}, CRel X c c' → RelC (Tu free) X p q → ReadyFor c p →
    BothOk (fun p' q' => Verb p' ∨ (RelC Fin' X p' q' ∧ ∃ d, ReadyFor d p') ∨ (free ≠ .any ∧ c.t = .paragraph ∧ (free = .begins → Frame p p'))) (startsLoop n c p)
      (startsLoop m c' q) := by
  intro n
  induction n with
  | zero => intro m free c c' p q _ _ _ a b e; cases e
  | succ n ih =>
    intro m free c c' p q hc h hr
    cases m with
    | zero => intro a b _ e; cases e
    | succ m =>
    have h1 : RelC (TuN free) X (findNextNonspace p) (findNextNonspace q) :=
      h.move ⟨core_find _, books_find _⟩ ⟨core_find _, books_find _⟩ (find_tab h.cur)
    have hr1 : ReadyFor c (findNextNonspace p) := hr.congr (core_find _) (books_find _)
    have hi : (findNextNonspace q).indented = (findNextNonspace p).indented := by
      obtain ⟨V, V', Y, Y', hN, _⟩ := h1.cur
      exact hN.indd'
    have hspec : specialOpt (peekAt (findNextNonspace q).currentLine (findNextNonspace q).nextNonspace) =
        specialOpt (peekAt (findNextNonspace p).currentLine (findNextNonspace p).nextNonspace) := by
      rcases h1.cur.heads with h | ⟨x, x', g1, g2, g3, g4, _⟩
      · rw [h]
      · rw [g1, g2]; exact g4.trans g3.symm
    rw [startsLoop_special, startsLoop_special, hi, hspec]
    refine BothOk.ite (fun hsp => ?_) fun _ => ?_
    · refine .ok (.inr <| .inl ⟨?_, c, hr1.congr (core_advN _) (books_advN _)⟩)
      obtain ⟨V, V', Y, Y', hN, hy, hii⟩ := h1.cur
      have hE : TuE (findNextNonspace p).curs (findNextNonspace q).curs := by
        rcases alike_head hy with rfl | ⟨x, z, x', z', e1, e2, e3, _⟩
        · exact ⟨V, V', Y, hN⟩
        · exfalso
          have ea : (findNextNonspace p).currentLine.drop (findNextNonspace p).nextNonspace = Y := hN.ea
          rw [peek_eq, ea, e1] at hsp
          simp [specialOpt, e3] at hsp
      exact h1.move ⟨core_advN _, books_advN _⟩ ⟨core_advN _, books_advN _⟩ hE.fin
    · rcases tryStarts_tab hX hc h1 hr1 with ht | ⟨ht1, ht2, ht3⟩
      case inr =>
        intro a b ea _
        refine .inr (.inr ⟨ht1, ht2, fun hb => ?_⟩)
        rw [ht3 hb] at ea
        cases ea
        exact ⟨(core_advN _).trans (core_find _), (books_advN _).trans (books_find _)⟩
      refine BothOk.bind (BothOk.of ht) ?_
      intro a b hab
      cases hab with
      | @none p1 q1 g1 g2 =>
        exact .ok (.inr <| .inl ⟨g1.move ⟨core_advN _, books_advN _⟩ ⟨core_advN _, books_advN _⟩ g1.cur.fin, c, g2.congr (core_advN _) (books_advN _)⟩)
      | verb g => exact .ok (.inl g)
      | @leaf p1 q1 g1 g2 =>
        have hs := g1.spine.pos
        obtain ⟨b, r, hs⟩ : ∃ b r, p1.spine = b :: r := by
          cases e : p1.spine with
          | nil => rw [e] at hs; simp at hs
          | cons b r => exact ⟨b, r, rfl⟩
        exact .ok (.inr <| .inl ⟨g1, b.data, ready_of_closed g2 hs⟩)
      | @container p1 q1 g1 g2 g3 =>
        have hs := g1.spine
        simp only
        match e : p1.spine, e' : q1.spine, hs with
        | [], _, hs => cases hs
        | _ :: _, [], hs => cases hs
        | b :: r, b' :: r', hs =>
          intro x y ex ey
          rcases ih m (crel_heads hX hs) g1 (ready_of_closed g2 e) x y ex ey with h | h | ⟨_, h, _⟩
          · exact .inl h
          · exact .inr (.inl h)
          · refine absurd ?_ g3
            rw [tipKind, e]; simp [h]

/-! ### The rest of the line -/

/-- The last block is code or HTML. -/
def Bad (p : PState) : Prop :=
  ∃ x up, p.spine = x :: up ∧ (VerbK x.data.t ∨ (ContK x.data.t ∧ ∃ t, x.children.getLast? = some t ∧ VerbK t.data.t))

theorem verbK_accepts {k : Kind} (h : VerbK k) : acceptsLines k = true ∧ k ≠ .paragraph := by
  rcases h with rfl | rfl <;> simp [acceptsLines]

theorem finalizeTip_bad {l : Nat} {p p' : PState} {b par : OpenBlk} {up : List OpenBlk} (hs : p.spine = b :: par :: up) (hb : VerbK b.data.t)
    (hp : ContK par.data.t) (h : finalizeTip l p = .ok p') : Bad p' := by
  obtain ⟨t, m, h1, rfl⟩ := finalizeTip_inv hs h
  obtain ⟨x, rfl, h2⟩ := finalizeBlock_kind h1 (verbK_accepts hb).2
  refine ⟨_, up, rfl, .inr ⟨hp, x, ?_, ?_⟩⟩
  · show (par.children ++ [x]).getLast? = _
    rw [List.getLast?_concat]
  · rw [h2]; exact hb

theorem appendContent_inv {x : Str} {p p' : PState} {b : OpenBlk} {r : List OpenBlk} (hs : p.spine = b :: r) (h : appendContent x p = .ok p') :
    ∃ b', p'.spine = b' :: r ∧ b'.data.t = b.data.t := by
  unfold appendContent at h
  rw [hs] at h
  simp only at h
  split at h
  · cases h
  · cases h; exact ⟨_, rfl, rfl⟩

theorem addLine_inv {p p' : PState} {b : OpenBlk} {r : List OpenBlk} (hs : p.spine = b :: r) (h : addLine p = .ok p') :
    ∃ b', p'.spine = b' :: r ∧ b'.data.t = b.data.t := by
  unfold addLine at h
  split at h
  · exact appendContent_inv (p := { p with offset := p.offset + 1 }) hs h
  · exact appendContent_inv hs h

theorem addText_verb {p' : PState} (h : Verb p) (e : addText p = .ok p') : Bad p' := by
  obtain ⟨h1, b, par, up, h2, h3, h4⟩ := h
  unfold addText at e
  rw [h1] at e
  simp only [Bool.not_true, Bool.false_and, Bool.false_eq_true, if_false, closeUnmatched, h1, if_true, bind, Except.bind, h2] at e
  have hb1 : (if p.blank then { b with children := markLastChild b.children } else b).data = b.data := by split <;> rfl
  generalize (if p.blank then { b with children := markLastChild b.children } else b) = b1 at e hb1
  rw [hb1, (verbK_accepts h3).1] at e
  simp only [if_true] at e
  split at e
  · cases e
  · rename_i p2 ha
    obtain ⟨b3, k4, k5⟩ := addLine_inv rfl ha
    have hb3 : VerbK b3.data.t := by rw [k5]; show VerbK b1.data.t; rw [hb1]; exact h3
    split at e
    · exact finalizeTip_bad k4 hb3 h4 e
    · cases e
      exact ⟨b3, _, k4, .inl hb3⟩

/-- The line was added to the paragraph that was open: there are no new blocks. -/
def Held (p p' : PState) : Prop :=
  2 ≤ p.spine.length ∧ p'.lineNumber = p.lineNumber ∧ ∀ N, (∀ x ∈ p.spine, BlkBefore N x) → ∀ x ∈ p'.spine, BlkBefore N x

theorem appendContent_pos {x : Str} {p p' : PState} {b : OpenBlk} {r : List OpenBlk} (hs : p.spine = b :: r) (h : appendContent x p = .ok p') :
    ∃ b', p'.spine = b' :: r ∧ b'.data.sourcepos = b.data.sourcepos ∧ b'.children = b.children ∧ p'.lineNumber = p.lineNumber := by
  unfold appendContent at h
  rw [hs] at h
  simp only at h
  split at h
  · cases h
  · cases h; exact ⟨_, rfl, rfl, rfl, rfl⟩

theorem addLine_pos {p p' : PState} {b : OpenBlk} {r : List OpenBlk} (hs : p.spine = b :: r) (h : addLine p = .ok p') :
    ∃ b', p'.spine = b' :: r ∧ b'.data.sourcepos = b.data.sourcepos ∧ b'.children = b.children ∧ p'.lineNumber = p.lineNumber := by
  unfold addLine at h
  split at h
  · exact appendContent_pos (p := { p with offset := p.offset + 1 }) hs h
  · exact appendContent_pos hs h

theorem addText_held {p' : PState} {b par : OpenBlk} {up : List OpenBlk} (h1 : p.allClosed = true) (h2 : p.spine = b :: par :: up) (h3 : b.data.t = .paragraph)
    (e : addText p = .ok p') : Held p p' := by
  refine ⟨by rw [h2]; simp, ?_⟩
  unfold addText at e
  rw [h1] at e
  simp only [Bool.not_true, Bool.false_and, Bool.false_eq_true, if_false, closeUnmatched, h1, if_true, bind, Except.bind, h2] at e
  have hb1 : (if p.blank then { b with children := markLastChild b.children } else b).data = b.data := by split <;> rfl
  have hfl := fun N flag (hN : ∀ x ∈ b :: par :: up, BlkBefore N x) => blk_flags p.blank flag hN
  unfold flagSpine at hfl
  generalize (if p.blank then { b with children := markLastChild b.children } else b) = b1 at e hb1 hfl
  rw [hb1, h3] at e
  simp only [acceptsLines, if_true] at e
  split at e
  · cases e
  · rename_i p2 ha
    obtain ⟨b3, k1, k2, k3, k4⟩ := addLine_pos rfl ha
    rw [if_neg (by simp)] at e
    cases e
    refine ⟨k4, fun N hN => ?_⟩
    have := hfl N (lineBlankFlag b1 p) (by rw [← h2]; exact hN)
    rw [k1]
    intro x hx
    rcases List.mem_cons.1 hx with rfl | hx
    · have h0 := this { b1 with data := { b1.data with lastLineBlank := lineBlankFlag b1 p } } (by simp)
      refine ⟨fun a c hs => h0.1 a c ?_, ?_⟩
      · rw [k2] at hs; exact hs
      · rw [k3]; exact h0.2
    · exact this x (List.mem_cons_of_mem _ hx)

theorem blankFlag_tab (hX : X.Ok) {b b' : OpenBlk} (he : erase X.φ b = erase X.ψ b') (h : RelC C X p q) (hb : q.blank = p.blank) :
    lineBlankFlag b' q = lineBlankFlag b p := by
  simp only [erase, Prod.mk.injEq] at he
  have e1 : b.data.t = b'.data.t := (congrArg NodeData.t he.1 :)
  have e2 : b.data.isFenced = b'.data.isFenced := (congrArg NodeData.isFenced he.1 :)
  have e3 : (b'.data.sourcepos.map (·.1.1) == some q.lineNumber) = (b.data.sourcepos.map (·.1.1) == some p.lineNumber) := by
    have hs : b.data.sourcepos.map X.φ = b'.data.sourcepos.map X.ψ := congrArg NodeData.sourcepos he.1
    generalize b.data.sourcepos = x at hs
    generalize b'.data.sourcepos = y at hs
    cases x <;> cases y <;> simp only [Option.map_none, Option.map_some, Option.some.injEq, reduceCtorEq] at hs ⊢
    · rfl
    · rename_i x y
      have := hX.start _ _ p.lineNumber h.pos hs
      rw [h.line]
      by_cases e : x.1.1 = p.lineNumber
      · rw [e, this.1 e]; simp
      · have e1 : (some y.1.1 == some (p.lineNumber + X.N)) = false := by simpa using fun h => e (this.2 h)
        have e2 : (some x.1.1 == some p.lineNumber) = false := by simpa using e
        rw [e1, e2]
  unfold lineBlankFlag
  rw [hb, ← e1, ← e2, e3, noColsL_isEmpty he.2]

theorem addLine_tab (h : RelC Fin' X p q) (ht : tipKind p ≠ some .document) :
    ERel (fun p' q' => RelC Fin' X p' q' ∧ tipKind p' = tipKind p ∧ p'.spine.length = p.spine.length) (addLine p) (addLine q) := by
  have h1 : p.partiallyConsumedTab = false := h.cur.pct
  have h2 : q.partiallyConsumedTab = false := h.cur.pct'
  have h3 : q.currentLine.drop q.offset = p.currentLine.drop p.offset := h.cur.drop
  unfold addLine
  rw [h1, h2, h3]
  simp only [Bool.false_eq_true, if_false]
  refine (append_rel _ h.toSp ht).mono ?_
  rintro p' q' _ ⟨g1, g2, g3, g4, g5, g6⟩
  exact ⟨⟨g1, by rw [g2, g3]; exact h.cur, by rw [g6]; exact h.pos⟩, g4, g5⟩

theorem off_lt {l l' : Str} {i j : Nat} (h : l'.drop j = l.drop i) : j < l'.length ↔ i < l.length := by
  have : (l'.drop j).length = (l.drop i).length := by rw [h]
  simp at this
  omega

theorem addText_tab {β : NodeData} (hβ : β.t = .document) (h : RelC Fin' (swapSim β) p q) (hr : ReadyFor c p) :
    ERel (fun p' q' => Sp (swapSim β) p' q') (addText p) (addText q) := by
  have hX := swapSim_ok hβ
  unfold addText
  have ht : (tipKind q == some .paragraph) = (tipKind p == some .paragraph) := by
    have := tipKind_rel hX h.spine (t := .paragraph) (by simp) (by simp [DocLike])
    by_cases e : tipKind p = some .paragraph
    · rw [e, this.2 e]
    · have e' : tipKind q ≠ some .paragraph := fun h => e (this.1 h)
      have e1 : (tipKind q == some .paragraph) = false := by simpa using e'
      have e2 : (tipKind p == some .paragraph) = false := by simpa using e
      rw [e1, e2]
  rw [h.allClosed, show q.blank = p.blank from h.cur.blank, ht]
  refine ERel.ite (fun hc => ?_) fun hc => ?_
  · simp only [Bool.and_eq_true, beq_iff_eq, Bool.not_eq_true'] at hc
    refine (addLine_tab h (by rw [hc.2]; simp)).mono ?_
    rintro p' q' _ ⟨g, _⟩
    exact g.toSp
  · refine ERel.bind (close_rel hX h hr) ?_
    rintro p1 q1 ⟨g1, g2, g3⟩
    have gs := g1.spine
    match e : p1.spine, e' : q1.spine, gs with
    | [], _, gs => cases gs
    | _ :: _, [], gs => cases gs
    | b :: r, b' :: r', gs =>
      simp only
      have gm := gs.mark hX p1.blank (fun _ h => h.elim)
      have hqb : q1.blank = p1.blank := g1.cur.blank
      rw [hqb]
      generalize hb1 : (if p1.blank then { b with children := markLastChild b.children } else b) = b1 at *
      generalize hb1' : (if p1.blank then { b' with children := markLastChild b'.children } else b') = b1' at *
      have hf : 2 ≤ (b1 :: r).length → lineBlankFlag b1 p1 = lineBlankFlag b1' q1 := by
        intro h2
        cases gm with
        | base _ _ _ _ _ _ => simp at h2
        | cons he _ => exact (blankFlag_tab hX he g1 hqb).symm
      have gf : SpineRel (swapSim β) _ _ := SpineRel.flag (X := swapSim β) gm hf trivial
      have hrel : RelC Fin' (swapSim β)
          { p1 with spine := (b1 :: r).map fun x => { x with data := { x.data with lastLineBlank := lineBlankFlag b1 p1 } } }
          { q1 with
            spine := (b1' :: r').map fun x => { x with data := { x.data with lastLineBlank := lineBlankFlag b1' q1 } }
            blank := p1.blank } :=
        ⟨⟨gf, g1.refmap, g1.line, g1.oldtip, g1.lastMatched, g1.allClosed, g1.low⟩,
          ⟨g1.cur.drop, rfl, g1.cur.pct, g1.cur.pct', g1.cur.nn, g1.cur.nn'⟩, g1.pos⟩
      have hacc : acceptsLines b1'.data.t = acceptsLines b1.data.t := by
        rcases crel_heads hX gm with h | ⟨h1, h2 | h2 | h2⟩
        · have : b1.data.t = b1'.data.t := (congrArg NodeData.t h :)
          rw [this]
        · rw [h1, h2]
        · rw [h1, h2]; rfl
        · rw [h1, h2]; rfl
      rw [hacc]
      refine ERel.ite (fun ha => ?_) fun ha => ?_
      · have hnd : b1.data.t ≠ .document := by intro h; rw [h] at ha; cases ha
        cases gm with
        | base h1 _ _ _ _ _ => exact absurd h1 hnd
        | cons he hr' =>
          simp only [erase, Prod.mk.injEq] at he
          have e1 : b1.data.t = b1'.data.t := (congrArg NodeData.t he.1 :)
          have e2 : b1.data.htmlBlockType = b1'.data.htmlBlockType := (congrArg NodeData.htmlBlockType he.1 :)
          refine ERel.bind (addLine_tab hrel (by simpa [tipKind] using hnd)) ?_
          rintro p2 q2 ⟨f1, f2, f3⟩
          rw [← e1, ← e2, show q2.currentLine.drop q2.offset = p2.currentLine.drop p2.offset from f1.cur.drop]
          refine ERel.ite (fun _ => ?_) fun _ => ?_
          · refine (finalizeTip_sp hX _ f1.line f1.low f1.toSp ?_).mono ?_
            · rw [f3]
              have := hr'.pos
              simp; omega
            · rintro p3 q3 _ ⟨g, _⟩
              exact g
          · exact .ok f1.toSp
      · have hd : (decide (q1.offset < q1.currentLine.length) && !p1.blank) = (decide (p1.offset < p1.currentLine.length) && !p1.blank) := by
          congr 2; exact propext (off_lt g1.cur.drop)
        simp only [hd]
        refine ERel.ite (fun hlt => ?_) fun _ => ?_
        · have hlt : p1.offset < p1.currentLine.length := by
            simp only [Bool.and_eq_true, decide_eq_true_eq] at hlt
            exact hlt.1
          have hlt' : q1.offset < q1.currentLine.length := (off_lt g1.cur.drop).2 hlt
          have n1 : p1.offset = p1.nextNonspace := g1.cur.nn hlt
          have n2 : q1.offset = q1.nextNonspace := g1.cur.nn' hlt'
          refine ERel.bind (ERel.mono (addChild_rel hX (C := fun a b => Fin' a b ∧ b.line.drop b.nn = a.line.drop a.nn)
            (hrel.move ⟨rfl, rfl⟩ ⟨rfl, rfl⟩ ⟨hrel.cur, ?_⟩) (.inl (by simp)) g2 (fun d d' e => e) fun _ => rfl) fun _ _ _ h => h) ?_
          · show q1.currentLine.drop q1.nextNonspace = p1.currentLine.drop p1.nextNonspace
            rw [← n1, ← n2]; exact g1.cur.drop
          · rintro p2 q2 ⟨f1, f2, f3⟩
            have hF : RelC Fin' (swapSim β) (advanceNextNonspace p2) (advanceNextNonspace q2) :=
              f1.move ⟨core_advN _, books_advN _⟩ ⟨core_advN _, books_advN _⟩ ⟨f1.cur.2, f1.cur.1.blank, rfl, rfl, fun _ => rfl, fun _ => rfl⟩
            refine (addLine_tab hF ?_).mono ?_
            · show tipKind p2 ≠ _
              rw [f3]; simp
            · rintro p' q' _ ⟨g, _⟩
              exact g.toSp
        · exact .ok hrel.toSp

/-! ### Matching the open blocks -/

/-- The code blocks and HTML blocks among the open blocks are the last of them. -/
def VerbLast (sp : List OpenBlk) : Prop :=
  ∀ i b r, sp.reverse.drop i = b :: r → VerbK b.data.t → r = [] ∧ ∃ par up, sp = b :: par :: up ∧ ContK par.data.t

theorem chain_verb {sp : List OpenBlk} (h : Chain (sp.map (·.data))) : VerbLast sp := by
  intro i b r hd hb
  have hsp : sp = r.reverse ++ b :: (sp.reverse.take i).reverse := by
    have := (List.take_append_drop i sp.reverse).symm
    rw [hd] at this
    have := congrArg List.reverse this
    simpa using this
  have hr : r = [] := by
    have h0 := h.leaf_tip (d := b.data) r.length (by
      rw [hsp, List.map_append, List.getElem?_append_right (by simp)]
      simp) (by
        intro t
        rcases hb with hb | hb <;> rw [hb] <;> rfl)
    exact List.length_eq_zero_iff.1 h0
  subst hr
  refine ⟨rfl, ?_⟩
  rw [List.reverse_nil, List.nil_append] at hsp
  generalize (sp.reverse.take i).reverse = up at hsp
  rw [hsp] at h ⊢
  cases up with
  | nil =>
    exfalso
    cases h with
    | doc h =>
      rcases hb with hb | hb <;> rw [hb] at h <;> cases h
  | cons par up => exact ⟨par, up, rfl, chain_containers h par.data (by simp)⟩

/-- The result of the continuation loop. -/
inductive CR (free : Place) (p q : PState) : PState ⊕ (Nat × PState) → PState ⊕ (Nat × PState) → Prop
  | bad {p' : PState} {y : PState ⊕ (Nat × PState)} : Bad p' → CR free p q (.inl p') y
  | verb {d : Nat} {p' : PState} {y : PState ⊕ (Nat × PState)} {b par : OpenBlk} {up : List OpenBlk} : Frame p p' → d = p.spine.length →
      p.spine = b :: par :: up → VerbK b.data.t → ContK par.data.t → CR free p q (.inr (d, p')) y
  | inr {d : Nat} {p' q' : PState} : Frame p p' → Frame q q' → 1 ≤ d → (∀ b, p.spine.reverse[d - 1]? = some b → ¬ VerbK b.data.t) →
      Tu free p'.curs q'.curs → CR free p q (.inr (d, p')) (.inr (d, q'))

theorem CR.frame {free : Place} {p0 q0 : PState} (hp : Frame p0 p) (hq : Frame q0 q) {x y : PState ⊕ (Nat × PState)} (h : CR free p q x y) : CR free p0 q0 x y := by
  have es : p.spine = p0.spine := congrArg Core.spine hp.1
  cases h with
  | bad h => exact .bad h
  | verb h1 h2 h3 h4 h5 => exact .verb ⟨h1.1.trans hp.1, h1.2.trans hp.2⟩ (by rw [← es]; exact h2) (by rw [← es]; exact h3) h4 h5
  | inr h1 h2 h3 h4 h5 => exact .inr ⟨h1.1.trans hp.1, h1.2.trans hp.2⟩ ⟨h2.1.trans hq.1, h2.2.trans hq.2⟩ h3 (by rw [← es]; exact h4) h5

theorem item_tab {free : Place} (w : Nat) (h : TuN free p.curs q.curs) :
    (if p.indent ≥ w then (Cont.matched, advanceOffset w true q) else (Cont.failed, q)).1 =
      (if p.indent ≥ w then (Cont.matched, advanceOffset w true p) else (Cont.failed, p)).1 ∧
    Tu free (if p.indent ≥ w then (Cont.matched, advanceOffset w true p) else (Cont.failed, p)).2.curs
      (if p.indent ≥ w then (Cont.matched, advanceOffset w true q) else (Cont.failed, q)).2.curs ∧
    (if p.indent ≥ w then (Cont.matched, advanceOffset w true p) else (Cont.failed, p)).1 ≠ .done := by
  by_cases hge : p.indent ≥ w
  · rw [if_pos hge, if_pos hge]
    exact ⟨rfl, h.advTo hge, by simp⟩
  · rw [if_neg hge, if_neg hge]
    exact ⟨rfl, h.toTu, by simp⟩

theorem continue_tab {free : Place} {d : NodeData} (b : Bool) (h : TuN free p.curs q.curs) (hd : ¬ VerbK d.t) :
    (continueBlock d b q).1 = (continueBlock d b p).1 ∧ Tu free (continueBlock d b p).2.curs (continueBlock d b q).2.curs ∧ (continueBlock d b p).1 ≠ .done := by
  have hpk := h.peekQ
  have ht := h.toTu
  obtain ⟨v, v', y, y', hN, hy, hii⟩ := id h
  have hi : q.indent = p.indent := hN.ind'
  have hdd : q.indented = p.indented := hN.indd'
  have hbl : q.blank = p.blank := hN.blank
  unfold continueBlock
  rw [hpk, hi, hdd, hbl]
  cases hk : d.t <;> simp only []
  case codeBlock => exact absurd (.inl hk) hd
  case htmlBlock => exact absurd (.inr hk) hd
  case blockQuote =>
    split
    · rename_i hc
      simp only [Bool.and_eq_true, beq_iff_eq] at hc
      exact ⟨rfl, eat_tab h hc.2, by simp⟩
    · exact ⟨rfl, ht, by simp⟩
  case item =>
    split
    · split
      · exact ⟨rfl, advN_tab h, by simp⟩
      · exact ⟨rfl, ht, by simp⟩
    · cases d.listData <;> exact item_tab _ h
  case paragraph => split <;> exact ⟨rfl, ht, by simp⟩
  all_goals exact ⟨by trivial, ht, by simp⟩

/-- Code and HTML blocks fail to go on in the same lines. -/
theorem continue_verb {free : Place} {d : NodeData} (b : Bool) (h : TuN free p.curs q.curs) (hd : VerbK d.t) (hf : (continueBlock d b p).1 = .failed) :
    continueBlock d b q = (.failed, q) ∧ continueBlock d b p = (.failed, p) := by
  obtain ⟨v, v', y, y', hN, hy, hii⟩ := id h
  have hi : q.indent = p.indent := hN.ind'
  have hbl : q.blank = p.blank := hN.blank
  unfold continueBlock at hf ⊢
  rcases hd with hd | hd <;> rw [hd] at hf ⊢ <;> simp only at hf ⊢
  · rw [hi, hbl]
    cases hfe : d.isFenced with
    | true => rw [hfe] at hf; simp only [if_true] at hf; split at hf <;> cases hf
    | false =>
      rw [hfe] at hf
      simp only [Bool.false_eq_true, if_false] at hf ⊢
      split at hf
      · cases hf
      · rename_i h1
        split at hf
        · cases hf
        · rename_i h2
          rw [if_neg h1, if_neg h2]
          exact ⟨rfl, by rw [if_neg h1, if_neg h2]⟩
  · rw [hbl]
    split at hf
    · rename_i h1
      rw [if_pos h1]
      exact ⟨rfl, by rw [if_pos h1]⟩
    · cases hf

theorem contLoop_tab {free : Place} : ∀ {bs : List OpenBlk} (d : Nat) {p q : PState}, 1 ≤ d → p.spine.reverse.drop d = bs → d ≤ p.spine.length → VerbLast p.spine →
    (∀ b, p.spine.reverse[d - 1]? = some b → ¬ VerbK b.data.t) → Tu free p.curs q.curs → BothOk (CR free p q) (contLoop bs d p) (contLoop bs d q) := by
  intro bs
  induction bs with
  | nil =>
    intro d p q hd hb hdl hv hk ht
    exact .ok (.inr ⟨rfl, rfl⟩ ⟨rfl, rfl⟩ hd hk ht)
  | cons b bs ih =>
    intro d p q hd hb hdl hv hk ht
    have hN := find_tab ht
    have fp : Frame p (findNextNonspace p) := ⟨core_find _, books_find _⟩
    have fq : Frame q (findNextNonspace q) := ⟨core_find _, books_find _⟩
    simp only [contLoop]
    generalize (!b.children.isEmpty || !bs.isEmpty) = fl
    have k1 := core_continue b.data fl (findNextNonspace p)
    have k2 := books_continue b.data fl (findNextNonspace p)
    have k3 := core_continue b.data fl (findNextNonspace q)
    have k4 := books_continue b.data fl (findNextNonspace q)
    by_cases hvb : VerbK b.data.t
    · obtain ⟨hbs, par, up, e1, e2⟩ := hv d b bs hb hvb
      subst hbs
      cases hx : continueBlock b.data fl (findNextNonspace p) with
      | mk x p1 =>
        rw [hx] at k1 k2
        have gp : Frame p p1 := ⟨k1.trans (core_find _), k2.trans (books_find _)⟩
        have es : p1.spine = p.spine := congrArg Core.spine gp.1
        cases x with
        | failed =>
          obtain ⟨c1, c2⟩ := continue_verb fl hN hvb (by rw [hx])
          rw [c1]
          rw [hx] at c2
          cases c2
          exact .ok (.inr fp fq hd hk hN.toTu)
        | matched =>
          intro a b' ea _
          simp only [contLoop] at ea
          cases ea
          have hlen : d + 1 = p.spine.length := by
            have := congrArg List.length hb
            simp at this; omega
          exact .verb gp hlen e1 hvb e2
        | done =>
          intro a b' ea _
          simp only at ea
          cases hf : finalizeTip p1.lineNumber p1 with
          | error => rw [hf] at ea; cases ea
          | ok p2 =>
            rw [hf] at ea
            simp only [bind, Except.bind, pure, Except.pure, Except.ok.injEq] at ea
            subst ea
            obtain ⟨x, up', z1, z2⟩ := finalizeTip_bad (es.trans e1) hvb e2 hf
            exact .bad ⟨x, up', z1, z2⟩
    · obtain ⟨c1, c2, c3⟩ := continue_tab fl hN hvb
      generalize hx : continueBlock b.data fl (findNextNonspace p) = x at *
      generalize hy : continueBlock b.data fl (findNextNonspace q) = y at *
      obtain ⟨x, p1⟩ := x
      obtain ⟨y, q1⟩ := y
      simp only at c1 c2 c3 k1 k2 k3 k4
      subst c1
      have gp : Frame p p1 := ⟨k1.trans (core_find _), k2.trans (books_find _)⟩
      have gq : Frame q q1 := ⟨k3.trans (core_find _), k4.trans (books_find _)⟩
      have es : p1.spine = p.spine := congrArg Core.spine gp.1
      have hlen : d < p.spine.length := by
        have := congrArg List.length hb
        simp at this; omega
      have hat : p.spine.reverse[d]? = some b := by
        have := congrArg List.head? hb
        rw [List.head?_drop] at this
        exact this
      cases y with
      | matched =>
        simp only
        have := ih (d + 1) (p := p1) (q := q1) (by omega) (by rw [es, ← List.drop_drop, hb]; rfl) (by rw [es]; omega) (by rw [es]; exact hv) (by
          rw [es, Nat.add_sub_cancel, hat]
          intro b' e; cases e; exact hvb) c2
        intro a b' ea eb
        exact (this a b' ea eb).frame gp gq
      | failed => exact .ok (.inr gp gq hd hk c2)
      | done => exact absurd rfl c3

/-! ### A whole line -/

/-- The last open block is code or HTML, and it goes on. -/
theorem afterCont_verb {p0 : PState} {d : Nat} {p p' : PState} {ln : Str} {b par : OpenBlk} {up : List OpenBlk} (g1 : Frame p0 p) (g2 : d = p0.spine.length)
    (g3 : p0.spine = b :: par :: up) (g4 : VerbK b.data.t) (g5 : ContK par.data.t) (hold : p0.oldtip = p0.spine.length)
    (ea : afterCont ln (.inr (d, p)) = .ok p') : Bad p' := by
  have es : p.spine = p0.spine := congrArg Core.spine g1.1
  have eo : p.oldtip = p0.oldtip := congrArg Books.oldtip g1.2
  simp only [afterCont, blockAt] at ea
  have hat : p.spine.reverse[d - 1]? = some b := by
    rw [es, List.getElem?_reverse (by rw [g2, g3]; simp), g2, g3]
    simp
  rw [hat] at ea
  simp only [Option.map_some] at ea
  rw [if_pos (by
    obtain ⟨h1, h2⟩ := verbK_accepts g4
    rw [h1, Bool.and_true, bne_iff_ne]; exact h2)] at ea
  simp only [pure, Except.pure, bind, Except.bind] at ea
  cases ha : addText { p with allClosed := d == p.oldtip, lastMatched := d } with
  | error => rw [ha] at ea; cases ea
  | ok p2 =>
    rw [ha] at ea
    cases ea
    obtain ⟨x, up', z1, z2⟩ := addText_verb (p := { p with allClosed := d == p.oldtip, lastMatched := d })
      ⟨by show (d == p.oldtip) = true; rw [eo, hold, g2]; simp, b, par, up, es.trans g3, g4, g5⟩ ha
    exact ⟨x, up', z1, z2⟩

theorem afterCont_tab {free : Place} {β : NodeData} (hβ : β.t = .document) {p0 q0 : PState} {ln ln' : Str} {x y : PState ⊕ (Nat × PState)}
    (hch : Chain p0.ds) (h : CR free p0 q0 x y)
    (h0 : Sp (swapSim β) p0 q0) (hold : p0.oldtip = p0.spine.length) (hold' : q0.oldtip = p0.oldtip) (hpos : 0 < p0.lineNumber) :
    BothOk (fun p' q' => (Bad p' ∨ (free = .begins ∧ Held p0 p') ∨ (free = .clear ∧ ∃ x up, p0.spine = x :: up ∧ x.data.t = .paragraph)) ∨ Sp (swapSim β) p' q') (afterCont ln x) (afterCont ln' y) := by
  have hX := swapSim_ok hβ
  cases h with
  | bad h => intro a b ea _; cases ea; exact .inl (.inl h)
  | @verb d p _ b par up g1 g2 g3 g4 g5 =>
    intro a b' ea _
    exact .inl (.inl (afterCont_verb g1 g2 g3 g4 g5 hold ea))
  | @inr d p q g1 g2 g3 g4 g5 =>
    have g0 : Sp (swapSim β) p q := h0.congr g1.1 g1.2 g2.1 g2.2
    have es : p.spine = p0.spine := congrArg Core.spine g1.1
    have hpos : 0 < p.lineNumber := by rw [show p.lineNumber = p0.lineNumber from congrArg Core.line g1.1]; exact hpos
    have eo : p.oldtip = p.spine.length := by
      rw [es, ← hold]; exact congrArg Books.oldtip g1.2
    have eo' : q.oldtip = p.oldtip := by
      have e1 : q.oldtip = q0.oldtip := congrArg Books.oldtip g2.2
      have e2 : p.oldtip = p0.oldtip := congrArg Books.oldtip g1.2
      rw [e1, e2]; exact hold'
    simp only [afterCont, blockAt]
    cases hb : p.spine.reverse[d - 1]? with
    | none => intro a b ea; cases ea
    | some b =>
      obtain ⟨b', hb', hcr, hdoc⟩ := blockAt_rel hX g0.spine hb
      rw [show (swapSim β).o.length = 0 from rfl, Nat.add_zero] at hb'
      have hdl : d ≤ p.spine.length := by
        have := (List.getElem?_eq_some_iff.1 hb).1
        simp at this; omega
      simp only [hb', Option.map_some]
      have hsp : Sp (swapSim β) { p with allClosed := d == p.oldtip, lastMatched := d } { q with allClosed := d == q.oldtip, lastMatched := d } := by
        refine ⟨g0.spine, g0.refmap, g0.line, fun _ => eo', fun _ => rfl, ?_, g0.low⟩
        show (d == q.oldtip) = (d == p.oldtip)
        rw [eo']
      have hready : ReadyFor b.data { p with allClosed := d == p.oldtip, lastMatched := d } := by
        refine ⟨?_, fun _ => ⟨eo.symm, g3, by show d ≤ p.oldtip; omega⟩⟩
        have e1 : (if (d == p.oldtip) = true then 0 else p.oldtip - d) = p.oldtip - d := by
          by_cases h : d = p.oldtip
          · simp [h]
          · rw [if_neg (by simpa using h)]
        show ((p.ds.drop (if (d == p.oldtip) = true then 0 else p.oldtip - d)).head?.map (·.t)) = _
        rw [e1, PState.ds, ← List.map_drop, List.head?_map, List.head?_drop, eo]
        rw [List.getElem?_reverse (by omega)] at hb
        rw [show p.spine.length - d = p.spine.length - 1 - (d - 1) by omega, hb]
        rfl
      have hnv := g4 b (by rw [← es]; exact hb)
      have hleaf : (b.data.t != .paragraph && acceptsLines b.data.t) = false := by
        cases hk : b.data.t <;> simp only [acceptsLines, Bool.and_false] <;> first | rfl | skip
        · exact absurd (.inl hk) hnv
        · exact absurd (.inr hk) hnv
      have hleaf' : (b'.data.t != .paragraph && acceptsLines b'.data.t) = false := by
        rw [← hleaf]
        rcases hcr with h | ⟨h1, h2 | h2 | h2⟩
        · have : b.data.t = b'.data.t := (congrArg NodeData.t h :)
          rw [this]
        · rw [h1, h2]
        · rw [h1, h2]; rfl
        · rw [h1, h2]; rfl
      rw [hleaf, hleaf']
      simp only [Bool.false_eq_true, if_false]
      refine BothOk.bind (startsLoop_tab hX _ _ hcr ⟨hsp, g5, hpos⟩ hready) ?_
      rintro p1 q1 (hv | ⟨hF, e, hr⟩ | ⟨hf, hbp, hfr⟩)
      · intro a b ea _
        cases ha : addText p1 with
        | error => rw [ha] at ea; cases ea
        | ok p2 =>
          rw [ha] at ea
          cases ea
          obtain ⟨x, up', z1, z2⟩ := addText_verb hv ha
          exact .inl (.inl ⟨x, up', z1, z2⟩)
      · refine BothOk.bind (BothOk.of (addText_tab hβ hF hr)) ?_
        intro p2 q2 f
        exact .ok (.inr ⟨f.spine, f.refmap, f.line, f.oldtip, f.lastMatched, f.allClosed, f.low⟩)
      · intro a y ea _
        obtain ⟨x, up, hxs, hxb, hd⟩ : ∃ x up, p.spine = x :: up ∧ x = b ∧ d = p.spine.length := by
          rw [List.getElem?_reverse (by omega)] at hb
          cases hsp : p.spine with
          | nil => rw [hsp] at hb; cases hb
          | cons x up =>
            refine ⟨x, up, rfl, ?_⟩
            cases hi : p.spine.length - 1 - (d - 1) with
            | zero =>
              rw [hi, hsp] at hb
              cases hb
              exact ⟨rfl, by rw [← hsp]; omega⟩
            | succ i =>
              exfalso
              rw [hi, hsp, List.getElem?_cons_succ] at hb
              rw [PState.ds, ← es, hsp, List.map_cons] at hch
              have := chain_containers hch b.data (List.mem_map_of_mem (List.mem_of_getElem? hb))
              rw [hbp] at this
              revert this; decide
        subst hxb
        have hf : free = .begins ∨ free = .clear := by cases free <;> simp at hf ⊢
        rcases hf with rfl | rfl
        case inr => exact .inl (.inr (.inr ⟨rfl, x, up, by rw [← es]; exact hxs, hbp⟩))
        replace hfr := hfr rfl
        have es1 : p1.spine = p.spine := congrArg Core.spine hfr.1
        have ec1 : p1.allClosed = (d == p.oldtip) := congrArg Books.allClosed hfr.2
        cases up with
        | nil =>
          exfalso
          rw [PState.ds, ← es, hxs] at hch
          cases hch
          rename_i h9
          rw [hbp] at h9; cases h9
        | cons par up =>
          cases ha : addText p1 with
          | error => rw [ha] at ea; cases ea
          | ok p2 =>
            rw [ha] at ea
            cases ea
            obtain ⟨z1, z2, z3⟩ := addText_held (by rw [ec1, eo, hd]; simp) (es1.trans hxs) hbp ha
            refine .inl (.inr (.inl ⟨rfl, ?_, ?_, ?_⟩))
            · rw [← es, ← es1]; exact z1
            · show p2.lineNumber = _
              rw [z2, show p1.lineNumber = p.lineNumber from congrArg Core.line hfr.1]
              exact congrArg Core.line g1.1
            · intro N hN
              refine z3 N ?_
              rw [es1, es]; exact hN

/-! ### The end of the line -/

/-- The character for U+0000. -/
abbrev sub0 (l : Str) : Str := replaceChar (Char.ofNat 0) (Char.ofNat 0xFFFD) l

theorem sub0_append (a b : Str) : sub0 (a ++ b) = sub0 a ++ sub0 b := by simp [sub0, replaceChar]

theorem sub0_keep {l : Str} (h : ∀ x ∈ l, x ≠ Char.ofNat 0) : sub0 l = l := by
  unfold sub0 replaceChar
  conv => rhs; rw [← List.map_id l]
  refine List.map_congr_left fun x hx => ?_
  rw [if_neg (by simpa using h x hx)]; rfl

theorem sub0_ws {v : Str} (h : OnlySpTab v) : sub0 v = v :=
  sub0_keep fun x hx => by rcases h x hx with rfl | rfl <;> decide

theorem sub0_visible {y : Str} (h : Visible y) : Visible (sub0 y) := by
  obtain ⟨x, hx, h1, h2⟩ := h
  refine ⟨_, List.mem_map_of_mem hx, ?_, ?_⟩
  · by_cases e : x = Char.ofNat 0
    · rw [if_pos (by simpa using e)]; decide
    · rw [if_neg (by simpa using e)]; exact h1
  · by_cases e : x = Char.ofNat 0
    · rw [if_pos (by simpa using e)]; decide
    · rw [if_neg (by simpa using e)]; exact h2

theorem sub0_rule {s : Str} (h : ThematicBreak s) : sub0 s = s := by
  obtain ⟨c, hc, _, h2, _⟩ := h
  refine sub0_keep fun x hx => ?_
  rcases h2 x hx with rfl | rfl | rfl
  · rcases hc with rfl | rfl | rfl <;> decide
  · decide
  · decide

theorem rule_sub0 {s : Str} (h : ThematicBreak (sub0 s)) : ThematicBreak s := by
  have : sub0 s = s := by
    refine sub0_keep fun x hx => ?_
    rintro rfl
    obtain ⟨c, hc, _, h2, _⟩ := h
    have := h2 (Char.ofNat 0xFFFD) (List.mem_map.2 ⟨_, hx, by decide⟩)
    rcases hc with rfl | rfl | rfl <;> revert this <;> decide
  rwa [this] at h

theorem sub0_hashes (n : Nat) : sub0 (List.replicate n '#') = List.replicate n '#' :=
  sub0_keep fun x hx => by rw [(List.mem_replicate.1 hx).2]; decide

theorem sub0_char {x : Char} (y : Char) (h : x ≠ y) (hy : y ≠ Char.ofNat 0xFFFD) : (if x == Char.ofNat 0 then Char.ofNat 0xFFFD else x) ≠ y := by
  split
  · exact hy.symm
  · exact h

theorem sub0_heading {n : Nat} {x s : Str} (h : AtxHeading n x s) : AtxHeading n (sub0 x) (sub0 s) := by
  have hd : ∀ {x : Str} {a : Char}, x.head? = some a → (sub0 x).head? = some (if a == Char.ofNat 0 then Char.ofNat 0xFFFD else a) := by
    intro x a h
    rw [sub0, replaceChar, List.head?_map, h]; rfl
  have hl : ∀ {x : Str} {a : Char}, x.getLast? = some a → (sub0 x).getLast? = some (if a == Char.ofNat 0 then Char.ofNat 0xFFFD else a) := by
    intro x a h
    rw [sub0, replaceChar, List.getLast?_map, h]; rfl
  cases h with
  | empty h1 => rw [sub0_append, sub0_hashes, sub0_ws h1]; exact .empty h1
  | closedEmpty h1 h2 h3 h4 =>
    rw [sub0_append, sub0_append, sub0_append, sub0_hashes, sub0_hashes, sub0_ws h1, sub0_ws h3]
    exact .closedEmpty h1 h2 h3 h4
  | plain h1 h2 h3 h4 h5 h6 h7 h8 h9 =>
    rw [sub0_append, sub0_append, sub0_hashes, sub0_ws h1]
    exact .plain h1 h2 (hd h3) (sub0_char _ h4 (by decide)) (sub0_char _ h5 (by decide)) (hl h6) (sub0_char _ h7 (by decide)) (sub0_char _ h8 (by decide))
      (sub0_char _ h9 (by decide))
  | closed h1 h2 h3 h4 h5 h6 h7 h8 h9 h10 h11 h12 h13 =>
    rw [sub0_append, sub0_append, sub0_append, sub0_append, sub0_append, sub0_hashes, sub0_hashes, sub0_ws h1, sub0_ws h10, sub0_ws h13]
    exact .closed h1 h2 (hd h3) (sub0_char _ h4 (by decide)) (sub0_char _ h5 (by decide)) (hl h6) (sub0_char _ h7 (by decide)) (sub0_char _ h8 (by decide))
      (sub0_char _ h9 (by decide)) h10 h11 h12 h13

theorem tabAlike_sub0 {free : Bool} {col : Nat} {y y' : Str} (h : TabAlike free col y y') : TabAlike free col (sub0 y) (sub0 y') := by
  induction h with
  | same => exact .same
  | @quote free c v v' y y' h1 h2 h3 h4 h5 ih =>
    have e : ∀ v y : Str, OnlySpTab v → sub0 ('>' :: (v ++ y)) = '>' :: (v ++ sub0 y) := by
      intro v y hv
      show '>' :: sub0 (v ++ y) = _
      rw [sub0_append, sub0_ws hv]
    rw [e v y h1, e v' y' h2]
    exact .quote h1 h2 h3 (h4.imp_left fun h => by rw [h]) ih
  | @item free c m v v' y y' ty b st dl h1 h2 h3 h4 h5 h6 h7 h8 h9 ih =>
    have hm : sub0 m = m := sub0_keep fun x hx => (mark_chars h1 x hx).2.2
    have e : ∀ v y : Str, OnlySpTab v → sub0 (m ++ (v ++ y)) = m ++ (v ++ sub0 y) := by
      intro v y hv
      rw [sub0_append, sub0_append, hm, sub0_ws hv]
    rw [e v y h3, e v' y' h4]
    exact .item h1 h2 h3 h4 h5 h6 (h7.imp_left fun h => by rw [h]) (sub0_visible h8) ih

theorem alike_sub0 {free : Place} {col : Nat} {y y' : Str} (h : Alike free col y y') : Alike free col (sub0 y) (sub0 y') := by
  induction h with
  | same => exact .same
  | rule h1 h2 h3 => rw [sub0_rule h1, sub0_rule h2]; exact .rule h1 h2 h3
  | heading h1 h2 h3 h4 => exact .heading h1 h2 (sub0_heading h3) (sub0_heading h4)
  | @quote free c v v' y y' h1 h2 h3 h4 h5 ih =>
    have e : ∀ v y : Str, OnlySpTab v → sub0 ('>' :: (v ++ y)) = '>' :: (v ++ sub0 y) := by
      intro v y hv
      show '>' :: sub0 (v ++ y) = _
      rw [sub0_append, sub0_ws hv]
    rw [e v y h1, e v' y' h2]
    exact .quote h1 h2 h3 (h4.imp_left fun h => by rw [h]) ih
  | @item free c m v v' y y' ty b st dl h1 h2 h3 h4 h5 h6 h7 h8 h9 h10 ih =>
    have hm : sub0 m = m := sub0_keep fun x hx => (mark_chars h1 x hx).2.2
    have e : ∀ v y : Str, OnlySpTab v → sub0 (m ++ (v ++ y)) = m ++ (v ++ sub0 y) := by
      intro v y hv
      rw [sub0_append, sub0_append, hm, sub0_ws hv]
    rw [e v y h3, e v' y' h4]
    refine .item h1 h2 h3 h4 h5 h6 (h7.imp_left fun h => by rw [h]) (sub0_visible h8) ih (h10.imp tabAlike_sub0 fun h => ?_)
    rw [← e v y h3, ← e v' y' h4]
    exact ⟨fun k => h.1 (rule_sub0 k), fun k => h.2 (rule_sub0 k)⟩

theorem alikeLines_sub0 {free : Place} {l l' : Str} (h : AlikeLines free l l') : AlikeLines free (sub0 l) (sub0 l') := by
  obtain ⟨v, v', y, y', rfl, rfl, h1, h2, h3, h4, h5⟩ := h
  refine ⟨v, v', sub0 y, sub0 y', by rw [sub0_append, sub0_ws h1], by rw [sub0_append, sub0_ws h2], h1, h2, h3, h4.imp_left fun h => by rw [h], alike_sub0 h5⟩

theorem nl_sub0 {l : Str} (h : '\n' ∉ l) : '\n' ∉ sub0 l := by
  intro hx
  obtain ⟨x, hx, e⟩ := List.mem_map.1 hx
  by_cases e0 : x = Char.ofNat 0
  · rw [if_pos (by simpa using e0)] at e
    revert e; decide
  · rw [if_neg (by simpa using e0)] at e
    rw [e] at hx
    exact h hx

theorem line_tab {free : Place} {l l' : Str} {p1 p2 : PState} (hr : Ready p) (h : AlikeLines free l l') (hn : '\n' ∉ l) (hn' : '\n' ∉ l') (e1 : incorporateLine p l = .ok p1)
    (e2 : incorporateLine p l' = .ok p2) : (Bad p1 ∨ (free = .begins ∧ Held (atStart p (sub0 l)) p1) ∨ (free = .clear ∧ ∃ x up, p.spine = x :: up ∧ x.data.t = .paragraph)) ∨ ∃ β : NodeData, β.t = .document ∧ Sp (swapSim β) p1 p2 := by
  rw [incorporateLine_eq] at e1 e2
  have h0 := alikeLines_sub0 h
  have n0 := nl_sub0 hn
  have n1 := nl_sub0 hn'
  change contLoop ((atStart p (sub0 l)).spine.reverse.drop 1) 1 (atStart p (sub0 l)) >>= afterCont (sub0 l) = .ok p1 at e1
  change contLoop ((atStart p (sub0 l')).spine.reverse.drop 1) 1 (atStart p (sub0 l')) >>= afterCont (sub0 l') = .ok p2 at e2
  generalize sub0 l = m at *
  generalize sub0 l' = m' at *
  obtain ⟨β, hβ, hsp⟩ := same_sp (p := atStart p m) (q := atStart p m') ⟨rfl, rfl, rfl⟩ ⟨hr.good, fun d hd => by
    rcases hr.le d hd with h | h
    · exact .inl (Nat.le_succ_of_le h)
    · exact .inr h⟩
  have hsp' : Sp (swapSim β) (atStart p m) (atStart p m') := hsp
  have hlen : 1 ≤ p.spine.length := hsp'.spine.pos
  have hcu : Tu free (atStart p m).curs (atStart p m').curs := by
    obtain ⟨v, v', y, y', rfl, rfl, k1, k2, k3, k4, k5⟩ := h0
    refine ⟨rfl, ?_, n0, n1⟩
    exact TE.mk k1 k2 k3 k4 k5
  have hc := contLoop_tab (p := atStart p m) (q := atStart p m') 1 (Nat.le_refl _) rfl hlen (chain_verb hr.good.chain) (by
    intro b hb hv
    obtain ⟨_, par, up, g1, g2⟩ := chain_verb hr.good.chain 0 b (p.spine.reverse.drop 1) (by
      rw [List.drop_zero]
      have hb : p.spine.reverse[0]? = some b := hb
      cases hx : p.spine.reverse with
      | nil => rw [hx] at hb; cases hb
      | cons x r => rw [hx] at hb; cases hb; rfl) hv
    have := (chain_verb hr.good.chain 0 b (p.spine.reverse.drop 1) (by
      rw [List.drop_zero]
      have hb : p.spine.reverse[0]? = some b := hb
      cases hx : p.spine.reverse with
      | nil => rw [hx] at hb; cases hb
      | cons x r => rw [hx] at hb; cases hb; rfl) hv).1
    have := congrArg List.length this
    rw [g1] at this
    simp at this) hcu
  have := BothOk.bind (f := afterCont m) (g := afterCont m') hc (fun x y hxy => afterCont_tab (p0 := atStart p m) (ln := m) (ln' := m') hβ hr.good.chain hxy hsp' rfl rfl (Nat.succ_pos _))
  exact (this p1 p2 e1 e2).imp_right fun h => ⟨β, hβ, h⟩

/-! ### The last block -/

theorem built_last2 {len k : Nat} {K : Kind} {bs : List OpenBlk} {t : Option Tree} (h : Built len k bs t)
    (hk : ∀ b ∈ bs, ContK b.data.t) {b : OpenBlk} (hb : bs.getLast? = some b) {u : Tree} (hu : b.children.getLast? = some u) (hl : LastKind K u) :
    ∃ u, t = some u ∧ LastKind K u := by
  have fin : ∀ {x : OpenBlk} {cs : List Tree} {t : Option Tree} {m m' : RefMap} {v : Tree}, ContK x.data.t → cs.getLast? = some v → LastKind K v →
      finalizeBlock (closeData len k x.data) cs m = .ok (t, m') → ∃ u, t = some u ∧ LastKind K u := by
    intro x cs t m m' v hx hv hl hf
    have hxp : x.data.t ≠ .paragraph := by intro h; rw [h] at hx; revert hx; unfold ContK; decide
    obtain ⟨⟨d, ks⟩, rfl, e2⟩ := finalizeBlock_kind hf hxp
    obtain ⟨s1, s2⟩ := finalize_sig hf
    have s2 : normList ks = normList cs := s2
    have hl' : (normList ks).getLast? = some (normTree v) := by
      rw [s2, normList_eq_map, List.getLast?_map, hv]; rfl
    rw [normList_eq_map, List.getLast?_map] at hl'
    obtain ⟨v', e3, e4⟩ := Option.map_eq_some_iff.1 hl'
    have e2 : d.t = x.data.t := e2
    exact ⟨_, rfl, .inside (by rw [e2]; exact hx) e3 (lastKind_norm hl e4)⟩
  induction h with
  | @tip x t m m' hf =>
    simp only [List.getLast?_singleton, Option.some.injEq] at hb
    subst hb
    exact fin (hk x (by simp)) hu hl hf
  | @cons x c cs t u m m' hbd hf ih =>
    rw [List.getLast?_cons_cons] at hb
    obtain ⟨v, rfl, hv⟩ := ih (fun y hy => hk y (List.mem_cons_of_mem _ hy)) hb
    exact fin (hk x (by simp)) (by rw [Option.toList_some, List.getLast?_concat]) hv hf

theorem bad_last {smart : Bool} {s : Str} {as : List Str} {t : Tree} {p : PState} (hs : TextLines s as) (ht : parse smart s = .ok t)
    (hp : as.foldlM incorporateLine PState.init.reset = .ok p) (h : Bad p) : LastKind .codeBlock t ∨ LastKind .htmlBlock t := by
  obtain ⟨q, f1, f2, f3⟩ := lines_ok as [] PState.init.reset (ready_reset PState.init).1 (ready_reset PState.init).2
  rw [hp] at f1
  cases f1
  obtain ⟨x, up, h1, h2⟩ := h
  rcases h2 with h2 | ⟨h2, u, h3, h4⟩
  · refine Classical.byContradiction fun hn => ?_
    simp only [not_or] at hn
    obtain ⟨_, _, g, _⟩ := last_of_parse hs ht hp hn.1 hn.2
    have := g x (by rw [h1]; simp)
    rcases h2 with h2 | h2
    · exact this.1 h2
    · exact this.2 h2
  · obtain ⟨r1, c1, c2, b1, i1, _, _, _, hb1, _, _, i2, _⟩ := blockPhase_ok PState.init s
    have j1 := i1
    unfold blockPhase at j1
    simp only [inputLines_of hs] at j1
    rw [hp] at j1
    have j1 : finalizeAll as.length (p.spine.length + 1) p = .ok r1 := j1
    rw [parse_blocks i1 i2] at ht
    have hbt := finalizeAll_built _ h1 j1
    rw [i2] at hbt
    have hcont : ∀ b ∈ p.spine.reverse, ContK b.data.t := by
      intro y hy
      rw [List.mem_reverse, h1] at hy
      rcases List.mem_cons.1 hy with rfl | hy
      · exact h2
      · have hch := f2.good.chain
        rw [PState.ds, h1, List.map_cons] at hch
        exact chain_containers hch y.data (List.mem_map_of_mem hy)
    have last : ∀ K, u.data.t = K → K ∉ [Kind.document, .blockQuote, .list, .item] → LastKind K t := by
      intro K hK hn
      obtain ⟨v, e1, e2⟩ := built_last2 (K := K) hbt hcont (b := x) (by rw [List.getLast?_reverse, h1]; rfl) h3 (by
        cases u with
        | node d cs => exact .here hK (.inr hn))
      cases e1
      exact lastKind_inlines e2 ht
    rcases h4 with h4 | h4
    · exact .inl (last _ h4 (by decide))
    · exact .inr (last _ h4 (by decide))

/-- All blocks begin before line `N`. -/
def StartsBefore (N : Nat) (d : NodeData) : Prop := d.t ∈ blockKinds ∧ d.t ≠ .document → ∀ c e, d.sourcepos ≠ some ((N, c), e)

theorem startsBefore_flagless (N : Nat) : Flagless fun d _ => StartsBefore N d := fun d _ => Iff.rfl

theorem posBefore_starts {N : Nat} {t : Tree} (h : All (PosBefore N) t) : All (StartsBefore N) t :=
  EveryNode.mono (fun d ks h _ c e hs => Nat.lt_irrefl _ (h _ _ hs).1) h

theorem built_starts {len k N : Nat} {bs : List OpenBlk} {t : Option Tree} (h : Built len k bs t) (hN : ∀ b ∈ bs, BlkBefore N b) :
    ∀ u, t = some u → All (StartsBefore N) u := by
  have fin : ∀ {x : OpenBlk} {cs : List Tree} {t : Option Tree} {m m' : RefMap}, BlkBefore N x → (∀ t ∈ cs, All (StartsBefore N) t) →
      finalizeBlock (closeData len k x.data) cs m = .ok (t, m') → ∀ u, t = some u → All (StartsBefore N) u := by
    rintro x cs t m m' hx hcs hf ⟨d, ks⟩ rfl
    refine everyNode_iff.2 ⟨?_, ?_⟩
    · intro _ c e hs
      have h0 := finalize_pos hf
      have hs : (closeData len k x.data).sourcepos = some ((N, c), e) := h0.symm.trans hs
      unfold closeData at hs
      cases hp : x.data.sourcepos with
      | none => simp [hp] at hs
      | some z =>
        obtain ⟨a, b⟩ := z
        have := (hx.1 a b hp).1
        simp only [hp, Option.map_some, Option.some.injEq, Prod.mk.injEq] at hs
        rw [hs.1] at this
        exact Nat.lt_irrefl _ this
    · have h0 := (finalize_sig hf).2
      rw [← everyNodeList_iff] at hcs ⊢
      rw [← everyNodeList_norm (startsBefore_flagless N)] at hcs ⊢
      have h0 : normList ks = normList cs := h0
      rw [h0]; exact hcs
  induction h with
  | @tip x t m m' hf => exact fin (hN x (by simp)) (fun t ht => posBefore_starts ((hN x (by simp)).2 t ht)) hf
  | @cons x c cs t u m m' hbd hf ih =>
    refine fin (hN x (by simp)) (fun t ht => ?_) hf
    rcases List.mem_append.1 ht with ht | ht
    · exact posBefore_starts ((hN x (by simp)).2 t ht)
    · exact ih (fun y hy => hN y (List.mem_cons_of_mem _ hy)) t (by simpa using ht)

theorem held_starts {smart : Bool} {s : Str} {as : List Str} {t : Tree} {p : PState} {N : Nat} (hs : TextLines s as) (ht : parse smart s = .ok t)
    (hp : as.foldlM incorporateLine PState.init.reset = .ok p) (h : ∀ x ∈ p.spine, BlkBefore N x) : ¬ BeginsIn N t := by
  refine fun hb => hb ?_
  obtain ⟨q, f1, f2, f3⟩ := lines_ok as [] PState.init.reset (ready_reset PState.init).1 (ready_reset PState.init).2
  rw [hp] at f1
  cases f1
  obtain ⟨r1, c1, c2, b1, i1, _, _, _, hb1, _, _, i2, i3⟩ := blockPhase_ok PState.init s
  have j1 := i1
  unfold blockPhase at j1
  simp only [inputLines_of hs] at j1
  rw [hp] at j1
  have j1 : finalizeAll as.length (p.spine.length + 1) p = .ok r1 := j1
  rw [parse_blocks i1 i2] at ht
  obtain ⟨x, up, hxs⟩ : ∃ x up, p.spine = x :: up := by
    cases hsp : p.spine with
    | nil => have := f2.good.chain; rw [PState.ds, hsp] at this; cases this
    | cons x up => exact ⟨x, up, rfl⟩
  have hbt := finalizeAll_built _ hxs j1
  rw [i2] at hbt
  refine processInlines_all (P := StartsBefore N) ?_ smart ?_ _ _ (built_starts hbt (fun b hb => h b (by simpa using hb)) _ rfl) ht
  · intro d hd hk
    exfalso
    have hk := hk.1
    revert hd hk
    cases d.t <;> decide
  · obtain ⟨p1', d, cs, g1, g2, g3, g4, g5, g6, g7, g8⟩ := blockPhase_tree (T := fun _ => True) (G := fun _ => True)
      charsOk_true (fun _ _ _ _ => trivial) (fun _ _ _ => trivial) trivial PState.init s (fun _ _ => trivial)
    rw [i1] at g1
    cases g1
    exact g8

theorem bad_tip {p : PState} (h : Bad p) {x : OpenBlk} {up : List OpenBlk} (hx : p.spine = x :: up) : x.data.t ≠ .paragraph := by
  obtain ⟨y, r, e, h⟩ := h
  rw [hx] at e
  cases e
  intro hp
  rw [hp] at h
  rcases h with (h | h) | ⟨h, _⟩
  · cases h
  · cases h
  · revert h; unfold ContK; decide

/-- The open blocks that go on in a blank line. -/
theorem contLoop_blank : ∀ {bs : List OpenBlk} {d d' : Nat} {p q : PState}, AtBlank p → (∀ i b r, bs.drop i = b :: r → VerbK b.data.t → r = []) →
    contLoop bs d p = .ok (.inr (d', q)) →
    (d' = d ∧ AtBlank q) ∨ ∃ i b, d' = d + i + 1 ∧ bs[i]? = some b ∧ b.data.t ≠ .paragraph ∧ (VerbK b.data.t ∨ AtBlank q)
  | [], d, d', p, q, hb, _, h => by cases h; exact .inl ⟨rfl, hb⟩
  | b :: bs, d, d', p, q, hb, hv, h => by
    have hf := (find_blank hb).1
    have hpk : peekAt (findNextNonspace p).currentLine (findNextNonspace p).nextNonspace = none := by
      rw [← head?_peek, (find_blank hb).2]; rfl
    simp only [contLoop] at h
    generalize (!b.children.isEmpty || !bs.isEmpty) = fl at h
    have key : continueBlock b.data fl (findNextNonspace p) = (.failed, findNextNonspace p) ∨ VerbK b.data.t ∨
        ∃ q, continueBlock b.data fl (findNextNonspace p) = (.matched, q) ∧ AtBlank q ∧ b.data.t ≠ .paragraph := by
      unfold continueBlock
      cases hk : b.data.t <;> simp only [hpk, hf]
      case codeBlock => exact .inr (.inl (.inl rfl))
      case htmlBlock => exact .inr (.inl (.inr rfl))
      case blockQuote => left; rw [if_neg (by simp)]
      case item =>
        cases fl with
        | true => exact .inr (.inr ⟨_, rfl, atBlank_adv hb, by simp⟩)
        | false => exact .inl rfl
      case document => exact .inr (.inr ⟨_, rfl, hb, by simp⟩)
      case list => exact .inr (.inr ⟨_, rfl, hb, by simp⟩)
      all_goals left; trivial
    rcases key with k | k | ⟨q1, k1, k2, k3⟩
    · rw [k] at h
      cases h
      exact .inl ⟨rfl, hb⟩
    · have := hv 0 b bs rfl k
      subst this
      split at h
      · cases h
        refine .inr ⟨0, b, rfl, rfl, ?_, .inl k⟩
        intro hp
        rw [hp] at k
        rcases k with k | k <;> cases k
      · cases h
        rename_i e
        refine .inl ⟨rfl, ?_⟩
        have e2 : q = findNextNonspace p := by
          unfold continueBlock at e
          rcases k with k | k <;> rw [k] at e <;> simp only [hf] at e
          · split at e
            · split at e <;> cases e
            · split at e
              · cases e
              · cases e
          · split at e
            · cases e; rfl
            · cases e
        rw [e2]; exact hb
      · rename_i p1 _
        cases hp : finalizeTip p1.lineNumber p1 with
        | error => rw [hp] at h; cases h
        | ok => rw [hp] at h; cases h
    · rw [k1] at h
      rcases contLoop_blank (bs := bs) k2 (fun i b r hd => hv (i + 1) b r (by simpa using hd)) h with ⟨e1, e2⟩ | ⟨i, b', e1, e2, e3⟩
      · exact .inr ⟨0, b, by omega, rfl, k3, .inr e2⟩
      · exact .inr ⟨i + 1, b', by omega, by simpa using e2, e3⟩

/-- After a blank line no paragraph is open. -/
theorem blank_tip {p p1 : PState} {l : Str} (hr : Ready p) (hl : OnlySpTab l) (e : incorporateLine p l = .ok p1) {x : OpenBlk} {up : List OpenBlk}
    (hx : p1.spine = x :: up) : x.data.t ≠ .paragraph := by
  rw [incorporateLine_eq] at e
  change contLoop ((atStart p (sub0 l)).spine.reverse.drop 1) 1 (atStart p (sub0 l)) >>= afterCont (sub0 l) = .ok p1 at e
  rw [sub0_ws hl] at e
  obtain ⟨β, hβ, hsp⟩ := same_sp (p := atStart p l) (q := atStart p l) ⟨rfl, rfl, rfl⟩ ⟨hr.good, fun d hd => by
    rcases hr.le d hd with h | h
    · exact .inl (Nat.le_succ_of_le h)
    · exact .inr h⟩
  have hX := swapSim_ok hβ
  have hsp' : Sp (swapSim β) (atStart p l) (atStart p l) := hsp
  have hlen : 1 ≤ p.spine.length := hsp'.spine.pos
  have hnl : '\n' ∉ l := fun h => by rcases hl _ h with h | h <;> cases h
  have hcu : Tu .any (atStart p l).curs (atStart p l).curs := by
    refine ⟨rfl, ?_, hnl, hnl⟩
    have := TE.mk (free := .any) (B := 3) (col := 0) (v := l) (v' := l) (y := []) (y' := []) hl hl rfl (.inl rfl) .same
    rw [List.append_nil] at this
    exact this
  have hcv := chain_verb hr.good.chain
  have hv0 : ∀ b, (atStart p l).spine.reverse[1 - 1]? = some b → ¬ VerbK b.data.t := by
    intro b hb hv
    have hd : p.spine.reverse.drop 0 = b :: p.spine.reverse.drop 1 := by
      rw [List.drop_zero]
      have hb : p.spine.reverse[0]? = some b := hb
      cases hx : p.spine.reverse with
      | nil => rw [hx] at hb; cases hb
      | cons x r => rw [hx] at hb; cases hb; rfl
    obtain ⟨g0, par, up, g1, g2⟩ := hcv 0 b _ hd hv
    have := congrArg List.length g0
    rw [g1] at this
    simp at this
  have hc := contLoop_tab (p := atStart p l) (q := atStart p l) 1 (Nat.le_refl _) rfl hlen hcv hv0 hcu
  cases hx1 : contLoop ((atStart p l).spine.reverse.drop 1) 1 (atStart p l) with
  | error => rw [hx1] at e; cases e
  | ok y =>
    rw [hx1] at e
    have e : afterCont l y = .ok p1 := e
    have hcr := hc y y hx1 hx1
    cases hcr with
    | bad h => cases e; exact bad_tip h hx
    | verb g1 g2 g3 g4 g5 => exact bad_tip (afterCont_verb g1 g2 g3 g4 g5 rfl e) hx
    | @inr d q _ g1 g2 g3 g4 g5 =>
      have es : q.spine = p.spine := congrArg Core.spine g1.1
      have eo : q.oldtip = p.spine.length := congrArg Books.oldtip g1.2
      -- the container
      obtain ⟨b, hb, hbp, hbl⟩ : ∃ b, q.spine.reverse[d - 1]? = some b ∧ b.data.t ≠ .paragraph ∧ AtBlank q := by
        rcases contLoop_blank (p := atStart p l) hl (fun i b r hd hv => (hcv (i + 1) b r (by
          rw [List.drop_drop, Nat.add_comm] at hd; exact hd) hv).1) hx1 with ⟨e1, e2⟩ | ⟨i, b, e1, e2, e3, e4⟩
        · subst e1
          obtain ⟨b, hb1, hb2⟩ := hr.good.chain.last_doc
          rw [PState.ds, List.getLast?_map, Option.map_eq_some_iff] at hb1
          obtain ⟨y, hy1, rfl⟩ := hb1
          refine ⟨y, ?_, by rw [hb2]; decide, e2⟩
          rw [es, ← List.head?_eq_getElem?, List.head?_reverse]; exact hy1
        · have e2 : (p.spine.reverse.drop 1)[i]? = some b := e2
          rw [List.getElem?_drop] at e2
          have hb : q.spine.reverse[d - 1]? = some b := by rw [es, ← e2]; congr 1; omega
          exact ⟨b, hb, e3, e4.resolve_left (g4 b (by rw [es] at hb; exact hb))⟩
      have hnv := g4 b (by rw [es] at hb; exact hb)
      have hdl : d ≤ q.spine.length := by
        have := (List.getElem?_eq_some_iff.1 hb).1
        simp at this; omega
      have hacc : acceptsLines b.data.t = false := by
        cases hk : b.data.t <;> first | rfl | skip
        · exact absurd hk hbp
        · exact absurd (.inl hk) hnv
        · exact absurd (.inr hk) hnv
      simp only [afterCont, blockAt, hb, Option.map_some, hacc, Bool.and_false, Bool.false_eq_true, if_false] at e
      rw [starts_onblank (p := { q with allClosed := d == q.oldtip, lastMatched := d }) b.data l.length hbl hbp] at e
      have hbk := (find_blank (p := { q with allClosed := d == q.oldtip, lastMatched := d }) hbl).1
      have hready : ReadyFor b.data (advanceNextNonspace (findNextNonspace { q with allClosed := d == q.oldtip, lastMatched := d })) := by
        refine ReadyFor.congr (p := { q with allClosed := d == q.oldtip, lastMatched := d }) ?_ ((core_advN _).trans (core_find _)) ((books_advN _).trans (books_find _))
        refine ⟨?_, fun _ => ⟨by show q.spine.length = q.oldtip; rw [eo, es], g3, by show d ≤ q.oldtip; rw [eo, ← es]; exact hdl⟩⟩
        have e1 : (if (d == q.oldtip) = true then 0 else q.oldtip - d) = q.oldtip - d := by
          by_cases h : d = q.oldtip
          · simp [h]
          · rw [if_neg (by simpa using h)]
        show ((q.ds.drop (if (d == q.oldtip) = true then 0 else q.oldtip - d)).head?.map (·.t)) = _
        rw [e1, PState.ds, ← List.map_drop, List.head?_map, List.head?_drop, eo, ← es]
        rw [List.getElem?_reverse (by omega)] at hb
        rw [show q.spine.length - d = q.spine.length - 1 - (d - 1) by omega, hb]
        rfl
      have hbk : (advanceNextNonspace (findNextNonspace { q with allClosed := d == q.oldtip, lastMatched := d })).blank = true := hbk
      have hsq : Sp (swapSim β) q q := hsp'.congr g1.1 g1.2 g2.1 g2.2
      have hsQ : RelC (fun a b => a.blank = true) (swapSim β) (advanceNextNonspace (findNextNonspace { q with allClosed := d == q.oldtip, lastMatched := d }))
          (advanceNextNonspace (findNextNonspace { q with allClosed := d == q.oldtip, lastMatched := d })) :=
        ⟨⟨hsq.spine, hsq.refmap, hsq.line, fun _ => rfl, fun _ => rfl, rfl, hsq.low⟩, hbk, by
          show 0 < q.lineNumber
          rw [show q.lineNumber = p.lineNumber + 1 from congrArg Core.line g1.1]; omega⟩
      generalize advanceNextNonspace (findNextNonspace { q with allClosed := d == q.oldtip, lastMatched := d }) = Q at *
      simp only [bind, Except.bind, addText] at e
      rw [if_neg (by rw [hbk]; simp)] at e
      cases hcl : closeUnmatched Q with
      | error => rw [hcl] at e; cases e
      | ok Q1 =>
        obtain ⟨_, k0, k1, _, k2⟩ := close_rel hX hsQ hready Q1 hcl
        rw [hcl] at e
        have k3 : Q1.blank = true := k1.cur
        cases hs1 : Q1.spine with
        | nil => rw [tipKind, hs1] at k2; cases k2
        | cons a r =>
          have k4 : a.data.t = b.data.t := by
            rw [tipKind, hs1] at k2; simpa using k2
          simp only [hs1, k3, if_true, k4, hacc, Bool.false_eq_true, if_false, Bool.not_true, Bool.and_false] at e
          cases e
          cases hx
          show a.data.t ≠ _
          rw [k4]; exact hbp

theorem clear_tip {as : List Str} {p : PState} (hp : as.foldlM incorporateLine PState.init.reset = .ok p) (h : ∀ k, as.getLast? = some k → OnlySpTab k)
    {x : OpenBlk} {up : List OpenBlk} (hx : p.spine = x :: up) : x.data.t ≠ .paragraph := by
  rcases List.eq_nil_or_concat as with rfl | ⟨bs, k, rfl⟩
  · cases hp
    cases hx
    decide
  · rw [List.concat_eq_append] at hp h
    obtain ⟨q, f1, f2, _⟩ := lines_ok bs [] PState.init.reset (ready_reset PState.init).1 (ready_reset PState.init).2
    rw [foldlM_append_ok f1, List.foldlM_cons] at hp
    cases e : incorporateLine q k with
    | error => rw [e] at hp; cases hp
    | ok p' =>
      rw [e] at hp
      cases hp
      exact blank_tip f2 (h k (by simp)) e hx

/-- Two texts that differ in the white space of one line. -/
theorem tab_swap {smart : Bool} {free : Place} {sa s s' : Str} {as bs : List Str} {l l' : Str} {t : Tree} (ha : TextLines sa (as ++ [l]))
    (hs : TextLines s (as ++ l :: bs)) (hs' : TextLines s' (as ++ l' :: bs)) (ht : parse smart sa = .ok t) (h1 : ¬ LastKind .codeBlock t)
    (h2 : ¬ LastKind .htmlBlock t) (hl : AlikeLines free l l') (h3 : free = .begins → BeginsIn (as.length + 1) t)
    (h4 : free = .clear → ∀ k, as.getLast? = some k → OnlySpTab k) (hn : '\n' ∉ l) (hn' : '\n' ∉ l') :
    (∃ e, parse smart s = .error e ∧ parse smart s' = .error e) ∨
    ∃ d d' xs ys, parse smart s = .ok (.node d xs) ∧ parse smart s' = .ok (.node d' ys) ∧ d.t = .document ∧ d'.t = .document ∧
      noColsL xs = noColsL ys := by
  refine swap_sp hs hs' fun p p1 p2 hp e1 e2 => ?_
  obtain ⟨p', f1, f2, f3⟩ := lines_ok as [] PState.init.reset (ready_reset PState.init).1 (ready_reset PState.init).2
  rw [hp] at f1
  cases f1
  rcases line_tab f2 hl hn hn' e1 e2 with (hb | ⟨hf, hg1, hg2, hg3⟩ | ⟨hf, x, up, hx, hxp⟩) | ⟨β, hβ, hsp⟩
  · exfalso
    rcases bad_last ha ht (by rw [foldlM_append_ok hp, List.foldlM_cons, e1]; rfl) hb with h | h
    · exact h1 h
    · exact h2 h
  · refine absurd (h3 hf) (held_starts ha ht (by rw [foldlM_append_ok hp, List.foldlM_cons, e1]; rfl) (hg3 _ ?_))
    have g := reaches_blk f3
    rw [List.nil_append] at f3
    have e := f3.line_eq
    rw [e] at g
    have hg1 : 2 ≤ p.spine.length := hg1
    have hpos : 1 ≤ as.length := by
      cases as with
      | nil => cases hp; revert hg1; decide
      | cons => simp
    rw [show max 2 (as.length + 1) = as.length + 1 by omega] at g
    exact g
  · exact absurd hxp (clear_tip hp (h4 hf) hx)
  · exact ⟨β, hβ, hsp.spine, hsp.refmap, hsp.line, fun _ => rfl, fun _ => rfl, rfl, hsp.low⟩

/-! ### Many lines -/

/-- Both texts fail, or their blocks are the same (columns not compared). -/
def SameBlocks (smart : Bool) (s s' : Str) : Prop :=
  (∃ e, parse smart s = .error e ∧ parse smart s' = .error e) ∨
  ∃ d d' xs ys, parse smart s = .ok (.node d xs) ∧ parse smart s' = .ok (.node d' ys) ∧ d.t = .document ∧ d'.t = .document ∧ noColsL xs = noColsL ys

theorem SameBlocks.trans {smart : Bool} {s s' s'' : Str} (h : SameBlocks smart s s') (h' : SameBlocks smart s' s'') : SameBlocks smart s s'' := by
  rcases h with ⟨e, h1, h2⟩ | ⟨d, d', xs, ys, h1, h2, h3, h4, h5⟩
  · rcases h' with ⟨e', g1, g2⟩ | ⟨d, d', xs, ys, g1, g2, _⟩
    · rw [h2] at g1; cases g1
      exact .inl ⟨e, h1, g2⟩
    · rw [h2] at g1; cases g1
  · rcases h' with ⟨e', g1, g2⟩ | ⟨d1, d1', xs1, ys1, g1, g2, g3, g4, g5⟩
    · rw [h2] at g1; cases g1
    · rw [h2] at g1; cases g1
      exact .inr ⟨d, d1', xs, ys1, h1, g2, h3, g4, h5.trans g5⟩

theorem sameBlocks_lines {smart : Bool} {s s' : Str} {ls : List Str} (h : TextLines s ls) (h' : TextLines s' ls) : SameBlocks smart s s' := by
  have e : parse smart s' = parse smart s := by
    unfold parse parseWith blockPhase
    rw [inputLines_of h, inputLines_of h']
  cases hp : parse smart s with
  | error x => exact .inl ⟨x, hp, e.trans hp⟩
  | ok t =>
    obtain ⟨d, xs⟩ := t
    have := (parse_doc hp).1
    exact .inr ⟨d, d, xs, xs, hp, e.trans hp, this, this, rfl⟩

/-- The lines, each with a line feed. -/
def ended (ls : List Str) : Str := ls.flatMap fun l => l ++ ['\n']

theorem ended_lines : ∀ {ls : List Str}, ls ≠ [] → (∀ l ∈ ls, OneLine l) → TextLines (ended ls) ls
  | [], h, _ => absurd rfl h
  | [l], _, h => by
    have : ended [l] = l ++ ['\n'] := by simp [ended]
    rw [this]
    exact .lastLf (h l (by simp))
  | l :: m :: ls, _, h => by
    have : ended (l :: m :: ls) = l ++ '\n' :: ended (m :: ls) := by simp [ended]
    rw [this]
    refine .lf (h l (by simp)) (by simp [ended]) (ended_lines (by simp) fun x hx => h x (List.mem_cons_of_mem _ hx))

theorem noColsL_eq_map (ts : List Tree) : noColsL ts = ts.map noColsT := by
  induction ts with
  | nil => rfl
  | cons t ts ih => rw [noColsL, ih]; rfl

theorem lastKind_noCols {k : Kind} {t : Tree} (h : LastKind k t) : ∀ {t' : Tree}, noColsT t' = noColsT t → LastKind k t' := by
  induction h with
  | @here d cs h1 h2 =>
    rintro ⟨d', cs'⟩ hn
    simp only [noColsT, Tree.node.injEq] at hn
    have e : d'.t = d.t := (congrArg NodeData.t hn.1 :)
    refine .here (e.trans h1) (h2.imp_left fun h => ?_)
    have h2 := hn.2
    rw [h, noColsL_eq_map] at h2
    simpa [noColsL] using h2
  | @inside d cs t h1 h2 _ ih =>
    rintro ⟨d', cs'⟩ hn
    simp only [noColsT, Tree.node.injEq] at hn
    have e : d'.t = d.t := (congrArg NodeData.t hn.1 :)
    have hl : (noColsL cs').getLast? = (noColsL cs).getLast? := by rw [hn.2]
    rw [noColsL_eq_map, noColsL_eq_map, List.getLast?_map, List.getLast?_map, h2] at hl
    obtain ⟨t', e1, e2⟩ := Option.map_eq_some_iff.1 hl
    exact .inside (by rw [e]; exact h1) e1 (ih e2)

theorem lastKind_doc {k : Kind} (hk : k ≠ .document) {d d' : NodeData} {xs ys : List Tree} (hd : d.t = .document) (hd' : d'.t = .document) (h : noColsL xs = noColsL ys)
    (hl : LastKind k (.node d' ys)) : LastKind k (.node d xs) := by
  cases hl with
  | here h1 _ => rw [hd'] at h1; exact absurd h1.symm hk
  | @inside _ _ t h1 h2 h3 =>
    have e : (noColsL xs).getLast? = (noColsL ys).getLast? := by rw [h]
    rw [noColsL_eq_map, noColsL_eq_map, List.getLast?_map, List.getLast?_map, h2] at e
    obtain ⟨t', e1, e2⟩ := Option.map_eq_some_iff.1 e
    exact .inside (by rw [hd]; decide) e1 (lastKind_noCols h3 e2)

mutual
theorem begins_noCols {n : Nat} : ∀ {t t' : Tree}, noColsT t = noColsT t' → All (StartsBefore n) t' → All (StartsBefore n) t
  | .node d cs, .node d' cs' => by
    intro h ha
    simp only [noColsT, Tree.node.injEq] at h
    have ha := everyNode_iff.1 ha
    refine everyNode_iff.2 ⟨fun hk c e hs => ?_, everyNodeList_iff.1 (begins_noColsL h.2 (everyNodeList_iff.2 ha.2))⟩
    have e1 : d.t = d'.t := (congrArg NodeData.t h.1 :)
    have e2 : d.sourcepos.map (fun sp => ((sp.1.1, 0), (sp.2.1, 0))) = d'.sourcepos.map fun sp => ((sp.1.1, 0), (sp.2.1, 0)) :=
      (congrArg NodeData.sourcepos h.1 :)
    rw [hs] at e2
    cases hs' : d'.sourcepos with
    | none => rw [hs'] at e2; cases e2
    | some z =>
      obtain ⟨⟨a, b⟩, z⟩ := z
      rw [hs'] at e2
      simp only [Option.map_some, Option.some.injEq, Prod.mk.injEq] at e2
      exact ha.1 (by rw [← e1]; exact hk) b z (by rw [hs', e2.1.1])
theorem begins_noColsL {n : Nat} : ∀ {ts ts' : List Tree}, noColsL ts = noColsL ts' → EveryNodeList (fun d _ => StartsBefore n d) ts' →
    EveryNodeList (fun d _ => StartsBefore n d) ts
  | [], _ => fun _ _ => trivial
  | t :: ts, [] => fun h => by simp [noColsL] at h
  | t :: ts, t' :: ts' => by
    intro h ha
    simp only [noColsL, List.cons.injEq] at h
    exact ⟨begins_noCols h.1 ha.1, begins_noColsL h.2 ha.2⟩
end

theorem beginsIn_noCols {n : Nat} {d d' : NodeData} {xs ys : List Tree} (hd : d.t = .document) (hd' : d'.t = .document) (h : noColsL xs = noColsL ys)
    (hb : BeginsIn n (.node d xs)) : BeginsIn n (.node d' ys) := by
  refine fun ha => hb ⟨fun hk => absurd hd hk.2, begins_noColsL h ha.2⟩

theorem alikeTexts_length {smart : Bool} {as as' : List Str} (h : AlikeTexts smart as as') : as'.length = as.length := by
  induction h with
  | nil => rfl
  | snoc _ _ ih => simp [ih]

theorem alikeLines_blank {free : Place} {l l' : Str} (h : AlikeLines free l l') (hl : OnlySpTab l) : OnlySpTab l' := by
  obtain ⟨v, v', y, y', rfl, rfl, h1, h2, h3, h4, h5⟩ := h
  intro c hc
  rcases List.mem_append.1 hc with hc | hc
  · exact h2 c hc
  · rcases alike_head h5 with rfl | ⟨x, z, _, _, rfl, _, g1, _⟩
    · exact hl c (List.mem_append_right _ hc)
    · rcases hl x (by simp) with rfl | rfl <;> cases g1

theorem alikeTexts_last {smart : Bool} {as as' : List Str} (h : AlikeTexts smart as as') (hl : ∀ k, as.getLast? = some k → OnlySpTab k) :
    ∀ k, as'.getLast? = some k → OnlySpTab k := by
  cases h with
  | nil => exact hl
  | snoc h hk =>
    intro k e
    rw [List.getLast?_concat] at e
    cases e
    have := hl _ List.getLast?_concat
    rcases hk with rfl | ⟨free, sa, t, hk, _⟩
    · exact this
    · exact alikeLines_blank hk this

theorem tab_texts {smart : Bool} {as as' : List Str} (h : AlikeTexts smart as as') : ∀ {bs : List Str} {s s' : Str}, TextLines s (as ++ bs) →
    TextLines s' (as' ++ bs) → SameBlocks smart s s' := by
  induction h with
  | nil => intro bs s s' hs hs'; exact sameBlocks_lines hs hs'
  | @snoc as as' l l' h hl ih =>
    intro bs s s' hs hs'
    rw [List.append_assoc] at hs hs'
    rcases hl with rfl | ⟨free, sa, t, hl, ha, ht, h1, h2, h3, h4⟩
    · exact ih hs hs'
    · have o1 := textLines_oneLine hs
      have o2 := textLines_oneLine hs'
      have o3 : ∀ x ∈ as' ++ l :: bs, OneLine x := by
        intro x hx
        rcases List.mem_append.1 hx with hx | hx
        · exact o2 x (by simp [hx])
        · exact o1 x (List.mem_append_right _ hx)
      have m1 := ended_lines (ls := as' ++ l :: bs) (by simp) o3
      refine (ih hs m1).trans ?_
      have m2 := ended_lines (ls := as' ++ [l]) (by simp) (fun x hx => o3 x (by
        rcases List.mem_append.1 hx with hx | hx
        · simp [hx]
        · obtain rfl : x = l := by simpa using hx
          simp))
      rcases ih ha m2 with ⟨e, g, _⟩ | ⟨d, d', xs, ys, g1, g2, g3, g4, g5⟩
      · rw [ht] at g; cases g
      · rw [ht] at g1; cases g1
        exact tab_swap m2 m1 hs' g2 (fun h => h1 (lastKind_doc (by decide) g3 g4 g5 h)) (fun h => h2 (lastKind_doc (by decide) g3 g4 g5 h)) hl
          (fun hf => by rw [alikeTexts_length h]; exact beginsIn_noCols g3 g4 g5 (h3 hf))
          (fun hf => alikeTexts_last h (h4 hf))
          (fun h => (o3 l (by simp) _ h).1 rfl) (fun h => (o2 l' (by simp) _ h).1 rfl)

/-! ### Tabs -/

theorem tabAlike_alike {free : Bool} {c : Nat} {y y' : Str} (h : TabAlike free c y y') : Alike (if free then .begins else .any) c y y' := by
  induction h with
  | same => exact .same
  | quote h1 h2 h3 h4 h5 ih => exact .quote h1 h2 h3 h4 ih
  | item h1 h2 h3 h4 h5 h6 h7 h8 h9 ih =>
    exact .item h1 (h2.imp_left fun h => by rw [h]; decide) h3 h4 h5 h6 h7 h8 (alike_free ih) (.inl h9)

theorem tabsFor_alike {smart : Bool} {as : List Str} {l l' : Str} (h : TabsFor smart as l l') : AlikeFor smart as l l' := by
  obtain ⟨free, sa, t, ⟨v, v', y, y', e1, e2, e3, e4, e5, e6, e7⟩, ha, ht, h1, h2, h3⟩ := h
  refine ⟨if free then .begins else .any, sa, t, ⟨v, v', y, y', e1, e2, e3, e4, e5, e6, tabAlike_alike e7⟩, ha, ht, h1, h2, fun h => h3 ?_, fun h => ?_⟩
  · cases free with
    | true => rfl
    | false => cases h
  · cases free <;> cases h

theorem tabTexts_alike {smart : Bool} {as as' : List Str} (h : TabTexts smart as as') : AlikeTexts smart as as' := by
  induction h with
  | nil => exact .nil
  | snoc _ h ih => exact .snoc ih (h.imp_right tabsFor_alike)

end CM
