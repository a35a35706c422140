import Verif.Proofs.At
import Verif.Proofs.Kid
/-
One document after the other (C57).
-/
namespace CM
open Spec

theorem Closes.at {q : PState} {P : List OpenBlk} {b : OpenBlk} {cs : List Tree} (h : Closes q P b cs) {f : PState}
    (h1 : f.spine = q.spine) (h2 : f.refmap = q.refmap) (h3 : f.lastLineLength = q.lastLineLength) :
    closeN q.lineNumber P.length f = .ok { f with spine := [{ b with children := cs }] } := by
  have hn : P.length < q.spine.length := by rw [h.spine]; simp
  obtain ⟨S, m, e1, _, _, _, e⟩ := closeN_run _ h.close hn
  have := e f h1 h2 h3
  have hS : S = [{ b with children := cs }] := (congrArg PState.spine e1 :).symm
  have hm : m = q.refmap := (congrArg PState.refmap e1 :).symm
  rw [this, hS, hm, ← h2]

/-- All but the outermost block. -/
theorem Closes.but {q : PState} {P' : List OpenBlk} {y b : OpenBlk} {cs : List Tree} (h : Closes q (P' ++ [y]) b cs) {f : PState}
    (h1 : f.spine = q.spine) (h2 : f.refmap = q.refmap) (h3 : f.lastLineLength = q.lastLineLength) :
    ∃ y' m t, y'.data = y.data ∧ closeN q.lineNumber P'.length f = .ok { f with spine := [y', b], refmap := m } ∧
      finalizeBlock (closeData q.lineNumber q.lastLineLength y.data) y'.children m = .ok (t, []) ∧ cs = b.children ++ t.toList := by
  have hc := h.close
  rw [List.length_append, List.length_singleton, closeN_add] at hc
  cases hq : closeN q.lineNumber P'.length q with
  | error => rw [hq] at hc; cases hc
  | ok q' =>
    rw [hq] at hc
    have hn : P'.length < q.spine.length := by rw [h.spine]; simp
    obtain ⟨S, m, e1, e2, e3, e4, e⟩ := closeN_run _ hq hn
    have hd : q.spine.drop P'.length = [y, b] := by rw [h.spine, List.append_assoc, List.drop_left]; rfl
    rw [hd] at e3 e4
    obtain ⟨y', hS, hy⟩ : ∃ y', S = [y', b] ∧ y'.data = y.data := by
      cases S with
      | nil => simp at e4
      | cons z zs =>
        simp only [List.drop_succ_cons, List.drop_zero] at e3
        simp only [List.head?_cons, Option.map_some, Option.some.injEq] at e4
        exact ⟨z, by rw [e3], e4⟩
    have hc : (finalizeTip q.lineNumber q').bind (closeN q.lineNumber 0) = .ok { q with spine := [{ b with children := cs }] } := hc
    cases hf : finalizeTip q.lineNumber q' with
    | error => rw [hf] at hc; cases hc
    | ok q'' =>
      rw [hf] at hc
      have hc : q'' = { q with spine := [{ b with children := cs }] } := Except.ok.inj hc
      obtain ⟨t, m', g1, g2⟩ := finalizeTip_inv (by rw [e1]; exact hS) hf
      rw [hc] at g2
      have k1 : cs = b.children ++ t.toList := by
        have := congrArg PState.spine g2
        simp only [List.cons.injEq, OpenBlk.mk.injEq] at this
        exact this.1.2
      have k2 : m' = [] := by
        have : q.refmap = m' := congrArg PState.refmap g2
        rw [← this, h.refmap]
      subst k2
      refine ⟨y', m, t, hy, by rw [e f h1 h2 h3, hS], ?_, k1⟩
      rw [e1, hy] at g1
      exact g1

theorem hat_of {l : Str} {q : PState} {P : List OpenBlk} {b : OpenBlk} {cs : List Tree} {k : BKind} {v : Bool} {m : Nat} {c : NodeData} {q1 : PState}
    (h : Closes q P b cs) (hl : Leaves l q P b k v m c q1) :
    Hat c { q1 with allClosed := m == q1.oldtip, lastMatched := m } [{ b with children := cs }] m := by
  refine ⟨⟨_, rfl, h.doc⟩, ?_⟩
  intro f hf1 hf2
  have k1 : f.spine = q.spine := (congrArg Core.spine (hf1.trans hl.core) :)
  have k2 : f.refmap = q.refmap := (congrArg Core.refmap (hf1.trans hl.core) :)
  have k3 : f.lastLineLength = q.lastLineLength := (congrArg Core.prevLen (hf1.trans hl.core) :)
  have k4 : f.lineNumber = q.lineNumber + 1 := (congrArg Core.line (hf1.trans hl.core) :)
  have k5 : q1.oldtip = q.spine.length := (congrArg Books.oldtip hl.books :)
  have k6 : f.oldtip = q.spine.length := by
    have : f.oldtip = q1.oldtip := (congrArg Books.oldtip hf2 :)
    rw [this, k5]
  have k7 : f.allClosed = (m == q.spine.length) := by
    have : f.allClosed = (m == q1.oldtip) := (congrArg Books.allClosed hf2 :)
    rw [this, k5]
  have k8 : f.lastMatched = m := (congrArg Books.lastMatched hf2 :)
  have hlen : q.spine.length = P.length + 1 := by rw [h.spine]; simp
  have hline : f.lineNumber - 1 = q.lineNumber := by omega
  rcases hl.place with ⟨rfl, rfl⟩ | ⟨rfl, P', y, rfl, rfl, hy⟩
  · have hc := h.at k1 k2 k3
    rw [← hline] at hc
    have hcl : closeUnmatched f = .ok (f.put [{ b with children := cs }] 1) := by
      rw [closeUnmatched_closeN hc (by rw [k6, k8, hlen]; omega) (by rw [k1, hlen]; omega) (by rw [k7, hlen]; cases P <;> simp)]
      simp only [PState.put, k8, k2, h.refmap]
    refine ⟨_, hcl, rfl, ?_, fun _ _ _ _ => rfl⟩
    intro ht
    simp [tipKind, PState.put, h.doc] at ht
  · obtain ⟨y', mm, t, hy', e1, e2, e3⟩ := h.but k1 k2 k3
    rw [← hline] at e1
    have hp : P'.length + 2 = q.spine.length := by rw [h.spine]; simp
    have hcl : closeUnmatched f = .ok { f with spine := [y', b], refmap := mm, oldtip := 2, allClosed := true } := by
      rw [closeUnmatched_closeN e1 (by rw [k6, k8]; omega) (by rw [k1]; omega) (by rw [k7, ← hp]; cases P' <;> simp)]
      simp only [k8]
    refine ⟨_, hcl, rfl, ?_, ?_⟩
    · intro ht
      simpa [tipKind, hy'] using ht
    · intro tag off g hg
      have ha : canContain y'.data.t tag = false := by
        rw [hy']
        rcases hy with hy | hy <;> rw [hy] <;> cases tag <;> first | rfl | exact absurd rfl hg
      have hb : canContain b.data.t tag = true := by
        rw [h.doc]; cases tag <;> first | rfl | exact absurd rfl hg
      have hfin : finalizeTip (f.lineNumber - 1) { f with spine := [y', b], refmap := mm, oldtip := 2, allClosed := true } =
          .ok { f with spine := [{ b with children := b.children ++ t.toList }], refmap := [], oldtip := 2, allClosed := true } := by
        refine finalizeTip_run (p := { f with spine := [y', b], refmap := mm, oldtip := 2, allClosed := true }) rfl ?_
        show finalizeBlock (closeData (f.lineNumber - 1) f.lastLineLength y'.data) y'.children mm = _
        rw [hline, k3, hy']
        exact e2
      have l1 : addChildLoop tag (([y', b] : List OpenBlk).length + 1) { f with spine := [y', b], refmap := mm, oldtip := 2, allClosed := true } = _ :=
        addChildLoop_one rfl hfin ha hb
      have l2 : addChildLoop tag (([{ b with children := cs }] : List OpenBlk).length + 1) (f.put [{ b with children := cs }] 2) = _ :=
        addChildLoop_zero rfl hb
      unfold addChild
      rw [show ({ f with spine := [y', b], refmap := mm, oldtip := 2, allClosed := true } : PState).spine = [y', b] from rfl, l1,
        show (f.put [{ b with children := cs }] 2).spine = [{ b with children := cs }] from rfl, l2, ← e3]
      rfl

/-! ### A list that is closed by the line after a blank line -/

theorem ends_last_flag : ∀ {cs : List Tree} {t : Tree}, cs.getLast? = some t → t.data.lastLineBlank = true → (endsWithBlankLast cs).1 = true ∧ rawEndsLast cs = true
  | [], _, h, _ => by cases h
  | [t], _, h, h' => by
    simp only [List.getLast?_singleton, Option.some.injEq] at h
    subst h
    have := ends_flag h'
    exact ⟨by simp only [endsWithBlankLast]; exact this.ends, by simp only [rawEndsLast]; exact this.raw⟩
  | t :: u :: r, x, h, h' => by
    rw [List.getLast?_cons_cons] at h
    have := ends_last_flag h h'
    exact ⟨by simp only [endsWithBlankLast]; exact this.1, by simp only [rawEndsLast]; exact this.2⟩

theorem ends_data (t : Tree) : (endsWithBlankLine t).2.data.lastLineBlank = t.data.lastLineBlank := by
  obtain ⟨d, cs⟩ := t
  simp only [endsWithBlankLine]
  repeat' split
  all_goals rfl

theorem items_flags : ∀ ts : List Tree, (checkItems ts).2.map (fun t => t.data.lastLineBlank) = ts.map fun t => t.data.lastLineBlank
  | [] => rfl
  | t :: ts => by
    have ih := items_flags ts
    have hd := ends_data t
    simp only [checkItems]
    split
    · simp [hd]
    · generalize (endsWithBlankLine t).2 = t' at hd
      obtain ⟨d, cs⟩ := t'
      have hd : d.lastLineBlank = t.data.lastLineBlank := hd
      simp only [List.map_cons, ih]
      rw [← hd]; rfl

/-- The blank line is found in the last item, too. -/
theorem list_ends {d : NodeData} {ts : List Tree} {t : Tree} (hd : d.t = .list) (hc : d.lastLineChecked = false) (hl : ts.getLast? = some t)
    (ht : t.data.lastLineBlank = true) : EndsIn (finalizeList d ts) true := by
  have key : ∀ (d : NodeData) (us : List Tree), d.t = .list → d.lastLineChecked = false → us.map (fun t => t.data.lastLineBlank) = ts.map (fun t => t.data.lastLineBlank) →
      EndsIn (.node d us) true := by
    intro d us hd hc hu
    have h1 : us.getLast?.map (fun t => t.data.lastLineBlank) = some true := by
      rw [← List.getLast?_map, hu, List.getLast?_map, hl]
      simp [ht]
    obtain ⟨u, hu1, hu2⟩ := Option.map_eq_some_iff.1 h1
    have := ends_last_flag hu1 hu2
    refine ⟨?_, ?_⟩
    · simp only [endsWithBlankLine, hd, hc]
      split
      · rfl
      · simpa using this.1
    · simp [rawEnds, hd, this.2]
  have hfl := items_flags ts
  unfold finalizeList
  simp only
  split
  · refine key _ _ hd hc ?_
    cases hcs : (checkItems ts).2 with
    | nil => rw [hcs] at hfl; exact hfl
    | cons x xs =>
      obtain ⟨di, ci⟩ := x
      rw [hcs] at hfl
      exact hfl
  · exact key _ _ hd hc hfl

theorem finalizeList_bare {d d' : NodeData} (h : bare d = bare d') (ts : List Tree) : bareT (finalizeList d ts) = bareT (finalizeList d' ts) := by
  have hl : bare (loosen d) = bare (loosen d') := by
    have e1 : ∀ d, bare (loosen d) = loosen (bare d) := fun _ => rfl
    rw [e1, e1, h]
  unfold finalizeList
  simp only
  split
  · simp only [bareT, hl]
  · simp only [bareT, h]

/-- All but the outermost list. -/
theorem Closes.inList {q : PState} {P' : List OpenBlk} {i y b : OpenBlk} {cs : List Tree} (h : Closes q (P' ++ [i, y]) b cs) (hi : i.data.t = .item)
    (hy : y.data.t = .list) {f : PState} (h1 : f.spine = q.spine) (h2 : f.refmap = q.refmap) (h3 : f.lastLineLength = q.lastLineLength) :
    ∃ ics, closeN q.lineNumber (P'.length + 1) f =
      .ok { f with spine := [⟨y.data, y.children ++ [.node (closeData q.lineNumber q.lastLineLength i.data) ics]⟩, b], refmap := [] } ∧
      cs = b.children ++ [finalizeList (closeData q.lineNumber q.lastLineLength y.data)
        (y.children ++ [.node (closeData q.lineNumber q.lastLineLength i.data) ics])] := by
  have h' : Closes q ((P' ++ [i]) ++ [y]) b cs := by
    rw [List.append_assoc]; exact h
  obtain ⟨y', m, t, g1, g2, g3, g4⟩ := h'.but h1 h2 h3
  rw [List.length_append, List.length_singleton] at g2
  have g2' := g2
  rw [closeN_add] at g2
  cases hq : closeN q.lineNumber P'.length f with
  | error => rw [hq] at g2; cases g2
  | ok q' =>
    rw [hq] at g2
    have hn : P'.length < f.spine.length := by rw [h1, h.spine]; simp
    obtain ⟨S, m', e1, e2, e3, e4, e⟩ := closeN_run _ hq hn
    have hd : f.spine.drop P'.length = [i, y, b] := by rw [h1, h.spine, List.append_assoc, List.drop_left]; rfl
    rw [hd] at e3 e4
    obtain ⟨i', hS, hi'⟩ : ∃ i', S = [i', y, b] ∧ i'.data = i.data := by
      cases S with
      | nil => simp at e4
      | cons z zs =>
        simp only [List.drop_succ_cons, List.drop_zero] at e3
        simp only [List.head?_cons, Option.map_some, Option.some.injEq] at e4
        exact ⟨z, by rw [e3], e4⟩
    have g2 : (finalizeTip q.lineNumber q').bind (closeN q.lineNumber 0) = .ok { f with spine := [y', b], refmap := m } := g2
    cases hf : finalizeTip q.lineNumber q' with
    | error => rw [hf] at g2; cases g2
    | ok q'' =>
      rw [hf] at g2
      have g2 : q'' = { f with spine := [y', b], refmap := m } := Except.ok.inj g2
      obtain ⟨t', m'', k1, k2⟩ := finalizeTip_inv (by rw [e1]; exact hS) hf
      have hk : (closeData q.lineNumber q'.lastLineLength i'.data).t = .item := by rw [hi']; exact hi
      unfold finalizeBlock at k1
      rw [hk] at k1
      cases k1
      have hm : m = [] ∧ t = some (finalizeList (closeData q.lineNumber q.lastLineLength y.data) y'.children) := by
        have hk : (closeData q.lineNumber q.lastLineLength y.data).t = .list := hy
        unfold finalizeBlock at g3
        rw [hk] at g3
        cases g3
        exact ⟨rfl, rfl⟩
      obtain ⟨rfl, rfl⟩ := hm
      rw [g2] at k2
      have hsp := congrArg PState.spine k2
      simp only [List.cons.injEq, and_true] at hsp
      have hll : q'.lastLineLength = q.lastLineLength := by rw [e1]; exact h3
      rw [hll, hi'] at hsp
      refine ⟨i'.children, ?_, ?_⟩
      · rw [g2', hsp]; rfl
      · rw [g4, hsp]; rfl

/-! ### The first line of the second document -/

/-- The blocks `A` come before those of the second document, which is `N` lines further down. -/
def joinSim (β : NodeData) (A : List Tree) (N : Nat) : Sim := { concatSim β A N with flag := Eq, kid := True }

theorem joinSim_ok {β : NodeData} {A : List Tree} {N : Nat} (h : β.t = .document) : (joinSim β A N).Ok where
  doc := .inl h
  new := (concatSim_ok (cs := []) (N := N) h).new
  close := (concatSim_ok (cs := []) (N := N) h).close
  start := (concatSim_ok (cs := []) (N := N) h).start
  mark := .inl trivial
  flag := fun _ _ _ hf => (hf (.inl h)).symm
  ref := refKeeps_id

/-- The text of the line when no block starts: `r` has the blocks of the first document. -/
theorem addText_put {r : PState} {S : List OpenBlk} {m : Nat} (hc : closeUnmatched r = .ok (r.put S m)) (ht : tipKind r ≠ some .paragraph) :
    addText r = addText (r.put S m) := by
  unfold addText
  have h1 : (!r.allClosed && !r.blank && tipKind r == some .paragraph) = false := by simp [ht]
  have h2 : (!(r.put S m).allClosed && !(r.put S m).blank && tipKind (r.put S m) == some .paragraph) = false := by simp [PState.put]
  rw [h1, h2, hc, put_close]
  rfl

/-- At the line that follows the state `q`, with `m` blocks matched. -/
structure Next (q : PState) (m : Nat) (f : PState) : Prop where
  spine : f.spine = q.spine
  refmap : f.refmap = q.refmap
  len : f.lastLineLength = q.lastLineLength
  line : f.lineNumber = q.lineNumber + 1
  oldtip : f.oldtip = q.spine.length
  closed : f.allClosed = (m == q.spine.length)
  matched : f.lastMatched = m

theorem close_one {q : PState} {P : List OpenBlk} {b : OpenBlk} {cs : List Tree} (h : Closes q P b cs) {f : PState} (hf : Next q 1 f) :
    closeUnmatched f = .ok (f.put [{ b with children := cs }] 1) := by
  have hlen : q.spine.length = P.length + 1 := by rw [h.spine]; simp
  have hline : f.lineNumber - 1 = q.lineNumber := by have := hf.line; omega
  have hc := h.at hf.spine hf.refmap hf.len
  rw [← hline] at hc
  rw [closeUnmatched_closeN hc (by rw [hf.oldtip, hf.matched, hlen]; omega) (by rw [hf.spine, hlen]; omega) (by rw [hf.closed, hlen]; cases P <;> simp)]
  simp only [PState.put, hf.matched, hf.refmap, h.refmap]

/-- A paragraph begins after a list. -/
theorem addText_list {q : PState} {P' : List OpenBlk} {i y b : OpenBlk} {cs : List Tree} (h : Closes q (P' ++ [i, y]) b cs) (hi : i.data.t = .item)
    (hy : y.data.t = .list) {r : PState} (hr : Next q 2 r) (ht : tipKind r ≠ some .paragraph) (hb : r.blank = false) (ho : r.offset < r.currentLine.length) :
    ∃ ics, cs = b.children ++ [finalizeList (closeData q.lineNumber q.lastLineLength y.data)
        (y.children ++ [.node (closeData q.lineNumber q.lastLineLength i.data) ics])] ∧
      addText r = addText (r.put [{ b with children := b.children ++ [finalizeList (closeData q.lineNumber q.lastLineLength { y.data with lastLineBlank := false })
        (y.children ++ [.node (closeData q.lineNumber q.lastLineLength i.data) ics])] }] 2) := by
  obtain ⟨ics, e1, e2⟩ := h.inList hi hy hr.spine hr.refmap hr.len
  refine ⟨ics, e2, ?_⟩
  generalize hys : y.children ++ [Tree.node (closeData q.lineNumber q.lastLineLength i.data) ics] = ys at e1
  have hline : r.lineNumber - 1 = q.lineNumber := by have := hr.line; omega
  have hp : P'.length + 3 = q.spine.length := by rw [h.spine]; simp
  rw [← hline] at e1
  have hcl : closeUnmatched r = .ok { r with spine := [⟨y.data, ys⟩, b], refmap := [], oldtip := 2, allClosed := true } := by
    rw [closeUnmatched_closeN e1 (by rw [hr.oldtip, hr.matched]; omega) (by rw [hr.spine]; omega) (by rw [hr.closed, ← hp]; simp)]
    simp only [hr.matched]
  have h1 : (!r.allClosed && !r.blank && tipKind r == some .paragraph) = false := by simp [ht]
  generalize hA : finalizeList (closeData q.lineNumber q.lastLineLength { y.data with lastLineBlank := false }) ys = t
  have h2 : ∀ S, (!(r.put S 2).allClosed && !(r.put S 2).blank && tipKind (r.put S 2) == some .paragraph) = false := by intro S; simp [PState.put]
  have hacc : acceptsLines y.data.t = false := by rw [hy]; rfl
  have hacc' : acceptsLines b.data.t = false := by rw [h.doc]; rfl
  generalize hy1 : ({ y.data with lastLineBlank := false } : NodeData) = y1 at hA
  have hy1t : y1.t = .list := by rw [← hy1]; exact hy
  generalize hb1 : ({ b.data with lastLineBlank := false } : NodeData) = b1
  have hb1t : b1.t = .document := by rw [← hb1]; exact h.doc
  have hfin : finalizeTip (r.lineNumber - 1) { r with spine := [⟨y1, ys⟩, ⟨b1, b.children⟩], refmap := [], oldtip := 2, allClosed := true } =
      .ok { r with spine := [⟨b1, b.children ++ [t]⟩], refmap := [], oldtip := 2, allClosed := true } := by
    refine finalizeTip_run (p := { r with spine := [⟨y1, ys⟩, ⟨b1, b.children⟩], refmap := [], oldtip := 2, allClosed := true }) (t := some t) rfl ?_
    show finalizeBlock (closeData (r.lineNumber - 1) r.lastLineLength y1) ys [] = _
    rw [hline, hr.len]
    have : (closeData q.lineNumber q.lastLineLength y1).t = .list := hy1t
    unfold finalizeBlock
    rw [this]
    simp only [hA]
  have l1 : addChildLoop .paragraph 3 { r with spine := [⟨y1, ys⟩, ⟨b1, b.children⟩], refmap := [], oldtip := 2, allClosed := true } = _ :=
    addChildLoop_one rfl hfin (by show canContain y1.t _ = _; rw [hy1t]; rfl) (by show canContain b1.t _ = _; rw [hb1t]; rfl)
  have l2 : addChildLoop .paragraph 2 { r with spine := [⟨b1, b.children ++ [t]⟩], refmap := [], oldtip := 2, allClosed := true } = _ :=
    addChildLoop_zero rfl (by show canContain b1.t _ = _; rw [hb1t]; rfl)
  have a1 : addChild .paragraph r.offset id { r with spine := [⟨y1, ys⟩, ⟨b1, b.children⟩], refmap := [], oldtip := 2, allClosed := true } =
      addChild .paragraph r.offset id { r with spine := [⟨b1, b.children ++ [t]⟩], refmap := [], oldtip := 2, allClosed := true } := by
    unfold addChild
    show (addChildLoop .paragraph 3 _ >>= _) = (addChildLoop .paragraph 2 _ >>= _)
    rw [l1, l2]
  unfold addText
  rw [h1, h2, hcl, put_close]
  simp only [Except.bind, bind, PState.put, hb, Bool.false_eq_true, if_false]
  simp only [hacc, hacc', Bool.false_eq_true, if_false, List.map_cons, List.map_nil, lineBlankFlag, Bool.false_and, hy1, hb1, Bool.not_false, Bool.and_true, decide_true, if_true, ho]
  simp only [hb] at a1
  rw [a1]

theorem rel_after {X : Sim} (hX : X.Ok) {p1 r0 : PState} {n : Nat} {d : NodeData} (hd : d.t = .document) (hsp : Sp X.weak p1 r0) (hcu : Cu 0 p1.curs r0.curs)
    (hr : ReadyFor docNode p1) (hcl : p1.allClosed = true) (hpos : X.K < p1.lineNumber) :
    ERel (fun p' q' => Rel 0 X.weak p' q' ∧ (∃ e, ReadyFor e p') ∧ p'.allClosed = true ∧ startsLoop n docNode p1 = .ok p')
      (startsLoop n docNode p1) (startsLoop n d r0) :=
  (startsLoop_rel hX.weak n n (Nat.le_refl _) (.inr ⟨rfl, .inl hd⟩) hsp hcu hpos hr).mono
    fun _ _ ha hab => ⟨hab.1, hab.2, closed_starts hcl ha, ha⟩

theorem base_sp {β : NodeData} {A : List Tree} {N : Nat} {p1 r0 : PState} {b0 b : OpenBlk} (hp : p1.spine = [b0]) (h0 : b0.data.t = .document)
    (hch : b0.children = []) (hq : r0.spine = [{ b with children := A }]) (hb : { b.data with lastLineBlank := false } = β) (hm : r0.refmap = p1.refmap)
    (hl : r0.lineNumber = p1.lineNumber + N) (ha : p1.allClosed = true) (ha' : r0.allClosed = true) : Sp (joinSim β A N).weak p1 r0 := by
  refine ⟨?_, hm, hl, fun h => (by rw [ha] at h; cases h), fun h => (by rw [ha] at h; cases h), (by rw [ha, ha']), Nat.zero_le _⟩
  rw [hp, hq]
  refine .base (cs := []) h0 (by rw [hch]; rfl) (by simp [joinSim, concatSim, Sim.weak]) hb rfl (fun _ _ => trivial)

/-- The document of the second run can be replaced when it is the only open block. -/
theorem sp_swap {β : NodeData} {A A' : List Tree} {N : Nat} {p' r : PState} {b : OpenBlk} {m : Nat}
    (h : Rel 0 (joinSim β A N).weak p' (r.put [{ b with children := A }] m)) :
    Rel 0 (joinSim β A' N).weak p' (r.put [{ b with children := A' }] m) := by
  refine ⟨⟨?_, h.refmap, h.line, h.oldtip, h.lastMatched, h.allClosed, h.low⟩, h.cur, h.pos⟩
  have hs := h.spine
  generalize p'.spine = sp at hs
  have hs : SpineRel (joinSim β A N).weak sp [{ b with children := A }] := hs
  show SpineRel (joinSim β A' N).weak sp [{ b with children := A' }]
  cases hs with
  | @base b0 _ _ cs h1 h2 h3 h4 h5 _ =>
    have h3 : A = A ++ cs := h3
    have : cs = [] := by simpa using h3
    subst this
    exact .base (cs := []) h1 h2 (by simp [joinSim, concatSim, Sim.weak]) h4 rfl (fun _ _ => trivial)
  | cons _ h => exact absurd h (by intro h; cases h)

theorem marks_split {as : List Tree} {t : Tree} {fs : List Bool} {f : Bool} (h : Marks (as ++ [t]) (fs ++ [f])) : Marks as fs ∧ EndsIn t f := by
  have hl : as.length = fs.length := by
    have := List.Forall₂.length_eq h
    simpa using this
  have h1 := List.forall₂_take as.length h
  have h2 := List.forall₂_drop as.length h
  rw [List.take_left, hl, List.take_left] at h1
  rw [List.drop_left, hl, List.drop_left] at h2
  cases h2 with
  | cons h2 _ => exact ⟨h1, h2⟩

theorem join_first {sm : Reading} {o : HtmlOpts} (ho : o.sourcepos = false) {p q : PState} {bs : List Blk} {g f : Bool} {P : List OpenBlk} {b : OpenBlk}
    {cs : List Tree} {fs : List Bool} (h : AtWith sm o q bs g f P b cs fs) (hp : NewParse p) {l : Str} (hone : OneLine l) (hnul : Char.ofNat 0 ∉ l)
    {x : Blk} (hx : bs.getLast? = some x) (hfol : Follows x.kind f l) (hk : ∀ p', incorporateLine p l = .ok p' → Kid p'.spine) :
    ∃ A, Shows sm o A bs ∧ Marks A fs ∧
      ERel (Sp (joinSim { b.data with lastLineBlank := false } A q.lineNumber)) (incorporateLine p l) (incorporateLine q l) := by
  obtain ⟨x', hx', hshape⟩ := h.shape
  rw [hx] at hx'
  cases hx'
  obtain ⟨m, c, q1, hl⟩ := out_of h.spine h.doc hone hshape h.tip hfol
  have hhat := hat_of h.toCloses hl
  have hline := hl.line
  have hnone := hl.none
  generalize hq2 : ({ q1 with allClosed := m == q1.oldtip, lastMatched := m } : PState) = q2 at hhat hline hnone
  have k1 : q2.spine = q.spine := by rw [← hq2]; exact (congrArg Core.spine hl.core :)
  have k2 : q2.refmap = [] := by rw [← hq2, ← h.refmap]; exact (congrArg Core.refmap hl.core :)
  have k4 : q2.lineNumber = q.lineNumber + 1 := by rw [← hq2]; exact (congrArg Core.line hl.core :)
  -- the second document alone
  rw [incorporateLine_eq, replaceChar_id hnul] at hk
  rw [incorporateLine_eq, replaceChar_id hnul, incorporateLine_eq, replaceChar_id hnul]
  have e1 : (atStart p l).spine.reverse.drop 1 = [] := by
    show p.spine.reverse.drop 1 = _
    rw [hp.spine]; rfl
  have e2 : (atStart q l).spine.reverse.drop 1 = P.reverse := by
    show q.spine.reverse.drop 1 = _
    rw [h.spine]; simp
  rw [e1] at hk ⊢
  rw [e2, hl.run]
  simp only [contLoop, Except.bind, bind, afterCont] at hk ⊢
  have bp : blockAt { atStart p l with allClosed := 1 == (atStart p l).oldtip, lastMatched := 1 } 1 = some docNode := by
    show (p.spine.reverse[0]?).map _ = _
    rw [hp.spine]; rfl
  have op : (1 == (atStart p l).oldtip) = true := by
    show (1 == p.spine.length) = true
    rw [hp.spine]; rfl
  rw [op] at bp hk ⊢
  have bq : blockAt q2 m = some c := by
    show (q2.spine.reverse[m - 1]?).map _ = _
    rw [k1, h.spine]
    rcases hl.place with ⟨rfl, rfl⟩ | ⟨rfl, P', y, rfl, rfl, _⟩
    · simp
    · simp
  have hcc : (c.t != .paragraph && acceptsLines c.t) = false := by
    rcases hl.place with ⟨rfl, rfl⟩ | ⟨rfl, P', y, rfl, rfl, hy | hy⟩
    · rw [h.doc]; rfl
    · rw [hy]; rfl
    · rw [hy]; rfl
  simp only [bp] at hk
  simp only [bp, hq2, bq, hcc]
  generalize hp1 : ({ atStart p l with allClosed := true, lastMatched := 1 } : PState) = p1 at hk
  rw [if_neg (by decide)] at hk ⊢
  rw [if_neg (by decide)]
  have p2 : p1.spine = [⟨docNode, []⟩] := by rw [← hp1]; exact hp.spine
  have p3 : p1.lineNumber = 1 := by rw [← hp1]; show p.lineNumber + 1 = 1; rw [hp.line]
  have p4 : p1.allClosed = true := by rw [← hp1]
  have p5 : p1.refmap = [] := by rw [← hp1]; exact hp.refmap
  have hr : ReadyFor docNode p1 := ready_of_closed p4 p2
  have hcu : ∀ S, Cu 0 p1.curs (q2.put S m).curs := by
    intro S
    have := hl.cur
    rw [← hp1, ← hq2]
    exact ⟨⟨[], rfl, by show q1.currentLine = _; rw [this.line]; rfl⟩, by show q1.offset = _; rw [this.off]; rfl, by show q1.column = _; rw [this.col]; rfl,
      by show q1.partiallyConsumedTab = _; rw [this.pct]; rfl, .inl rfl⟩
  have hrel := fun n => rel_after (joinSim_ok (β := { b.data with lastLineBlank := false }) (A := cs) (N := q.lineNumber) h.doc) (n := n) h.doc
    (base_sp (b := b) p2 rfl rfl (by rfl) rfl (by rw [p5]; rfl) (by show q2.lineNumber = _; rw [k4, p3]; omega) p4 rfl :
      Sp (joinSim { b.data with lastLineBlank := false } cs q.lineNumber).weak p1 (q2.put [{ b with children := cs }] m)) (hcu _) hr p4 (by show 0 < p1.lineNumber; omega)
  have hkeep : ∀ (X : Sim) p', startsLoop (l.length + 1) docNode p1 = .ok p' → Keeps X (addText p') := by
    intro X p' hp'
    rw [hp'] at hk
    refine keeps_of_kid fun p'' hp'' => ?_
    simp only [hp''] at hk
    exact hk { p'' with lastLineLength := l.length } rfl
  have fin : ∀ {X : Sim} {z w : Except PyErr PState}, ERel (Sp X) z w →
      ERel (Sp X) (z >>= fun p => pure { p with lastLineLength := l.length }) (w >>= fun p => pure { p with lastLineLength := l.length }) := by
    intro X z w hzw
    refine ERel.bind hzw fun a b hab => .ok ⟨hab.spine, hab.refmap, hab.line, hab.oldtip, hab.lastMatched, hab.allClosed, hab.low⟩
  have hX : ∀ A, (joinSim { b.data with lastLineBlank := false } A q.lineNumber).Ok := fun A => joinSim_ok h.doc
  rcases hat_starts hhat (d := b.data) h.doc hline l.length with he | ⟨he1, he2, he3⟩
  · refine ⟨cs, h.shows, h.marks, ?_⟩
    rw [he]
    refine ERel.bind (hrel _) ?_
    rintro p' q' ⟨f1, ⟨e, f2⟩, f3, f4⟩
    exact fin (addText_rel (hX cs) f1 (.inl f3) (hkeep _ p' f4) f2)
  · have hrl := hrel (l.length + 1)
    obtain ⟨htip, hm⟩ := hnone _ b.data h.doc he3
    generalize hrr : advanceNextNonspace (findNextNonspace q2) = r at he1 he2
    have r1 : r.core = q2.core := by rw [← hrr]; rfl
    have r2 : r.books = q2.books := by rw [← hrr]; rfl
    have r3 : tipKind r ≠ some .paragraph := by
      have : r.spine = q.spine := (congrArg Core.spine r1 :).trans k1
      unfold tipKind
      rw [this]; exact htip
    obtain ⟨f1, c1, c2, c3, c4⟩ := hhat.add r r1 r2
    suffices hs : ∃ A, Shows sm o A bs ∧ Marks A fs ∧ addText r = addText (r.put [{ b with children := A }] m) by
      obtain ⟨A, h1, h2, h3⟩ := hs
      refine ⟨A, h1, h2, ?_⟩
      rw [he2] at hrl
      have goal : ERel (Sp (joinSim { b.data with lastLineBlank := false } A q.lineNumber))
          (startsLoop (l.length + 1) docNode p1 >>= fun p => addText p >>= fun p => pure { p with lastLineLength := l.length })
          (startsLoop (l.length + 1) c q2 >>= fun p => addText p >>= fun p => pure { p with lastLineLength := l.length }) := by
        rw [he1]
        refine ERel.bind (R := fun p' q' => Rel 0 (joinSim { b.data with lastLineBlank := false } A q.lineNumber).weak p' (q'.put [{ b with children := A }] m) ∧ (∃ e, ReadyFor e p') ∧ p'.allClosed = true ∧
          startsLoop (l.length + 1) docNode p1 = .ok p' ∧ addText q' = addText (q'.put [{ b with children := A }] m)) ?_ ?_
        · intro p' hp'
          obtain ⟨q', hq', g1, g2, g3, g4⟩ := hrl p' hp'
          obtain rfl : _ = q' := Except.ok.inj hq'
          exact ⟨r, rfl, sp_swap g1, g2, g3, g4, h3⟩
        · rintro p' q' ⟨g1, ⟨e, g2⟩, g3, g4, g5⟩
          rw [g5]
          exact fin (addText_rel (hX A) g1 (.inl g3) (hkeep _ p' g4) g2)
      exact goal
    have hnext : Next q m r := by
      have b1 := hl.books
      have b2 : r.books = q2.books := r2
      refine ⟨(congrArg Core.spine r1 :).trans k1, ?_, ?_, (congrArg Core.line r1 :).trans k4, ?_, ?_, ?_⟩
      · rw [h.refmap, ← k2]; exact (congrArg Core.refmap r1 :)
      · have : q2.lastLineLength = q.lastLineLength := by rw [← hq2]; exact (congrArg Core.prevLen hl.core :)
        rw [← this]; exact (congrArg Core.prevLen r1 :)
      · have : q2.oldtip = q.spine.length := by rw [← hq2]; exact (congrArg Books.oldtip b1 :)
        rw [← this]; exact (congrArg Books.oldtip b2 :)
      · have : q2.allClosed = (m == q.spine.length) := by
          rw [← hq2]; show (m == q1.oldtip) = _
          rw [show q1.oldtip = q.spine.length from (congrArg Books.oldtip b1 :)]
        rw [← this]; exact (congrArg Books.allClosed b2 :)
      · have : q2.lastMatched = m := by rw [← hq2]
        rw [← this]; exact (congrArg Books.lastMatched b2 :)
    rcases hm with rfl | ⟨hf, hst, ty, bu, dl, hkd⟩
    · exact ⟨cs, h.shows, h.marks, addText_put (close_one h.toCloses hnext) r3⟩
    · rw [hkd] at hshape
      obtain ⟨P', i, y, ld, lx, rfl, i1, i2, i3, l1, l2, l3, l4, l5, l6⟩ := hshape
      rcases hl.place with ⟨rfl, rfl⟩ | ⟨rfl, _⟩
      · exact ⟨cs, h.shows, h.marks, addText_put (close_one h.toCloses hnext) r3⟩
      have cur : Begins l q2 := by
        have := hl.cur
        rw [← hq2]; exact ⟨this.line, this.off, this.col, this.pct⟩
      have hsee := sees_of cur hst hone
      have hoff : r.offset < r.currentLine.length := by
        have e1 : r.offset = (findNextNonspace q2).nextNonspace := by rw [← hrr]; rfl
        have e2 : r.currentLine = (findNextNonspace q2).currentLine := by rw [← hrr]; rfl
        rw [e1, e2]
        obtain ⟨ch, rr, hlr, _⟩ := hst
        have := hsee.rest
        rw [hlr] at this
        have := congrArg List.length this
        rw [List.length_drop, List.length_cons] at this
        omega
      obtain ⟨ics, z1, z2⟩ := addText_list h.toCloses i1 l1 hnext r3 (by rw [← hrr]; exact hsee.text) hoff
      refine ⟨_, ?_, ?_, z2⟩
      · refine shows_bare ho ?_ h.shows
        rw [z1, bareL_append, bareL_append]
        congr 1
        simp only [bareL]
        rw [finalizeList_bare]
        rfl
      · have hm := h.marks
        have hlast := h.last
        rw [z1] at hm
        subst hf
        obtain ⟨fs0, rfl⟩ := List.getLast?_eq_some_iff.1 hlast
        obtain ⟨h1, h2⟩ := marks_split hm
        refine List.rel_append h1 (.cons ?_ .nil)
        have hiflag : i.data.lastLineBlank = true := h.flags i (by rw [h.spine]; simp)
        exact list_ends l1 l6 (List.getLast?_concat ..) hiflag

end CM
