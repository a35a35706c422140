import Verif.Proofs.Blank
import Verif.Proofs.Shows
/-
Blank lines at the end of the text.
-/
namespace CM
open Spec

/-! ### Trees that differ in the book-keeping of their last nodes -/

/-- Equal up to the book-keeping of the root, of its last child, of the last child of that, and so on. -/
inductive LastAlike : Tree → Tree → Prop
  | leaf {d d' : NodeData} : bare d = bare d' → LastAlike (.node d []) (.node d' [])
  | node {d d' : NodeData} {a : List Tree} {t t' : Tree} : bare d = bare d' → LastAlike t t' → LastAlike (.node d (a ++ [t])) (.node d' (a ++ [t']))

/-- The same for the lists of the children. -/
inductive LastAlikeL : List Tree → List Tree → Prop
  | nil : LastAlikeL [] []
  | last {a : List Tree} {t t' : Tree} : LastAlike t t' → LastAlikeL (a ++ [t]) (a ++ [t'])

theorem lastAlike_iff {d d' : NodeData} {cs cs' : List Tree} : LastAlike (.node d cs) (.node d' cs') ↔ bare d = bare d' ∧ LastAlikeL cs cs' := by
  constructor
  · intro h
    generalize hx : Tree.node d cs = x at h
    generalize hy : Tree.node d' cs' = y at h
    cases h with
    | leaf h => cases hx; cases hy; exact ⟨h, .nil⟩
    | node h ht => cases hx; cases hy; exact ⟨h, .last ht⟩
  · rintro ⟨h, hc⟩
    cases hc with
    | nil => exact .leaf h
    | last ht => exact .node h ht

theorem LastAlikeL.cons (t : Tree) {ts ts' : List Tree} (h : LastAlikeL ts ts') (hn : ts ≠ []) : LastAlikeL (t :: ts) (t :: ts') := by
  cases h with
  | nil => exact absurd rfl hn
  | @last a _ _ ht => exact .last (a := t :: a) ht

mutual
theorem lastAlike_refl : ∀ t : Tree, LastAlike t t
  | .node d cs => by have h := lastAlikeL_refl cs; exact lastAlike_iff.2 ⟨rfl, h⟩
theorem lastAlikeL_refl : ∀ ts : List Tree, LastAlikeL ts ts
  | [] => .nil
  | [t] => by have h := lastAlike_refl t; exact .last (a := []) h
  | t :: u :: r => by have h := lastAlikeL_refl (u :: r); exact h.cons t (by simp)
end

theorem LastAlikeL.isEmpty {ts ts' : List Tree} (h : LastAlikeL ts ts') : ts.isEmpty = ts'.isEmpty := by
  cases h with
  | nil => rfl
  | @last a => cases a <;> rfl

/-- A list with more than one element. -/
theorem LastAlikeL.inv {t t' u : Tree} {r ts' : List Tree} (h : LastAlikeL (t :: u :: r) (t' :: ts')) : t = t' ∧ LastAlikeL (u :: r) ts' := by
  generalize hx : t :: u :: r = x at h
  generalize hy : t' :: ts' = y at h
  cases h with
  | nil => cases hx
  | @last a v v' ht =>
    cases a with
    | nil => cases hx
    | cons b a =>
      simp only [List.cons_append, List.cons.injEq] at hx hy
      obtain ⟨rfl, hx⟩ := hx
      obtain ⟨rfl, rfl⟩ := hy
      rw [hx]
      exact ⟨rfl, .last ht⟩

theorem LastAlikeL.one {t t' : Tree} {ts' : List Tree} (h : LastAlikeL [t] (t' :: ts')) : ts' = [] ∧ LastAlike t t' := by
  generalize hx : [t] = x at h
  generalize hy : t' :: ts' = y at h
  cases h with
  | nil => cases hx
  | @last a v v' ht =>
    cases a with
    | nil => cases hx; cases hy; exact ⟨rfl, ht⟩
    | cons b a => simp at hx

theorem LastAlike.bare {t t' : Tree} (h : LastAlike t t') : bareT t = bareT t' := by
  induction h with
  | leaf h => rw [bareT, bareT, h]
  | node h _ ih => rw [bareT, bareT, h, bareL_append, bareL_append, bareL.eq_2, bareL.eq_2, ih]

theorem LastAlikeL.bare {ts ts' : List Tree} (h : LastAlikeL ts ts') : bareL ts = bareL ts' := by
  cases h with
  | nil => rfl
  | last h => rw [bareL_append, bareL_append, bareL.eq_2, bareL.eq_2, h.bare]

theorem markLast_concat' (a : List Tree) (d : NodeData) (cs : List Tree) :
    markLastChild (a ++ [.node d cs]) = a ++ [.node { d with lastLineBlank := true } cs] := by
  induction a with
  | nil => rfl
  | cons b a ih =>
    cases ha : a ++ [Tree.node d cs] with
    | nil => simp at ha
    | cons u r => rw [List.cons_append, ha, markLastChild, ← ha, ih]; rfl

theorem LastAlikeL.mark {ts ts' : List Tree} (h : LastAlikeL ts ts') : LastAlikeL ts (markLastChild ts') := by
  cases h with
  | nil => exact .nil
  | @last a t t' h =>
    obtain ⟨d, cs⟩ := t
    obtain ⟨d', cs'⟩ := t'
    rw [markLast_concat']
    obtain ⟨h1, h2⟩ := lastAlike_iff.1 h
    exact .last (lastAlike_iff.2 ⟨h1, h2⟩)

/-! ### Whether a list is tight -/

mutual
theorem alike_ends : ∀ t : Tree, LastAlike t (endsWithBlankLine t).2
  | .node d cs => by
    have ih := alike_endsL cs
    rw [endsWithBlankLine]
    split
    · exact lastAlike_refl _
    · split
      · exact lastAlike_iff.2 ⟨rfl, ih⟩
      · exact lastAlike_iff.2 ⟨rfl, lastAlikeL_refl cs⟩
theorem alike_endsL : ∀ ts : List Tree, LastAlikeL ts (endsWithBlankLast ts).2
  | [] => .nil
  | [t] => by have h := alike_ends t; rw [endsWithBlankLast]; exact .last (a := []) h
  | t :: u :: r => by have h := alike_endsL (u :: r); rw [endsWithBlankLast]; exact h.cons t (by simp)
end

theorem LastAlike.symm {t t' : Tree} (h : LastAlike t t') : LastAlike t' t := by
  induction h with
  | leaf h => exact .leaf h.symm
  | node h _ ih => exact .node h.symm ih

theorem LastAlike.trans {t t' : Tree} (h : LastAlike t t') : ∀ {t'' : Tree}, LastAlike t' t'' → LastAlike t t'' := by
  induction h with
  | leaf h =>
    intro t'' h'
    obtain ⟨d'', cs''⟩ := t''
    obtain ⟨h1, h2⟩ := lastAlike_iff.1 h'
    exact lastAlike_iff.2 ⟨h.trans h1, h2⟩
  | @node d d' a t t' h _ ih =>
    intro t'' h'
    obtain ⟨d'', cs''⟩ := t''
    obtain ⟨h1, h2⟩ := lastAlike_iff.1 h'
    generalize hx : a ++ [t'] = x at h2
    cases h2 with
    | nil => simp at hx
    | @last b u u' hu =>
      obtain ⟨hab, hx'⟩ := List.append_inj' hx rfl
      simp only [List.cons.injEq, and_true] at hx'
      subst hab; subst hx'
      exact .node (h.trans h1) (ih hu)

theorem LastAlike.ends {t t' : Tree} (h : LastAlike t t') : LastAlike (endsWithBlankLine t).2 (endsWithBlankLine t').2 :=
  (alike_ends t).symm.trans (h.trans (alike_ends t'))

theorem checkSubitems_cons (n : Bool) (t : Tree) (ts : List Tree) : checkSubitems n (t :: ts) =
    if ((endsWithBlankLine t).1 && (n || !ts.isEmpty)) = true then (true, (endsWithBlankLine t).2 :: ts)
    else ((checkSubitems n ts).1, (endsWithBlankLine t).2 :: (checkSubitems n ts).2) := rfl

theorem checkItems_cons (t : Tree) (ts : List Tree) : checkItems (t :: ts) =
    if ((endsWithBlankLine t).1 && !ts.isEmpty) = true then (true, (endsWithBlankLine t).2 :: ts)
    else ((checkSubitems (!ts.isEmpty) (endsWithBlankLine t).2.children).1 || (checkItems ts).1,
      .node (endsWithBlankLine t).2.data (checkSubitems (!ts.isEmpty) (endsWithBlankLine t).2.children).2 :: (checkItems ts).2) := by
  rw [checkItems]
  rcases h1 : endsWithBlankLine t with ⟨b, ⟨d, cs⟩⟩
  rfl

theorem checkSubitems_alike : ∀ {ts ts' : List Tree}, LastAlikeL ts ts' →
    (checkSubitems false ts).1 = (checkSubitems false ts').1 ∧ LastAlikeL (checkSubitems false ts).2 (checkSubitems false ts').2
  | [], [], _ => ⟨rfl, .nil⟩
  | [], _ :: _, h => by have := h.isEmpty; simp at this
  | _ :: _, [], h => by have := h.isEmpty; simp at this
  | [t], t' :: ts', h => by
    obtain ⟨rfl, h0⟩ := h.one
    have := h0.ends
    simp only [checkSubitems, List.isEmpty_nil, Bool.not_true, Bool.or_self, Bool.and_false, Bool.false_eq_true, if_false, true_and]
    exact .last (a := []) this
  | t :: u :: r, t' :: ts', h => by
    obtain ⟨rfl, h0⟩ := h.inv
    have he := h0.isEmpty
    have ih := checkSubitems_alike h0
    have hne : (checkSubitems false (u :: r)).2 ≠ [] := by
      simp only [checkSubitems]
      split <;> simp
    rw [checkSubitems_cons false t (u :: r), checkSubitems_cons false t ts', ← he]
    split
    · exact ⟨rfl, h0.cons _ (by simp)⟩
    · exact ⟨ih.1, ih.2.cons _ hne⟩

theorem checkItems_alike : ∀ {ts ts' : List Tree}, LastAlikeL ts ts' →
    (checkItems ts).1 = (checkItems ts').1 ∧ LastAlikeL (checkItems ts).2 (checkItems ts').2
  | [], [], _ => ⟨rfl, .nil⟩
  | [], _ :: _, h => by have := h.isEmpty; simp at this
  | _ :: _, [], h => by have := h.isEmpty; simp at this
  | [t], t' :: ts', h => by
    obtain ⟨rfl, h0⟩ := h.one
    have he := h0.ends
    simp only [checkItems, List.isEmpty_nil, Bool.not_true, Bool.and_false, Bool.false_eq_true, if_false]
    rcases h1 : (endsWithBlankLine t).2 with ⟨d, cs⟩
    rcases h2 : (endsWithBlankLine t').2 with ⟨d', cs'⟩
    rw [h1, h2] at he
    obtain ⟨e1, e2⟩ := lastAlike_iff.1 he
    have := checkSubitems_alike e2
    simp only [Bool.or_false]
    exact ⟨this.1, .last (a := []) (lastAlike_iff.2 ⟨e1, this.2⟩)⟩
  | t :: u :: r, t' :: ts', h => by
    obtain ⟨rfl, h0⟩ := h.inv
    have he := h0.isEmpty
    have ih := checkItems_alike h0
    have hne : (checkItems (u :: r)).2 ≠ [] := by
      simp only [checkItems]
      split
      · simp
      · split; simp
    rw [checkItems_cons t (u :: r), checkItems_cons t ts', ← he]
    split
    · exact ⟨rfl, h0.cons _ (by simp)⟩
    · exact ⟨by rw [ih.1], ih.2.cons _ hne⟩

theorem bare_loosen {d d' : NodeData} (h : bare d = bare d') : bare (loosen d) = bare (loosen d') := by
  have h1 : bare (loosen d) = loosen (bare d) := rfl
  have h2 : bare (loosen d') = loosen (bare d') := rfl
  rw [h1, h2, h]

theorem finalizeList_alike {d d' : NodeData} {cs cs' : List Tree} (hd : bare d = bare d') (h : LastAlikeL cs cs') :
    LastAlike (finalizeList d cs) (finalizeList d' cs') := by
  obtain ⟨h1, h2⟩ := checkItems_alike h
  unfold finalizeList
  simp only
  rw [← h1]
  split
  · refine lastAlike_iff.2 ⟨bare_loosen hd, ?_⟩
    rcases e1 : (checkItems cs).2 with _ | ⟨⟨di, ci⟩, _ | ⟨u, r⟩⟩ <;> rcases e2 : (checkItems cs').2 with _ | ⟨⟨di', ci'⟩, r'⟩ <;> rw [e1, e2] at h2
    · exact .nil
    · have := h2.isEmpty; simp at this
    · have := h2.isEmpty; simp at this
    · obtain ⟨rfl, h3⟩ := h2.one
      obtain ⟨h4, h5⟩ := lastAlike_iff.1 h3
      exact .last (a := []) (lastAlike_iff.2 ⟨bare_loosen h4, h5⟩)
    · have := h2.isEmpty; simp at this
    · obtain ⟨h3, h4⟩ := h2.inv
      cases h3
      exact h4.cons _ (by simp)
  · exact lastAlike_iff.2 ⟨hd, h2⟩

/-! ### The open blocks -/

/-- Open blocks that lead to the same document. -/
structure SpineAlike (p q : List OpenBlk) : Prop where
  pass : ∀ x ∈ p, Passes x
  data : p.map (fun x => bare x.data) = q.map (fun x => bare x.data)
  up : (p.drop 1).map (·.children) = (q.drop 1).map (·.children)
  tip : LastAlikeL ((p.head?.map (·.children)).getD []) ((q.head?.map (·.children)).getD [])

theorem SpineAlike.length {p q : List OpenBlk} (h : SpineAlike p q) : p.length = q.length := by
  have := congrArg List.length h.data
  simpa using this

/-- Closing the last of them. -/
theorem finalizeTip_alike {len len' : Nat} {p q p1 : PState} (h : SpineAlike p.spine q.spine) (hm : p.refmap = q.refmap) (hf : finalizeTip len p = .ok p1) :
    ∃ q1, finalizeTip len' q = .ok q1 ∧ SpineAlike p1.spine q1.spine ∧ p1.refmap = q1.refmap ∧
      ((p.spine.length = 1 ∧ ∃ d d' cs cs', p1.doc = some (.node d cs) ∧ q1.doc = some (.node d' cs') ∧ LastAlikeL cs cs') ∨ 1 < p.spine.length) := by
  rcases ep : p.spine with _ | ⟨b, rest⟩
  · simp only [finalizeTip, ep] at hf; cases hf
  rcases eq : q.spine with _ | ⟨c, rest'⟩
  · have := h.length; rw [ep, eq] at this; simp at this
  rw [ep, eq] at h
  obtain ⟨h1, h2, h3, h4⟩ := h
  simp only [List.map_cons, List.cons.injEq] at h2
  simp only [List.drop_succ_cons, List.drop_zero] at h3
  simp only [List.head?_cons, Option.map_some, Option.getD_some] at h4
  have hkind : c.data.t = b.data.t := by have := congrArg NodeData.t h2.1; exact this.symm
  have hfb : ∃ d d' u u', bare d = bare d' ∧ LastAlikeL u u' ∧
      finalizeBlock { b.data with isOpen := false, sourcepos := b.data.sourcepos.map fun sp => (sp.1, (len, p.lastLineLength)) } b.children p.refmap = .ok (some (.node d u), p.refmap) ∧
      finalizeBlock { c.data with isOpen := false, sourcepos := c.data.sourcepos.map fun sp => (sp.1, (len', q.lastLineLength)) } c.children q.refmap = .ok (some (.node d' u'), q.refmap) := by
    have hbare : ∀ (x : NodeData) (o : Bool) (s : Option Pos), bare { x with isOpen := o, sourcepos := s } = bare x := fun _ _ _ => rfl
    rcases h1 b (by simp) with hb | hb | hb
    · refine ⟨{ b.data with isOpen := false, sourcepos := b.data.sourcepos.map fun sp => (sp.1, (len, p.lastLineLength)) },
        { c.data with isOpen := false, sourcepos := c.data.sourcepos.map fun sp => (sp.1, (len', q.lastLineLength)) }, b.children, c.children, ?_, h4, ?_, ?_⟩
      rotate_left
      · unfold finalizeBlock; rw [show ({ b.data with isOpen := false, sourcepos := b.data.sourcepos.map fun sp => (sp.1, (len, p.lastLineLength)) } : NodeData).t = .document from hb]
      · unfold finalizeBlock; rw [show ({ c.data with isOpen := false, sourcepos := c.data.sourcepos.map fun sp => (sp.1, (len', q.lastLineLength)) } : NodeData).t = .document from hkind.trans hb]
      · rw [hbare, hbare]; exact h2.1
    · have hl := finalizeList_alike (d := { b.data with isOpen := false, sourcepos := b.data.sourcepos.map fun sp => (sp.1, (len, p.lastLineLength)) })
        (d' := { c.data with isOpen := false, sourcepos := c.data.sourcepos.map fun sp => (sp.1, (len', q.lastLineLength)) }) (by rw [hbare, hbare]; exact h2.1) h4
      rcases f1 : finalizeList _ b.children with ⟨d, u⟩
      rcases f2 : finalizeList _ c.children with ⟨d', u'⟩
      rw [f1, f2] at hl
      obtain ⟨g1, g2⟩ := lastAlike_iff.1 hl
      refine ⟨d, d', u, u', g1, g2, ?_, ?_⟩
      · unfold finalizeBlock; rw [show ({ b.data with isOpen := false, sourcepos := b.data.sourcepos.map fun sp => (sp.1, (len, p.lastLineLength)) } : NodeData).t = .list from hb]
        simp only [f1]
      · unfold finalizeBlock; rw [show ({ c.data with isOpen := false, sourcepos := c.data.sourcepos.map fun sp => (sp.1, (len', q.lastLineLength)) } : NodeData).t = .list from hkind.trans hb]
        simp only [f2]
    · refine ⟨{ b.data with isOpen := false, sourcepos := b.data.sourcepos.map fun sp => (sp.1, (len, p.lastLineLength)) },
        { c.data with isOpen := false, sourcepos := c.data.sourcepos.map fun sp => (sp.1, (len', q.lastLineLength)) }, b.children, c.children, ?_, h4, ?_, ?_⟩
      rotate_left
      · unfold finalizeBlock; rw [show ({ b.data with isOpen := false, sourcepos := b.data.sourcepos.map fun sp => (sp.1, (len, p.lastLineLength)) } : NodeData).t = .item from hb]
      · unfold finalizeBlock; rw [show ({ c.data with isOpen := false, sourcepos := c.data.sourcepos.map fun sp => (sp.1, (len', q.lastLineLength)) } : NodeData).t = .item from hkind.trans hb]
      · rw [hbare, hbare]; exact h2.1
  obtain ⟨d, d', u, u', k1, k2, k3, k4⟩ := hfb
  unfold finalizeTip at hf ⊢
  rw [ep] at hf
  rw [eq]
  simp only [k3, k4, bind, Except.bind] at hf ⊢
  cases rest with
  | nil =>
    cases rest' with
    | cons => simp at h2
    | nil =>
      simp only [pure, Except.pure, Except.ok.injEq] at hf
      subst hf
      exact ⟨_, rfl, ⟨by simp, rfl, rfl, .nil⟩, hm, .inl ⟨rfl, d, d', u, u', rfl, rfl, k2⟩⟩
  | cons x up =>
    cases rest' with
    | nil => simp at h2
    | cons y up' =>
      simp only [pure, Except.pure, Except.ok.injEq] at hf
      subst hf
      simp only [List.map_cons, List.cons.injEq] at h2 h3
      refine ⟨_, rfl, ⟨?_, ?_, h3.2, ?_⟩, hm, .inr (by simp)⟩
      · intro z hz
        rcases List.mem_cons.1 hz with rfl | hz
        · exact h1 x (by simp)
        · exact h1 z (by simp [hz])
      · simp only [List.map_cons, h2.2.1, h2.2.2]
      · simp only [List.head?_cons, Option.map_some, Option.getD_some, Option.toList_some, h3.1]
        exact .last (lastAlike_iff.2 ⟨k1, k2⟩)

theorem closeN_alike {len len' : Nat} : ∀ (k : Nat) {p q z : PState}, SpineAlike p.spine q.spine → p.refmap = q.refmap → closeN len k p = .ok z →
    ∃ z', closeN len' k q = .ok z' ∧ SpineAlike z.spine z'.spine ∧ z.refmap = z'.refmap
  | 0, p, q, z, h, hm, hz => by cases hz; exact ⟨q, rfl, h, hm⟩
  | k + 1, p, q, z, h, hm, hz => by
    rw [closeN] at hz
    cases hf : finalizeTip len p with
    | error => rw [hf] at hz; cases hz
    | ok p1 =>
      rw [hf] at hz
      obtain ⟨q1, e1, e2, e3, _⟩ := finalizeTip_alike (len' := len') h hm hf
      obtain ⟨z', e4, e5, e6⟩ := closeN_alike k e2 e3 hz
      refine ⟨z', ?_, e5, e6⟩
      rw [closeN, e1]; exact e4

theorem finalizeAll_alike {len len' : Nat} : ∀ (n n' : Nat) {p q r : PState}, SpineAlike p.spine q.spine → p.refmap = q.refmap → p.spine ≠ [] →
    finalizeAll len n p = .ok r → q.spine.length < n' →
    ∃ r', finalizeAll len' n' q = .ok r' ∧ r.refmap = r'.refmap ∧ ∃ d d' cs cs', r.doc = some (.node d cs) ∧ r'.doc = some (.node d' cs') ∧ LastAlikeL cs cs'
  | 0, _, _, _, _, _, _, _, h, _ => by cases h
  | _, 0, _, _, _, _, _, _, _, h => by omega
  | n + 1, n' + 1, p, q, r, h, hm, hne, hf, hl => by
    have hne' : q.spine ≠ [] := by
      intro h0
      have := h.length
      rw [h0] at this
      exact hne (List.length_eq_zero_iff.1 (by simpa using this))
    rw [finalizeAll_cons hne] at hf
    rw [finalizeAll_cons hne']
    cases hf1 : finalizeTip len p with
    | error => rw [hf1] at hf; cases hf
    | ok p1 =>
      rw [hf1] at hf
      have hf : finalizeAll len n p1 = .ok r := hf
      obtain ⟨q1, e1, e2, e3, e4⟩ := finalizeTip_alike (len' := len') h hm hf1
      rw [e1]
      show ∃ r', finalizeAll len' n' q1 = .ok r' ∧ _
      have hlen : p.spine.length = p1.spine.length + 1 := by
        unfold finalizeTip at hf1
        rcases ep : p.spine with _ | ⟨b, _ | ⟨x, up⟩⟩
        · exact absurd ep hne
        · rw [ep] at hf1
          simp only [bind, Except.bind] at hf1
          split at hf1
          · cases hf1
          · cases hf1; rfl
        · rw [ep] at hf1
          simp only [bind, Except.bind] at hf1
          split at hf1
          · cases hf1
          · cases hf1; rfl
      have hl1 := e2.length
      have hl0 := h.length
      rcases e4 with ⟨e5, d, d', cs, cs', e6, e7, e8⟩ | e5
      · have hp1 : p1.spine = [] := List.length_eq_zero_iff.1 (by omega)
        have hq1 : q1.spine = [] := List.length_eq_zero_iff.1 (by omega)
        cases n with
        | zero => cases hf
        | succ n =>
          cases n' with
          | zero => omega
          | succ n' =>
            simp only [finalizeAll, hp1, Except.ok.injEq] at hf
            subst hf
            refine ⟨q1, by simp only [finalizeAll, hq1], e3, d, d', cs, cs', e6, e7, e8⟩
      · exact finalizeAll_alike n n' e2 e3 (by intro h0; rw [h0] at hlen; simp at hlen; omega) hf (by omega)

/-- What a blank line does to the open blocks. -/
theorem SpineAlike.blank {p q : List OpenBlk} (h : SpineAlike p q) : SpineAlike p (blankSpine q) := by
  cases q with
  | nil => exact h
  | cons c r =>
    obtain ⟨h1, h2, h3, h4⟩ := h
    refine ⟨h1, ?_, ?_, ?_⟩
    · rw [h2]
      simp only [blankSpine, List.map_cons, List.map_map]
      rfl
    · rw [h3]
      simp only [blankSpine, List.map_cons, List.drop_succ_cons, List.drop_zero, List.map_map]
      rfl
    · simp only [blankSpine, List.map_cons, List.head?_cons, Option.map_some, Option.getD_some] at h4 ⊢
      exact h4.mark

theorem spineAlike_refl {p : List OpenBlk} (h : ∀ x ∈ p, Passes x) : SpineAlike p p := ⟨h, rfl, rfl, lastAlikeL_refl _⟩

/-- Any number of blank lines: the open blocks are those of `p` with some closed. -/
theorem blanks_alike {len : Nat} {r : PState} : ∀ (ws : List Str) {z q q' : PState} {m : Nat}, finalizeAll len m z = .ok r → z.spine ≠ [] →
    SpineAlike z.spine q.spine → z.refmap = q.refmap → Ready q → (∀ x ∈ ws, OnlySpTab x) → ws.foldlM incorporateLine q = .ok q' →
    ∃ z' m', finalizeAll len m' z' = .ok r ∧ z'.spine ≠ [] ∧ SpineAlike z'.spine q'.spine ∧ z'.refmap = q'.refmap
  | [], z, q, q', m, h1, h2, h3, h4, _, _, h => by cases h; exact ⟨z, m, h1, h2, h3, h4⟩
  | w :: ws, z, q, q', m, h1, h2, h3, h4, hr, hw, h => by
    have hl := h3.length
    have hk1 := blankDepth_le (q.spine.reverse.drop 1) 1
    have hpos : 0 < z.spine.length := List.length_pos_iff.2 h2
    have hl2 : (q.spine.reverse.drop 1).length + 1 = q.spine.length := by
      rw [List.length_drop, List.length_reverse]; omega
    obtain ⟨k, hk⟩ : ∃ k, blankDepth (q.spine.reverse.drop 1) 1 + k = q.spine.length := ⟨q.spine.length - blankDepth (q.spine.reverse.drop 1) 1, by omega⟩
    obtain ⟨z1, m1, e1, e2⟩ := closeN_ok (len := len) k _ h1 (by omega)
    obtain ⟨q1, e3, e4, e5⟩ := closeN_alike (len' := q.lineNumber) k h3 h4 e1
    have hkind : ∀ b ∈ q.spine, b.data.t ≠ .codeBlock ∧ b.data.t ≠ .htmlBlock := by
      intro b hb
      have : bare b.data ∈ z.spine.map (fun x => bare x.data) := by rw [h3.data]; exact List.mem_map.2 ⟨b, hb, rfl⟩
      obtain ⟨c, hc, e⟩ := List.mem_map.1 this
      have e : (bare c.data).t = (bare b.data).t := congrArg NodeData.t e
      have e : c.data.t = b.data.t := e
      rw [← e]
      rcases h3.pass c hc with h | h | h <;> rw [h] <;> decide
    obtain ⟨q2, f1, f2, f3, f4⟩ := onblank_line hr hkind (hw w (by simp)) rfl hk e3
    obtain ⟨q2', x, g1, _, _, g2⟩ := incorporateLine_ok hr w
    rw [f1] at g1
    cases g1
    rw [List.foldlM_cons, f1] at h
    have h : ws.foldlM incorporateLine q2 = .ok q' := h
    refine blanks_alike ws (z := z1) (q := q2) e2 ?_ (by rw [f2]; exact e4.blank) (by rw [f3]; exact e5) g2 (fun x hx => hw x (by simp [hx])) h
    intro h0
    obtain ⟨S, m', i1, i2, _⟩ := closeN_run k e1 (by omega)
    rw [i1] at h0
    simp only at h0
    rw [h0] at i2
    simp at i2
    omega

/-- Blank lines at the end. -/
theorem blank_last {smart : Bool} {s s' : Str} {as ws : List Str} {t : Tree} (hs : TextLines s as) (hs' : TextLines s' (as ++ ws))
    (ht : parse smart s = .ok t) (h1 : ¬ LastKind .codeBlock t) (h2 : ¬ LastKind .htmlBlock t) (hw : ∀ x ∈ ws, OnlySpTab x) :
    ∃ d d' xs ys, t = .node d xs ∧ parse smart s' = .ok (.node d' ys) ∧ d.t = .document ∧ d'.t = .document ∧ bareL ys = bareL xs := by
  cases ws with
  | nil =>
    have : parse smart s' = .ok t := by
      rw [← ht]; unfold parse parseWith blockPhase
      rw [inputLines_of hs, inputLines_of hs', List.append_nil]
    obtain ⟨d, xs⟩ := t
    obtain ⟨k, _⟩ := parse_doc ht
    exact ⟨d, d, xs, xs, rfl, this, k, k, rfl⟩
  | cons w ws =>
  obtain ⟨p, f1, f2, f3⟩ := lines_ok as [] PState.init.reset (ready_reset PState.init).1 (ready_reset PState.init).2
  rw [List.nil_append] at f3
  obtain ⟨g1, g2, g3, k, z, g4, g5, _⟩ := last_of_parse hs ht f1 h1 h2
  have hpass := closed_passes g1 rfl g4 g5
  have hk1 := (blankDepth_le (p.spine.reverse.drop 1) 1).1
  obtain ⟨r1, c1, c2, b1, i1, _, _, _, hb1, _, _, i2, _⟩ := blockPhase_ok PState.init s
  obtain ⟨r2, c1', c2', b2, i3, _, _, _, hb2, _, _, i4, _⟩ := blockPhase_ok PState.init s'
  have j1 := i1
  unfold blockPhase at j1
  simp only [inputLines_of hs] at j1
  rw [f1] at j1
  have j1 : finalizeAll as.length (p.spine.length + 1) p = .ok r1 := j1
  obtain ⟨z', m, e1, e2⟩ := closeN_ok (len := as.length) k _ j1 (by omega)
  rw [g2, e1] at g5
  cases g5
  obtain ⟨q1, e3, e4, e5, e6⟩ := onblank_line g1 g3 (hw w (by simp)) rfl g4 (by rw [g2]; exact e1)
  obtain ⟨q1', x, y1, _, _, hr1⟩ := incorporateLine_ok g1 w
  rw [e3] at y1
  cases y1
  obtain ⟨q2, m1, m2, _⟩ := lines_ok ws (as ++ [w]) q1 hr1 (by
    obtain ⟨x, y1, y2, y3⟩ := lines_ok [w] as p g1 f3
    rw [List.foldlM_cons, e3] at y1
    cases y1
    exact y3)
  have hzne : z.spine ≠ [] := by
    intro h0
    obtain ⟨S, m', i1, i2, _⟩ := closeN_run k e1 (by omega)
    rw [i1] at h0
    simp only at h0
    rw [h0] at i2
    simp at i2
    omega
  obtain ⟨z2, m2', n1, n2, n3, n4⟩ := blanks_alike ws e2 hzne (by rw [e4]; exact (spineAlike_refl hpass).blank) e5.symm hr1
    (fun x hx => hw x (by simp [hx])) m1
  have j2 := i3
  unfold blockPhase at j2
  simp only [inputLines_of hs'] at j2
  rw [foldlM_append_ok f1, List.foldlM_cons, e3] at j2
  have j2 : (ws.foldlM incorporateLine q1 >>= fun p => finalizeAll (as ++ w :: ws).length (p.spine.length + 1) p) = .ok r2 := j2
  rw [m1] at j2
  have j2 : finalizeAll (as ++ w :: ws).length (q2.spine.length + 1) q2 = .ok r2 := j2
  obtain ⟨r2', o1, o2, d, d', cs, cs', o3, o4, o5⟩ := finalizeAll_alike (len' := (as ++ w :: ws).length) _ (q2.spine.length + 1) n3 n4 n2 n1 (by omega)
  rw [j2] at o1
  cases o1
  have hd : d.t = .document := by rw [i2] at o3; cases o3; exact hb1
  have hd' : d'.t = .document := by rw [i4] at o4; cases o4; exact hb2
  rw [parse_blocks i1 o3] at ht
  have hbr := o5.bare
  have b1' := inlines_bareL smart r1.refmap cs
  have b2' := inlines_bareL smart r1.refmap cs'
  rw [hbr, b2'] at b1'
  simp only [processInlines, hd, bind, Except.bind] at ht
  rw [parse_blocks i3 o4, ← o2]
  simp only [processInlines, hd', bind, Except.bind]
  cases y1 : processInlinesList smart r1.refmap cs with
  | error => rw [y1] at ht; cases ht
  | ok xs =>
    rw [y1] at ht b1'
    cases y2 : processInlinesList smart r1.refmap cs' with
    | error => rw [y2] at b1'; cases b1'
    | ok ys =>
      rw [y2] at b1'
      simp only [Except.map, Except.ok.injEq] at b1'
      cases ht
      exact ⟨d, d', xs, ys, rfl, rfl, hd, hd', b1'⟩

end CM
