import Verif.Proofs.Concat
/-
Lines that can be exchanged: if two lines lead to the same open blocks, the rest of the text is parsed in the same way.
-/
set_option linter.unusedVariables false
namespace CM
open Spec

/-! ### The fields that are left over from the line before -/

/-- Other book-keeping, which the next line sets anew. -/
def PState.stale (p : PState) (a : Bool) (o m : Nat) : PState := { p with allClosed := a, oldtip := o, lastMatched := m }

/-- Equal states but for that. -/
def Stale (p q : PState) : Prop := ∃ a o m, q = p.stale a o m

theorem adv_stale (n : Nat) (b : Bool) (p : PState) (a : Bool) (o m : Nat) :
    advanceOffset n b (p.stale a o m) = (advanceOffset n b p).stale a o m := rfl

theorem fence_stale (a : Bool) (o m : Nat) : ∀ (n : Nat) (p : PState), skipFenceOffset n (p.stale a o m) = (skipFenceOffset n p).stale a o m
  | 0, p => rfl
  | n + 1, p => by
    show (if isSpTabOpt (peekAt p.currentLine p.offset) then _ else _) = PState.stale (if isSpTabOpt (peekAt p.currentLine p.offset) then _ else _) a o m
    split
    · rw [adv_stale, fence_stale a o m n]
    · rfl

theorem eat_stale (p : PState) (a : Bool) (o m : Nat) : eatQuoteMarker (p.stale a o m) = (eatQuoteMarker p).stale a o m := by
  unfold eatQuoteMarker
  show (if isSpTabOpt (peekAt (advanceOffset 1 false (advanceNextNonspace p)).currentLine (advanceOffset 1 false (advanceNextNonspace p)).offset) then _ else _) =
    PState.stale (if _ then _ else _) a o m
  split <;> rfl

theorem continue_stale (d : NodeData) (b : Bool) (p : PState) (a : Bool) (o m : Nat) : continueBlock d b (p.stale a o m) =
    ((continueBlock d b p).1, (continueBlock d b p).2.stale a o m) := by
  have e1 : (p.stale a o m).blank = p.blank := rfl
  have e2 : (p.stale a o m).indent = p.indent := rfl
  have e3 : (p.stale a o m).indented = p.indented := rfl
  have e4 : (p.stale a o m).currentLine = p.currentLine := rfl
  have e5 : (p.stale a o m).nextNonspace = p.nextNonspace := rfl
  have e6 : isClosingFence d (p.stale a o m) = isClosingFence d p := rfl
  unfold continueBlock
  rw [e1, e2, e3, e4, e5, e6]
  cases d.t <;> simp only [] <;> (repeat' split) <;> first | rfl | rw [eat_stale] | rw [fence_stale]

theorem finalizeTip_stale (l : Nat) (p : PState) (a : Bool) (o m : Nat) :
    finalizeTip l (p.stale a o m) = (finalizeTip l p).map fun q => q.stale a o m := by
  unfold finalizeTip
  show (match p.spine with | [] => _ | b :: rest => _) = _
  cases p.spine with
  | nil => rfl
  | cons b rest =>
    simp only [bind, Except.bind]
    rw [show (p.stale a o m).lastLineLength = p.lastLineLength from rfl, show (p.stale a o m).refmap = p.refmap from rfl]
    cases finalizeBlock { b.data with isOpen := false, sourcepos := b.data.sourcepos.map fun sp => (sp.1, (l, p.lastLineLength)) } b.children p.refmap with
    | error => rfl
    | ok v =>
      simp only
      cases rest <;> rfl

theorem cont_stale (a : Bool) (o m : Nat) : ∀ (bs : List OpenBlk) (d : Nat) (p : PState),
    contLoop bs d (p.stale a o m) = (contLoop bs d p).map fun x => match x with
      | .inl q => .inl (q.stale a o m)
      | .inr (n, q) => .inr (n, q.stale a o m)
  | [], d, p => rfl
  | b :: bs, d, p => by
    simp only [contLoop]
    rw [show findNextNonspace (p.stale a o m) = (findNextNonspace p).stale a o m from rfl, continue_stale]
    cases continueBlock b.data (!b.children.isEmpty || !bs.isEmpty) (findNextNonspace p) with
    | mk r q =>
      cases r with
      | matched => exact cont_stale a o m bs (d + 1) q
      | failed => rfl
      | done =>
        simp only
        rw [show (q.stale a o m).lineNumber = q.lineNumber from rfl, finalizeTip_stale]
        cases finalizeTip q.lineNumber q <;> rfl

theorem line_stale {p q : PState} (h : Stale p q) (l : Str) : ERel Stale (incorporateLine p l) (incorporateLine q l) := by
  obtain ⟨a, o, m, rfl⟩ := h
  rw [incorporateLine_eq, incorporateLine_eq]
  generalize replaceChar (Char.ofNat 0) (Char.ofNat 0xFFFD) l = l
  have e1 : atStart (p.stale a o m) l = (atStart p l).stale a (atStart p l).oldtip m := rfl
  have e2 : (atStart (p.stale a o m) l).spine = (atStart p l).spine := rfl
  rw [e2, e1, cont_stale]
  generalize ho : (atStart p l).oldtip = o'
  cases hc : contLoop ((atStart p l).spine.reverse.drop 1) 1 (atStart p l) with
  | error => exact ERel.error
  | ok x =>
    cases x with
    | inl r => exact .ok ⟨a, o', m, rfl⟩
    | inr r =>
      obtain ⟨n, r⟩ := r
      have hb : r.oldtip = o' := by
        have : ∀ (bs : List OpenBlk) (d : Nat) (p : PState) {n : Nat} {r : PState}, contLoop bs d p = .ok (.inr (n, r)) → r.oldtip = p.oldtip := by
          intro bs
          induction bs with
          | nil => intro d p n r h; cases h; rfl
          | cons b bs ih =>
            intro d p n r h
            simp only [contLoop] at h
            have hk := books_continue b.data (!b.children.isEmpty || !bs.isEmpty) (findNextNonspace p)
            cases hx : continueBlock b.data (!b.children.isEmpty || !bs.isEmpty) (findNextNonspace p) with
            | mk x q =>
              rw [hx] at h hk
              have hk' : q.oldtip = p.oldtip := congrArg Books.oldtip hk
              cases x with
              | matched => rw [← hk']; exact ih _ _ h
              | failed => cases h; exact hk'
              | done =>
                simp only at h
                cases hf : finalizeTip q.lineNumber q with
                | error => rw [hf] at h; cases h
                | ok => rw [hf] at h; cases h
        rw [this _ _ _ hc, ho]
      have : afterCont l (.inr (n, r.stale a o' m)) = afterCont l (.inr (n, r)) := by
        subst hb
        rfl
      show ERel Stale (afterCont l (.inr (n, r))) (afterCont l (.inr (n, r.stale a o' m)))
      rw [this]
      intro z hz
      exact ⟨z, hz, z.allClosed, z.oldtip, z.lastMatched, rfl⟩

theorem lines_stale : ∀ (ls : List Str) {p q : PState}, Stale p q → ERel Stale (ls.foldlM incorporateLine p) (ls.foldlM incorporateLine q)
  | [], p, q, h => .ok h
  | l :: ls, p, q, h => by
    rw [List.foldlM_cons, List.foldlM_cons]
    exact ERel.bind (line_stale h l) fun a b hab => lines_stale ls hab

theorem finalizeAll_stale (len : Nat) : ∀ (n : Nat) {p q : PState}, Stale p q → ERel Stale (finalizeAll len n p) (finalizeAll len n q)
  | 0, p, q, h => ERel.error
  | n + 1, p, q, h => by
    obtain ⟨a, o, m, rfl⟩ := h
    cases hs : p.spine with
    | nil => rw [finalizeAll_nil hs, finalizeAll_nil (p := p.stale a o m) hs]; exact .ok ⟨a, o, m, rfl⟩
    | cons b r =>
      rw [finalizeAll_cons (by rw [hs]; simp), finalizeAll_cons (p := p.stale a o m) (by show p.spine ≠ []; rw [hs]; simp), finalizeTip_stale]
      cases finalizeTip len p with
      | error => exact ERel.error
      | ok z => exact finalizeAll_stale len n ⟨a, o, m, rfl⟩

/-! ### The rest of the text -/

/-- The columns are not compared. -/
def swapSim (β : NodeData) : Sim where
  β := β
  o := []
  A := []
  N := 0
  φ := dropCols
  ψ := dropCols
  flag := fun _ _ => True
  kid := False

theorem swapSim_ok {β : NodeData} (h : β.t = .document) : (swapSim β).Ok where
  doc := .inl h
  new := by intro l c c' _; rfl
  close := by
    intro x y l c c' _ h
    simp only [swapSim, dropCols, Prod.mk.injEq, and_true, Nat.add_zero] at h ⊢
    exact h.1
  start := by
    intro x y l _ h
    simp only [swapSim, dropCols, Prod.mk.injEq, and_true, Nat.add_zero] at h ⊢
    rw [h.1]
  mark := .inr rfl
  flag := fun _ _ _ _ => trivial
  ref := refKeeps_id

/-- The same open blocks, in the same line. -/
structure Same (p q : PState) : Prop where
  spine : q.spine = p.spine
  refmap : q.refmap = p.refmap
  line : q.lineNumber = p.lineNumber

theorem Same.symm {p q : PState} (h : Same p q) : Same q p := ⟨h.spine.symm, h.refmap.symm, h.line.symm⟩

theorem spine_same {β : NodeData} : ∀ (P : List OpenBlk) {b : OpenBlk}, b.data.t = .document → { b.data with lastLineBlank := false } = β →
    SpineRel (swapSim β) (P ++ [b]) (P ++ [b])
  | [], b, h, hb => .base (cs := b.children) h rfl rfl hb rfl (fun _ _ => trivial)
  | x :: P, b, h, hb => .cons rfl (spine_same P h hb)

theorem same_sp {p q : PState} (h : Same p q) (hr : Ready p) :
    ∃ β : NodeData, β.t = .document ∧ Sp (swapSim β) p (q.stale p.allClosed p.oldtip p.lastMatched) := by
  obtain ⟨d, hd1, hd2⟩ := hr.good.chain.last_doc
  obtain ⟨A, b, hA⟩ : ∃ A b, p.spine = A ++ [b] := by
    rcases List.eq_nil_or_concat p.spine with h0 | ⟨A, b, h0⟩
    · rw [PState.ds, h0] at hd1; simp at hd1
    · exact ⟨A, b, by simpa using h0⟩
  have hb : b.data.t = .document := by
    rw [PState.ds, hA] at hd1
    simp at hd1
    rw [hd1]; exact hd2
  generalize hβ : { b.data with lastLineBlank := false } = β
  have hβt : β.t = .document := by rw [← hβ]; exact hb
  refine ⟨β, hβt, ?_, h.refmap, h.line, fun _ => rfl, fun _ => rfl, rfl, Nat.zero_le _⟩
  show SpineRel _ p.spine q.spine
  rw [h.spine, hA]
  exact spine_same A hb hβ

theorem sp_rest {p q : PState} {β : NodeData} (hβt : β.t = .document) (hsp : Sp (swapSim β) p (q.stale p.allClosed p.oldtip p.lastMatched))
    (bs : List Str) (len : Nat) :
    ERel (fun p' q' => q'.refmap = p'.refmap ∧ ∃ d d' cs cs', p'.doc = some (.node d cs) ∧ q'.doc = some (.node d' cs') ∧ d.t = .document ∧
        d'.t = .document ∧ noColsL cs = noColsL cs')
      (bs.foldlM incorporateLine p >>= fun p => finalizeAll len (p.spine.length + 1) p)
      (bs.foldlM incorporateLine q >>= fun p => finalizeAll len (p.spine.length + 1) p) := by
  have hX := swapSim_ok hβt
  have hst : Stale (q.stale p.allClosed p.oldtip p.lastMatched) q := ⟨q.allClosed, q.oldtip, q.lastMatched, rfl⟩
  intro z hz
  cases hf : bs.foldlM incorporateLine p with
  | error => rw [hf] at hz; cases hz
  | ok p2 =>
    rw [hf] at hz
    have hz : finalizeAll len (p2.spine.length + 1) p2 = .ok z := hz
    obtain ⟨q2, k3, k4⟩ := same_lines hX rfl id bs hsp p2 hf
    obtain ⟨q3, k5, k6⟩ := lines_stale bs hst q2 k3
    obtain ⟨a, o, m, rfl⟩ := k6
    have hlen2 : q2.spine.length = p2.spine.length := by rw [k4.spine.length]; rfl
    obtain ⟨r, k7, k8, d2, d3, cs2, cs, k9, k10, k11, k12, k13⟩ := finalizeAll_same hX hβt rfl len (Nat.zero_le _) _ k4 z hz
    obtain ⟨r', l1, l2⟩ := finalizeAll_stale len _ ⟨a, o, m, rfl⟩ r k7
    obtain ⟨a', o', m', rfl⟩ := l2
    rw [k5]
    refine ⟨r.stale a' o' m', ?_, k8, d2, d3, cs2, cs, k9, k10, k11, k12, ?_⟩
    · show finalizeAll len ((q2.stale a o m).spine.length + 1) (q2.stale a o m) = _
      rw [← l1]
      show finalizeAll len (q2.spine.length + 1) _ = _
      rw [hlen2]
    · rw [← erL_dropCols, ← erL_dropCols]; exact k13

/-- Two texts that differ in one line, which leads to open blocks that differ only in columns. -/
theorem swap_sp {smart : Bool} {s s' : Str} {as bs : List Str} {l l' : Str} (hs : TextLines s (as ++ l :: bs)) (hs' : TextLines s' (as ++ l' :: bs))
    (h : ∀ p p1 p2, as.foldlM incorporateLine PState.init.reset = .ok p → incorporateLine p l = .ok p1 → incorporateLine p l' = .ok p2 →
      ∃ β : NodeData, β.t = .document ∧ Sp (swapSim β) p1 (p2.stale p1.allClosed p1.oldtip p1.lastMatched)) :
    (∃ e, parse smart s = .error e ∧ parse smart s' = .error e) ∨
    ∃ d d' xs ys, parse smart s = .ok (.node d xs) ∧ parse smart s' = .ok (.node d' ys) ∧ d.t = .document ∧ d'.t = .document ∧ noColsL xs = noColsL ys := by
  obtain ⟨r1, c1, c2, b1, i1, _, _, _, hb1, _, _, i2, _⟩ := blockPhase_ok PState.init s
  obtain ⟨p, f1, f2, f3⟩ := lines_ok as [] PState.init.reset (ready_reset PState.init).1 (ready_reset PState.init).2
  obtain ⟨p1, x1, g1, _, _, g2⟩ := incorporateLine_ok f2 l
  obtain ⟨p2, x2, g3, _, _, g4⟩ := incorporateLine_ok f2 l'
  obtain ⟨β, hβ, hsame⟩ := h p p1 p2 f1 g1 g3
  have j1 := i1
  unfold blockPhase at j1
  simp only [inputLines_of hs] at j1
  rw [foldlM_append_ok f1, List.foldlM_cons, g1] at j1
  have j1 : (bs.foldlM incorporateLine p1 >>= fun p => finalizeAll (as ++ l :: bs).length (p.spine.length + 1) p) = .ok r1 := j1
  obtain ⟨r2, k1, k2, d, d', cs, cs', k3, k4, k5, k6, k7⟩ := sp_rest hβ hsame bs (as ++ l :: bs).length r1 j1
  have i3 : blockPhase PState.init s' = .ok r2 := by
    unfold blockPhase
    simp only [inputLines_of hs']
    rw [foldlM_append_ok f1, List.foldlM_cons, g3]
    have e : (as ++ l' :: bs).length = (as ++ l :: bs).length := by simp
    rw [e]
    exact k1
  have k7' := k7
  rw [← erL_dropCols, ← erL_dropCols] at k7
  have hr := inlines_rel smart r1.refmap k7
  rw [parse_blocks i1 k3, parse_blocks i3 k4, k2]
  simp only [processInlines, k5, k6, bind, Except.bind]
  cases g1 : processInlinesList smart r1.refmap cs with
  | error x =>
    rw [g1] at hr
    cases g2 : processInlinesList smart r1.refmap cs' with
    | error y => rw [g2] at hr; cases hr; exact .inl ⟨x, rfl, rfl⟩
    | ok => rw [g2] at hr; cases hr
  | ok x =>
    rw [g1] at hr
    cases g2 : processInlinesList smart r1.refmap cs' with
    | error y => rw [g2] at hr; cases hr
    | ok y =>
      rw [g2] at hr
      simp only [Except.map, Except.ok.injEq] at hr
      refine .inr ⟨d, d', x, y, rfl, rfl, k5, k6, ?_⟩
      rw [← erL_dropCols, ← erL_dropCols]; exact hr.symm

/-- Two texts that differ in one line, which leads to the same open blocks. -/
theorem swap_parse {smart : Bool} {s s' : Str} {as bs : List Str} {l l' : Str} (hs : TextLines s (as ++ l :: bs)) (hs' : TextLines s' (as ++ l' :: bs))
    (h : ∀ p p1 p2, as.foldlM incorporateLine PState.init.reset = .ok p → incorporateLine p l = .ok p1 → incorporateLine p l' = .ok p2 → Same p1 p2) :
    (∃ e, parse smart s = .error e ∧ parse smart s' = .error e) ∨
    ∃ d d' xs ys, parse smart s = .ok (.node d xs) ∧ parse smart s' = .ok (.node d' ys) ∧ d.t = .document ∧ d'.t = .document ∧ noColsL xs = noColsL ys := by
  refine swap_sp hs hs' fun p p1 p2 hp e1 e2 => ?_
  obtain ⟨p', f1, f2, f3⟩ := lines_ok as [] PState.init.reset (ready_reset PState.init).1 (ready_reset PState.init).2
  rw [hp] at f1
  cases f1
  obtain ⟨p1', x1, g1, _, _, g2⟩ := incorporateLine_ok f2 l
  rw [e1] at g1
  cases g1
  exact same_sp (h p p1 p2 hp e1 e2) g2

end CM
