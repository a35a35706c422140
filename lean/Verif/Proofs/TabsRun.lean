import Verif.Proofs.TabsStart
import Verif.Proofs.ColumnsRun
import Verif.Proofs.LineKinds
/-
Tabs that stand for spaces: a whole line (C67).
-/
set_option linter.unusedVariables false
namespace CM
open Spec

variable {C : CursorAt → CursorAt → Prop} {X : Sim} {p q : PState} {c c' : NodeData}

/-! ### List items -/

theorem listMarker_kind (h : (c'.t != .paragraph) = (c.t != .paragraph)) (s : Str) : listMarker c'.t s = listMarker c.t s := by
  unfold listMarker; rw [h]

theorem isList_rel (hc : CRel X c c') : (c'.t == .list) = (c.t == .list) := by
  rcases hc with h | ⟨h1, h2 | h2 | h2⟩
  · have : c.t = c'.t := (congrArg NodeData.t h :)
    rw [this]
  · rw [h1, h2]
  · rw [h1, h2]; rfl
  · rw [h1, h2]; rfl

theorem peek_drop (l : Str) (i n : Nat) : peekAt l (i + n) = ((l.drop i).drop n).head? := by
  rw [peek_eq, List.drop_drop]

/-- After the marker. -/
theorem mark_step {r : PState} {m t : Str} (h : r.currentLine.drop r.nextNonspace = m ++ t) (hm : '\t' ∉ m) :
    (advanceOffset m.length true (advanceNextNonspace r)).column = r.nextNonspaceColumn + m.length ∧
    (advanceOffset m.length true (advanceNextNonspace r)).currentLine.drop (advanceOffset m.length true (advanceNextNonspace r)).offset = t := by
  have e := advanceLoop_plain (line := r.currentLine) (b := true) m t r.nextNonspace r.nextNonspaceColumn false h hm
  have e1 : (advanceOffset m.length true (advanceNextNonspace r)).column = r.nextNonspaceColumn + m.length := by
    show (advanceLoop r.currentLine true m.length m.length r.nextNonspace r.nextNonspaceColumn false).2.1 = _
    rw [e]
  have e2 : (advanceOffset m.length true (advanceNextNonspace r)).offset = r.nextNonspace + m.length := by
    show (advanceLoop r.currentLine true m.length m.length r.nextNonspace r.nextNonspaceColumn false).1 = _
    rw [e]
  refine ⟨e1, ?_⟩
  rw [e2]
  show r.currentLine.drop (r.nextNonspace + m.length) = t
  rw [← List.drop_drop, h, List.drop_left]

theorem startListItem_same (hX : X.Ok) (hc : CRel X c c') (h : RelC TuE X p q) (hr : ReadyFor c p) :
    ERel (SR X c) (startListItem c p) (startListItem c' q) := by
  have hd := h.cur.dropN
  have hi : q.indent = p.indent := by
    obtain ⟨v, v', y, h⟩ := h.cur
    exact h.ind'
  have hnone : parseListMarker c.t p = .ok (none, p) → parseListMarker c'.t q = .ok (none, q) → ERel (SR X c) (startListItem c p) (startListItem c' q) := by
    intro h1 h2
    unfold startListItem
    rw [h.cur.indd, isList_rel hc, h1, h2]
    refine ERel.ite (fun _ => .ok (.none h hr)) fun _ => .ok (.none h hr)
  by_cases hip : (!p.indented || c.t == .list) = true
  · have hiq : (!q.indented || c'.t == .list) = true := by rw [h.cur.indd, isList_rel hc]; exact hip
    by_cases h4 : p.indent ≥ 4
    · refine hnone ?_ ?_ <;> unfold parseListMarker
      · rw [if_pos h4]
      · rw [if_pos (by rw [hi]; exact h4)]
    cases hm : listMarker c.t (p.currentLine.drop p.nextNonspace) with
    | none =>
      refine hnone ?_ ?_ <;> unfold parseListMarker
      · rw [if_neg h4, hm]
      · rw [if_neg (by rw [hi]; exact h4), hd, listMarker_rel hc, hm]
    | some r =>
      obtain ⟨m, ty, bullet, start, delim⟩ := r
      obtain ⟨⟨t, ht⟩, hmt⟩ := listMarker_text hm
      have hm' : listMarker c'.t (q.currentLine.drop q.nextNonspace) = some (m, ty, bullet, start, delim) := by rw [hd, listMarker_rel hc, hm]
      have e1 : peekAt q.currentLine (q.nextNonspace + m.length) = peekAt p.currentLine (p.nextNonspace + m.length) := by
        rw [peek_drop, peek_drop, hd]
      have e2 : q.currentLine.drop (q.nextNonspace + m.length) = p.currentLine.drop (p.nextNonspace + m.length) := by
        rw [← List.drop_drop, ← List.drop_drop, hd]
      cases hn : (!((peekAt p.currentLine (p.nextNonspace + m.length)).isNone || isSpTabOpt (peekAt p.currentLine (p.nextNonspace + m.length)))) with
      | true =>
        refine hnone ?_ ?_ <;> unfold parseListMarker
        · rw [if_neg h4, hm]; simp only; rw [if_pos hn]
        · rw [if_neg (by rw [hi]; exact h4), hm']; simp only; rw [e1, if_pos hn]
      | false =>
        cases hp : (c.t == .paragraph && !((p.currentLine.drop (p.nextNonspace + m.length)).any isNonSpace)) with
        | true =>
          refine hnone ?_ ?_ <;> unfold parseListMarker
          · rw [if_neg h4, hm]; simp only; rw [if_neg (by rw [hn]; simp), if_pos hp]
          · rw [if_neg (by rw [hi]; exact h4), hm']; simp only; rw [e1, e2, hc.para, if_neg (by rw [hn]; simp), if_pos hp]
        | false =>
          obtain ⟨a1, a2⟩ := mark_step ht hmt
          obtain ⟨b1, b2⟩ := mark_step (hd.trans ht) hmt
          obtain ⟨v, v', y, hN⟩ := h.cur
          have hnc : q.nextNonspaceColumn = p.nextNonspaceColumn := hN.nc'
          refine startListItem_mark hX hc h hr hip hiq hi ?_ (parseListMarker_some h4 hm hn hp)
            (parseListMarker_some (by rw [hi]; exact h4) hm' (by rw [e1]; exact hn) (by rw [e2, hc.para]; exact hp)) ?_
          · refine ⟨?_, ?_, hN.nl, hN.nl'⟩
            · exact b1.trans ((congrArg (· + m.length) hnc).trans a1.symm)
            · have : (advanceOffset m.length true (advanceNextNonspace q)).currentLine.drop (advanceOffset m.length true (advanceNextNonspace q)).offset =
                  (advanceOffset m.length true (advanceNextNonspace p)).currentLine.drop (advanceOffset m.length true (advanceNextNonspace p)).offset := b2.trans a2.symm
              show TE .clear _ _ ((advanceOffset m.length true (advanceNextNonspace p)).currentLine.drop (advanceOffset m.length true (advanceNextNonspace p)).offset)
                ((advanceOffset m.length true (advanceNextNonspace q)).currentLine.drop (advanceOffset m.length true (advanceNextNonspace q)).offset)
              rw [this]
              exact TE.refl _ _ _ _
          · rw [a2, peek_eq, a2]
            rw [peek_drop, ht, List.drop_left] at hn
            cases t with
            | nil => exact .inl rfl
            | cons x t =>
              right
              simpa using hn
  · unfold startListItem
    rw [h.cur.indd, isList_rel hc, if_neg hip, if_neg hip]
    exact .ok (.none h hr)

/-- A marker with different white space after it. -/
theorem startListItem_tab (hX : X.Ok) (hc : CRel X c c') (h : RelC C X p q) (hr : ReadyFor c p) {m v v' y y' : Str} {ty : ListType} {b : Option Char}
    {st : Option Nat} {dl : Option Char} {V V' : Str} (hN : Nx p.curs q.curs V V' (m ++ (v ++ y)) (m ++ (v' ++ y'))) (hi : p.indent ≤ 3)
    (hm : ListMark m ty b st dl) (hk : c.t ≠ .paragraph ∨ FirstMark m) (hv : OnlySpTab v) (hv' : OnlySpTab v') (hne : v ≠ [])
    (hw : columnFrom (p.nextNonspaceColumn + m.length) v' = columnFrom (p.nextNonspaceColumn + m.length) v)
    (hB : y = y' ∨ columnFrom (p.nextNonspaceColumn + m.length) v ≤ p.nextNonspaceColumn + m.length + 4) (hvis : Visible y)
    (hy : Alike .clear (columnFrom (p.nextNonspaceColumn + m.length) v) y y') :
    ERel (SR X c) (startListItem c p) (startListItem c' q) := by
  have ea : p.currentLine.drop p.nextNonspace = m ++ (v ++ y) := hN.ea
  have eb : q.currentLine.drop q.nextNonspace = m ++ (v' ++ y') := hN.eb
  have hne' : v' ≠ [] := fun h => hne ((columnFrom_nil_iff hw).2 h)
  have hmt : '\t' ∉ m := fun h => (mark_chars hm _ h).1 rfl
  have hii : q.indent = p.indent := hN.ind'
  have hd : p.indented = false := by
    have h1 : p.indented = decide (p.indent ≥ 4) := hN.indd
    rw [h1, decide_eq_false_iff_not]; omega
  have hd' : q.indented = false := by rw [show q.indented = p.indented from hN.indd', hd]
  have hk' : c'.t ≠ .paragraph ∨ FirstMark m := by
    refine hk.imp_left fun h h' => ?_
    have := hc.para
    rw [h'] at this
    have h2 : (c.t == .paragraph) = true := this.symm
    exact h (by simpa using h2)
  have hvis' : Visible y' := alike_visible hy hvis
  have key : ∀ (r : PState) (v y : Str), r.currentLine.drop r.nextNonspace = m ++ (v ++ y) → OnlySpTab v → v ≠ [] → Visible y → ∀ k : Kind,
      (!((peekAt r.currentLine (r.nextNonspace + m.length)).isNone || isSpTabOpt (peekAt r.currentLine (r.nextNonspace + m.length)))) = false ∧
      (k == .paragraph && !((r.currentLine.drop (r.nextNonspace + m.length)).any isNonSpace)) = false ∧
      isSpTabOpt (v ++ y).head? = true := by
    intro r v y e hv hne hy k
    have hh : isSpTabOpt (v ++ y).head? = true := by
      cases v with
      | nil => exact absurd rfl hne
      | cons x v => simp [isSpTabOpt, isSpTab_iff.2 (hv x (by simp))]
    refine ⟨?_, ?_, hh⟩
    · rw [peek_drop, e, List.drop_left, hh]; simp
    · rw [← List.drop_drop, e, List.drop_left, visible_any (visible_append hy)]; simp
  obtain ⟨a1, a2, a3⟩ := key p v y ea hv hne hvis c.t
  obtain ⟨b1, b2, b3⟩ := key q v' y' eb hv' hne' hvis' c'.t
  obtain ⟨f1, f2⟩ := mark_step ea hmt
  obtain ⟨g1, g2⟩ := mark_step eb hmt
  have hnc : q.nextNonspaceColumn = p.nextNonspaceColumn := hN.nc'
  refine startListItem_mark hX hc h hr (by rw [hd]; rfl) (by rw [hd']; rfl) hii ?_
    (parseListMarker_some (by omega) (by rw [ea]; exact listMarker_first hm hk _) a1 a2)
    (parseListMarker_some (by omega) (by rw [eb]; exact listMarker_first hm hk' _) b1 b2) ?_
  · refine ⟨g1.trans ((congrArg (· + m.length) hnc).trans f1.symm), ?_, hN.nl, hN.nl'⟩
    show TE .clear ((advanceOffset m.length true (advanceNextNonspace p)).column + 4) (advanceOffset m.length true (advanceNextNonspace p)).column
      ((advanceOffset m.length true (advanceNextNonspace p)).currentLine.drop (advanceOffset m.length true (advanceNextNonspace p)).offset)
      ((advanceOffset m.length true (advanceNextNonspace q)).currentLine.drop (advanceOffset m.length true (advanceNextNonspace q)).offset)
    rw [f1, f2, g2]
    exact TE.mk hv hv' hw hB hy
  · right
    rw [peek_eq, f2]; exact a3

/-! ### All block starts -/

theorem tryStarts_same : ∀ {fs gs : List (PState → Except PyErr (Start × PState))},
    List.Forall₂ (fun f g => ∀ {p q}, RelC TuE X p q → ReadyFor c p → ERel (SR X c) (f p) (g q)) fs gs →
    ∀ {p q : PState}, RelC TuE X p q → ReadyFor c p → ERel (SR X c) (tryStarts fs p) (tryStarts gs q) := by
  intro fs gs hfg
  induction hfg with
  | nil => intro p q h hr; exact .ok (.none h hr)
  | cons hf _ ih =>
    intro p q h hr
    simp only [tryStarts]
    refine ERel.bind (hf h hr) ?_
    intro a b hab
    cases hab with
    | none h hr => exact ih h hr
    | container h1 h2 h3 => exact .ok (.container h1 h2 h3)
    | verb h => exact .ok (.verb h)
    | leaf h1 h2 => exact .ok (.leaf h1 h2)

theorem blockStarts_same (hX : X.Ok) (hc : CRel X c c') :
    List.Forall₂ (fun f g => ∀ {p q}, RelC TuE X p q → ReadyFor c p → ERel (SR X c) (f p) (g q)) (blockStarts c) (blockStarts c') := by
  unfold blockStarts
  exact .cons (startBlockQuote_same hX) (.cons (startAtx_same hX) (.cons (startFenced_same hX) (.cons (startHtml_same hX hc)
    (.cons (startSetext_same hX hc) (.cons (startThematic_same hX) (.cons (startListItem_same hX hc) (.cons (startIndented_same hX) .nil)))))))

theorem tryStarts_stop {f g : PState → Except PyErr (Start × PState)} {fs gs : List (PState → Except PyErr (Start × PState))}
    (hfg : List.Forall₂ (fun f g => ∀ {p q}, RelC TuE X p q → ReadyFor c p → ERel (SR X c) (f p) (g q)) fs gs)
    (h : ERel (SR X c) (f p) (g q)) : ERel (SR X c) (tryStarts (f :: fs) p) (tryStarts (g :: gs) q) := by
  simp only [tryStarts]
  refine ERel.bind h ?_
  intro a b hab
  cases hab with
  | none h hr => exact tryStarts_same hfg h hr
  | container h1 h2 h3 => exact .ok (.container h1 h2 h3)
  | verb h => exact .ok (.verb h)
  | leaf h1 h2 => exact .ok (.leaf h1 h2)

theorem tryStarts_skip {f : PState → Except PyErr (Start × PState)} {fs : List (PState → Except PyErr (Start × PState))} (h : f p = .ok (.none, p)) :
    tryStarts (f :: fs) p = tryStarts fs p := by
  simp only [tryStarts, h, bind, Except.bind]

/-- The texts that differ begin a block quote, a list item or a thematic break. -/
theorem tryStarts_tab (hX : X.Ok) (hc : CRel X c c') {free : Place} (h : RelC (TuN free) X p q) (hr : ReadyFor c p) :
    ERel (SR X c) (tryStarts (blockStarts c) p) (tryStarts (blockStarts c') q) ∨
      (free ≠ .any ∧ c.t = .paragraph ∧ (free = .begins → tryStarts (blockStarts c) p = .ok (.none, p))) := by
  obtain ⟨V, V', Y, Y', hN, hy, hi⟩ := h.cur
  by_cases hYY : Y = Y'
  · subst hYY
    exact .inl <| tryStarts_same (blockStarts_same hX hc) (h.move ⟨rfl, rfl⟩ ⟨rfl, rfl⟩ ⟨V, V', Y, hN⟩) hr
  have hi3 : p.indent ≤ 3 := hi.resolve_left hYY
  have hd : p.indented = false := by
    have h1 : p.indented = decide (p.indent ≥ 4) := hN.indd
    rw [h1, decide_eq_false_iff_not]; omega
  have hd' : q.indented = false := by rw [show q.indented = p.indented from hN.indd', hd]
  have ea : p.currentLine.drop p.nextNonspace = Y := hN.ea
  have eb : q.currentLine.drop q.nextNonspace = Y' := hN.eb
  have hpk : ∀ x, peekAt p.currentLine p.nextNonspace = some x ↔ Y.head? = some x := by
    intro x; rw [peek_eq, ea]
  have hpq : ∀ x, peekAt q.currentLine q.nextNonspace = some x ↔ Y'.head? = some x := by
    intro x; rw [peek_eq, eb]
  have hnl : '\n' ∉ Y := by
    rw [← ea]; exact fun h => hN.nl (List.mem_of_mem_drop h)
  have hnl' : '\n' ∉ Y' := by
    rw [← eb]; exact fun h => hN.nl' (List.mem_of_mem_drop h)
  have hy0 := hy
  generalize hcol : p.curs.nnc = C at hy
  have hcol : p.nextNonspaceColumn = C := hcol
  have noQuote : ∀ {r : PState} {x : Char}, (r.currentLine.drop r.nextNonspace).head? = some x → x ≠ '>' → startBlockQuote r = .ok (.none, r) := by
    intro r x hr g4
    unfold startBlockQuote
    rw [if_neg]
    rw [peek_eq, hr]
    simp [g4]
  have noAtx : ∀ {r : PState} {x : Char}, '\n' ∉ r.currentLine.drop r.nextNonspace → (r.currentLine.drop r.nextNonspace).head? = some x → x ≠ '#' →
      startAtx r = .ok (.none, r) := by
    intro r x hn hr g6
    unfold startAtx
    split
    · rfl
    · rw [atx_none hn (by rw [hr]; simpa using g6)]
  have noFence : ∀ {r : PState} {x : Char}, (r.currentLine.drop r.nextNonspace).head? = some x → x ≠ '`' → x ≠ '~' → startFenced r = .ok (.none, r) := by
    intro r x hr g7 g8
    unfold startFenced
    split
    · rfl
    · cases hm : reCodeFence.matchPrefix (r.currentLine.drop r.nextNonspace) with
      | none => rfl
      | some m' =>
        exfalso
        obtain ⟨t, _, ht⟩ := Re.matchPrefix_append hm
        have h0 := fence_head hm
        rw [ht] at hr
        cases m' with
        | nil => rcases h0 with h0 | h0 <;> cases h0
        | cons z m' =>
          cases hr
          rcases h0 with h0 | h0 <;> cases h0
          · exact g7 rfl
          · exact g8 rfl
  have noHtml : ∀ (k : Kind) {r : PState} {x : Char}, (r.currentLine.drop r.nextNonspace).head? = some x → x ≠ '<' → startHtml k r = .ok (.none, r) := by
    intro k r x hr g5
    unfold startHtml
    rw [if_neg]
    rw [peek_eq, hr]
    simp [g5]
  cases hy with
  | same => exact absurd rfl hYY
  | rule h1 h2 h3 =>
    by_cases hesc : free = .clear ∧ c.t = .paragraph
    · exact .inr ⟨by rw [hesc.1]; decide, hesc.2, fun h => by rw [hesc.1] at h; cases h⟩
    have hset : ∀ {c : NodeData} {r : PState} {s : Str}, r.currentLine.drop r.nextNonspace = s → '\n' ∉ s → (c.t ≠ .paragraph ∨ ∀ x, ¬ SetextUnderline x s) →
        startSetext c.t r = .ok (.none, r) := by
      intro c r s e hn hk
      unfold startSetext
      split
      · rename_i hcond
        cases hm : reSetextHeadingLine.matchPrefix (r.currentLine.drop r.nextNonspace) with
        | none => rfl
        | some m' =>
          exfalso
          rw [e] at hm
          obtain ⟨x, hc⟩ := (setext_iff hn).1 (by rw [hm]; rfl)
          rcases hk with hk | hk
          · simp only [Bool.and_eq_true, beq_iff_eq] at hcond
            exact hk hcond.2
          · exact hk x hc
      · rfl
    have hk : ∀ s, s = Y ∨ s = Y' → c.t ≠ .paragraph ∨ ∀ x, ¬ SetextUnderline x s := by
      intro s hs
      rcases h3 with h3 | h3
      · exact .inl fun h => hesc ⟨h3, h⟩
      · right
        intro x
        rcases hs with rfl | rfl
        · exact (h3 x).1
        · exact (h3 x).2
    have hk' : c'.t ≠ .paragraph ∨ ∀ x, ¬ SetextUnderline x Y' := by
      refine (hk Y' (.inr rfl)).imp_left fun h => ?_
      have := hc.npara
      intro h'
      rw [h'] at this
      simp at this
      exact h this
    obtain ⟨x, z, e1, g1, g2⟩ := rule_head h1
    obtain ⟨x', z', e2, g3, g4⟩ := rule_head h2
    have hh : (p.currentLine.drop p.nextNonspace).head? = some x := by rw [ea, e1]; rfl
    have hh' : (q.currentLine.drop q.nextNonspace).head? = some x' := by rw [eb, e2]; rfl
    unfold blockStarts
    have ne : ∀ {x : Char}, (x = '*' ∨ x = '_' ∨ x = '-') → ∀ y, y ≠ '*' → y ≠ '_' → y ≠ '-' → x ≠ y := by
      rintro x hx y h1 h2 h3 rfl
      rcases hx with rfl | rfl | rfl
      · exact h1 rfl
      · exact h2 rfl
      · exact h3 rfl
    rw [tryStarts_skip (noQuote hh (ne g2 _ (by decide) (by decide) (by decide))), tryStarts_skip (noQuote hh' (ne g4 _ (by decide) (by decide) (by decide))),
      tryStarts_skip (noAtx (by rw [ea]; exact hnl) hh (ne g2 _ (by decide) (by decide) (by decide))),
      tryStarts_skip (noAtx (by rw [eb]; exact hnl') hh' (ne g4 _ (by decide) (by decide) (by decide))),
      tryStarts_skip (noFence hh (ne g2 _ (by decide) (by decide) (by decide)) (ne g2 _ (by decide) (by decide) (by decide))),
      tryStarts_skip (noFence hh' (ne g4 _ (by decide) (by decide) (by decide)) (ne g4 _ (by decide) (by decide) (by decide))),
      tryStarts_skip (noHtml _ hh (ne g2 _ (by decide) (by decide) (by decide))), tryStarts_skip (noHtml _ hh' (ne g4 _ (by decide) (by decide) (by decide))),
      tryStarts_skip (hset ea hnl (hk _ (.inl rfl))), tryStarts_skip (hset eb hnl' hk')]
    have c1 : (!p.indented && (reThematicBreak.matchPrefix (p.currentLine.drop p.nextNonspace)).isSome) = true := by rw [hd, ea, (thematic_iff hnl).2 h1]; rfl
    have c2 : (!q.indented && (reThematicBreak.matchPrefix (q.currentLine.drop q.nextNonspace)).isSome) = true := by rw [hd', eb, (thematic_iff hnl').2 h2]; rfl
    exact .inl <| tryStarts_stop (.cons (startListItem_same hX hc) (.cons (startIndented_same hX) .nil))
      (startThematic_tab hX (h.move ⟨rfl, rfl⟩ ⟨rfl, rfl⟩ (hN.ahead (by rw [e1]; simp) (by rw [e2]; simp))) hr c1 c2)
  | heading h1 h2 h3 h4 =>
    obtain ⟨z, e1⟩ := heading_head h1 h3
    obtain ⟨z', e2⟩ := heading_head h1 h4
    have hh : (p.currentLine.drop p.nextNonspace).head? = some '#' := by rw [ea, e1]; rfl
    have hh' : (q.currentLine.drop q.nextNonspace).head? = some '#' := by rw [eb, e2]; rfl
    have hs := blockStarts_same hX hc
    unfold blockStarts at hs ⊢
    rw [tryStarts_skip (noQuote hh (by decide)), tryStarts_skip (noQuote hh' (by decide))]
    cases hs with
    | cons _ hs =>
      cases hs with
      | cons _ hs => exact .inl <| tryStarts_stop hs (startAtx_tab hX h hr hN hd h1 h2 h3 h4)
  | quote h1 h2 h3 h4 h5 =>
    have hs := blockStarts_same hX hc
    unfold blockStarts at hs ⊢
    cases hs with
    | cons _ hs => exact .inl <| tryStarts_stop hs (startBlockQuote_tab hX h hr (by rw [hd, (hpk '>').2 rfl]; rfl))
  | @item _ _ m v v' y y' ty b st dl h1 h2 h3 h4 h5 h6 h7 h8 h9 h10 =>
    obtain ⟨x, xs, hmx, g1, g2, g3, g4, g5, g6, g7, g8, g9⟩ := mark_head h1
    have hh : (m ++ (v ++ y)).head? = some x := by rw [hmx]; rfl
    have hh' : (m ++ (v' ++ y')).head? = some x := by rw [hmx]; rfl
    have hne' : v' ≠ [] := fun h => h5 ((columnFrom_nil_iff h6).2 h)
    have hvis' : Visible y' := alike_visible h9 h8
    have setext : ∀ (k : Kind) (r : PState) (v y : Str), r.currentLine.drop r.nextNonspace = m ++ (v ++ y) → '\n' ∉ m ++ (v ++ y) → OnlySpTab v → v ≠ [] →
        Visible y → startSetext k r = .ok (.none, r) := by
      intro k r v y e hn hv hne hvis
      unfold startSetext
      split
      · cases hm : reSetextHeadingLine.matchPrefix (r.currentLine.drop r.nextNonspace) with
        | none => rfl
        | some m' =>
          exfalso
          rw [e] at hm
          obtain ⟨c, hc⟩ := (setext_iff hn).1 (by rw [hm]; rfl)
          exact item_setext h1 hv hne hvis hc
      · rfl
    unfold blockStarts
    have hp : (p.currentLine.drop p.nextNonspace).head? = some x := by rw [ea]; exact hh
    have hq : (q.currentLine.drop q.nextNonspace).head? = some x := by rw [eb]; exact hh'
    rw [tryStarts_skip (noQuote hp g4), tryStarts_skip (noQuote hq g4), tryStarts_skip (noAtx (by rw [ea]; exact hnl) hp g6),
      tryStarts_skip (noAtx (by rw [eb]; exact hnl') hq g6), tryStarts_skip (noFence hp g7 g8), tryStarts_skip (noFence hq g7 g8),
      tryStarts_skip (noHtml _ hp g5), tryStarts_skip (noHtml _ hq g5),
      tryStarts_skip (setext _ p v y ea hnl h3 h5 h8), tryStarts_skip (setext _ q v' y' eb hnl' h4 hne' hvis')]
    have hth : (reThematicBreak.matchPrefix (m ++ (v' ++ y'))).isSome = true ↔ (reThematicBreak.matchPrefix (m ++ (v ++ y))).isSome = true := by
      rw [thematic_iff hnl, thematic_iff hnl']
      rcases h10 with h10 | h10
      case inr => exact ⟨fun h => absurd h h10.2, fun h => absurd h h10.1⟩
      have hink : inked (m ++ (v' ++ y')) = inked (m ++ (v ++ y)) := by
        simp only [inked_append, inked_ws h3, inked_ws h4, tabAlike_inked h10]
      exact ⟨thematic_inked hink.symm (hh.trans hh'.symm), thematic_inked hink (hh'.trans hh.symm)⟩
    by_cases ht : (reThematicBreak.matchPrefix (m ++ (v ++ y))).isSome = true
    · have c1 : (!p.indented && (reThematicBreak.matchPrefix (p.currentLine.drop p.nextNonspace)).isSome) = true := by rw [hd, ea, ht]; rfl
      have c2 : (!q.indented && (reThematicBreak.matchPrefix (q.currentLine.drop q.nextNonspace)).isSome) = true := by rw [hd', eb, hth.2 ht]; rfl
      exact .inl <| tryStarts_stop (.cons (startListItem_same hX hc) (.cons (startIndented_same hX) .nil))
        (startThematic_tab hX (h.move ⟨rfl, rfl⟩ ⟨rfl, rfl⟩ (hN.ahead (by rw [hmx]; simp) (by rw [hmx]; simp))) hr c1 c2)
    · have c1 : startThematic p = .ok (.none, p) := by
        unfold startThematic
        rw [ea, if_neg (by simp only [Bool.and_eq_true, not_and]; exact fun _ => ht)]
      have c2 : startThematic q = .ok (.none, q) := by
        unfold startThematic
        rw [eb, if_neg (by simp only [Bool.and_eq_true, not_and]; exact fun _ h => ht (hth.1 h))]
      rw [tryStarts_skip c1, tryStarts_skip c2]
      by_cases hk : c.t ≠ .paragraph ∨ FirstMark m
      · have := startListItem_tab hX hc h hr hN hi3 h1 hk h3 h4 h5 (by rw [hcol]; exact h6) (by rw [hcol]; exact h7) h8 (by rw [hcol]; exact h9)
        exact .inl <| tryStarts_stop (.cons (startIndented_same hX) .nil) this
      · simp only [not_or, ne_eq, Classical.not_not] at hk
        refine .inr ⟨h2.resolve_right hk.2, hk.1, fun _ => ?_⟩
        have i1 : startListItem c p = .ok (.none, p) := by
          unfold startListItem parseListMarker
          rw [hd, if_pos (by simp), if_neg (by omega), ea, hk.1, listMarker_later h1 hk.2]
          rfl
        have i2 : startIndented p = .ok (.none, p) := by
          unfold startIndented
          rw [hd, if_neg (by simp)]
        rw [tryStarts_skip i1, tryStarts_skip i2]
        rfl

end CM
