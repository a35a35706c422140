import Verif.Model.Blocks
import Verif.Spec.Columns
/-
Offsets and columns of the block parser.
-/
namespace CM
open Spec

theorem tab_stop (c : Nat) : c + (4 - c % 4) = nextStop c := by unfold nextStop; omega

theorem columnFrom_append (c : Nat) (a b : Str) : columnFrom c (a ++ b) = columnFrom (columnFrom c a) b := by
  induction a generalizing c with
  | nil => rfl
  | cons x a ih => exact ih _

theorem columnFrom_le (c : Nat) (s : Str) : c ≤ columnFrom c s := by
  induction s generalizing c with
  | nil => exact Nat.le_refl _
  | cons x s ih =>
    refine Nat.le_trans ?_ (ih _)
    split
    · unfold nextStop; omega
    · omega

theorem columnFrom_mono {c d : Nat} (h : c ≤ d) (s : Str) : columnFrom c s ≤ columnFrom d s := by
  induction s generalizing c d with
  | nil => exact h
  | cons x s ih =>
    apply ih
    split
    · unfold nextStop; omega
    · omega

/-- Without tabs columns are counted like characters. -/
theorem columnFrom_noTab (c : Nat) {s : Str} (h : '\t' ∉ s) : columnFrom c s = c + s.length := by
  induction s generalizing c with
  | nil => rfl
  | cons x s ih =>
    simp only [List.mem_cons, not_or] at h
    simp only [columnFrom, if_neg (Ne.symm h.1), ih _ h.2, List.length_cons]
    omega

/-- A tab goes to the next stop at least. -/
theorem columnFrom_tab (c : Nat) {s : Str} (h : '\t' ∈ s) : nextStop c ≤ columnFrom c s := by
  induction s generalizing c with
  | nil => cases h
  | cons x s ih =>
    by_cases hx : x = '\t'
    · simp only [columnFrom, if_pos hx]
      exact columnFrom_le _ _
    · have h' : '\t' ∈ s := by
        rcases List.mem_cons.1 h with h | h
        · exact absurd h.symm hx
        · exact h
      simp only [columnFrom, if_neg hx]
      refine Nat.le_trans ?_ (ih (c + 1) h')
      unfold nextStop; omega

theorem skipWs_eq (s : Str) (i c : Nat) :
    skipWs s i c = (i + (s.takeWhile isSpTab).length, columnFrom c (s.takeWhile isSpTab), (s.dropWhile isSpTab).head?) := by
  induction s generalizing i c with
  | nil => rfl
  | cons x s ih =>
    unfold skipWs
    by_cases h1 : x = ' '
    · subst h1
      simp [isSpTab, ih, columnFrom]
      omega
    · by_cases h2 : x = '\t'
      · subst h2
        simp [isSpTab, ih, columnFrom, tab_stop]
        omega
      · simp [isSpTab, h1, h2, columnFrom]

/-- What remains of a line, in columns, is the same seen from inside a tab. -/
theorem columnOf_rest {line : Str} {off col : Nat} {part : Bool} (h : ColumnOf line off col part) (w t : Str)
    (hw : line.drop off = w ++ t) (hne : part = true → w ≠ []) :
    columnFrom col w = columnFrom 0 (line.take (off + w.length)) := by
  have e : line.take (off + w.length) = line.take off ++ w := by
    rw [List.take_add, hw, List.take_left']
    rfl
  rw [e, columnFrom_append]
  obtain ⟨h1, h2⟩ := h
  cases part with
  | false =>
    simp only [Bool.false_eq_true, if_false] at h2
    rw [h2]
  | true =>
    simp only [if_true] at h2
    obtain ⟨⟨r, hr⟩, h3, h4⟩ := h2
    cases w with
    | nil => exact absurd rfl (hne rfl)
    | cons x w =>
      rw [hr] at hw
      simp only [List.cons_append, List.cons.injEq] at hw
      obtain ⟨rfl, -⟩ := hw
      simp only [columnFrom, if_true]
      congr 1
      unfold nextStop at *
      omega

/-- After `findNextNonspace` the column of the first character that is no space or tab is right. -/
theorem find_column {p : PState} (h : ColumnOf p.currentLine p.offset p.column p.partiallyConsumedTab) :
    let q := findNextNonspace p
    ∃ w t, p.currentLine.drop p.offset = w ++ t ∧ (∀ c ∈ w, isSpTab c = true) ∧
      (∀ c, t.head? = some c → isSpTab c = false) ∧ q.nextNonspace = p.offset + w.length ∧
      q.nextNonspaceColumn = columnFrom 0 (p.currentLine.take q.nextNonspace) ∧
      q.indent = q.nextNonspaceColumn - p.column ∧
      q.currentLine = p.currentLine ∧ q.offset = p.offset ∧ q.column = p.column ∧
      q.partiallyConsumedTab = p.partiallyConsumedTab ∧ q.nextNonspace ≤ p.currentLine.length := by
  intro q
  have hl : p.offset ≤ p.currentLine.length := h.1
  have hsplit := (List.takeWhile_append_dropWhile (p := isSpTab) (l := p.currentLine.drop p.offset)).symm
  have hq : q = findNextNonspace p := rfl
  unfold findNextNonspace at hq
  rw [skipWs_eq] at hq
  simp only at hq
  refine ⟨(p.currentLine.drop p.offset).takeWhile isSpTab, (p.currentLine.drop p.offset).dropWhile isSpTab, hsplit,
    ?_, ?_, by rw [hq], ?_, by rw [hq], by rw [hq], by rw [hq], by rw [hq], by rw [hq], ?_⟩
  · intro c hc
    exact List.all_eq_true.1 List.all_takeWhile c hc
  · intro c hc
    have := List.head?_dropWhile_not isSpTab (p.currentLine.drop p.offset)
    rw [hc] at this
    simpa using this
  · have := columnOf_rest h _ _ hsplit (by
      intro hp
      obtain ⟨_, h2⟩ := h
      rw [hp] at h2
      simp only [if_true] at h2
      obtain ⟨⟨r, hr⟩, _⟩ := h2
      rw [hr]
      simp [isSpTab])
    rw [hq]
    exact this
  · have := (List.takeWhile_sublist (l := p.currentLine.drop p.offset) isSpTab).length_le
    rw [hq]
    simp only [List.length_drop] at this ⊢
    omega

/-- Going to the first character that is no space or tab. -/
theorem advanceNext_column {p : PState} (h : ColumnOf p.currentLine p.offset p.column p.partiallyConsumedTab) :
    let q := advanceNextNonspace (findNextNonspace p)
    ColumnOf q.currentLine q.offset q.column q.partiallyConsumedTab := by
  obtain ⟨w, t, h1, h2, h3, h4, h5, h6, h7, h8, h9, h10, h11⟩ := find_column h
  intro q
  have e1 : q.currentLine = p.currentLine := h7
  have e2 : q.offset = (findNextNonspace p).nextNonspace := rfl
  have e3 : q.column = (findNextNonspace p).nextNonspaceColumn := rfl
  have e4 : q.partiallyConsumedTab = false := rfl
  rw [e1, e2, e3, e4]
  exact ⟨h11, h5⟩

/-- The loop of `advance_offset` when counting columns. -/
theorem advanceLoop_columnOf {line : Str} : ∀ (fuel count off col : Nat) (part : Bool), count ≤ fuel →
    ColumnOf line off col part →
    let r := advanceLoop line true fuel count off col part
    ColumnOf line r.1 r.2.1 r.2.2 ∧ r.2.1 = min (col + count) (columnFrom col (line.drop off)) ∧ off ≤ r.1
  | 0, count, off, col, part, hc, h => by
    have : count = 0 := by omega
    subst this
    have := columnFrom_le col (line.drop off)
    simp only [advanceLoop]
    exact ⟨h, by simp; omega, Nat.le_refl _⟩
  | fuel + 1, count, off, col, part, hc, h => by
    simp only [advanceLoop]
    by_cases h0 : count = 0
    · subst h0
      have := columnFrom_le col (line.drop off)
      simp only [beq_self_eq_true, if_true]
      exact ⟨h, by omega, Nat.le_refl _⟩
    · simp only [beq_iff_eq, h0, if_false]
      cases hx : line[off]? with
      | none =>
        have : line.drop off = [] := by simpa using List.getElem?_eq_none_iff.1 hx
        rw [this]
        exact ⟨h, by simp [columnFrom], Nat.le_refl _⟩
      | some x =>
        obtain ⟨hlt, hxe⟩ := List.getElem?_eq_some_iff.1 hx
        have hd : line.drop off = x :: line.drop (off + 1) := by
          rw [List.drop_eq_getElem_cons hlt, hxe]
        have ht : columnFrom col [x] = columnFrom 0 (line.take (off + 1)) :=
          columnOf_rest h [x] (line.drop (off + 1)) (by simpa using hd) (by simp)
        simp only
        by_cases hxt : x = '\t'
        · subst hxt
          simp only [beq_self_eq_true, if_true, tab_stop]
          have hs : col + (4 - col % 4) = nextStop col := tab_stop col
          have e1 : columnFrom col (line.drop off) = columnFrom (nextStop col) (line.drop (off + 1)) := by
            rw [hd]; simp [columnFrom]
          by_cases hp : 4 - col % 4 > count
          · have hmin : min count (4 - col % 4) = count := by omega
            simp only [hp, decide_true, if_true, hmin, Nat.sub_self]
            have hge := columnFrom_le (nextStop col) (line.drop (off + 1))
            have hcol : ColumnOf line off (col + count) true := by
              refine ⟨h.1, ?_⟩
              simp only [if_true]
              refine ⟨⟨_, hd⟩, ?_⟩
              obtain ⟨_, h2⟩ := h
              cases part with
              | false =>
                simp only [Bool.false_eq_true, if_false] at h2
                rw [← h2]
                unfold nextStop at *
                omega
              | true =>
                simp only [if_true] at h2
                unfold nextStop at *
                omega
            have ih := advanceLoop_columnOf fuel 0 off (col + count) true (Nat.zero_le _) hcol
            simp only at ih
            refine ⟨ih.1, ?_, ih.2.2⟩
            rw [ih.2.1, e1]
            have := columnFrom_le (col + count) (line.drop off)
            omega
          · have hmin : min count (4 - col % 4) = 4 - col % 4 := by omega
            simp only [hp, decide_false, Bool.false_eq_true, if_false, hmin, hs]
            have hcol : ColumnOf line (off + 1) (nextStop col) false := by
              refine ⟨hlt, ?_⟩
              simp only [Bool.false_eq_true, if_false]
              rw [← ht]; simp [columnFrom]
            have ih := advanceLoop_columnOf fuel (count - (4 - col % 4)) (off + 1) (nextStop col) false (by omega) hcol
            simp only at ih
            refine ⟨ih.1, ?_, by omega⟩
            rw [ih.2.1, e1]
            congr 1
            omega
        · simp only [hxt, if_false]
          have e1 : columnFrom col (line.drop off) = columnFrom (col + 1) (line.drop (off + 1)) := by
            rw [hd]; simp [columnFrom, hxt]
          have hcol : ColumnOf line (off + 1) (col + 1) false := by
            refine ⟨hlt, ?_⟩
            simp only [Bool.false_eq_true, if_false]
            rw [← ht]; simp [columnFrom, hxt]
          have ih := advanceLoop_columnOf fuel (count - 1) (off + 1) (col + 1) false (by omega) hcol
          simp only at ih
          refine ⟨ih.1, ?_, by omega⟩
          rw [ih.2.1, e1]
          congr 1
          omega

/-- The loop of `advance_offset` when counting characters. -/
theorem advanceLoop_charsOf {line : Str} : ∀ (fuel count off col : Nat) (part : Bool), count ≤ fuel →
    ColumnOf line off col part →
    let r := advanceLoop line false fuel count off col part
    ColumnOf line r.1 r.2.1 r.2.2 ∧ r.1 = min (off + count) line.length
  | 0, count, off, col, part, hc, h => by
    have : count = 0 := by omega
    subst this
    have := h.1
    simp only [advanceLoop]
    exact ⟨h, by omega⟩
  | fuel + 1, count, off, col, part, hc, h => by
    have hle := h.1
    simp only [advanceLoop]
    by_cases h0 : count = 0
    · subst h0
      simp only [beq_self_eq_true, if_true]
      exact ⟨h, by omega⟩
    · simp only [beq_iff_eq, h0, if_false]
      cases hx : line[off]? with
      | none =>
        have := List.getElem?_eq_none_iff.1 hx
        exact ⟨h, by simp only; omega⟩
      | some x =>
        obtain ⟨hlt, hxe⟩ := List.getElem?_eq_some_iff.1 hx
        have hd : line.drop off = x :: line.drop (off + 1) := by
          rw [List.drop_eq_getElem_cons hlt, hxe]
        have ht : columnFrom col [x] = columnFrom 0 (line.take (off + 1)) :=
          columnOf_rest h [x] (line.drop (off + 1)) (by simpa using hd) (by simp)
        simp only
        have hcol : ∀ c', c' = columnFrom col [x] → ColumnOf line (off + 1) c' false := by
          intro c' hc'
          refine ⟨hlt, ?_⟩
          simp only [Bool.false_eq_true, if_false]
          rw [← ht, hc']
        by_cases hxt : x = '\t'
        · subst hxt
          simp only [beq_self_eq_true, if_true, Bool.false_eq_true, if_false]
          have ih := advanceLoop_charsOf fuel (count - 1) (off + 1) (col + (4 - col % 4)) false (by omega)
            (hcol _ (by simp [columnFrom, tab_stop]))
          simp only at ih
          exact ⟨ih.1, by rw [ih.2]; omega⟩
        · simp only [hxt, if_false]
          have ih := advanceLoop_charsOf fuel (count - 1) (off + 1) (col + 1) false (by omega)
            (hcol _ (by simp [columnFrom, hxt]))
          simp only at ih
          exact ⟨ih.1, by rw [ih.2]; omega⟩

/-- Over text without a tab columns are characters. -/
theorem advanceLoop_plain {line : Str} {b : Bool} : ∀ (m t : Str) (off col : Nat) (part : Bool), line.drop off = m ++ t →
    '\t' ∉ m → advanceLoop line b m.length m.length off col part =
      (off + m.length, col + m.length, if m = [] then part else false)
  | [], t, off, col, part, _, _ => rfl
  | c :: m, t, off, col, part, h, hm => by
    have hc : line[off]? = some c := by
      have := congrArg List.head? h
      simpa [List.head?_drop] using this
    have hr : line.drop (off + 1) = m ++ t := by
      rw [← List.drop_drop, h]; rfl
    simp only [List.mem_cons, not_or] at hm
    have ih := advanceLoop_plain (b := b) m t (off + 1) (col + 1) false hr hm.2
    simp only [List.length_cons, advanceLoop, hc]
    rw [if_neg (by simp), if_neg (by simpa using Ne.symm hm.1)]
    simp only [Nat.add_sub_cancel]
    rw [ih]
    simp only [Prod.mk.injEq]
    refine ⟨by omega, by omega, ?_⟩
    split <;> simp

end CM
