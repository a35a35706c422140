import Verif.Spec.Spelling
import Verif.Proofs.Columns
import Verif.Proofs.ItemOpen
import Verif.Proofs.Swap
/-
Tabs that stand for spaces: the cursors of two runs over lines that differ in white space of the same width (C67).
-/
set_option linter.unusedVariables false
namespace CM
open Spec

/-! ### White space and columns -/

theorem columnFrom_le' : ∀ (v : Str) (c : Nat), c ≤ columnFrom c v
  | [], c => Nat.le_refl _
  | x :: v, c => by
    simp only [columnFrom]
    refine Nat.le_trans ?_ (columnFrom_le' v _)
    split
    · unfold nextStop; omega
    · omega

theorem columnFrom_lt {v : Str} {c : Nat} (h : v ≠ []) : c < columnFrom c v := by
  cases v with
  | nil => exact absurd rfl h
  | cons x v =>
    simp only [columnFrom]
    refine Nat.lt_of_lt_of_le ?_ (columnFrom_le' v _)
    split
    · unfold nextStop; omega
    · omega

theorem columnFrom_nil_iff {v v' : Str} {c : Nat} (h : columnFrom c v' = columnFrom c v) : v = [] ↔ v' = [] := by
  constructor
  · rintro rfl
    refine Classical.byContradiction fun hv => ?_
    have := columnFrom_lt (c := c) hv
    simp only [columnFrom] at h
    omega
  · rintro rfl
    refine Classical.byContradiction fun hv => ?_
    have := columnFrom_lt (c := c) hv
    simp only [columnFrom] at h
    omega

theorem onlySpTab_append {a b : Str} (ha : OnlySpTab a) (hb : OnlySpTab b) : OnlySpTab (a ++ b) := by
  intro x hx
  rcases List.mem_append.1 hx with h | h
  · exact ha x h
  · exact hb x h

theorem isSpTab_iff {c : Char} : isSpTab c = true ↔ c = ' ' ∨ c = '\t' := by
  simp [isSpTab]

/-- The text does not begin with a space or tab. -/
def NoWs (y : Str) : Prop := ∀ c, y.head? = some c → isSpTab c = false

theorem takeWhile_ws {v y : Str} (hv : OnlySpTab v) (hy : NoWs y) : (v ++ y).takeWhile isSpTab = v ∧ (v ++ y).dropWhile isSpTab = y := by
  induction v with
  | nil =>
    cases y with
    | nil => exact ⟨rfl, rfl⟩
    | cons c y =>
      have := hy c rfl
      simp [this]
  | cons c v ih =>
    have hc : isSpTab c = true := isSpTab_iff.2 (hv c (by simp))
    have := ih fun x hx => hv x (by simp [hx])
    simp [hc, this]

theorem ws_split (s : Str) : ∃ w t, s = w ++ t ∧ OnlySpTab w ∧ NoWs t := by
  refine ⟨s.takeWhile isSpTab, s.dropWhile isSpTab, (List.takeWhile_append_dropWhile).symm, ?_, ?_⟩
  · intro x hx
    exact isSpTab_iff.1 (List.mem_takeWhile_imp hx)
  · intro c hc
    cases h : s.dropWhile isSpTab with
    | nil => rw [h] at hc; cases hc
    | cons d t =>
      rw [h] at hc
      cases hc
      have := List.head_dropWhile_not isSpTab (l := s) (by rw [h]; simp)
      simpa [h] using this

theorem head_ws {v y : Str} (hv : OnlySpTab v) (hy : NoWs y) : isSpTabOpt (v ++ y).head? = true ↔ v ≠ [] := by
  cases v with
  | nil =>
    cases y with
    | nil => simp [isSpTabOpt]
    | cons c y => simp [isSpTabOpt, hy c rfl]
  | cons c v => simp [isSpTabOpt, isSpTab_iff.2 (hv c (by simp))]

/-- Going on by `n` columns of white space. -/
theorem advanceLoop_ws {line : Str} {y : Str} : ∀ (fuel n off col : Nat) (pct : Bool) (v : Str), n ≤ fuel → line.drop off = v ++ y → OnlySpTab v →
    col + n ≤ columnFrom col v → (advanceLoop line true fuel n off col pct).2.1 = col + n ∧
      ∃ w, line.drop (advanceLoop line true fuel n off col pct).1 = w ++ y ∧ OnlySpTab w ∧ columnFrom (col + n) w = columnFrom col v
  | fuel, 0, off, col, pct, v, hn, hd, hv, hw => by
    cases fuel <;> simp only [advanceLoop, beq_self_eq_true, if_true] <;> exact ⟨rfl, v, hd, hv, rfl⟩
  | 0, n + 1, off, col, pct, v, hn, hd, hv, hw => by omega
  | fuel + 1, n + 1, off, col, pct, v, hn, hd, hv, hw => by
    cases v with
    | nil => simp only [columnFrom] at hw; omega
    | cons c v =>
      have hc : line[off]? = some c := by
        have := congrArg List.head? hd
        simpa [List.head?_drop] using this
      have hr : line.drop (off + 1) = v ++ y := by
        rw [← List.drop_drop, hd]; rfl
      have hv' : OnlySpTab v := fun x hx => hv x (by simp [hx])
      simp only [advanceLoop, hc]
      rw [if_neg (by simp)]
      by_cases ht : c = '\t'
      · subst ht
        rw [if_pos (by rfl)]
        simp only [columnFrom, if_true] at hw ⊢
        have hs : nextStop col = col + (4 - col % 4) := by unfold nextStop; omega
        by_cases hp : 4 - col % 4 > n + 1
        · have e1 : min (n + 1) (4 - col % 4) = n + 1 := by omega
          simp only [hp, decide_true, if_true, e1, Nat.sub_self]
          have e2 : advanceLoop line true fuel 0 off (col + (n + 1)) true = (off, col + (n + 1), true) := by
            cases fuel <;> simp [advanceLoop]
          rw [e2]
          refine ⟨rfl, '\t' :: v, hd, hv, ?_⟩
          have : nextStop (col + (n + 1)) = nextStop col := by unfold nextStop; omega
          simp only [columnFrom, if_true, this]
        · have e1 : min (n + 1) (4 - col % 4) = 4 - col % 4 := by omega
          simp only [hp, decide_false, Bool.false_eq_true, if_false, e1]
          have ih := advanceLoop_ws fuel (n + 1 - (4 - col % 4)) (off + 1) (col + (4 - col % 4)) false v (by omega) hr hv' (by
            rw [hs] at hw; omega)
          rw [show col + (4 - col % 4) + (n + 1 - (4 - col % 4)) = col + (n + 1) by omega, ← hs] at ih
          rw [← hs]
          exact ih
      · rw [if_neg (by simpa using ht)]
        simp only [columnFrom, ht, if_false] at hw ⊢
        have ih := advanceLoop_ws fuel n (off + 1) (col + 1) false v (by omega) hr hv' (by omega)
        rw [show col + 1 + n = col + (n + 1) by omega] at ih
        exact ih

/-- What `advance_offset` does depends on what is left of the line. -/
theorem advanceLoop_same {line line' : Str} (cols : Bool) : ∀ (fuel n off off' col : Nat) (pct pct' : Bool), line.drop off = line'.drop off' →
    (advanceLoop line' cols fuel n off' col pct').2.1 = (advanceLoop line cols fuel n off col pct).2.1 ∧
      line.drop (advanceLoop line cols fuel n off col pct).1 = line'.drop (advanceLoop line' cols fuel n off' col pct').1
  | 0, n, off, off', col, pct, pct', h => ⟨rfl, h⟩
  | fuel + 1, n, off, off', col, pct, pct', h => by
    have hc : line'[off']? = line[off]? := by
      have := congrArg List.head? h
      simpa [List.head?_drop] using this.symm
    have hr : line.drop (off + 1) = line'.drop (off' + 1) := by
      rw [← List.drop_drop, ← List.drop_drop, h]
    simp only [advanceLoop, hc]
    by_cases hn : (n == 0) = true
    · rw [if_pos hn, if_pos hn]; exact ⟨rfl, h⟩
    · rw [if_neg hn, if_neg hn]
      cases line[off]? with
      | none => exact ⟨rfl, h⟩
      | some c =>
        simp only
        split
        · split
          · split
            · exact advanceLoop_same cols fuel _ _ _ _ _ _ h
            · exact advanceLoop_same cols fuel _ _ _ _ _ _ hr
          · exact advanceLoop_same cols fuel _ _ _ _ _ _ hr
        · exact advanceLoop_same cols fuel _ _ _ _ _ _ hr

/-- Counting characters. -/
theorem advanceLoop_false {line : Str} : ∀ (fuel n off col : Nat) (pct : Bool), n ≤ fuel →
    line.drop (advanceLoop line false fuel n off col pct).1 = (line.drop off).drop n ∧
    (pct = false ∨ 1 ≤ n ∧ off < line.length → (advanceLoop line false fuel n off col pct).2.2 = false)
  | fuel, 0, off, col, pct, h => by
    cases fuel <;> simp [advanceLoop]
  | 0, n + 1, off, col, pct, h => by omega
  | fuel + 1, n + 1, off, col, pct, h => by
    simp only [advanceLoop]
    rw [if_neg (by simp)]
    cases hc : line[off]? with
    | none =>
      have : line.length ≤ off := List.getElem?_eq_none_iff.1 hc
      simp only
      refine ⟨?_, ?_⟩
      · rw [List.drop_eq_nil_iff.2 this]; rfl
      · rintro (h | h)
        · exact h
        · omega
    | some c =>
      simp only [Nat.add_sub_cancel]
      have e : (line.drop off).drop (n + 1) = (line.drop (off + 1)).drop n := by
        rw [List.drop_drop, List.drop_drop]; congr 1; omega
      rw [e]
      split
      · simp only [Bool.false_eq_true, if_false]
        have ih := advanceLoop_false (line := line) fuel n (off + 1) (col + (4 - col % 4)) false (by omega)
        exact ⟨ih.1, fun _ => ih.2 (.inl rfl)⟩
      · have ih := advanceLoop_false (line := line) fuel n (off + 1) (col + 1) false (by omega)
        exact ⟨ih.1, fun _ => ih.2 (.inl rfl)⟩

/-! ### Texts that differ in white space -/

theorem alike_free {free : Place} {c : Nat} {y y' : Str} (h : Alike free c y y') : Alike .clear c y y' := by
  induction h with
  | same => exact .same
  | rule h1 h2 _ => exact .rule h1 h2 (.inl rfl)
  | heading h1 h2 h3 h4 => exact .heading h1 h2 h3 h4
  | quote h1 h2 h3 h4 _ ih => exact .quote h1 h2 h3 h4 ih
  | item h1 h2 h3 h4 h5 h6 h7 h8 h9 h10 _ => exact .item h1 (.inl (by decide)) h3 h4 h5 h6 h7 h8 h9 h10

theorem special_ne {x : Char} (h : isMaybeSpecial x = true) : isSpTab x = false ∧ x ≠ '\n' ∧ x ≠ '\r' := by
  refine ⟨?_, ?_, ?_⟩
  · cases hs : isSpTab x with
    | false => rfl
    | true => rcases isSpTab_iff.1 hs with rfl | rfl <;> revert h <;> decide
  · rintro rfl; revert h; decide
  · rintro rfl; revert h; decide

theorem rule_head {s : Str} (h : ThematicBreak s) : ∃ x z, s = x :: z ∧ isMaybeSpecial x = true ∧ (x = '*' ∨ x = '_' ∨ x = '-') := by
  obtain ⟨c, h1, h2, _⟩ := h
  cases s with
  | nil => cases h2
  | cons x z =>
    cases h2
    exact ⟨_, z, rfl, by rcases h1 with rfl | rfl | rfl <;> decide, h1⟩

theorem heading_head {n : Nat} (hn : 1 ≤ n) {x s : Str} (h : AtxHeading n x s) : ∃ z, s = '#' :: z := by
  obtain ⟨n, rfl⟩ : ∃ k, n = k + 1 := ⟨n - 1, by omega⟩
  cases h <;> exact ⟨_, by rw [List.replicate_succ]; rfl⟩

theorem alike_head {free : Place} {c : Nat} {y y' : Str} (h : Alike free c y y') : y = y' ∨
    ∃ x z x' z', y = x :: z ∧ y' = x' :: z' ∧ isMaybeSpecial x = true ∧ isMaybeSpecial x' = true ∧ (x' = '>' ↔ x = '>') := by
  cases h with
  | same => exact .inl rfl
  | rule h1 h2 _ =>
    obtain ⟨x, z, rfl, g1, g2⟩ := rule_head h1
    obtain ⟨x', z', rfl, g3, g4⟩ := rule_head h2
    refine .inr ⟨x, z, x', z', rfl, rfl, g1, g3, ?_⟩
    rcases g2 with rfl | rfl | rfl <;> rcases g4 with rfl | rfl | rfl <;> decide
  | heading h1 h2 h3 h4 =>
    obtain ⟨z, rfl⟩ := heading_head h1 h3
    obtain ⟨z', rfl⟩ := heading_head h1 h4
    exact .inr ⟨'#', z, '#', z', rfl, rfl, by decide, by decide, Iff.rfl⟩
  | quote h1 h2 h3 h4 h5 => exact .inr ⟨'>', _, '>', _, rfl, rfl, by decide, by decide, Iff.rfl⟩
  | item h1 h2 h3 h4 h5 h6 h7 h8 h9 =>
    obtain ⟨x, xs, rfl, g1, g2, g3, g4, g5, g6, g7, g8, g9⟩ := mark_head h1
    exact .inr ⟨x, _, x, _, rfl, rfl, g1, g1, Iff.rfl⟩

theorem alike_noWs {free : Place} {c : Nat} {y y' : Str} (h : Alike free c y y') (hy : NoWs y) : NoWs y' := by
  rcases alike_head h with rfl | ⟨x, z, x', z', rfl, rfl, _, h2, _⟩
  · exact hy
  · intro d hd
    cases hd
    exact (special_ne h2).1

/-- What is left of the two lines: white space of the same width, and texts that begin with the same markers.  If they differ, they begin at
column `B` or before. -/
def TE (free : Place) (B col : Nat) (r r' : Str) : Prop :=
  ∃ v v' y y', r = v ++ y ∧ r' = v' ++ y' ∧ OnlySpTab v ∧ OnlySpTab v' ∧ columnFrom col v' = columnFrom col v ∧
    (y = y' ∨ columnFrom col v ≤ B) ∧ Alike free (columnFrom col v) y y' ∧ NoWs y ∧ NoWs y'

theorem TE.mono {free : Place} {B B' col : Nat} {r r' : Str} (h : TE free B col r r') (hB : B ≤ B') : TE free B' col r r' := by
  obtain ⟨v, v', y, y', h1, h2, h3, h4, h5, h6, h7, h8⟩ := h
  exact ⟨v, v', y, y', h1, h2, h3, h4, h5, h6.imp_right fun h => Nat.le_trans h hB, h7, h8⟩

theorem TE.free {free : Place} {B col : Nat} {r r' : Str} (h : TE free B col r r') : TE .clear B col r r' := by
  obtain ⟨v, v', y, y', h1, h2, h3, h4, h5, h6, h7, h8⟩ := h
  exact ⟨v, v', y, y', h1, h2, h3, h4, h5, h6, alike_free h7, h8⟩

theorem TE.refl (free : Place) (B col : Nat) (r : Str) : TE free B col r r := by
  obtain ⟨w, t, h1, h2, h3⟩ := ws_split r
  exact ⟨w, w, t, t, h1, h1, h2, h2, rfl, .inl rfl, .same, h3, h3⟩

/-- Any white space and any such texts. -/
theorem TE.mk {free : Place} {B col : Nat} {v v' y y' : Str} (hv : OnlySpTab v) (hv' : OnlySpTab v') (h : columnFrom col v' = columnFrom col v)
    (hB : y = y' ∨ columnFrom col v ≤ B) (hy : Alike free (columnFrom col v) y y') : TE free B col (v ++ y) (v' ++ y') := by
  rcases alike_head hy with rfl | ⟨x, z, x', z', rfl, rfl, hx, hx', _⟩
  · obtain ⟨w, t, rfl, h2, h3⟩ := ws_split y
    refine ⟨v ++ w, v' ++ w, t, t, by simp, by simp, onlySpTab_append hv h2, onlySpTab_append hv' h2, ?_, .inl rfl, .same, h3, h3⟩
    rw [columnFrom_append, columnFrom_append, h]
  · refine ⟨v, v', _, _, rfl, rfl, hv, hv', h, hB, hy, ?_, ?_⟩
    · intro c hc; cases hc; exact (special_ne hx).1
    · intro c hc; cases hc; exact (special_ne hx').1

theorem TE.peek {free : Place} {B col : Nat} {r r' : Str} (h : TE free B col r r') : isSpTabOpt r'.head? = isSpTabOpt r.head? := by
  obtain ⟨v, v', y, y', rfl, rfl, h3, h4, h5, h6, h7, h8, h9⟩ := h
  have e1 := head_ws h3 h8
  have e2 := head_ws h4 h9
  have := columnFrom_nil_iff h5
  by_cases hv : v = []
  · have : ¬ isSpTabOpt (v ++ y).head? = true := fun h => e1.1 h hv
    have h' : ¬ isSpTabOpt (v' ++ y').head? = true := fun h => e2.1 h (by simp_all)
    simp_all
  · rw [e1.2 hv, e2.2 (by simp_all)]

theorem TE.none {free : Place} {B col : Nat} {r r' : Str} (h : TE free B col r r') : r' = [] ↔ r = [] := by
  obtain ⟨v, v', y, y', rfl, rfl, h3, h4, h5, h6, h7, h8, h9⟩ := h
  have := columnFrom_nil_iff h5
  rcases alike_head h7 with rfl | ⟨x, z, x', z', rfl, rfl, _⟩
  · simp_all
  · simp

/-- After the white space. -/
theorem TE.done {free : Place} {B B' col : Nat} {r r' : Str} (h : TE free B col r r') (hr : isSpTabOpt r.head? = false) (hB : col ≤ B') : TE free B' col r r' := by
  obtain ⟨v, v', y, y', rfl, rfl, h3, h4, h5, h6, h7, h8, h9⟩ := h
  have hv : v = [] := by
    refine Classical.byContradiction fun hv => ?_
    rw [(head_ws h3 h8).2 hv] at hr
    cases hr
  have hv' := (columnFrom_nil_iff h5).1 hv
  subst hv; subst hv'
  exact ⟨[], [], y, y', rfl, rfl, h3, h3, rfl, .inr (by simpa [columnFrom] using hB), h7, h8, h9⟩

/-! ### The cursors -/

/-- The cursors stand in the same column before such texts. -/
structure TuB (free : Place) (e : Nat) (a b : CursorAt) : Prop where
  col : b.col = a.col
  te : TE free (a.col + e) a.col (a.line.drop a.off) (b.line.drop b.off)
  nl : '\n' ∉ a.line
  nl' : '\n' ∉ b.line

abbrev Tu (free : Place) := TuB free 3

theorem peek_eq (l : Str) (i : Nat) : peekAt l i = (l.drop i).head? := by
  rw [peekAt, List.head?_drop]

theorem TuB.peek {free : Place} {e : Nat} {p q : PState} (h : TuB free e p.curs q.curs) :
    isSpTabOpt (peekAt q.currentLine q.offset) = isSpTabOpt (peekAt p.currentLine p.offset) := by
  rw [peek_eq, peek_eq]
  exact h.te.peek

/-- Going on by `n` columns of white space. -/
theorem TuB.adv {free : Place} {e n : Nat} {p q : PState} {v y : Str} (h : TuB free e p.curs q.curs) (hd : p.currentLine.drop p.offset = v ++ y)
    (hv : OnlySpTab v) (hy : NoWs y) (hn : p.column + n ≤ columnFrom p.column v) :
    TuB free (e - n) (advanceOffset n true p).curs (advanceOffset n true q).curs ∧ (advanceOffset n true p).column = p.column + n := by
  obtain ⟨v1, v', y1, y', h1, h2, h3, h4, h5, h6, h7, h8, h9⟩ := h.te
  have h1 : p.currentLine.drop p.offset = v1 ++ y1 := h1
  have h2 : q.currentLine.drop q.offset = v' ++ y' := h2
  have e1 := takeWhile_ws h3 h8
  have e2 := takeWhile_ws hv hy
  rw [← h1] at e1
  rw [← hd] at e2
  obtain rfl : v1 = v := e1.1.symm.trans e2.1
  obtain rfl : y1 = y := e1.2.symm.trans e2.2
  have hc : q.column = p.column := h.col
  have hcol : p.curs.col = p.column := rfl
  rw [hcol] at h5 h6 h7
  obtain ⟨a1, w, a2, a3, a4⟩ := advanceLoop_ws n n p.offset p.column p.partiallyConsumedTab v1 (Nat.le_refl _) h1 h3 hn
  obtain ⟨b1, w', b2, b3, b4⟩ := advanceLoop_ws n n q.offset q.column q.partiallyConsumedTab v' (Nat.le_refl _) h2 h4 (by rw [hc, h5]; exact hn)
  have k1 : (advanceOffset n true p).column = p.column + n := a1
  have k2 : (advanceOffset n true q).column = p.column + n := by rw [← hc]; exact b1
  have b4 : columnFrom (p.column + n) w' = columnFrom p.column v1 := by rw [hc] at b4; rw [b4, h5]
  refine ⟨⟨?_, ?_, h.nl, h.nl'⟩, k1⟩
  · show (advanceOffset n true q).column = (advanceOffset n true p).column
    rw [k1, k2]
  · show TE free ((advanceOffset n true p).column + (e - n)) (advanceOffset n true p).column _ _
    rw [k1]
    refine ⟨w, w', y1, y', a2, b2, a3, b3, by rw [b4, a4], ?_, by rw [a4]; exact h7, h8, h9⟩
    rw [a4]
    exact h6.imp_right fun h => by omega

/-- Going on by one column if there is white space. -/
theorem TuB.one {free : Place} {e : Nat} {p q : PState} (h : TuB free e p.curs q.curs) (hp : isSpTabOpt (peekAt p.currentLine p.offset) = true) :
    TuB free (e - 1) (advanceOffset 1 true p).curs (advanceOffset 1 true q).curs ∧ (advanceOffset 1 true p).column = p.column + 1 := by
  obtain ⟨w, t, h1, h2, h3⟩ := ws_split (p.currentLine.drop p.offset)
  refine h.adv h1 h2 h3 ?_
  rw [peek_eq, h1] at hp
  exact columnFrom_lt ((head_ws h2 h3).1 hp)

theorem TuB.mono {free : Place} {e e' : Nat} {a b : CursorAt} (h : TuB free e a b) (he : e ≤ e') : TuB free e' a b :=
  ⟨h.col, h.te.mono (by omega), h.nl, h.nl'⟩

theorem TuB.free {free : Place} {e : Nat} {a b : CursorAt} (h : TuB free e a b) : TuB .clear e a b := ⟨h.col, h.te.free, h.nl, h.nl'⟩

/-- Going on by one column if there is one. -/
theorem TuB.opt {free : Place} {p q : PState} (h : TuB free 4 p.curs q.curs) :
    Tu free (if isSpTabOpt (peekAt p.currentLine p.offset) then advanceOffset 1 true p else p).curs
      (if isSpTabOpt (peekAt q.currentLine q.offset) then advanceOffset 1 true q else q).curs := by
  rw [h.peek]
  by_cases hc : isSpTabOpt (peekAt p.currentLine p.offset) = true
  · rw [if_pos hc, if_pos hc]
    exact (h.one hc).1
  · rw [if_neg hc, if_neg hc]
    refine ⟨h.col, h.te.done ?_ (by omega), h.nl, h.nl'⟩
    rw [peek_eq] at hc
    exact Bool.eq_false_iff.2 hc

/-- The cursors after `find_next_nonspace`. -/
structure Nx (a b : CursorAt) (v v' y y' : Str) : Prop where
  col : b.col = a.col
  da : a.line.drop a.off = v ++ y
  db : b.line.drop b.off = v' ++ y'
  na : a.nn = a.off + v.length
  nb : b.nn = b.off + v'.length
  nc : a.nnc = columnFrom a.col v
  nc' : b.nnc = a.nnc
  ind : a.ind = a.nnc - a.col
  ind' : b.ind = a.ind
  indd : a.indd = decide (a.ind ≥ 4)
  indd' : b.indd = a.indd
  blank : b.blank = a.blank
  va : OnlySpTab v
  vb : OnlySpTab v'
  width : columnFrom a.col v' = columnFrom a.col v
  ya : NoWs y
  yb : NoWs y'
  nl : '\n' ∉ a.line
  nl' : '\n' ∉ b.line

/-- They stand before such texts. -/
def TuN (free : Place) (a b : CursorAt) : Prop :=
  ∃ v v' y y', Nx a b v v' y y' ∧ Alike free a.nnc y y' ∧ (y = y' ∨ a.ind ≤ 3)

/-- They stand before the same text. -/
def TuE (a b : CursorAt) : Prop := ∃ v v' y, Nx a b v v' y y

theorem find_tab {free : Place} {p q : PState} (h : Tu free p.curs q.curs) : TuN free (findNextNonspace p).curs (findNextNonspace q).curs := by
  obtain ⟨v, v', y, y', h1, h2, h3, h4, h5, h6, h7, h8, h9⟩ := h.te
  have h1 : p.currentLine.drop p.offset = v ++ y := h1
  have h2 : q.currentLine.drop q.offset = v' ++ y' := h2
  have hc : q.column = p.column := h.col
  have e1 := takeWhile_ws h3 h8
  have e2 := takeWhile_ws h4 h9
  have s1 : skipWs (p.currentLine.drop p.offset) p.offset p.column = (p.offset + v.length, columnFrom p.column v, y.head?) := by
    rw [skipWs_eq, h1, e1.1, e1.2]
  have s2 : skipWs (q.currentLine.drop q.offset) q.offset q.column = (q.offset + v'.length, columnFrom p.column v, y'.head?) := by
    rw [skipWs_eq, h2, e2.1, e2.2, hc]
    have : columnFrom p.column v' = columnFrom p.column v := h5
    rw [this]
  have hh : (match y'.head? with | none => true | some c => c == '\n' || c == '\r') = (match y.head? with | none => true | some c => c == '\n' || c == '\r') := by
    rcases alike_head h7 with rfl | ⟨x, z, x', z', rfl, rfl, g1, g2, _⟩
    · rfl
    · obtain ⟨_, a1, a2⟩ := special_ne g1
      obtain ⟨_, b1, b2⟩ := special_ne g2
      show (x' == '\n' || x' == '\r') = (x == '\n' || x == '\r')
      rw [beq_eq_false_iff_ne.2 a1, beq_eq_false_iff_ne.2 a2, beq_eq_false_iff_ne.2 b1, beq_eq_false_iff_ne.2 b2]
  refine ⟨v, v', y, y', ⟨h.col, h1, h2, ?_, ?_, ?_, ?_, rfl, ?_, rfl, ?_, ?_, h3, h4, h5, h8, h9, h.nl, h.nl'⟩, ?_, ?_⟩
  · exact congrArg (·.1) s1
  · exact congrArg (·.1) s2
  · exact congrArg (·.2.1) s1
  · exact (congrArg (·.2.1) s2).trans (congrArg (·.2.1) s1).symm
  · show (skipWs _ _ _).2.1 - q.column = (skipWs _ _ _).2.1 - p.column
    rw [s1, s2, hc]
  · show decide ((skipWs _ _ _).2.1 - q.column ≥ 4) = decide ((skipWs _ _ _).2.1 - p.column ≥ 4)
    rw [s1, s2, hc]
  · show (match (skipWs (q.currentLine.drop q.offset) q.offset q.column).2.2 with | none => true | some c => c == '\n' || c == '\r') =
      (match (skipWs (p.currentLine.drop p.offset) p.offset p.column).2.2 with | none => true | some c => c == '\n' || c == '\r')
    rw [s1, s2]
    exact hh
  · show Alike free (skipWs _ _ _).2.1 y y'
    rw [s1]; exact h7
  · refine h6.imp_right fun h => ?_
    show (skipWs _ _ _).2.1 - p.column ≤ 3
    rw [s1]
    have h : columnFrom p.column v ≤ p.column + 3 := h
    show columnFrom p.column v - p.column ≤ 3
    omega

section
variable {a b : CursorAt} {v v' y y' : Str}

theorem Nx.ea (h : Nx a b v v' y y') : a.line.drop a.nn = y := by
  rw [h.na, ← List.drop_drop, h.da, List.drop_left]

theorem Nx.eb (h : Nx a b v v' y y') : b.line.drop b.nn = y' := by
  rw [h.nb, ← List.drop_drop, h.db, List.drop_left]
end

theorem Nx.toTu {free : Place} {p q : PState} {v v' y y' : Str} (h : Nx p.curs q.curs v v' y y') (hy : Alike free p.nextNonspaceColumn y y')
    (hi : y = y' ∨ p.indent ≤ 3) : Tu free p.curs q.curs := by
  have hn : p.nextNonspaceColumn = columnFrom p.column v := h.nc
  refine ⟨h.col, ⟨v, v', y, y', h.da, h.db, h.va, h.vb, h.width, ?_, ?_, h.ya, h.yb⟩, h.nl, h.nl'⟩
  · refine hi.imp_right fun hi => ?_
    have h2 : p.indent = p.nextNonspaceColumn - p.column := h.ind
    show columnFrom p.column v ≤ p.column + 3
    omega
  · show Alike free (columnFrom p.column v) y y'
    rw [← hn]; exact hy

theorem TuN.toTu {free : Place} {p q : PState} (h : TuN free p.curs q.curs) : Tu free p.curs q.curs := by
  obtain ⟨v, v', y, y', h, hy, hi⟩ := h
  exact h.toTu hy hi

theorem advN_tab {free : Place} {p q : PState} (h : TuN free p.curs q.curs) : Tu free (advanceNextNonspace p).curs (advanceNextNonspace q).curs := by
  obtain ⟨v, v', y, y', h, hy, hi⟩ := h
  refine ⟨h.nc', ⟨[], [], y, y', h.ea, h.eb, (fun _ h => by cases h), (fun _ h => by cases h), rfl, .inr (by simp [columnFrom]), hy, h.ya, h.yb⟩, h.nl, h.nl'⟩

/-- The item's indentation. -/
theorem TuN.advTo {free : Place} {p q : PState} (h : TuN free p.curs q.curs) {n : Nat} (hn : n ≤ p.indent) :
    Tu free (advanceOffset n true p).curs (advanceOffset n true q).curs := by
  have ht := h.toTu
  obtain ⟨v, v', y, y', h, hy, hi⟩ := h
  refine (ht.adv (n := n) h.da h.va h.ya ?_).1.mono (by omega)
  have h1 : p.nextNonspaceColumn = columnFrom p.column v := h.nc
  have h2 : p.indent = p.nextNonspaceColumn - p.column := h.ind
  have := columnFrom_le' v p.column
  omega

/-- The first character after the white space. -/
theorem TuN.heads {free : Place} {p q : PState} (h : TuN free p.curs q.curs) :
    peekAt q.currentLine q.nextNonspace = peekAt p.currentLine p.nextNonspace ∨
      ∃ x x', peekAt p.currentLine p.nextNonspace = some x ∧ peekAt q.currentLine q.nextNonspace = some x' ∧ isMaybeSpecial x = true ∧
        isMaybeSpecial x' = true ∧ (x' = '>' ↔ x = '>') := by
  obtain ⟨v, v', y, y', h, hy, hi⟩ := h
  have e1 : p.currentLine.drop p.nextNonspace = y := h.ea
  have e2 : q.currentLine.drop q.nextNonspace = y' := h.eb
  rw [peek_eq, peek_eq, e1, e2]
  rcases alike_head hy with rfl | ⟨x, z, x', z', rfl, rfl, g1, g2, g3⟩
  · exact .inl rfl
  · exact .inr ⟨x, x', rfl, rfl, g1, g2, g3⟩

theorem TuN.peekQ {free : Place} {p q : PState} (h : TuN free p.curs q.curs) :
    (peekAt q.currentLine q.nextNonspace == some '>') = (peekAt p.currentLine p.nextNonspace == some '>') := by
  rcases h.heads with h | ⟨x, x', h1, h2, _, _, h5⟩
  · rw [h]
  · rw [h1, h2]
    by_cases hx : x = '>'
    · rw [hx, h5.2 hx]
    · have hx' : ¬ x' = '>' := fun h => hx (h5.1 h)
      simp [hx, hx']

/-- The first step after the white space. -/
theorem step_char {p : PState} {x : Char} {z : Str} (cols : Bool) (h : p.currentLine.drop p.nextNonspace = x :: z) (hx : x ≠ '\t') :
    (advanceOffset 1 cols (advanceNextNonspace p)).curs =
      { p.curs with off := p.nextNonspace + 1, col := p.nextNonspaceColumn + 1, pct := false } := by
  have := advanceLoop_plain (line := p.currentLine) (b := cols) [x] z p.nextNonspace p.nextNonspaceColumn false h (by simpa using hx.symm)
  have e : (advanceOffset 1 cols (advanceNextNonspace p)).curs =
      ⟨p.currentLine, (advanceLoop p.currentLine cols 1 1 p.nextNonspace p.nextNonspaceColumn false).1,
        (advanceLoop p.currentLine cols 1 1 p.nextNonspace p.nextNonspaceColumn false).2.1, p.nextNonspace, p.nextNonspaceColumn, p.indent, p.indented,
        p.blank, (advanceLoop p.currentLine cols 1 1 p.nextNonspace p.nextNonspaceColumn false).2.2⟩ := rfl
  rw [e]
  simp only [List.length_singleton] at this
  rw [this]
  rfl

/-- The marker of a block quote. -/
theorem eat_tab {free : Place} {p q : PState} (h : TuN free p.curs q.curs) (hp : peekAt p.currentLine p.nextNonspace = some '>') :
    Tu free (eatQuoteMarker p).curs (eatQuoteMarker q).curs := by
  have hq : peekAt q.currentLine q.nextNonspace = some '>' := by
    have := h.peekQ
    rw [hp] at this
    simpa using this
  obtain ⟨v, v', y, y', h, hy, hi⟩ := h
  have e1 : p.currentLine.drop p.nextNonspace = y := h.ea
  have e2 : q.currentLine.drop q.nextNonspace = y' := h.eb
  rw [peek_eq, e1] at hp
  rw [peek_eq, e2] at hq
  obtain ⟨z, rfl⟩ : ∃ z, y = '>' :: z := by
    cases y with
    | nil => cases hp
    | cons x z => cases hp; exact ⟨z, rfl⟩
  obtain ⟨z', rfl⟩ : ∃ z, y' = '>' :: z := by
    cases y' with
    | nil => cases hq
    | cons x z => cases hq; exact ⟨z, rfl⟩
  have c1 := step_char false e1 (by decide)
  have c2 := step_char false e2 (by decide)
  have hn : q.nextNonspaceColumn = p.nextNonspaceColumn := h.nc'
  have d1 : p.currentLine.drop (p.nextNonspace + 1) = z := by rw [← List.drop_drop, e1]; rfl
  have d2 : q.currentLine.drop (q.nextNonspace + 1) = z' := by rw [← List.drop_drop, e2]; rfl
  have key : TuB free 4 (advanceOffset 1 false (advanceNextNonspace p)).curs (advanceOffset 1 false (advanceNextNonspace q)).curs := by
    rw [c1, c2]
    refine ⟨by show q.nextNonspaceColumn + 1 = p.nextNonspaceColumn + 1; rw [hn], ?_, h.nl, h.nl'⟩
    show TE free (p.nextNonspaceColumn + 1 + 4) (p.nextNonspaceColumn + 1) (p.currentLine.drop (p.nextNonspace + 1)) (q.currentLine.drop (q.nextNonspace + 1))
    rw [d1, d2]
    have hy : Alike free p.nextNonspaceColumn ('>' :: z) ('>' :: z') := hy
    generalize p.nextNonspaceColumn = c at hy
    generalize hY : '>' :: z = Y at hy
    generalize hY' : '>' :: z' = Y' at hy
    cases hy with
    | same =>
      rw [← hY] at hY'
      cases hY'
      exact TE.refl _ _ _ _
    | rule h1 _ _ =>
      obtain ⟨x, z, e, _, g⟩ := rule_head h1
      rw [e] at hY
      cases hY
      rcases g with g | g | g <;> cases g
    | heading h1 _ h2 _ =>
      obtain ⟨z, e⟩ := heading_head h1 h2
      rw [e] at hY
      cases hY
    | quote h1 h2 h3 h4 h5 =>
      cases hY; cases hY'
      exact TE.mk h1 h2 h3 (h4.imp_right fun h => by omega) h5
    | item h1 h2 h3 h4 h5 h6 h7 h8 h9 =>
      obtain ⟨x, xs, rfl, g1, g2, g3, g4, g5⟩ := mark_head h1
      cases hY
      exact absurd rfl g4
  exact key.opt

end CM
