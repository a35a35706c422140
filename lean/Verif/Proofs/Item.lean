import Verif.Proofs.Kid
import Verif.Proofs.LineKinds
/-
List items add structure only (C56): the lines.
-/
namespace CM
open Spec

/-! ### Advancing over spaces -/

/-- Characters other than tabs have width one. -/
theorem advanceLoop_notab {line : Str} (cols : Bool) : ∀ (k fuel off col : Nat) (pct : Bool), k ≤ fuel →
    (∀ i, i < k → ∃ c, line[off + i]? = some c ∧ c ≠ '\t') → 1 ≤ k →
    advanceLoop line cols fuel k off col pct = (off + k, col + k, false) := by
  intro k
  induction k with
  | zero => intro _ _ _ _ _ _ h; omega
  | succ k ih =>
    intro fuel off col pct hf hc _
    obtain ⟨f, rfl⟩ : ∃ f, fuel = f + 1 := ⟨fuel - 1, by omega⟩
    obtain ⟨c, h1, h2⟩ := hc 0 (by omega)
    simp only [Nat.add_zero] at h1
    unfold advanceLoop
    rw [if_neg (by simp)]
    simp only [h1]
    rw [if_neg (by simpa using h2)]
    by_cases hk : k = 0
    · subst hk
      cases f <;> simp [advanceLoop]
    · rw [show k + 1 - 1 = k from rfl, ih f (off + 1) (col + 1) false (by omega) ?_ (by omega)]
      · simp only [Prod.mk.injEq, and_true]; omega
      · intro i hi
        obtain ⟨c, h⟩ := hc (i + 1) (by omega)
        exact ⟨c, by rw [show off + 1 + i = off + (i + 1) by omega]; exact h⟩

theorem advance_plain {p : PState} {k : Nat} (cols : Bool) (hk : 1 ≤ k)
    (hc : ∀ i, i < k → ∃ c, p.currentLine[p.offset + i]? = some c ∧ c ≠ '\t') :
    advanceOffset k cols p = { p with offset := p.offset + k, column := p.column + k, partiallyConsumedTab := false } := by
  unfold advanceOffset
  rw [advanceLoop_notab cols k k _ _ _ (Nat.le_refl _) hc hk]

theorem skipWs_spaces (n : Nat) (l : Str) : ∀ i cols, skipWs (List.replicate n ' ' ++ l) i cols = skipWs l (i + n) (cols + n) := by
  induction n with
  | zero => intro i cols; rfl
  | succ n ih =>
    intro i cols
    rw [List.replicate_succ, List.cons_append, skipWs, if_pos (by rfl), ih]
    congr 1 <;> omega

theorem skipWs_le : ∀ (l : Str) (i c : Nat), c ≤ (skipWs l i c).2.1
  | [], _, c => Nat.le_refl c
  | x :: l, i, c => by
    rw [skipWs]
    split
    · exact Nat.le_trans (by omega) (skipWs_le l (i + 1) (c + 1))
    · split
      · exact Nat.le_trans (by omega) (skipWs_le l (i + 1) (c + (4 - c % 4)))
      · exact Nat.le_refl _

theorem skipWs_text : ∀ (l : Str) (i c : Nat), NotBlank l → ∃ x ∈ l, x ≠ ' ' ∧ x ≠ '\t' ∧ (skipWs l i c).2.2 = some x
  | [], _, _, h => by obtain ⟨_, h, _⟩ := h; cases h
  | x :: l, i, c, h => by
    have sub : x = ' ' ∨ x = '\t' → NotBlank l := by
      intro hx
      obtain ⟨y, hy, h1, h2⟩ := h
      rcases List.mem_cons.1 hy with rfl | hy
      · rcases hx with rfl | rfl
        · exact absurd rfl h1
        · exact absurd rfl h2
      · exact ⟨y, hy, h1, h2⟩
    rw [skipWs]
    split
    · rename_i hx
      obtain ⟨y, hy, h1, h2, h3⟩ := skipWs_text l (i + 1) (c + 1) (sub (.inl (by simpa using hx)))
      exact ⟨y, List.mem_cons_of_mem _ hy, h1, h2, h3⟩
    · split
      · rename_i hx
        obtain ⟨y, hy, h1, h2, h3⟩ := skipWs_text l (i + 1) (c + (4 - c % 4)) (sub (.inr (by simpa using hx)))
        exact ⟨y, List.mem_cons_of_mem _ hy, h1, h2, h3⟩
      · rename_i h1 h2
        exact ⟨x, by simp, by simpa using h1, by simpa using h2, rfl⟩

/-! ### The continuation of the item -/

/-- A line with text, indented. -/
theorem eat_indent {w : Nat} {l : Str} (hw : 1 ≤ w) (hb : NotBlank l) (h1 : '\n' ∉ l) (h2 : '\r' ∉ l) {q : PState}
    (hl : q.currentLine = List.replicate w ' ' ++ l) (ho : q.offset = 0) (hc : q.column = 0) :
    (findNextNonspace q).blank = false ∧ (findNextNonspace q).indent ≥ w ∧
      advanceOffset w true (findNextNonspace q) = { findNextNonspace q with offset := w, column := w, partiallyConsumedTab := false } := by
  have hs : skipWs (q.currentLine.drop q.offset) q.offset q.column = skipWs l w w := by
    rw [ho, hc, List.drop_zero, hl, skipWs_spaces]; simp
  obtain ⟨x, hx, _, _, hx3⟩ := skipWs_text l w w hb
  have fb : (findNextNonspace q).blank = match (skipWs (q.currentLine.drop q.offset) q.offset q.column).2.2 with
      | none => true
      | some c => c == '\n' || c == '\r' := rfl
  refine ⟨?_, ?_, ?_⟩
  · rw [fb, hs, hx3]
    have n1 : x ≠ '\n' := fun e => h1 (e ▸ hx)
    have n2 : x ≠ '\r' := fun e => h2 (e ▸ hx)
    simp [n1, n2]
  · show (skipWs _ _ _).2.1 - q.column ≥ w
    rw [hs, hc]
    exact skipWs_le l w w
  · have f1 : (findNextNonspace q).offset = 0 := ho
    have f2 : (findNextNonspace q).column = 0 := hc
    rw [advance_plain true hw]
    · simp [f1, f2]
    · intro i hi
      refine ⟨' ', ?_, by decide⟩
      rw [f1]
      show q.currentLine[0 + i]? = _
      rw [hl, List.getElem?_append_left (by simpa using hi), Nat.zero_add]
      simp [hi]

/-- An empty line. -/
theorem eat_blank {k : Nat} {q : PState} (hl : q.currentLine = List.replicate k ' ') (ho : q.offset = 0) (hc : q.column = 0) :
    (findNextNonspace q).blank = true ∧ (findNextNonspace q).nextNonspace = k ∧ (findNextNonspace q).nextNonspaceColumn = k := by
  have hs : skipWs (q.currentLine.drop q.offset) q.offset q.column = (k, k, none) := by
    have := skipWs_spaces k [] 0 0
    rw [ho, hc, List.drop_zero, hl]
    simpa [skipWs] using this
  refine ⟨?_, ?_, ?_⟩
  · have fb : (findNextNonspace q).blank = match (skipWs (q.currentLine.drop q.offset) q.offset q.column).2.2 with
      | none => true
      | some c => c == '\n' || c == '\r' := rfl
    rw [fb, hs]
  · show (skipWs _ _ _).1 = k; rw [hs]
  · show (skipWs _ _ _).2.1 = k; rw [hs]

theorem rep_nul (n : Nat) (l : Str) : replaceChar (Char.ofNat 0) (Char.ofNat 0xFFFD) (List.replicate n ' ' ++ l) =
    List.replicate n ' ' ++ replaceChar (Char.ofNat 0) (Char.ofNat 0xFFFD) l := by
  simp [replaceChar]

theorem nul_not_mem {c : Char} {l : Str} (h : c ∉ l) (hc : c ≠ Char.ofNat 0xFFFD) : c ∉ replaceChar (Char.ofNat 0) (Char.ofNat 0xFFFD) l := by
  intro h'
  simp only [replaceChar, List.mem_map] at h'
  obtain ⟨x, hx, e⟩ := h'
  split at e
  · exact hc e.symm
  · subst e; exact h hx

theorem notBlank_nul {l : Str} (h : NotBlank l) : NotBlank (replaceChar (Char.ofNat 0) (Char.ofNat 0xFFFD) l) := by
  obtain ⟨c, hc, h1, h2⟩ := h
  refine ⟨if c == Char.ofNat 0 then Char.ofNat 0xFFFD else c, ?_, ?_⟩
  · simp only [replaceChar, List.mem_map]
    exact ⟨c, hc, by simp⟩
  · split
    · decide
    · exact ⟨h1, h2⟩

/-- The item is `β`, in the list and the document `o`, with content from column `w` on. -/
structure ItemSim (X : Sim) (w : Nat) : Prop extends X.Ok where
  item : X.β.t = .item
  width : ∃ l, X.β.listData = some l ∧ l.markerOffset + l.padding = w
  outer : ∃ b c, X.o = [b, c] ∧ b.data.t = .list
  before : X.A = []

theorem ItemSim.spine {X : Sim} {w : Nat} (hX : ItemSim X w) {q : PState} {A' : List OpenBlk} {b' : OpenBlk} {O : List OpenBlk}
    (hq : q.spine = A' ++ b' :: O) (h3 : { b'.data with lastLineBlank := false } = X.β) (h4 : O.map unflag = X.o) :
    b'.data.t = .item ∧ (∃ l, b'.data.listData = some l ∧ l.markerOffset + l.padding = w) ∧ X.o.length = 2 ∧
    ∃ x, x.data.t = .list ∧ q.spine.reverse.drop 1 = x :: b' :: A'.reverse := by
  obtain ⟨x0, y0, ho, hx0⟩ := hX.outer
  obtain ⟨x, y, rfl⟩ : ∃ x y, O = [x, y] := by
    have : O.length = 2 := by rw [← List.length_map (f := unflag), h4, ho]; rfl
    cases O with
    | nil => simp at this
    | cons x O =>
      cases O with
      | nil => simp at this
      | cons y O =>
        cases O with
        | nil => exact ⟨x, y, rfl⟩
        | cons => simp at this
  have hx : x.data.t = .list := by
    rw [ho] at h4
    have : unflag x = x0 := (List.cons.inj h4).1
    rw [← this] at hx0
    exact hx0
  refine ⟨?_, ?_, by rw [ho]; rfl, x, hx, by rw [hq]; simp⟩
  · have := hX.item; rw [← h3] at this; exact this
  · have := hX.width; rw [← h3] at this; exact this

/-- A further line of the item, with text. -/
theorem item_text {X : Sim} {w : Nat} {p q : PState} {l : Str} (hX : ItemSim X w) (hw : 1 ≤ w)
    (h : Sp X p q) (hk : Keeps X (incorporateLine p l)) (hb : NotBlank l) (h1 : '\n' ∉ l) (h2 : '\r' ∉ l) (ht : '\t' ∉ l ∨ w % 4 = 0) :
    ERel (Sp X) (incorporateLine p l) (incorporateLine q (List.replicate w ' ' ++ l)) := by
  rw [incorporateLine_eq] at hk ⊢
  rw [incorporateLine_eq, rep_nul]
  have ht := ht.imp_left noTab_nul
  have h1 := nul_not_mem h1 (by decide)
  have h2 := nul_not_mem h2 (by decide)
  have hb := notBlank_nul hb
  generalize replaceChar (Char.ofNat 0) (Char.ofNat 0xFFFD) l = l at hb h1 h2 ht hk
  obtain ⟨m1, m2, m3⟩ := eat_indent hw hb h1 h2 (q := atStart q (List.replicate w ' ' ++ l)) rfl rfl rfl
  refine line_rel (k := w) (q1 := advanceOffset w true (findNextNonspace (atStart q (List.replicate w ' ' ++ l)))) hX.toOk h (by simp) rfl rfl ?_ ?_ hk
  · rw [m3]
    refine ⟨⟨List.replicate w ' ', by simp, rfl⟩, rfl, rfl, rfl, ?_⟩
    rcases ht with ht | ht
    · exact .inr ⟨ht, rfl⟩
    · exact .inl ht
  · intro A b A' b' O cs hp hq _ _ _ h3 h4
    obtain ⟨g1, ⟨ld, g2, g3⟩, g4, x, g5, g6⟩ := hX.spine hq h3 h4
    rw [g6, g4]
    simp only [contLoop, continueBlock, g5, g1, g2, g3]
    rw [show (findNextNonspace (findNextNonspace (atStart q (List.replicate w ' ' ++ l)))) = findNextNonspace (atStart q (List.replicate w ' ' ++ l)) from rfl]
    simp only [m1, Bool.false_eq_true, if_false]
    rw [if_pos m2]

/-- The item has a child. -/
theorem Kid.child {X : Sim} {A A' : List OpenBlk} {b b' : OpenBlk} {cs : List Tree} (h : Kid (A ++ [b]))
    (hA : A.length = A'.length) (hb : b'.children = X.A ++ cs) (hc : erL X.φ b.children = erL X.ψ cs) :
    (!b'.children.isEmpty || !A'.isEmpty) = true := by
  cases A' with
  | cons => simp
  | nil =>
    obtain rfl : A = [] := by simpa using hA
    cases h with
    | done _ hk =>
      have := noColsL_isEmpty hc
      cases hbc : b.children with
      | nil => exact absurd hbc hk
      | cons t ts =>
        rw [hbc] at this
        cases cs with
        | nil => simp at this
        | cons => simp [hb]

/-- A further line of the item, without text. -/
theorem item_blank {X : Sim} {w k : Nat} {p q : PState} (hX : ItemSim X w) (h : Sp X p q) (hk : Kid p.spine) (hr : Ready p) :
    ERel (Sp X) (incorporateLine p []) (incorporateLine q (List.replicate k ' ')) := by
  have hkeep : Keeps X (incorporateLine p []) := keeps_of_kid fun p' hp' => (kid_line hk hr hp').1
  rw [incorporateLine_eq] at hkeep ⊢
  rw [incorporateLine_eq, show List.replicate k ' ' = List.replicate k ' ' ++ [] by simp, rep_nul,
    show replaceChar (Char.ofNat 0) (Char.ofNat 0xFFFD) [] = [] from rfl, List.append_nil]
  obtain ⟨m1, m2, m3⟩ := eat_blank (q := atStart q (List.replicate k ' ')) rfl rfl rfl
  refine line_rel (k := k) (q1 := advanceNextNonspace (findNextNonspace (atStart q (List.replicate k ' ')))) hX.toOk h (by simp) rfl rfl ?_ ?_ hkeep
  · refine ⟨⟨List.replicate k ' ', by simp, ?_⟩, ?_, ?_, rfl, .inr ⟨by simp [atStart, PState.curs], rfl⟩⟩
    · show List.replicate k ' ' = List.replicate k ' ' ++ []; simp
    · exact m2
    · exact m3
  · intro A b A' b' O cs hp hq hA hcs hcr h3 h4
    obtain ⟨g1, _, g4, x, g5, g6⟩ := hX.spine hq h3 h4
    rw [hp] at hk
    have hch := hk.child hA hcs hcr
    rw [g6, g4]
    simp only [contLoop, continueBlock, g5, g1]
    rw [show (findNextNonspace (findNextNonspace (atStart q (List.replicate k ' ')))) = findNextNonspace (atStart q (List.replicate k ' ')) from rfl]
    simp only [m1, if_true, List.isEmpty_reverse, hch]

end CM
