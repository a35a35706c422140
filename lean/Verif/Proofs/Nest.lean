import Mathlib.Data.List.Forall2
import Verif.Spec.Nest
import Verif.Proofs.BlockSteps
/-
Two runs of the block phase, one inside a container of the other: the simulation behind C50, C55 and C56.
-/
namespace CM
open Spec

/-! ### Related results -/

/-- If the first computation succeeds, so does the second, with a related result. -/
def ERel {α β : Type} (R : α → β → Prop) (x : Except PyErr α) (y : Except PyErr β) : Prop :=
  ∀ a, x = .ok a → ∃ b, y = .ok b ∧ R a b

theorem ERel.ok {α β : Type} {R : α → β → Prop} {a : α} {b : β} (h : R a b) : ERel R (.ok a) (.ok b) := by
  intro a' e; cases e; exact ⟨b, rfl, h⟩

theorem ERel.error {α β : Type} {R : α → β → Prop} {e : PyErr} {y : Except PyErr β} : ERel R (.error e) y := by
  intro a' e; cases e

theorem ERel.bind {α β γ δ : Type} {R : α → β → Prop} {S : γ → δ → Prop} {x : Except PyErr α} {y : Except PyErr β}
    {f : α → Except PyErr γ} {g : β → Except PyErr δ} (h : ERel R x y) (hf : ∀ a b, R a b → ERel S (f a) (g b)) :
    ERel S (x >>= f) (y >>= g) := by
  intro c hc
  cases x with
  | error e => cases hc
  | ok a =>
    obtain ⟨b, rfl, hb⟩ := h a rfl
    exact hf a b hb c hc

theorem ERel.mono {α β : Type} {R S : α → β → Prop} {x : Except PyErr α} {y : Except PyErr β} (h : ERel R x y)
    (hs : ∀ a b, x = .ok a → R a b → S a b) : ERel S x y := by
  intro a e
  obtain ⟨b, e', hb⟩ := h a e
  exact ⟨b, e', hs a b e hb⟩

/-- The relation, with what the first run gives. -/
theorem ERel.run {α β : Type} {R : α → β → Prop} {x : Except PyErr α} {y : Except PyErr β} (h : ERel R x y) :
    ERel (fun a b => R a b ∧ x = .ok a) x y := h.mono fun _ _ e h => ⟨h, e⟩

theorem ERel.ite {α β : Type} {R : α → β → Prop} {P : Prop} [Decidable P] {a c : Except PyErr α} {b d : Except PyErr β}
    (h1 : P → ERel R a b) (h2 : ¬ P → ERel R c d) : ERel R (if P then a else c) (if P then b else d) := by
  by_cases h : P
  · rw [if_pos h, if_pos h]; exact h1 h
  · rw [if_neg h, if_neg h]; exact h2 h

/-! ### Trees with other source positions -/

abbrev Pos := (Nat × Nat) × (Nat × Nat)

/-- Change the source position of a node. -/
def er (φ : Pos → Pos) (d : NodeData) : NodeData := { d with sourcepos := d.sourcepos.map φ }

mutual
/-- Change the source positions in a tree. -/
def erT (φ : Pos → Pos) : Tree → Tree
  | .node d cs => .node (er φ d) (erL φ cs)
def erL (φ : Pos → Pos) : List Tree → List Tree
  | [] => []
  | t :: ts => erT φ t :: erL φ ts
end

variable {φ ψ : Pos → Pos}

theorem noColsL_eq (cs : List Tree) : erL φ cs = cs.map (erT φ) := by
  induction cs with
  | nil => rfl
  | cons t ts ih => simp [erL, ih]

theorem noColsL_append (as bs : List Tree) : erL φ (as ++ bs) = erL φ as ++ erL φ bs := by
  simp [noColsL_eq]

theorem noColsL_isEmpty {as bs : List Tree} (h : erL φ as = erL ψ bs) : as.isEmpty = bs.isEmpty := by
  cases as <;> cases bs <;> simp_all [erL]

theorem noColsT_data {t t' : Tree} (h : erT φ t = erT ψ t') : er φ t.data = er ψ t'.data := by
  cases t; cases t'
  simp only [erT, Tree.node.injEq] at h
  exact h.1

mutual
theorem ends_noCols : ∀ t : Tree, endsWithBlankLine (erT φ t) = ((endsWithBlankLine t).1, erT φ (endsWithBlankLine t).2)
  | .node d cs => by
    have ih := ends_noColsL cs
    have e : erT φ (.node d cs) = .node (er φ d) (erL φ cs) := by simp only [erT]
    rw [e]
    simp only [endsWithBlankLine]
    rw [show (er φ d).lastLineBlank = d.lastLineBlank from rfl, show (er φ d).lastLineChecked = d.lastLineChecked from rfl,
      show (er φ d).t = d.t from rfl]
    by_cases h1 : d.lastLineBlank = true
    · rw [if_pos h1, if_pos h1]; simp only [erT]
    · rw [if_neg h1, if_neg h1]
      by_cases h2 : (!d.lastLineChecked && (d.t == .list || d.t == .item)) = true
      · rw [if_pos h2, if_pos h2, ih]
        simp only [erT]
        rfl
      · rw [if_neg h2, if_neg h2]
        simp only [erT]
        rfl
theorem ends_noColsL : ∀ cs : List Tree, endsWithBlankLast (erL φ cs) =
    ((endsWithBlankLast cs).1, erL φ (endsWithBlankLast cs).2)
  | [] => by simp [erL, endsWithBlankLast]
  | [t] => by
    have ih := ends_noCols t
    simp only [erL, endsWithBlankLast, ih]
  | t :: u :: r => by
    have ih := ends_noColsL (u :: r)
    simp only [erL, endsWithBlankLast] at ih ⊢
    rw [ih]
end

theorem subitems_noCols (b : Bool) (cs : List Tree) : checkSubitems b (erL φ cs) =
    ((checkSubitems b cs).1, erL φ (checkSubitems b cs).2) := by
  induction cs with
  | nil => simp [checkSubitems, erL]
  | cons t ts ih =>
    simp only [erL, checkSubitems, ends_noCols]
    have : (erL φ ts).isEmpty = ts.isEmpty := by cases ts <;> simp [erL]
    rw [this, ih]
    by_cases h : ((endsWithBlankLine t).1 && (b || !ts.isEmpty)) = true
    · rw [if_pos h, if_pos h]; simp [erL]
    · rw [if_neg h, if_neg h]; simp [erL]

theorem items_noCols (cs : List Tree) : checkItems (erL φ cs) = ((checkItems cs).1, erL φ (checkItems cs).2) := by
  induction cs with
  | nil => simp [checkItems, erL]
  | cons t ts ih =>
    simp only [erL, checkItems, ends_noCols]
    have : (erL φ ts).isEmpty = ts.isEmpty := by cases ts <;> simp [erL]
    rw [this, ih]
    by_cases h : ((endsWithBlankLine t).1 && !ts.isEmpty) = true
    · rw [if_pos h, if_pos h]; simp [erL]
    · rw [if_neg h, if_neg h]
      cases (endsWithBlankLine t).2 with
      | node d c =>
        simp only [erT, subitems_noCols, erL]

theorem loosen_noCols (d : NodeData) : loosen (er φ d) = er φ (loosen d) := rfl

theorem finalizeList_noCols (d : NodeData) (cs : List Tree) :
    finalizeList (er φ d) (erL φ cs) = erT φ (finalizeList d cs) := by
  simp only [finalizeList, items_noCols]
  by_cases h : (checkItems cs).1 = true
  · rw [if_pos h, if_pos h, erT, loosen_noCols]
    cases (checkItems cs).2 with
    | nil => simp [erL]
    | cons t ts => cases t; simp [erL, erT, loosen_noCols]
  · rw [if_neg h, if_neg h, erT]

theorem finalizeCode_noCols (d : NodeData) : finalizeCode (er φ d) = (finalizeCode d).map (er φ) := by
  unfold finalizeCode
  rw [show (er φ d).stringContent = d.stringContent from rfl, show (er φ d).isFenced = d.isFenced from rfl]
  cases d.stringContent with
  | none => rfl
  | some x =>
    simp only
    by_cases h : d.isFenced = true
    · rw [if_pos h, if_pos h]
      cases splitFirstLine x with
      | none => rfl
      | some r => rfl
    · rw [if_neg h, if_neg h]; rfl

theorem finalizeHtml_noCols (d : NodeData) : finalizeHtml (er φ d) = (finalizeHtml d).map (er φ) := by
  unfold finalizeHtml
  rw [show (er φ d).stringContent = d.stringContent from rfl]
  cases d.stringContent <;> rfl

theorem finalizeParagraph_noCols (d : NodeData) (m : RefMap) : finalizeParagraph (er φ d) m =
    (finalizeParagraph d m).map fun r => (r.1.map (er φ), r.2) := by
  unfold finalizeParagraph
  rw [show (er φ d).stringContent = d.stringContent from rfl]
  cases d.stringContent with
  | none => rfl
  | some x =>
    simp only
    cases refLoop (x.length + 1) x m false with
    | error e => rfl
    | ok r =>
      obtain ⟨c, m', h⟩ := r
      simp only [bind, Except.bind, pure, Except.pure]
      by_cases h : (h && isBlank c) = true
      · rw [if_pos h, if_pos h]; rfl
      · rw [if_neg h, if_neg h]; rfl

theorem finalizeBlock_noCols (d : NodeData) (cs : List Tree) (m : RefMap) : finalizeBlock (er φ d) (erL φ cs) m =
    (finalizeBlock d cs m).map fun r => (r.1.map (erT φ), r.2) := by
  unfold finalizeBlock
  rw [show (er φ d).t = d.t from rfl]
  cases d.t <;> simp only [finalizeList_noCols, finalizeCode_noCols, finalizeHtml_noCols, finalizeParagraph_noCols] <;>
    try (simp only [Except.map, Option.map_some, erT]; done)
  · cases finalizeParagraph d m with
    | error e => rfl
    | ok r =>
      obtain ⟨r, m'⟩ := r
      cases r <;> simp [bind, Except.bind, pure, Except.pure, Except.map, erT]
  · cases finalizeCode d <;> simp [bind, Except.bind, pure, Except.pure, Except.map, erT]
  · cases finalizeHtml d <;> simp [bind, Except.bind, pure, Except.pure, Except.map, erT]

/-- A change of the reference map that reading definitions does not notice. -/
def RefKeeps (f : RefMap → RefMap) : Prop := ∀ s m, parseReference s (f m) = ((parseReference s m).1, f (parseReference s m).2)

theorem refKeeps_id : RefKeeps id := fun _ _ => rfl

theorem refLoop_keeps {f : RefMap → RefMap} (hf : RefKeeps f) : ∀ (n : Nat) (x : Str) (m : RefMap) (h : Bool),
    refLoop n x (f m) h = (refLoop n x m h).map fun r => (r.1, f r.2.1, r.2.2)
  | 0, _, _, _ => rfl
  | n + 1, x, m, h => by
    simp only [refLoop, hf x m]
    by_cases h1 : (peekAt x 0 == some '[') = true
    · rw [if_pos h1, if_pos h1]
      by_cases h2 : ((parseReference x m).1 == 0) = true
      · rw [if_pos h2, if_pos h2]; rfl
      · rw [if_neg h2, if_neg h2]; exact refLoop_keeps hf n _ _ _
    · rw [if_neg h1, if_neg h1]; rfl

theorem finalizeBlock_keeps {f : RefMap → RefMap} (hf : RefKeeps f) (d : NodeData) (cs : List Tree) (m : RefMap) :
    finalizeBlock d cs (f m) = (finalizeBlock d cs m).map fun r => (r.1, f r.2) := by
  unfold finalizeBlock
  cases d.t <;> simp only [] <;> try rfl
  · unfold finalizeParagraph
    cases d.stringContent with
    | none => rfl
    | some x =>
      simp only [refLoop_keeps hf]
      cases refLoop (x.length + 1) x m false with
      | error e => rfl
      | ok r =>
        simp only [Except.map, bind, Except.bind, pure, Except.pure]
        by_cases h : (r.2.2 && isBlank r.1) = true
        · rw [if_pos h, if_pos h]
        · rw [if_neg h, if_neg h]
  · cases finalizeCode d <;> rfl
  · cases finalizeHtml d <;> rfl

theorem finalizeBlock_rel {d d' : NodeData} {cs cs' : List Tree} {f : RefMap → RefMap} (hf : RefKeeps f) (m : RefMap) (hd : er φ d = er ψ d')
    (hc : erL φ cs = erL ψ cs') :
    ERel (fun r r' => r.1.map (erT φ) = r'.1.map (erT ψ) ∧ r'.2 = f r.2) (finalizeBlock d cs m) (finalizeBlock d' cs' (f m)) := by
  have h1 := finalizeBlock_noCols (φ := φ) d cs m
  have h2 := finalizeBlock_noCols (φ := ψ) d' cs' m
  rw [← hd, ← hc, h1] at h2
  intro a ha
  rw [ha] at h2
  rw [finalizeBlock_keeps hf]
  cases hb : finalizeBlock d' cs' m with
  | error e => rw [hb] at h2; cases h2
  | ok b =>
    rw [hb] at h2
    simp only [Except.map, Except.ok.injEq, Prod.mk.injEq] at h2
    exact ⟨_, rfl, h2.1, by rw [h2.2]⟩

/-! ### The cursor -/

/-- The cursor in the current line. -/
structure CursorAt where
  line : Str
  off : Nat
  col : Nat
  nn : Nat
  nnc : Nat
  ind : Nat
  indd : Bool
  blank : Bool
  pct : Bool

def PState.curs (p : PState) : CursorAt :=
  ⟨p.currentLine, p.offset, p.column, p.nextNonspace, p.nextNonspaceColumn, p.indent, p.indented, p.blank, p.partiallyConsumedTab⟩

/-- The second line is the first one after `k` characters; there are no tabs, or they are not affected. -/
structure Cu (k : Nat) (a b : CursorAt) : Prop where
  line : ∃ pre : Str, pre.length = k ∧ b.line = pre ++ a.line
  off : b.off = k + a.off
  col : b.col = k + a.col
  pct : b.pct = a.pct
  tab : k % 4 = 0 ∨ ('\t' ∉ a.line ∧ a.pct = false)

/-- With the results of `find_next_nonspace`. -/
structure CuN (k : Nat) (a b : CursorAt) : Prop extends Cu k a b where
  nn : b.nn = k + a.nn
  nnc : b.nnc = k + a.nnc
  ind : b.ind = a.ind
  indd : b.indd = a.indd
  blank : b.blank = a.blank

theorem Cu.drop {k : Nat} {a b : CursorAt} (h : Cu k a b) (i : Nat) : b.line.drop (k + i) = a.line.drop i := by
  obtain ⟨pre, rfl, e⟩ := h.line
  rw [e, ← List.drop_drop, List.drop_left]

theorem Cu.get {k : Nat} {a b : CursorAt} (h : Cu k a b) (i : Nat) : b.line[k + i]? = a.line[i]? := by
  obtain ⟨pre, rfl, e⟩ := h.line
  rw [e, List.getElem?_append_right (by omega)]
  congr 1
  omega

theorem Cu.len {k : Nat} {a b : CursorAt} (h : Cu k a b) : b.line.length = k + a.line.length := by
  obtain ⟨pre, rfl, e⟩ := h.line
  rw [e, List.length_append]

theorem skipWs_shift (k : Nat) : ∀ (s : Str) (i c : Nat), (k % 4 = 0 ∨ '\t' ∉ s) →
    skipWs s (k + i) (k + c) = (k + (skipWs s i c).1, k + (skipWs s i c).2.1, (skipWs s i c).2.2) := by
  intro s
  induction s with
  | nil => intro i c _; simp [skipWs]
  | cons d s ih =>
    intro i c h
    have h' : k % 4 = 0 ∨ '\t' ∉ s := h.imp_right fun h => by simp only [List.mem_cons, not_or] at h; exact h.2
    simp only [skipWs]
    by_cases hs : (d == ' ') = true
    · rw [if_pos hs, if_pos hs]
      exact ih (i + 1) (c + 1) h'
    · rw [if_neg hs, if_neg hs]
      by_cases ht : (d == '\t') = true
      · rw [if_pos ht, if_pos ht]
        rcases h with h | h
        · have e : k + c + (4 - (k + c) % 4) = k + (c + (4 - c % 4)) := by omega
          rw [e]
          exact ih (i + 1) _ h'
        · simp only [List.mem_cons, not_or] at h
          exact absurd (show d = '\t' by simpa using ht).symm h.1
      · rw [if_neg ht, if_neg ht]

theorem find_rel {k : Nat} {p q : PState} (h : Cu k p.curs q.curs) :
    CuN k (findNextNonspace p).curs (findNextNonspace q).curs := by
  have hd : q.currentLine.drop q.offset = p.currentLine.drop p.offset := by
    have := h.drop p.offset
    rw [show k + p.offset = q.offset from h.off.symm] at this
    exact this
  have ho : q.offset = k + p.offset := h.off
  have hc : q.column = k + p.column := h.col
  have ht : k % 4 = 0 ∨ '\t' ∉ p.currentLine.drop p.offset := h.tab.imp_right fun h h' => h.1 (List.mem_of_mem_drop h')
  have hs := skipWs_shift k _ p.offset p.column ht
  have e : skipWs (q.currentLine.drop q.offset) q.offset q.column =
      (k + (skipWs (p.currentLine.drop p.offset) p.offset p.column).1,
        k + (skipWs (p.currentLine.drop p.offset) p.offset p.column).2.1,
        (skipWs (p.currentLine.drop p.offset) p.offset p.column).2.2) := by rw [hd, ho, hc, hs]
  refine ⟨⟨h.line, h.off, h.col, h.pct, h.tab⟩, ?_, ?_, ?_, ?_, ?_⟩
  · exact congrArg (·.1) e
  · exact congrArg (·.2.1) e
  · show (skipWs _ _ _).2.1 - q.column = (skipWs _ _ _).2.1 - p.column
    rw [e, hc]; simp only; omega
  · show decide ((skipWs _ _ _).2.1 - q.column ≥ 4) = decide ((skipWs _ _ _).2.1 - p.column ≥ 4)
    rw [e, hc]; simp only; congr 1; apply propext; omega
  · show (match (skipWs (q.currentLine.drop q.offset) q.offset q.column).2.2 with | none => true | some c => c == '\n' || c == '\r') = _
    rw [e]; rfl

theorem advN_rel {k : Nat} {p q : PState} (h : CuN k p.curs q.curs) :
    CuN k (advanceNextNonspace p).curs (advanceNextNonspace q).curs :=
  ⟨⟨h.line, h.nn, h.nnc, rfl, h.tab.imp_right fun h => ⟨h.1, rfl⟩⟩, h.nn, h.nnc, h.ind, h.indd, h.blank⟩

theorem advanceLoop_shift {k : Nat} {l l' : Str} (hl : ∀ i, l'[k + i]? = l[i]?) (ht : k % 4 = 0 ∨ '\t' ∉ l) (cols : Bool) :
    ∀ (fuel n off col : Nat) (b : Bool), advanceLoop l' cols fuel n (k + off) (k + col) b =
      (k + (advanceLoop l cols fuel n off col b).1, k + (advanceLoop l cols fuel n off col b).2.1, (advanceLoop l cols fuel n off col b).2.2) := by
  intro fuel
  induction fuel with
  | zero => intro n off col b; simp [advanceLoop]
  | succ fuel ih =>
    intro n off col b
    simp only [advanceLoop]
    by_cases hn : (n == 0) = true
    · rw [if_pos hn, if_pos hn]
    · rw [if_neg hn, if_neg hn, hl]
      cases hc : l[off]? with
      | none => simp
      | some c =>
        simp only
        by_cases hx : (c == '\t') = true
        · rw [if_pos hx, if_pos hx]
          have hk : k % 4 = 0 := by
            rcases ht with h | h
            · exact h
            · have : c ∈ l := List.mem_of_getElem? hc
              rw [show c = '\t' by simpa using hx] at this
              exact absurd this h
          rw [show (k + col) % 4 = col % 4 by omega]
          cases cols with
          | true =>
            simp only [if_true]
            rw [Nat.add_assoc k col, Nat.add_assoc k off]
            split
            · exact ih _ _ _ _
            · exact ih _ _ _ _
          | false =>
            simp only [Bool.false_eq_true, if_false]
            rw [Nat.add_assoc k col, Nat.add_assoc k off]
            exact ih _ _ _ _
        · rw [if_neg hx, if_neg hx]
          exact ih (n - 1) (off + 1) (col + 1) _

theorem advanceLoop_pct {l : Str} (ht : '\t' ∉ l) (cols : Bool) : ∀ (fuel n off col : Nat), (advanceLoop l cols fuel n off col false).2.2 = false := by
  intro fuel
  induction fuel with
  | zero => intro n off col; simp [advanceLoop]
  | succ fuel ih =>
    intro n off col
    simp only [advanceLoop]
    by_cases hn : (n == 0) = true
    · rw [if_pos hn]
    · rw [if_neg hn]
      cases hc : l[off]? with
      | none => simp
      | some c =>
        have : (c == '\t') = false := by
          have : c ∈ l := List.mem_of_getElem? hc
          simp only [beq_eq_false_iff_ne, ne_eq]
          rintro rfl
          exact ht this
        simp only [this, Bool.false_eq_true, if_false]
        exact ih (n - 1) (off + 1) (col + 1)

theorem adv_cu {k : Nat} {p q : PState} (h : Cu k p.curs q.curs) (n : Nat) (b : Bool) :
    Cu k (advanceOffset n b p).curs (advanceOffset n b q).curs := by
  have h1 := advanceLoop_shift (l := p.currentLine) (l' := q.currentLine) (k := k) h.get (h.tab.imp_right And.left) b n n p.offset p.column
    p.partiallyConsumedTab
  have ho : q.offset = k + p.offset := h.off
  have hc : q.column = k + p.column := h.col
  have hp : q.partiallyConsumedTab = p.partiallyConsumedTab := h.pct
  rw [← ho, ← hc] at h1
  have e : (advanceOffset n b q).curs = ⟨q.currentLine, k + (advanceLoop p.currentLine b n n p.offset p.column p.partiallyConsumedTab).1,
      k + (advanceLoop p.currentLine b n n p.offset p.column p.partiallyConsumedTab).2.1, q.nextNonspace, q.nextNonspaceColumn, q.indent,
      q.indented, q.blank, (advanceLoop p.currentLine b n n p.offset p.column p.partiallyConsumedTab).2.2⟩ := by
    simp only [advanceOffset, PState.curs, hp, h1]
  rw [e]
  refine ⟨h.line, rfl, rfl, rfl, ?_⟩
  rcases h.tab with h | ⟨h1, h2⟩
  · exact .inl h
  · refine .inr ⟨h1, ?_⟩
    show (advanceLoop p.currentLine b n n p.offset p.column p.partiallyConsumedTab).2.2 = false
    rw [show p.partiallyConsumedTab = false from h2]
    exact advanceLoop_pct h1 b n n p.offset p.column

theorem adv_rel {k : Nat} {p q : PState} (h : CuN k p.curs q.curs) (n : Nat) (b : Bool) :
    CuN k (advanceOffset n b p).curs (advanceOffset n b q).curs :=
  ⟨adv_cu h.toCu n b, h.nn, h.nnc, h.ind, h.indd, h.blank⟩

theorem end_rel {k : Nat} {p q : PState} (h : CuN k p.curs q.curs) :
    CuN k (advanceToEnd p).curs (advanceToEnd q).curs := by
  have h1 : q.currentLine.length = k + p.currentLine.length := h.len
  have h2 : q.offset = k + p.offset := h.off
  unfold advanceToEnd
  rw [show q.currentLine.length - q.offset = p.currentLine.length - p.offset by omega]
  exact adv_rel h _ _

theorem peek_rel {k : Nat} {p q : PState} (h : Cu k p.curs q.curs) :
    peekAt q.currentLine q.offset = peekAt p.currentLine p.offset := by
  have h2 : q.offset = k + p.offset := h.off
  rw [h2]; exact h.get _

theorem peekN_rel {k : Nat} {p q : PState} (h : CuN k p.curs q.curs) :
    peekAt q.currentLine q.nextNonspace = peekAt p.currentLine p.nextNonspace := by
  have h2 : q.nextNonspace = k + p.nextNonspace := h.nn
  rw [h2]; exact h.get _

theorem fence_rel {k : Nat} (n : Nat) : ∀ {p q : PState}, CuN k p.curs q.curs →
    CuN k (skipFenceOffset n p).curs (skipFenceOffset n q).curs := by
  induction n with
  | zero => intro p q h; exact h
  | succ n ih =>
    intro p q h
    simp only [skipFenceOffset, peek_rel h.toCu]
    by_cases hc : isSpTabOpt (peekAt p.currentLine p.offset) = true
    · rw [if_pos hc, if_pos hc]; exact ih (adv_rel h _ _)
    · rw [if_neg hc, if_neg hc]; exact h

theorem eat_rel {k : Nat} {p q : PState} (h : CuN k p.curs q.curs) :
    CuN k (eatQuoteMarker p).curs (eatQuoteMarker q).curs := by
  have h1 := adv_rel (advN_rel h) 1 false
  simp only [eatQuoteMarker, peek_rel h1.toCu]
  by_cases hc : isSpTabOpt (peekAt (advanceOffset 1 false (advanceNextNonspace p)).currentLine
      (advanceOffset 1 false (advanceNextNonspace p)).offset) = true
  · rw [if_pos hc, if_pos hc]; exact adv_rel h1 _ _
  · rw [if_neg hc, if_neg hc]; exact h1

theorem dropN_rel {k : Nat} {p q : PState} (h : CuN k p.curs q.curs) :
    q.currentLine.drop q.nextNonspace = p.currentLine.drop p.nextNonspace := by
  have h2 : q.nextNonspace = k + p.nextNonspace := h.nn
  rw [h2]; exact h.drop _

theorem drop_rel {k : Nat} {p q : PState} (h : Cu k p.curs q.curs) :
    q.currentLine.drop q.offset = p.currentLine.drop p.offset := by
  have h2 : q.offset = k + p.offset := h.off
  rw [h2]; exact h.drop _

theorem closingFence_rel {k : Nat} {p q : PState} {d d' : NodeData} (hd : er φ d = er ψ d') (h : CuN k p.curs q.curs) :
    isClosingFence d' q = isClosingFence d p := by
  have h1 : q.indent = p.indent := h.ind
  have h2 : q.nextNonspace = k + p.nextNonspace := h.nn
  have h3 : q.currentLine.length = k + p.currentLine.length := h.len
  have h4 : q.currentLine[q.nextNonspace]? = p.currentLine[p.nextNonspace]? := peekN_rel h
  have h5 : d.fenceChar = d'.fenceChar := (congrArg NodeData.fenceChar hd :)
  have h6 : d.fenceLength = d'.fenceLength := (congrArg NodeData.fenceLength hd :)
  unfold isClosingFence
  rw [h1, h4, dropN_rel h, ← h5, ← h6]
  have : decide (q.currentLine.length ≥ q.nextNonspace + 1) = decide (p.currentLine.length ≥ p.nextNonspace + 1) := by
    congr 1; apply propext; omega
  rw [this]

theorem continue_rel {k : Nat} {p q : PState} {d d' : NodeData} (hd : er φ d = er ψ d') (b : Bool)
    (h : CuN k p.curs q.curs) : (continueBlock d' b q).1 = (continueBlock d b p).1 ∧
      CuN k (continueBlock d b p).2.curs (continueBlock d' b q).2.curs := by
  have hi : q.indent = p.indent := h.ind
  have hdd : q.indented = p.indented := h.indd
  have hbl : q.blank = p.blank := h.blank
  have ht : d.t = d'.t := (congrArg NodeData.t hd :)
  have h1 : d.listData = d'.listData := (congrArg NodeData.listData hd :)
  have h2 : d.isFenced = d'.isFenced := (congrArg NodeData.isFenced hd :)
  have h3 : d.fenceOffset = d'.fenceOffset := (congrArg NodeData.fenceOffset hd :)
  have h4 : d.htmlBlockType = d'.htmlBlockType := (congrArg NodeData.htmlBlockType hd :)
  unfold continueBlock
  rw [closingFence_rel hd h, ← ht, ← h1, ← h2, ← h3, ← h4, hi, hdd, hbl, peekN_rel h]
  cases d.t <;> simp only [] <;> (repeat' split) <;> (refine ⟨by first | rfl | trivial, ?_⟩) <;>
    first | exact h | exact eat_rel h | exact advN_rel h | exact adv_rel h _ _ | exact fence_rel _ h

/-! ### The open blocks -/

/-- Two runs are compared after the source positions are changed by `φ` and `ψ`.  The second run has `N` lines more; where the first one has the
document it has the container `β`, in the blocks `o`, in which the blocks `A` come before those of the first run. -/
structure Sim where
  β : NodeData
  o : List OpenBlk
  A : List Tree
  N : Nat
  φ : Pos → Pos
  ψ : Pos → Pos
  /-- The blank-line flags of the document and of the containers. -/
  flag : Bool → Bool → Prop
  /-- The document of the first run has a block whenever an empty line reaches it. -/
  kid : Prop
  /-- The runs agree after this line. -/
  K : Nat := 0
  /-- The definitions that the second run has, by those of the first one. -/
  ref : RefMap → RefMap := id

/-- The containers that behave like a document. -/
def DocLike (k : Kind) : Prop := k = .document ∨ k = .blockQuote ∨ k = .item

structure Sim.Ok (X : Sim) : Prop where
  doc : DocLike X.β.t
  new : ∀ l c c', X.K < l → X.φ ((l, c), (0, 0)) = X.ψ ((l + X.N, c'), (0, 0))
  close : ∀ x y l c c', X.K ≤ l → X.φ x = X.ψ y → X.φ (x.1, (l, c)) = X.ψ (y.1, (l + X.N, c'))
  start : ∀ x y l, X.K < l → X.φ x = X.ψ y → (x.1.1 = l ↔ y.1.1 = l + X.N)
  mark : X.kid ∨ markLastChild X.A = X.A
  flag : ∀ f f', (f = false → f' = false) → (X.β.t = .document ∨ (X.β.t = .item ∧ X.kid) → f' = f) → X.flag f f'
  ref : RefKeeps X.ref

/-- An open block with other source positions. -/
def erase (φ : Pos → Pos) (b : OpenBlk) : NodeData × List Tree := (er φ b.data, erL φ b.children)

/-- A block without its blank-line flag. -/
def unflag (b : OpenBlk) : OpenBlk := { b with data := { b.data with lastLineBlank := false } }

/-- The open blocks. -/
inductive SpineRel (X : Sim) : List OpenBlk → List OpenBlk → Prop
  | base {b b' : OpenBlk} {O : List OpenBlk} {cs : List Tree} : b.data.t = .document → erL X.φ b.children = erL X.ψ cs →
      b'.children = X.A ++ cs → { b'.data with lastLineBlank := false } = X.β → O.map unflag = X.o →
      (∀ x ∈ b' :: O, X.flag b.data.lastLineBlank x.data.lastLineBlank) → SpineRel X [b] (b' :: O)
  | cons {a a' : OpenBlk} {r r' : List OpenBlk} : erase X.φ a = erase X.ψ a' → SpineRel X r r' → SpineRel X (a :: r) (a' :: r')

theorem SpineRel.length {X : Sim} {l l' : List OpenBlk} (h : SpineRel X l l') : l'.length = l.length + X.o.length := by
  induction h with
  | base _ _ _ _ h _ => rw [← h]; simp; omega
  | cons _ _ ih => simp [ih]; omega

theorem SpineRel.pos {X : Sim} {l l' : List OpenBlk} (h : SpineRel X l l') : 1 ≤ l.length := by
  cases h <;> simp

/-- Related states, but for the cursor. -/
structure Sp (X : Sim) (p q : PState) : Prop where
  spine : SpineRel X p.spine q.spine
  refmap : q.refmap = X.ref p.refmap
  line : q.lineNumber = p.lineNumber + X.N
  oldtip : p.allClosed = false → q.oldtip = p.oldtip + X.o.length
  lastMatched : p.allClosed = false → q.lastMatched = p.lastMatched + X.o.length
  allClosed : q.allClosed = p.allClosed
  low : X.K ≤ p.lineNumber

/-- Related states, with related cursors. -/
structure RelC (C : CursorAt → CursorAt → Prop) (X : Sim) (p q : PState) : Prop extends Sp X p q where
  cur : C p.curs q.curs
  pos : X.K < p.lineNumber

/-- Related states. -/
abbrev Rel (k : Nat) := RelC (CuN k)

/-- The current container of the two runs. -/
def CRel (X : Sim) (c c' : NodeData) : Prop := er X.φ c = er X.ψ c' ∨ (c.t = .document ∧ DocLike c'.t)

/-- The unmatched blocks can be closed, which makes a block of the kind of `c` the tip. -/
structure ReadyFor (c : NodeData) (p : PState) : Prop where
  tip : ((p.ds.drop (if p.allClosed then 0 else p.oldtip - p.lastMatched)).head?.map (·.t)) = some c.t
  left : p.allClosed = false → p.spine.length = p.oldtip ∧ 1 ≤ p.lastMatched ∧ p.lastMatched ≤ p.oldtip

theorem ready_of_closed {p : PState} {b : OpenBlk} {r : List OpenBlk} (h : p.allClosed = true) (hs : p.spine = b :: r) :
    ReadyFor b.data p := by
  refine ⟨?_, fun h' => by rw [h] at h'; cases h'⟩
  rw [if_pos h]
  simp [PState.ds, hs]

variable {k : Nat} {C : CursorAt → CursorAt → Prop} {X : Sim} {p q : PState}

theorem crel_heads {b b' : OpenBlk} {r r' : List OpenBlk} (hX : X.Ok) (h : SpineRel X (b :: r) (b' :: r')) :
    CRel X b.data b'.data := by
  cases h with
  | base h1 _ _ h3 _ _ =>
    refine .inr ⟨h1, ?_⟩
    have := hX.doc
    rw [← h3] at this
    exact this
  | cons h _ => exact .inl (congrArg Prod.fst h)

theorem finalizeTip_inv {l : Nat} {p' : PState} {b par : OpenBlk} {up : List OpenBlk} (hs : p.spine = b :: par :: up)
    (h : finalizeTip l p = .ok p') : ∃ t m, finalizeBlock (closeData l p.lastLineLength b.data) b.children p.refmap = .ok (t, m) ∧
      p' = { p with spine := { par with children := par.children ++ t.toList } :: up, refmap := m } := by
  unfold finalizeTip at h
  rw [hs] at h
  simp only at h
  rw [show ({ b.data with isOpen := false, sourcepos := b.data.sourcepos.map fun sp => (sp.1, (l, p.lastLineLength)) } : NodeData) =
    closeData l p.lastLineLength b.data from rfl] at h
  cases hf : finalizeBlock (closeData l p.lastLineLength b.data) b.children p.refmap with
  | error e => rw [hf] at h; cases h
  | ok r =>
    obtain ⟨t, m⟩ := r
    rw [hf] at h
    cases h
    exact ⟨t, m, rfl, rfl⟩

theorem finalizeTip_run {l : Nat} {b par : OpenBlk} {up : List OpenBlk} {t : Option Tree} {m : RefMap} (hs : p.spine = b :: par :: up)
    (hf : finalizeBlock (closeData l p.lastLineLength b.data) b.children p.refmap = .ok (t, m)) :
    finalizeTip l p = .ok { p with spine := { par with children := par.children ++ t.toList } :: up, refmap := m } := by
  unfold finalizeTip
  rw [hs]
  simp only
  rw [show ({ b.data with isOpen := false, sourcepos := b.data.sourcepos.map fun sp => (sp.1, (l, p.lastLineLength)) } : NodeData) =
    closeData l p.lastLineLength b.data from rfl, hf]
  rfl

theorem closeData_noCols (hX : X.Ok) {d d' : NodeData} (l n n' : Nat) (hl : X.K ≤ l) (h : er X.φ d = er X.ψ d') :
    er X.φ (closeData l n d) = er X.ψ (closeData (l + X.N) n' d') := by
  have hs : d.sourcepos.map X.φ = d'.sourcepos.map X.ψ := congrArg NodeData.sourcepos h
  have h1 : er X.φ (closeData l n d) = { er X.φ d with isOpen := false, sourcepos := d.sourcepos.map fun sp => X.φ (sp.1, (l, n)) } := by
    simp [er, closeData, Function.comp_def]
  have h2 : er X.ψ (closeData (l + X.N) n' d') =
      { er X.ψ d' with isOpen := false, sourcepos := d'.sourcepos.map fun sp => X.ψ (sp.1, (l + X.N, n')) } := by
    simp [er, closeData, Function.comp_def]
  have e : (d.sourcepos.map fun sp => X.φ (sp.1, (l, n))) = d'.sourcepos.map fun sp => X.ψ (sp.1, (l + X.N, n')) := by
    generalize d.sourcepos = x at hs
    generalize d'.sourcepos = y at hs
    cases x <;> cases y <;> simp_all
    exact hX.close _ _ _ _ _ hl hs
  rw [h1, h2, h, e]

theorem noCols_toList {t t' : Option Tree} (h : t.map (erT φ) = t'.map (erT ψ)) : erL φ t.toList = erL ψ t'.toList := by
  cases t <;> cases t' <;> simp_all [erL]

theorem SpineRel.append {X : Sim} {b b' : OpenBlk} {r r' : List OpenBlk} {t t' : Option Tree}
    (h : SpineRel X (b :: r) (b' :: r')) (ht : t.map (erT X.φ) = t'.map (erT X.ψ)) :
    SpineRel X ({ b with children := b.children ++ t.toList } :: r) ({ b' with children := b'.children ++ t'.toList } :: r') := by
  have ht := noCols_toList ht
  cases h with
  | @base _ _ _ cs h1 h2 hA h3 h4 h5 =>
    refine .base (cs := cs ++ t'.toList) h1 (by simp only [noColsL_append, h2, ht]) (by simp only [hA, List.append_assoc]) h3 h4 ?_
    intro x hx
    rcases List.mem_cons.1 hx with rfl | hx
    · exact h5 b' (by simp)
    · exact h5 x (by simp [hx])
  | cons h hr =>
    simp only [erase, Prod.mk.injEq] at h
    exact .cons (by simp only [erase, noColsL_append, h, ht]) hr

/-- Closing the tip, which is not the outermost block of the first run. -/
theorem finalizeTip_sp (hX : X.Ok) (l : Nat) {l' : Nat} (hl : l' = l + X.N) (hK : X.K ≤ l) (h : Sp X p q) (h2 : 2 ≤ p.spine.length) :
    ERel (fun p' q' => Sp X p' q' ∧ p'.curs = p.curs ∧ q'.curs = q.curs ∧ p'.books = p.books ∧ p'.ds = p.ds.tail ∧
      p'.spine.length + 1 = p.spine.length ∧ p'.lineNumber = p.lineNumber) (finalizeTip l p) (finalizeTip l' q) := by
  subst hl
  intro p' hp
  have hsp := h.spine
  generalize hs : p.spine = sp at hsp h2
  generalize hs' : q.spine = sq at hsp
  cases hsp with
  | base _ _ _ _ _ _ => simp at h2
  | @cons b b' r r' he hr =>
    obtain ⟨par, up, rfl⟩ : ∃ par up, r = par :: up := by cases hr <;> exact ⟨_, _, rfl⟩
    obtain ⟨par', up', rfl⟩ : ∃ par up, r' = par :: up := by cases hr <;> exact ⟨_, _, rfl⟩
    obtain ⟨t, m, hf, rfl⟩ := finalizeTip_inv hs hp
    simp only [erase, Prod.mk.injEq] at he
    obtain ⟨⟨t', m'⟩, hf', ht, hm⟩ := finalizeBlock_rel hX.ref p.refmap
      (closeData_noCols hX l p.lastLineLength q.lastLineLength hK he.1) he.2 _ hf
    rw [← h.refmap] at hf'
    refine ⟨_, finalizeTip_run hs' hf', ⟨hr.append ht, hm, h.line, h.oldtip, h.lastMatched, h.allClosed, h.low⟩, rfl, rfl, rfl, ?_, ?_, rfl⟩
    · simp [PState.ds, hs]
    · simp

theorem close_ready {c : NodeData} {p' : PState} (hr : ReadyFor c p) (hb : p'.books = p.books) (hd : p'.ds = p.ds.tail)
    (hlt : p.lastMatched < p.oldtip) (ha : p.allClosed = false) (hn : p.spine.length = p.oldtip) :
    ReadyFor c { p' with oldtip := p'.oldtip - 1 } := by
  simp only [PState.books, Books.mk.injEq] at hb
  obtain ⟨h1, h2, h3, _⟩ := hb
  have ht := hr.tip
  rw [ha] at ht
  simp only [Bool.false_eq_true, if_false] at ht
  have hl : p'.spine.length = p.spine.length - 1 := by
    have := congrArg List.length hd
    simpa [PState.ds] using this
  refine ⟨?_, fun _ => ?_⟩
  · show ((p'.ds.drop (if p'.allClosed then 0 else p'.oldtip - 1 - p'.lastMatched)).head?.map (·.t)) = _
    rw [h1, h2, h3, ha, hd, ← ht]
    simp only [Bool.false_eq_true, if_false]
    rw [show p.oldtip - p.lastMatched = (p.oldtip - 1 - p.lastMatched) + 1 by omega, List.drop_tail]
  · show p'.spine.length = p'.oldtip - 1 ∧ 1 ≤ p'.lastMatched ∧ p'.lastMatched ≤ p'.oldtip - 1
    have := (hr.left ha).2
    omega

theorem closeLoop_rel (hX : X.Ok) {c : NodeData} : ∀ (n m : Nat) {p q : PState}, n ≤ m → RelC C X p q → ReadyFor c p → p.allClosed = false →
    ERel (fun p' q' => RelC C X p' q' ∧ tipKind p' = some c.t) (closeLoop n p) (closeLoop m q) := by
  intro n
  induction n with
  | zero => intro m p q _ _ _ _; exact ERel.error
  | succ n ih =>
    intro m p q hm h hr ha
    obtain ⟨m, rfl⟩ : ∃ m', m = m' + 1 := ⟨m - 1, by omega⟩
    obtain ⟨hl, h1, h2⟩ := hr.left ha
    simp only [closeLoop]
    by_cases he : p.oldtip = p.lastMatched
    · have he' : q.oldtip = q.lastMatched := by rw [h.oldtip ha, h.lastMatched ha, he]
      rw [if_pos (by simpa using he), if_pos (by simpa using he')]
      refine .ok ⟨h, ?_⟩
      have ht := hr.tip
      rw [ha, he] at ht
      simp only [Bool.false_eq_true, if_false, Nat.sub_self, List.drop_zero, PState.ds] at ht
      rw [← ht]
      unfold tipKind
      cases p.spine <;> simp
    · have he' : q.oldtip ≠ q.lastMatched := by rw [h.oldtip ha, h.lastMatched ha]; omega
      rw [if_neg (by simpa using he), if_neg (by simpa using he')]
      have hln := h.line
      have hpos := h.pos
      refine ERel.bind (finalizeTip_sp hX (p.lineNumber - 1) (by omega) (by omega) h.toSp (by omega)) ?_
      rintro p' q' ⟨g1, g2, g3, g4, g5, g6, g7⟩
      have gb := g4
      simp only [PState.books, Books.mk.injEq] at gb
      refine ih m (by omega) ⟨⟨g1.spine, g1.refmap, g1.line, ?_, g1.lastMatched, g1.allClosed, g1.low⟩, ?_, by rw [g7]; exact hpos⟩
        (close_ready hr g4 g5 (by omega) ha hl) (by rw [← ha]; exact gb.1)
      · intro _
        show q'.oldtip - 1 = p'.oldtip - 1 + X.o.length
        have := g1.oldtip (gb.1.trans ha)
        have e : p'.oldtip = p.oldtip := gb.2.1
        omega
      · show C p'.curs q'.curs
        rw [g2, g3]; exact h.cur

theorem close_rel (hX : X.Ok) {c : NodeData} (h : RelC C X p q) (hr : ReadyFor c p) :
    ERel (fun p' q' => RelC C X p' q' ∧ p'.allClosed = true ∧ tipKind p' = some c.t) (closeUnmatched p) (closeUnmatched q) := by
  unfold closeUnmatched
  rw [h.allClosed]
  cases ha : p.allClosed with
  | true =>
    refine .ok ⟨h, ha, ?_⟩
    have ht := hr.tip
    rw [ha] at ht
    simp only [if_true, List.drop_zero, PState.ds] at ht
    rw [← ht]
    unfold tipKind
    cases p.spine <;> simp
  | false =>
    simp only [Bool.false_eq_true, if_false]
    refine ERel.bind (closeLoop_rel hX (p.oldtip + 1) (q.oldtip + 1) (by have := h.oldtip ha; omega) h hr ha) ?_
    rintro p' q' ⟨g, gt⟩
    exact .ok ⟨⟨⟨g.spine, g.refmap, g.line, fun h => (by cases h), fun h => (by cases h), rfl, g.low⟩, g.cur, g.pos⟩, rfl, gt⟩

theorem addChildLoop_rel {tag : Kind} (hX : X.Ok) : ∀ (n m : Nat) {p q : PState}, n ≤ m → RelC C X p q →
    (tag ≠ .item ∨ tipKind p = some .list) → p.allClosed = true →
    ERel (fun p' q' => RelC C X p' q' ∧ p'.allClosed = true) (addChildLoop tag n p) (addChildLoop tag m q) := by
  intro n
  induction n with
  | zero => intro m p q _ _ _ _; exact ERel.error
  | succ n ih =>
    intro m p q hm h hr ha
    obtain ⟨m, rfl⟩ : ∃ m', m = m' + 1 := ⟨m - 1, by omega⟩
    have hsp := h.spine
    simp only [addChildLoop]
    match hs : p.spine, hs' : q.spine, hsp with
    | _, _, .base (b := b) (b' := b') h1 h2 hA h3 h4 h5 =>
      have ht : tag ≠ .item := by
        rcases hr with hr | hr
        · exact hr
        · rw [tipKind, hs] at hr
          simp [h1] at hr
      have e1 : canContain b.data.t tag = true := wide_canContain (.inl h1) ht
      have e2 : canContain b'.data.t tag = true := by
        have hd := hX.doc
        rw [← h3] at hd
        exact wide_canContain hd ht
      simp only [e1, e2, if_true]
      exact .ok ⟨h, ha⟩
    | _, _, .cons (a := b) (a' := b') (r := r) (r' := r') he hr' =>
      simp only [erase, Prod.mk.injEq] at he
      have et : b.data.t = b'.data.t := (congrArg NodeData.t he.1 :)
      simp only [et]
      by_cases hc : canContain b'.data.t tag = true
      · rw [if_pos hc, if_pos hc]; exact .ok ⟨h, ha⟩
      · rw [if_neg hc, if_neg hc]
        have ht : tag ≠ .item := by
          rcases hr with hr | hr
          · exact hr
          · rw [tipKind, hs] at hr
            simp at hr
            rintro rfl
            rw [← et, hr] at hc
            exact hc rfl
        refine ERel.bind (finalizeTip_sp hX (p.lineNumber - 1) (by have := h.line; have := h.pos; omega) (by have := h.pos; omega) h.toSp (by rw [hs]; have := hr'.pos; simp; omega)) ?_
        rintro p' q' ⟨g1, g2, g3, g4, g5, g6, g7⟩
        simp only [PState.books, Books.mk.injEq] at g4
        exact ih m (by omega) ⟨g1, by rw [g2, g3]; exact h.cur, by rw [g7]; exact h.pos⟩ (.inl ht) (g4.1.trans ha)

/-- A new block. -/
theorem addChild_rel {tag : Kind} {off off' : Nat} {f g : NodeData → NodeData} (hX : X.Ok) (h : RelC C X p q)
    (hr : tag ≠ .item ∨ tipKind p = some .list) (ha : p.allClosed = true)
    (hf : ∀ d d', er X.φ d = er X.ψ d' → er X.φ (f d) = er X.ψ (g d')) (hk : ∀ d, (f d).t = d.t) :
    ERel (fun p' q' => RelC C X p' q' ∧ p'.allClosed = true ∧ tipKind p' = some tag)
      (addChild tag off f p) (addChild tag off' g q) := by
  unfold addChild
  refine ERel.bind (addChildLoop_rel hX _ _ (by have := h.spine.length; omega) h hr ha) ?_
  rintro p' q' ⟨g, ga⟩
  refine .ok ⟨⟨⟨?_, g.refmap, g.line, g.oldtip, g.lastMatched, g.allClosed, g.low⟩, g.cur, g.pos⟩, ga, ?_⟩
  · refine .cons ?_ g.spine
    simp only [erase, erL, Prod.mk.injEq, and_true]
    refine hf _ _ ?_
    rw [g.line]
    simp only [er, Option.map_some]
    rw [hX.new p'.lineNumber (off + 1) (off' + 1) g.pos]
  · simp [tipKind, hk]

/-! ### Block starts -/

theorem Sp.congr {p' q' : PState} (h : Sp X p q) (h1 : p'.core = p.core) (h2 : p'.books = p.books) (h3 : q'.core = q.core)
    (h4 : q'.books = q.books) : Sp X p' q' := by
  simp only [PState.core, PState.books, Core.mk.injEq, Books.mk.injEq] at h1 h2 h3 h4
  refine ⟨?_, ?_, ?_, ?_, ?_, ?_, by rw [h1.2.2.1]; exact h.low⟩
  · rw [h1.1, h3.1]; exact h.spine
  · rw [h1.2.1, h3.2.1]; exact h.refmap
  · rw [h1.2.2.1, h3.2.2.1]; exact h.line
  · rw [h2.1, h2.2.1, h4.2.1]; exact h.oldtip
  · rw [h2.1, h2.2.2.1, h4.2.2.1]; exact h.lastMatched
  · rw [h2.1, h4.1]; exact h.allClosed

theorem ReadyFor.congr {c : NodeData} {p' : PState} (h : ReadyFor c p) (h1 : p'.core = p.core) (h2 : p'.books = p.books) : ReadyFor c p' := by
  simp only [PState.core, PState.books, Core.mk.injEq, Books.mk.injEq] at h1 h2
  refine ⟨?_, ?_⟩
  · rw [PState.ds, h1.1, h2.1, h2.2.1, h2.2.2.1]; exact h.tip
  · rw [h1.1, h2.1, h2.2.1, h2.2.2.1]; exact h.left

theorem RelC.adv (h : Rel k X p q) (n : Nat) (b : Bool) : Rel k X (advanceOffset n b p) (advanceOffset n b q) :=
  ⟨h.toSp.congr (core_adv _ _ _) (books_adv _ _ _) (core_adv _ _ _) (books_adv _ _ _), adv_rel h.cur n b, h.pos⟩

theorem RelC.advN (h : Rel k X p q) : Rel k X (advanceNextNonspace p) (advanceNextNonspace q) :=
  ⟨h.toSp.congr (core_advN _) (books_advN _) (core_advN _) (books_advN _), advN_rel h.cur, h.pos⟩

theorem RelC.eat (h : Rel k X p q) : Rel k X (eatQuoteMarker p) (eatQuoteMarker q) :=
  ⟨h.toSp.congr (core_eat _) (books_eat _) (core_eat _) (books_eat _), eat_rel h.cur, by rw [show (eatQuoteMarker p).lineNumber = p.lineNumber from congrArg Core.line (core_eat p)]; exact h.pos⟩

theorem RelC.toEnd (h : Rel k X p q) : Rel k X (advanceToEnd p) (advanceToEnd q) :=
  ⟨h.toSp.congr (core_end _) (books_end _) (core_end _) (books_end _), end_rel h.cur, h.pos⟩

/-- The result of a block start. -/
structure StartRel (k : Nat) (X : Sim) (c : NodeData) (a b : Start × PState) : Prop where
  start : b.1 = a.1
  rel : Rel k X a.2 b.2
  none : a.1 = .none → ReadyFor c a.2
  some : a.1 ≠ .none → a.2.allClosed = true

variable {c c' : NodeData}

theorem startRel_none (h : Rel k X p q) (hr : ReadyFor c p) : StartRel k X c (.none, p) (.none, q) :=
  ⟨rfl, h, fun _ => hr, fun h => absurd rfl h⟩

theorem startRel_some {r : Start} (h : Rel k X p q) (hr : p.allClosed = true) (hn : r ≠ .none) : StartRel k X c (r, p) (r, q) :=
  ⟨rfl, h, fun h => absurd h hn, fun _ => hr⟩

theorem startBlockQuote_rel (hX : X.Ok) (h : Rel k X p q) (hr : ReadyFor c p) :
    ERel (StartRel k X c) (startBlockQuote p) (startBlockQuote q) := by
  unfold startBlockQuote
  rw [show q.indented = p.indented from h.cur.indd, peekN_rel h.cur]
  by_cases hc : (!p.indented && peekAt p.currentLine p.nextNonspace == some '>') = true
  · rw [if_pos hc, if_pos hc]
    refine ERel.bind (close_rel hX h.eat (hr.congr (core_eat _) (books_eat _))) ?_
    rintro p1 q1 ⟨g1, g2, g3⟩
    refine ERel.bind (addChild_rel hX g1 (.inl (by simp)) g2 (fun d d' e => e) fun _ => rfl) ?_
    rintro p2 q2 ⟨g1, g2, g3⟩
    exact .ok (startRel_some g1 g2 (by simp))
  · rw [if_neg hc, if_neg hc]
    exact .ok (startRel_none h hr)

theorem noCols_congr {d d' : NodeData} {f : NodeData → NodeData} (hf : ∀ φ d, er φ (f d) = f (er φ d)) (h : er φ d = er ψ d') :
    er φ (f d) = er ψ (f d') := by rw [hf, hf, h]

theorem startAtx_rel (hX : X.Ok) (h : Rel k X p q) (hr : ReadyFor c p) :
    ERel (StartRel k X c) (startAtx p) (startAtx q) := by
  unfold startAtx
  rw [show q.indented = p.indented from h.cur.indd, dropN_rel h.cur]
  by_cases hc : p.indented = true
  · rw [if_pos hc, if_pos hc]; exact .ok (startRel_none h hr)
  · rw [if_neg hc, if_neg hc]
    cases reATXHeadingMarker.matchPrefix (p.currentLine.drop p.nextNonspace) with
    | none => exact .ok (startRel_none h hr)
    | some m =>
      refine ERel.bind (close_rel hX (h.advN.adv _ _) ((hr.congr (core_advN _) (books_advN _)).congr (core_adv _ _ _) (books_adv _ _ _))) ?_
      rintro p1 q1 ⟨g1, g2, g3⟩
      rw [drop_rel g1.cur.toCu]
      refine ERel.bind (addChild_rel hX g1 (.inl (by simp)) g2 (fun d d' e => noCols_congr (f := fun d => { d with level := some (strip m).length, stringContent := some (atxContent (p1.currentLine.drop p1.offset)) }) (fun _ _ => rfl) e) fun _ => rfl) ?_
      rintro p2 q2 ⟨g1, g2, g3⟩
      exact .ok (startRel_some g1.toEnd g2 (by simp))

theorem startFenced_rel (hX : X.Ok) (h : Rel k X p q) (hr : ReadyFor c p) :
    ERel (StartRel k X c) (startFenced p) (startFenced q) := by
  unfold startFenced
  rw [show q.indented = p.indented from h.cur.indd, dropN_rel h.cur]
  by_cases hc : p.indented = true
  · rw [if_pos hc, if_pos hc]; exact .ok (startRel_none h hr)
  · rw [if_neg hc, if_neg hc]
    cases reCodeFence.matchPrefix (p.currentLine.drop p.nextNonspace) with
    | none => exact .ok (startRel_none h hr)
    | some m =>
      refine ERel.bind (close_rel hX h hr) ?_
      rintro p1 q1 ⟨g1, g2, g3⟩
      rw [show q1.indent = p1.indent from g1.cur.ind]
      refine ERel.bind (addChild_rel hX g1 (.inl (by simp)) g2 (fun d d' e => noCols_congr (f := fun d => { d with isFenced := true, fenceLength := m.length, fenceChar := m.head?, fenceOffset := p1.indent }) (fun _ _ => rfl) e) fun _ => rfl) ?_
      rintro p2 q2 ⟨g1, g2, g3⟩
      exact .ok (startRel_some (g1.advN.adv _ _) g2 (by simp))

theorem CRel.para (hc : CRel X c c') : (c'.t == .paragraph) = (c.t == .paragraph) := by
  rcases hc with h | ⟨h1, h2 | h2 | h2⟩
  · have : c.t = c'.t := (congrArg NodeData.t h :)
    rw [this]
  · rw [h1, h2]
  · rw [h1, h2]; rfl
  · rw [h1, h2]; rfl

theorem CRel.npara (hc : CRel X c c') : (c'.t != .paragraph) = (c.t != .paragraph) := by
  have := hc.para
  simp only [bne, this]

theorem startHtml_rel (hX : X.Ok) (hc : CRel X c c') (h : Rel k X p q) (hr : ReadyFor c p) :
    ERel (StartRel k X c) (startHtml c.t p) (startHtml c'.t q) := by
  have he : ∀ s, htmlBlockType c'.t s = htmlBlockType c.t s := by
    intro s; unfold htmlBlockType; rw [hc.npara]
  unfold startHtml
  rw [show q.indented = p.indented from h.cur.indd, dropN_rel h.cur, peekN_rel h.cur, he]
  by_cases hc : (!p.indented && peekAt p.currentLine p.nextNonspace == some '<') = true
  · rw [if_pos hc, if_pos hc]
    cases htmlBlockType c.t (p.currentLine.drop p.nextNonspace) with
    | none => exact .ok (startRel_none h hr)
    | some i =>
      refine ERel.bind (close_rel hX h hr) ?_
      rintro p1 q1 ⟨g1, g2, g3⟩
      refine ERel.bind (addChild_rel hX g1 (.inl (by simp)) g2 (fun d d' e => noCols_congr (f := fun d => { d with htmlBlockType := i }) (fun _ _ => rfl) e) fun _ => rfl) ?_
      rintro p2 q2 ⟨g1, g2, g3⟩
      exact .ok (startRel_some g1 g2 (by simp))
  · rw [if_neg hc, if_neg hc]
    exact .ok (startRel_none h hr)

theorem startThematic_rel (hX : X.Ok) (h : Rel k X p q) (hr : ReadyFor c p) :
    ERel (StartRel k X c) (startThematic p) (startThematic q) := by
  unfold startThematic
  rw [show q.indented = p.indented from h.cur.indd, dropN_rel h.cur]
  by_cases hc : (!p.indented && (reThematicBreak.matchPrefix (p.currentLine.drop p.nextNonspace)).isSome) = true
  · rw [if_pos hc, if_pos hc]
    refine ERel.bind (close_rel hX h hr) ?_
    rintro p1 q1 ⟨g1, g2, g3⟩
    refine ERel.bind (addChild_rel hX g1 (.inl (by simp)) g2 (fun d d' e => e) fun _ => rfl) ?_
    rintro p2 q2 ⟨g1, g2, g3⟩
    exact .ok (startRel_some g1.toEnd g2 (by simp))
  · rw [if_neg hc, if_neg hc]
    exact .ok (startRel_none h hr)

theorem tipKind_rel (hX : X.Ok) (h : SpineRel X p.spine q.spine) {t : Kind} (ht : t ≠ .document) (hq : ¬ DocLike t) :
    tipKind q = some t ↔ tipKind p = some t := by
  unfold tipKind
  generalize p.spine = sp at h
  generalize q.spine = sq at h
  cases h with
  | base h1 h2 hA h3 h4 _ =>
    have hd := hX.doc
    rw [← h3] at hd
    simp only [List.head?_cons, Option.map_some, Option.some.injEq]
    constructor
    · rintro rfl; exact absurd hd hq
    · rintro rfl; exact absurd h1 ht
  | cons he _ =>
    simp only [erase, Prod.mk.injEq] at he
    have : _ = _ := congrArg NodeData.t he.1
    simp only [List.head?_cons, Option.map_some, Option.some.injEq]
    exact ⟨fun h => Eq.trans this h, fun h => Eq.trans this.symm h⟩

theorem startIndented_rel (hX : X.Ok) (h : Rel k X p q) (hr : ReadyFor c p) :
    ERel (StartRel k X c) (startIndented p) (startIndented q) := by
  unfold startIndented
  have ht : (tipKind q != some .paragraph) = (tipKind p != some .paragraph) := by
    have := tipKind_rel hX h.spine (t := .paragraph) (by simp) (by simp [DocLike])
    by_cases e : tipKind p = some .paragraph
    · rw [e, this.2 e]
    · have e' : tipKind q ≠ some .paragraph := fun h => e (this.1 h)
      have e1 : (tipKind q != some .paragraph) = true := by simpa using e'
      have e2 : (tipKind p != some .paragraph) = true := by simpa using e
      rw [e1, e2]
  rw [show q.indented = p.indented from h.cur.indd, show q.blank = p.blank from h.cur.blank, ht]
  by_cases hc : (p.indented && tipKind p != some .paragraph && !p.blank) = true
  · rw [if_pos hc, if_pos hc]
    refine ERel.bind (close_rel hX (h.adv _ _) (hr.congr (core_adv _ _ _) (books_adv _ _ _))) ?_
    rintro p1 q1 ⟨g1, g2, g3⟩
    refine ERel.bind (addChild_rel hX g1 (.inl (by simp)) g2 (fun d d' e => e) fun _ => rfl) ?_
    rintro p2 q2 ⟨g1, g2, g3⟩
    exact .ok (startRel_some g1 g2 (by simp))
  · rw [if_neg hc, if_neg hc]
    exact .ok (startRel_none h hr)

theorem startSetext_rel (hX : X.Ok) (hc : CRel X c c') (h : Rel k X p q) (hr : ReadyFor c p) :
    ERel (StartRel k X c) (startSetext c.t p) (startSetext c'.t q) := by
  unfold startSetext
  rw [show q.indented = p.indented from h.cur.indd, dropN_rel h.cur, hc.para]
  by_cases hp : (!p.indented && c.t == .paragraph) = true
  · rw [if_pos hp, if_pos hp]
    simp only [Bool.and_eq_true, beq_iff_eq] at hp
    cases reSetextHeadingLine.matchPrefix (p.currentLine.drop p.nextNonspace) with
    | none => exact .ok (startRel_none h hr)
    | some m =>
      refine ERel.bind (close_rel hX h hr) ?_
      rintro p1 q1 ⟨g1, g2, g3⟩
      have gs := g1.spine
      rw [hp.2] at g3
      simp only
      match hs : p1.spine, hs' : q1.spine, gs with
      | _, _, .base (b := b) h1 h2 hA h3 h4 h5 =>
        rw [tipKind, hs] at g3
        simp [h1] at g3
      | _, _, .cons (a := b) (a' := b') (r := r) (r' := r') he hr' =>
        simp only [erase, Prod.mk.injEq] at he
        have e1 : b.data.stringContent = b'.data.stringContent := (congrArg NodeData.stringContent he.1 :)
        simp only [← e1, g1.refmap]
        cases b.data.stringContent with
        | none => exact ERel.error
        | some x =>
          simp only
          refine ERel.bind (R := fun a b => b = (a.1, X.ref a.2.1, a.2.2)) (fun a h => ⟨_, by rw [refLoop_keeps hX.ref, h]; rfl, rfl⟩) ?_
          rintro ⟨x', m', f⟩ _ rfl
          simp only
          by_cases hx : x'.isEmpty = true
          · rw [if_pos hx, if_pos hx]
            refine .ok (startRel_none ⟨⟨?_, rfl, g1.line, g1.oldtip, g1.lastMatched, g1.allClosed, g1.low⟩, g1.cur, g1.pos⟩ ?_)
            · refine .cons ?_ hr'
              simp only [erase, Prod.mk.injEq, he.2, and_true]
              exact noCols_congr (f := fun d => { d with stringContent := some x' }) (fun _ _ => rfl) he.1
            · refine ⟨?_, fun h' => ?_⟩
              · rw [if_pos g2, hp.2]
                simp only [PState.ds, List.map_cons, List.drop_zero, List.head?_cons, Option.map_some]
                rw [tipKind, hs] at g3
                exact g3
              · rw [g2] at h'; cases h'
          · rw [if_neg hx, if_neg hx]
            refine .ok (startRel_some (RelC.toEnd ⟨⟨?_, rfl, g1.line, g1.oldtip, g1.lastMatched, g1.allClosed, g1.low⟩, g1.cur, g1.pos⟩) g2 (by simp))
            refine .cons ?_ hr'
            simp only [erase, Prod.mk.injEq, and_true, erL]
            have e2 : (er X.φ b.data).sourcepos = (er X.ψ b'.data).sourcepos := congrArg NodeData.sourcepos he.1
            simp only [er] at e2 ⊢
            rw [e2]
  · rw [if_neg hp, if_neg hp]
    exact .ok (startRel_none h hr)

theorem markerSpaces_rel (n s : Nat) : ∀ {p q : PState}, CuN k p.curs q.curs →
    ERel (fun p' q' => CuN k p'.curs q'.curs ∧ p'.core = p.core ∧ p'.books = p.books ∧ q'.core = q.core ∧ q'.books = q.books)
      (markerSpaces s n p) (markerSpaces (k + s) n q) := by
  induction n with
  | zero => intro p q _; exact ERel.error
  | succ n ih =>
    intro p q h
    have h1 := adv_rel h 1 true
    simp only [markerSpaces, peek_rel h1.toCu]
    have e : (advanceOffset 1 true q).column = k + (advanceOffset 1 true p).column := h1.col
    rw [show (advanceOffset 1 true q).column - (k + s) = (advanceOffset 1 true p).column - s by omega]
    by_cases hc : (decide ((advanceOffset 1 true p).column - s < 5) &&
        isSpTabOpt (peekAt (advanceOffset 1 true p).currentLine (advanceOffset 1 true p).offset)) = true
    · rw [if_pos hc, if_pos hc]
      refine (ih h1).mono ?_
      rintro p' q' _ ⟨g1, g2, g3, g4, g5⟩
      exact ⟨g1, g2, g3, g4, g5⟩
    · rw [if_neg hc, if_neg hc]
      exact .ok ⟨h1, rfl, rfl, rfl, rfl⟩

theorem listMarker_rel (hc : CRel X c c') (s : Str) : listMarker c'.t s = listMarker c.t s := by
  unfold listMarker
  rw [hc.npara]

theorem parseListMarker_rel (hc : CRel X c c') (h : Rel k X p q) :
    ERel (fun a b => b.1 = a.1 ∧ Rel k X a.2 b.2 ∧ a.2.core = p.core ∧ a.2.books = p.books)
      (parseListMarker c.t p) (parseListMarker c'.t q) := by
  unfold parseListMarker
  rw [show q.indent = p.indent from h.cur.ind, dropN_rel h.cur, listMarker_rel hc, hc.para]
  by_cases h4 : p.indent ≥ 4
  · rw [if_pos h4, if_pos h4]; exact .ok ⟨rfl, h, rfl, rfl⟩
  · rw [if_neg h4, if_neg h4]
    cases listMarker c.t (p.currentLine.drop p.nextNonspace) with
    | none => exact .ok ⟨rfl, h, rfl, rfl⟩
    | some r =>
      obtain ⟨m, ty, bullet, start, delim⟩ := r
      have hn : q.nextNonspace = k + p.nextNonspace := h.cur.nn
      have e1 : peekAt q.currentLine (q.nextNonspace + m.length) = peekAt p.currentLine (p.nextNonspace + m.length) := by
        rw [hn, Nat.add_assoc]; exact h.cur.get _
      have e2 : q.currentLine.drop (q.nextNonspace + m.length) = p.currentLine.drop (p.nextNonspace + m.length) := by
        rw [hn, Nat.add_assoc]; exact h.cur.drop _
      simp only [e1, e2]
      split
      · exact .ok ⟨rfl, h, rfl, rfl⟩
      split
      · exact .ok ⟨rfl, h, rfl, rfl⟩
      have h1 := h.advN.adv m.length true
      have ec : (advanceOffset m.length true (advanceNextNonspace q)).column =
        k + (advanceOffset m.length true (advanceNextNonspace p)).column := h1.cur.col
      have eo : (advanceOffset m.length true (advanceNextNonspace q)).offset =
        k + (advanceOffset m.length true (advanceNextNonspace p)).offset := h1.cur.off
      rw [ec, eo]
      generalize (advanceOffset m.length true (advanceNextNonspace p)).column = sc at *
      generalize (advanceOffset m.length true (advanceNextNonspace p)).offset = so at *
      refine ERel.bind (markerSpaces_rel 6 sc h1.cur) ?_
      rintro p1 q1 ⟨g1, g2, g3, g4, g5⟩
      have ec1 : q1.column = k + p1.column := g1.col
      rw [peek_rel g1.toCu, show q1.column - (k + sc) = p1.column - sc by omega]
      have hcu : CuN k ({ p1 with column := sc, offset := so } : PState).curs ({ q1 with column := k + sc, offset := k + so } : PState).curs :=
        ⟨⟨g1.line, rfl, rfl, g1.pct, g1.tab⟩, g1.nn, g1.nnc, g1.ind, g1.indd, g1.blank⟩
      have hp1 := (show p1.core = p.core from g2)
      have hpos : X.K < p1.lineNumber := by rw [show p1.lineNumber = p.lineNumber from congrArg Core.line hp1]; exact h.pos
      have hp2 := (show p1.books = p.books from g3)
      have hq1 := (show q1.core = q.core from g4)
      have hq2 := (show q1.books = q.books from g5)
      by_cases hs : (decide (p1.column - sc ≥ 5) || decide (p1.column - sc < 1) || (peekAt p1.currentLine p1.offset).isNone) = true
      · rw [if_pos hs, if_pos hs]
        have ep := peek_rel hcu.toCu
        simp only at ep
        simp only [ep]
        by_cases hb : isSpTabOpt (peekAt p1.currentLine so) = true
        · rw [if_pos hb, if_pos hb]
          exact .ok ⟨rfl, ⟨h.toSp.congr hp1 hp2 hq1 hq2, adv_rel hcu 1 true, hpos⟩, hp1, hp2⟩
        · rw [if_neg hb, if_neg hb]
          exact .ok ⟨rfl, ⟨h.toSp.congr hp1 hp2 hq1 hq2, hcu, hpos⟩, hp1, hp2⟩
      · rw [if_neg hs, if_neg hs]
        exact .ok ⟨rfl, ⟨h.toSp.congr hp1 hp2 hq1 hq2, g1, hpos⟩, hp1, hp2⟩

theorem tipKind_list (hX : X.Ok) (h : SpineRel X p.spine q.spine) : (tipKind q != some .list) = (tipKind p != some .list) := by
  have := tipKind_rel hX h (t := .list) (by simp) (by simp [DocLike])
  by_cases e : tipKind p = some .list
  · rw [e, this.2 e]
  · have e' : tipKind q ≠ some .list := fun h => e (this.1 h)
    have e1 : (tipKind q != some .list) = true := by simpa using e'
    have e2 : (tipKind p != some .list) = true := by simpa using e
    rw [e1, e2]

theorem startListItem_rel (hX : X.Ok) (hc : CRel X c c') (h : Rel k X p q) (hr : ReadyFor c p) :
    ERel (StartRel k X c) (startListItem c p) (startListItem c' q) := by
  unfold startListItem
  have e1 : (c'.t == .list) = (c.t == .list) := by
    rcases hc with h | ⟨h1, h2 | h2 | h2⟩
    · have : c.t = c'.t := (congrArg NodeData.t h :)
      rw [this]
    · rw [h1, h2]
    · rw [h1, h2]; rfl
    · rw [h1, h2]; rfl
  rw [show q.indented = p.indented from h.cur.indd, e1]
  by_cases hp : (!p.indented || c.t == .list) = true
  · rw [if_pos hp, if_pos hp]
    refine ERel.bind (parseListMarker_rel hc h) ?_
    rintro ⟨l, p1⟩ ⟨l', q1⟩ ⟨hl, g1, g2, g3⟩
    simp only at hl g1 g2 g3
    subst hl
    have hr1 := hr.congr g2 g3
    cases l' with
    | none => exact .ok (startRel_none g1 hr1)
    | some l =>
      simp only
      refine ERel.bind (close_rel hX g1 hr1) ?_
      rintro p2 q2 ⟨f1, f2, f3⟩
      have hlm : ∀ h : tipKind p2 = some .list, listsMatch c'.listData l = listsMatch c.listData l := by
        intro ht
        rw [f3, Option.some.injEq] at ht
        rcases hc with h | ⟨h1, _⟩
        · have : c.listData = c'.listData := (congrArg NodeData.listData h :)
          rw [this]
        · rw [h1] at ht; cases ht
      have ec : (tipKind q2 != some .list || !(listsMatch c'.listData l)) = (tipKind p2 != some .list || !(listsMatch c.listData l)) := by
        rw [tipKind_list hX f1.spine]
        by_cases ht : tipKind p2 = some .list
        · rw [hlm ht]
        · have : (tipKind p2 != some .list) = true := by simpa using ht
          rw [this]; rfl
      rw [ec]
      have last : ∀ p3 q3 : PState, Rel k X p3 q3 ∧ p3.allClosed = true ∧ tipKind p3 = some .list →
          ERel (StartRel k X c)
            (addChild .item p3.nextNonspace (fun d => { d with listData := some l }) p3 >>= fun p => pure (Start.container, p))
            (addChild .item q3.nextNonspace (fun d => { d with listData := some l }) q3 >>= fun p => pure (Start.container, p)) := by
        rintro p3 q3 ⟨f1, f2, f3⟩
        refine ERel.bind (addChild_rel hX f1 (.inr f3) f2 (fun d d' e => noCols_congr (f := fun d => { d with listData := some l }) (fun _ _ => rfl) e) fun _ => rfl) ?_
        rintro p4 q4 ⟨f1, f2, f3⟩
        exact .ok (startRel_some f1 f2 (by simp))
      by_cases ht : (tipKind p2 != some .list || !(listsMatch c.listData l)) = true
      · rw [if_pos ht, if_pos ht]
        exact ERel.bind (addChild_rel hX f1 (.inl (by simp)) f2
          (fun d d' e => noCols_congr (f := fun d => { d with listData := some l }) (fun _ _ => rfl) e) fun _ => rfl) last
      · rw [if_neg ht, if_neg ht]
        refine last p2 q2 ⟨f1, f2, ?_⟩
        simp only [Bool.or_eq_true, not_or] at ht
        simpa using ht.1
  · rw [if_neg hp, if_neg hp]
    exact .ok (startRel_none h hr)

theorem tryStarts_rel : ∀ {fs gs : List (PState → Except PyErr (Start × PState))},
    List.Forall₂ (fun f g => ∀ {p q}, Rel k X p q → ReadyFor c p → ERel (StartRel k X c) (f p) (g q)) fs gs →
    ∀ {p q : PState}, Rel k X p q → ReadyFor c p → ERel (StartRel k X c) (tryStarts fs p) (tryStarts gs q) := by
  intro fs gs hfg
  induction hfg with
  | nil => intro p q h hr; exact .ok (startRel_none h hr)
  | cons hf _ ih =>
    intro p q h hr
    simp only [tryStarts]
    refine ERel.bind (hf h hr) ?_
    rintro ⟨r, p1⟩ ⟨r', q1⟩ ⟨g1, g2, g3, g4⟩
    simp only at g1 g2 g3 g4
    subst g1
    cases r' with
    | none => exact ih g2 (g3 rfl)
    | container => exact .ok (startRel_some g2 (g4 (by simp)) (by simp))
    | leaf => exact .ok (startRel_some g2 (g4 (by simp)) (by simp))

theorem blockStarts_rel (hX : X.Ok) (hc : CRel X c c') :
    List.Forall₂ (fun f g => ∀ {p q}, Rel k X p q → ReadyFor c p → ERel (StartRel k X c) (f p) (g q)) (blockStarts c) (blockStarts c') := by
  unfold blockStarts
  refine .cons (startBlockQuote_rel hX) (.cons (startAtx_rel hX) (.cons (startFenced_rel hX) (.cons (startHtml_rel hX hc)
    (.cons (startSetext_rel hX hc) (.cons (startThematic_rel hX) (.cons (startListItem_rel hX hc) (.cons (startIndented_rel hX) .nil)))))))

/-- The loop of block starts. -/
theorem startsLoop_rel (hX : X.Ok) : ∀ (n m : Nat) {c c' : NodeData} {p q : PState}, n ≤ m → CRel X c c' → Sp X p q →
    Cu k p.curs q.curs → X.K < p.lineNumber → ReadyFor c p →
    ERel (fun p' q' => Rel k X p' q' ∧ ∃ d, ReadyFor d p') (startsLoop n c p) (startsLoop m c' q) := by
  intro n
  induction n with
  | zero => intro m c c' p q _ _ _ _ _ _; exact ERel.error
  | succ n ih =>
    intro m c c' p q hm hc h hcu hpos hr
    obtain ⟨m, rfl⟩ : ∃ m', m = m' + 1 := ⟨m - 1, by omega⟩
    have h1 : Rel k X (findNextNonspace p) (findNextNonspace q) :=
      ⟨h.congr (core_find _) (books_find _) (core_find _) (books_find _), find_rel hcu, hpos⟩
    have hr1 : ReadyFor c (findNextNonspace p) := hr.congr (core_find _) (books_find _)
    simp only [startsLoop]
    rw [peekN_rel h1.cur, show (findNextNonspace q).indented = (findNextNonspace p).indented from h1.cur.indd]
    refine ERel.ite (fun _ => ?_) fun _ => ?_
    · exact .ok ⟨h1.advN, c, hr1.congr (core_advN _) (books_advN _)⟩
    · refine ERel.bind (tryStarts_rel (blockStarts_rel hX hc) h1 hr1) ?_
      rintro ⟨r, p1⟩ ⟨r', q1⟩ ⟨g1, g2, g3, g4⟩
      simp only at g1 g2 g3 g4
      subst g1
      cases r' with
      | none => exact .ok ⟨g2.advN, c, (g3 rfl).congr (core_advN _) (books_advN _)⟩
      | leaf =>
        have hs := g2.spine.pos
        obtain ⟨b, r, hs⟩ : ∃ b r, p1.spine = b :: r := by
          cases e : p1.spine with
          | nil => rw [e] at hs; simp at hs
          | cons b r => exact ⟨b, r, rfl⟩
        exact .ok ⟨g2, b.data, ready_of_closed (g4 (by simp)) hs⟩
      | container =>
        have hs := g2.spine
        simp only
        match e : p1.spine, e' : q1.spine, hs with
        | [], _, hs => cases hs
        | _ :: _, [], hs => cases hs
        | b :: r, b' :: r', hs =>
          exact ih m (by omega) (crel_heads hX hs) g2.toSp g2.cur.toCu g2.pos (ready_of_closed (g4 (by simp)) e)

/-! ### The rest of a line -/

theorem append_rel (x : Str) (h : Sp X p q) (ht : tipKind p ≠ some .document) :
    ERel (fun p' q' => Sp X p' q' ∧ p'.curs = p.curs ∧ q'.curs = q.curs ∧ tipKind p' = tipKind p ∧
      p'.spine.length = p.spine.length ∧ p'.lineNumber = p.lineNumber) (appendContent x p) (appendContent x q) := by
  unfold appendContent
  have hs := h.spine
  match e : p.spine, e' : q.spine, hs with
  | _, _, .base h1 h2 hA h3 h4 _ =>
    rw [tipKind, e] at ht
    simp [h1] at ht
  | _, _, .cons (a := b) (a' := b') he hr =>
    simp only [erase, Prod.mk.injEq] at he
    have e1 : b.data.stringContent = b'.data.stringContent := (congrArg NodeData.stringContent he.1 :)
    simp only [← e1]
    cases b.data.stringContent with
    | none => exact ERel.error
    | some y =>
      refine .ok ⟨⟨?_, h.refmap, h.line, h.oldtip, h.lastMatched, h.allClosed, h.low⟩, rfl, rfl, ?_, by simp [e], rfl⟩
      · refine .cons ?_ hr
        simp only [erase, Prod.mk.injEq, he.2, and_true]
        exact noCols_congr (f := fun d => { d with stringContent := some (y ++ x) }) (fun _ _ => rfl) he.1
      · simp [tipKind, e]

theorem addLine_rel (h : Rel k X p q) (ht : tipKind p ≠ some .document) :
    ERel (fun p' q' => Rel k X p' q' ∧ tipKind p' = tipKind p ∧ p'.spine.length = p.spine.length) (addLine p) (addLine q) := by
  unfold addLine
  have key : ∀ x, ERel (fun p' q' => Rel k X p' q' ∧ tipKind p' = tipKind p ∧ p'.spine.length = p.spine.length) (appendContent x p) (appendContent x q) := by
    intro x
    refine (append_rel x h.toSp ht).mono ?_
    rintro p' q' _ ⟨g1, g2, g3, g4, g5, g6⟩
    exact ⟨⟨g1, by rw [g2, g3]; exact h.cur, by rw [g6]; exact h.pos⟩, g4, g5⟩
  rw [show q.partiallyConsumedTab = p.partiallyConsumedTab from h.cur.pct, drop_rel h.cur.toCu]
  cases hb : p.partiallyConsumedTab with
  | false =>
    simp only [Bool.false_eq_true, if_false]
    exact key _
  | true =>
    have hk : k % 4 = 0 := by
      rcases h.cur.tab with hk | ⟨_, hp⟩
      · exact hk
      · have hp : p.partiallyConsumedTab = false := hp
        rw [hb] at hp; cases hp
    have ho : q.offset = k + p.offset := h.cur.off
    have hc : q.column = k + p.column := h.cur.col
    have h1 : Rel k X { p with offset := p.offset + 1 } { q with offset := q.offset + 1 } := by
      refine ⟨⟨h.spine, h.refmap, h.line, h.oldtip, h.lastMatched, h.allClosed, h.low⟩, ⟨⟨h.cur.line, ?_, h.cur.col, h.cur.pct, .inl hk⟩, h.cur.nn,
        h.cur.nnc, h.cur.ind, h.cur.indd, h.cur.blank⟩, h.pos⟩
      show q.offset + 1 = k + (p.offset + 1)
      omega
    have hb' : q.partiallyConsumedTab = true := Eq.trans h.cur.pct hb
    simp only [if_true]
    have e := drop_rel h1.cur.toCu
    simp only [hb, hb'] at e h1
    rw [e, show q.column % 4 = p.column % 4 by omega]
    refine (append_rel _ h1.toSp ht).mono ?_
    rintro p' q' _ ⟨g1, g2, g3, g4, g5, g6⟩
    exact ⟨⟨g1, by rw [g2, g3]; exact h1.cur, by rw [g6]; exact h1.pos⟩, g4, g5⟩

theorem markLast_append : ∀ (A cs : List Tree), markLastChild A = A → markLastChild (A ++ cs) = A ++ markLastChild cs
  | [], cs, _ => rfl
  | [t], [], h => h
  | [t], u :: r, _ => by simp [markLastChild]
  | t :: u :: A, cs, h => by
    have ih := markLast_append (u :: A) cs (by simpa [markLastChild] using h)
    simp only [List.cons_append] at ih ⊢
    simp only [markLastChild, ih]

theorem markLast_noCols : ∀ cs : List Tree, erL φ (markLastChild cs) = markLastChild (erL φ cs)
  | [] => by simp [markLastChild, erL]
  | [.node d c] => by simp only [markLastChild, erL, erT]; rfl
  | t :: u :: r => by
    have ih := markLast_noCols (u :: r)
    simp only [erL] at ih
    simp only [markLastChild, erL]
    rw [ih]

theorem blankFlag_rel (hX : X.Ok) {b b' : OpenBlk} (he : erase X.φ b = erase X.ψ b') (h : Rel k X p q) : lineBlankFlag b' q = lineBlankFlag b p := by
  simp only [erase, Prod.mk.injEq] at he
  have e1 : b.data.t = b'.data.t := (congrArg NodeData.t he.1 :)
  have e2 : b.data.isFenced = b'.data.isFenced := (congrArg NodeData.isFenced he.1 :)
  have e3 : (b'.data.sourcepos.map (·.1.1) == some q.lineNumber) = (b.data.sourcepos.map (·.1.1) == some p.lineNumber) := by
    have hs : b.data.sourcepos.map X.φ = b'.data.sourcepos.map X.ψ := congrArg NodeData.sourcepos he.1
    generalize b.data.sourcepos = x at hs
    generalize b'.data.sourcepos = y at hs
    cases x <;> cases y <;> simp only [Option.map_none, Option.map_some, Option.some.injEq, reduceCtorEq] at hs ⊢
    · rfl
    · rename_i x y
      have := hX.start _ _ p.lineNumber h.pos hs
      rw [h.line]
      by_cases e : x.1.1 = p.lineNumber
      · rw [e, this.1 e]; simp
      · have e1 : (some y.1.1 == some (p.lineNumber + X.N)) = false := by simpa using fun h => e (this.2 h)
        have e2 : (some x.1.1 == some p.lineNumber) = false := by simpa using e
        rw [e1, e2]
  unfold lineBlankFlag
  rw [show q.blank = p.blank from h.cur.blank, ← e1, ← e2, e3, noColsL_isEmpty he.2]

/-- Without the blank-line flags. -/
def Sim.weak (X : Sim) : Sim := { X with flag := fun _ _ => True }

theorem Sim.Ok.weak (h : X.Ok) : X.weak.Ok := ⟨h.doc, h.new, h.close, h.start, h.mark, fun _ _ _ _ => trivial, h.ref⟩

theorem SpineRel.weak {l l' : List OpenBlk} (h : SpineRel X l l') : SpineRel X.weak l l' := by
  induction h with
  | base h1 h2 hA h3 h4 _ => exact .base h1 h2 hA h3 h4 fun _ _ => trivial
  | cons he _ ih => exact .cons he ih

theorem Sp.weak (h : Sp X p q) : Sp X.weak p q := ⟨h.spine.weak, h.refmap, h.line, h.oldtip, h.lastMatched, h.allClosed, h.low⟩

theorem RelC.weak (h : Rel k X p q) : Rel k X.weak p q := ⟨h.toSp.weak, h.cur, h.pos⟩

/-- When `X` asks for it, the document is not without blocks at the end of the line. -/
def Keeps (X : Sim) (x : Except PyErr PState) : Prop := X.kid → ∀ p', x = .ok p' → ∀ b, p'.spine = [b] → b.children ≠ []

/-- The blank-line flags of all open blocks. -/
theorem SpineRel.flag {l l' : List OpenBlk} (h : SpineRel X.weak l l') {f f' : Bool} (hf : 2 ≤ l.length → f = f') (hF : X.flag f f') :
    SpineRel X (l.map fun x => { x with data := { x.data with lastLineBlank := f } })
      (l'.map fun x => { x with data := { x.data with lastLineBlank := f' } }) := by
  induction h with
  | base h1 h2 hA h3 h4 _ =>
    refine .base h1 h2 hA h3 ?_ ?_
    · rw [show X.o = X.weak.o from rfl, ← h4, List.map_map]
      rfl
    · intro x hx
      rcases List.mem_cons.1 hx with rfl | hx
      · exact hF
      · obtain ⟨y, _, rfl⟩ := List.mem_map.1 hx
        exact hF
  | @cons a a' r r' he hr ih =>
    have e : f = f' := hf (by have := hr.pos; simp; omega)
    subst e
    refine .cons ?_ (ih fun _ => rfl)
    simp only [erase, Prod.mk.injEq] at he ⊢
    exact ⟨noCols_congr (f := fun d => { d with lastLineBlank := f }) (fun _ _ => rfl) he.1, he.2⟩

theorem markLast_append_ne : ∀ (A : List Tree) {cs : List Tree}, cs ≠ [] → markLastChild (A ++ cs) = A ++ markLastChild cs
  | [], cs, _ => rfl
  | [t], [], h => absurd rfl h
  | [t], u :: r, _ => by simp [markLastChild]
  | t :: u :: A, cs, h => by
    have ih := markLast_append_ne (u :: A) h
    simp only [List.cons_append] at ih ⊢
    simp only [markLastChild, ih]

theorem SpineRel.mark (hX : X.Ok) {b b' : OpenBlk} {r r' : List OpenBlk} (h : SpineRel X (b :: r) (b' :: r')) (bl : Bool)
    (hk : bl = true → X.kid → r = [] → b.children ≠ []) :
    SpineRel X ((if bl then { b with children := markLastChild b.children } else b) :: r)
      ((if bl then { b' with children := markLastChild b'.children } else b') :: r') := by
  cases bl with
  | false => exact h
  | true =>
    simp only [if_true]
    cases h with
    | base h1 h2 hA h3 h4 h5 =>
      refine .base h1 (by simp only [markLast_noCols, h2]; exact (markLast_noCols _).symm) ?_ h3 h4 ?_
      · simp only [hA]
        rcases hX.mark with hm | hm
        · have h6 := hk rfl hm rfl
          refine markLast_append_ne _ ?_
          rintro rfl
          have := noColsL_isEmpty h2
          simp at this
          exact h6 this
        · exact markLast_append _ _ hm
      · intro x hx
        rcases List.mem_cons.1 hx with rfl | hx
        · exact h5 b' (by simp)
        · exact h5 x (by simp [hx])
    | cons he hr =>
      simp only [erase, Prod.mk.injEq] at he
      refine .cons ?_ hr
      simp only [erase, Prod.mk.injEq, markLast_noCols, he, and_self]

theorem finalizeTip_curs {l : Nat} {p p' : PState} (h : finalizeTip l p = .ok p') : p'.curs = p.curs := by
  match hs : p.spine with
  | [] => unfold finalizeTip at h; rw [hs] at h; cases h
  | [b] =>
    unfold finalizeTip at h
    rw [hs] at h
    simp only at h
    rw [show ({ b.data with isOpen := false, sourcepos := b.data.sourcepos.map fun sp => (sp.1, (l, p.lastLineLength)) } : NodeData) =
      closeData l p.lastLineLength b.data from rfl] at h
    cases hf : finalizeBlock (closeData l p.lastLineLength b.data) b.children p.refmap with
    | error e => rw [hf] at h; cases h
    | ok r => rw [hf] at h; cases h; rfl
  | b :: c :: r =>
    obtain ⟨t, m, _, rfl⟩ := finalizeTip_inv hs h
    rfl

theorem closeLoop_curs : ∀ (n : Nat) {p p' : PState}, closeLoop n p = .ok p' → p'.curs = p.curs
  | 0, p, p', h => by cases h
  | n + 1, p, p', h => by
    simp only [closeLoop] at h
    split at h
    · cases h; rfl
    · cases hf : finalizeTip (p.lineNumber - 1) p with
      | error e => rw [hf] at h; cases h
      | ok p1 =>
        rw [hf] at h
        have ih := closeLoop_curs n (p := { p1 with oldtip := p1.oldtip - 1 }) h
        rw [ih]
        have := finalizeTip_curs hf
        exact this

theorem close_curs {p p' : PState} (h : closeUnmatched p = .ok p') : p'.curs = p.curs := by
  unfold closeUnmatched at h
  split at h
  · cases h; rfl
  · cases hc : closeLoop (p.oldtip + 1) p with
    | error e => rw [hc] at h; cases h
    | ok p1 =>
      rw [hc] at h
      cases h
      have := closeLoop_curs _ hc
      exact this

theorem addText_rel (hX : X.Ok) (h : Rel k X.weak p q) (hw : p.allClosed = true ∨ Sp X p q) (hk : Keeps X (addText p)) (hr : ReadyFor c p) :
    ERel (fun p' q' => Sp X p' q') (addText p) (addText q) := by
  have hkey : ∀ p1 b, closeUnmatched p = .ok p1 → p1.spine = [b] → b.data.t = .document → p1.blank = true → X.kid → b.children ≠ [] := by
    intro p1 b h1 h2 h3 h4 h5 h6
    have hb : p.blank = true := by
      have : p1.blank = p.blank := congrArg CursorAt.blank (close_curs h1)
      rw [← this]; exact h4
    refine hk h5 { p1 with spine := [{ b with data := { b.data with lastLineBlank := lineBlankFlag { b with children := [] } p1 } , children := [] }] } ?_ _ rfl rfl
    unfold addText
    simp only [hb, Bool.not_true, Bool.and_false, Bool.false_and, Bool.false_eq_true, if_false, h1, Except.bind, bind, h2, h4, if_true, h6, markLastChild,
      List.map_cons, List.map_nil, h3]
    simp [acceptsLines, pure, Except.pure]
  unfold addText
  have ht : (tipKind q == some .paragraph) = (tipKind p == some .paragraph) := by
    have := tipKind_rel hX.weak h.spine (t := .paragraph) (by simp) (by simp [DocLike])
    by_cases e : tipKind p = some .paragraph
    · rw [e, this.2 e]
    · have e' : tipKind q ≠ some .paragraph := fun h => e (this.1 h)
      have e1 : (tipKind q == some .paragraph) = false := by simpa using e'
      have e2 : (tipKind p == some .paragraph) = false := by simpa using e
      rw [e1, e2]
  rw [h.allClosed, show q.blank = p.blank from h.cur.blank, ht]
  refine ERel.ite (fun hc => ?_) fun hc => ?_
  · simp only [Bool.and_eq_true, beq_iff_eq, Bool.not_eq_true'] at hc
    have hsp : Sp X p q := by
      rcases hw with hw | hw
      · rw [hw] at hc; simp at hc
      · exact hw
    refine (addLine_rel (X := X) (k := k) ⟨hsp, h.cur, h.pos⟩ (by rw [hc.2]; simp)).mono ?_
    rintro p' q' _ ⟨g, _⟩
    exact g.toSp
  · refine ERel.bind (ERel.mono (S := fun p1 q1 => (Rel k X.weak p1 q1 ∧ p1.allClosed = true ∧ tipKind p1 = some c.t) ∧ closeUnmatched p = .ok p1)
      (close_rel hX.weak h hr) fun p1 q1 e g => ⟨g, e⟩) ?_
    rintro p1 q1 ⟨⟨g1, g2, g3⟩, hp1⟩
    have gs := g1.spine
    match e : p1.spine, e' : q1.spine, gs with
    | [], _, gs => cases gs
    | _ :: _, [], gs => cases gs
    | b :: r, b' :: r', gs =>
      simp only
      have gm := gs.mark hX.weak p1.blank (by
        rintro h1 h2 rfl
        refine hkey p1 b hp1 e ?_ h1 h2
        cases gs with
        | base h1 _ _ _ _ _ => exact h1
        | cons _ hr => cases hr)
      rw [show q1.blank = p1.blank from g1.cur.blank]
      generalize hb1 : (if p1.blank then { b with children := markLastChild b.children } else b) = b1 at *
      generalize hb1' : (if p1.blank then { b' with children := markLastChild b'.children } else b') = b1' at *
      have hf : 2 ≤ (b1 :: r).length → lineBlankFlag b1 p1 = lineBlankFlag b1' q1 := by
        intro h2
        cases gm with
        | base _ _ _ _ _ _ => simp at h2
        | cons he _ => exact (blankFlag_rel hX.weak he g1).symm
      have hF : X.flag (lineBlankFlag b1 p1) (lineBlankFlag b1' q1) := by
        have hqb : q1.blank = p1.blank := g1.cur.blank
        cases gm with
        | cons he _ =>
          rw [← blankFlag_rel hX.weak he g1]
          exact hX.flag _ _ (fun h => h) fun _ => rfl
        | @base _ _ _ cs h1 h2 hA h3 _ _ =>
          have e0 : lineBlankFlag b1 p1 = p1.blank := by
            unfold lineBlankFlag
            simp [h1]
          rw [e0]
          refine hX.flag _ _ ?_ ?_
          · intro hb
            unfold lineBlankFlag
            rw [hqb, hb]; rfl
          · intro hd
            have ht : b1'.data.t = X.β.t := (congrArg NodeData.t h3 :)
            unfold lineBlankFlag
            rw [hqb]
            rcases hd with hd | ⟨hd, hkid⟩
            · rw [ht, hd]; simp
            · rw [ht, hd]
              cases hb : p1.blank with
              | false => rfl
              | true =>
                have hne : b.children ≠ [] := by
                  refine hkey p1 b hp1 e ?_ hb hkid
                  cases gs with
                  | base h1 _ _ _ _ _ => exact h1
                  | cons _ hr => cases hr
                have hne1 : b1.children ≠ [] := by
                  rw [← hb1, hb]
                  simp only [if_true]
                  match hc : b.children with
                  | [] => exact absurd hc hne
                  | [.node _ _] => simp [markLastChild]
                  | _ :: _ :: _ => simp [markLastChild]
                have : cs ≠ [] := by
                  rintro rfl
                  have := noColsL_isEmpty h2
                  simp at this
                  exact hne1 this
                have : b1'.children ≠ [] := by rw [hA]; simp [this]
                have : b1'.children.isEmpty = false := by simpa using this
                rw [this]; rfl
      have gf := gm.flag hf hF
      have hrel : Rel k X
          { p1 with spine := (b1 :: r).map fun x => { x with data := { x.data with lastLineBlank := lineBlankFlag b1 p1 } } }
          { q1 with
            spine := (b1' :: r').map fun x => { x with data := { x.data with lastLineBlank := lineBlankFlag b1' q1 } }
            blank := p1.blank } :=
        ⟨⟨gf, g1.refmap, g1.line, g1.oldtip, g1.lastMatched, g1.allClosed, g1.low⟩,
          ⟨⟨g1.cur.line, g1.cur.off, g1.cur.col, g1.cur.pct, g1.cur.tab⟩, g1.cur.nn, g1.cur.nnc, g1.cur.ind,
            g1.cur.indd, rfl⟩, g1.pos⟩
      have hacc : acceptsLines b1'.data.t = acceptsLines b1.data.t := by
        rcases crel_heads hX.weak gm with h | ⟨h1, h2 | h2 | h2⟩
        · have : b1.data.t = b1'.data.t := (congrArg NodeData.t h :)
          rw [this]
        · rw [h1, h2]
        · rw [h1, h2]; rfl
        · rw [h1, h2]; rfl
      rw [hacc]
      refine ERel.ite (fun ha => ?_) fun ha => ?_
      · have hnd : b1.data.t ≠ .document := by intro h; rw [h] at ha; cases ha
        cases gm with
        | base h1 _ _ _ _ _ => exact absurd h1 hnd
        | cons he hr' =>
          simp only [erase, Prod.mk.injEq] at he
          have e1 : b1.data.t = b1'.data.t := (congrArg NodeData.t he.1 :)
          have e2 : b1.data.htmlBlockType = b1'.data.htmlBlockType := (congrArg NodeData.htmlBlockType he.1 :)
          refine ERel.bind (addLine_rel hrel (by simpa [tipKind] using hnd)) ?_
          rintro p2 q2 ⟨f1, f2, f3⟩
          rw [← e1, ← e2, drop_rel f1.cur.toCu]
          refine ERel.ite (fun _ => ?_) fun _ => ?_
          · refine (finalizeTip_sp hX _ f1.line f1.low f1.toSp ?_).mono ?_
            · rw [f3]
              have := hr'.pos
              simp; omega
            · rintro p3 q3 _ ⟨g, _⟩
              exact g
          · exact .ok f1.toSp
      · have hl : q1.currentLine.length = k + p1.currentLine.length := g1.cur.len
        have ho : q1.offset = k + p1.offset := g1.cur.off
        have hd : (decide (q1.offset < q1.currentLine.length) && !p1.blank) = (decide (p1.offset < p1.currentLine.length) && !p1.blank) := by
          congr 2; apply propext; omega
        simp only [hd]
        refine ERel.ite (fun _ => ?_) fun _ => ?_
        · refine ERel.bind (addChild_rel hX hrel (.inl (by simp)) g2 (fun d d' e => e) fun _ => rfl) ?_
          rintro p2 q2 ⟨f1, f2, f3⟩
          refine (addLine_rel f1.advN ?_).mono ?_
          · show tipKind p2 ≠ _
            rw [f3]; simp
          · rintro p' q' _ ⟨g, _⟩
            exact g.toSp
        · exact .ok hrel.toSp

/-! ### Matching the open blocks -/

/-- The result of the continuation loop. -/
inductive ContRel (k : Nat) (X : Sim) (N : Prop) (p q : PState) :
    PState ⊕ (Nat × PState) → PState ⊕ (Nat × PState) → Prop
  | inl {p' q' : PState} : Sp X p' q' → ContRel k X N p q (.inl p') (.inl q')
  | inr {d d' : Nat} {p' q' : PState} : Sp X p' q' → p'.core = p.core → p'.books = p.books → q'.books = q.books → d' = d + X.o.length → 1 ≤ d →
      Cu k p'.curs q'.curs → (N → CuN k p'.curs q'.curs) → ContRel k X N p q (.inr (d, p')) (.inr (d', q'))

theorem core_continue (d : NodeData) (b : Bool) (p : PState) : (continueBlock d b p).2.core = p.core := by
  unfold continueBlock
  cases d.t <;> simp only [] <;> (repeat' split) <;> simp [core_eat, core_advN, core_adv, core_fence]

theorem books_continue (d : NodeData) (b : Bool) (p : PState) : (continueBlock d b p).2.books = p.books := by
  unfold continueBlock
  cases d.t <;> simp only [] <;> (repeat' split) <;> simp [books_eat, books_advN, books_adv, books_fence]

theorem contLoop_rel (hX : X.Ok) {N : Prop} : ∀ {bs bs' : List OpenBlk} (d : Nat) {p q : PState}, bs.map (erase X.φ) = bs'.map (erase X.ψ) → 1 ≤ d →
    Sp X p q → Cu k p.curs q.curs → (N → bs = [] → CuN k p.curs q.curs) → (bs ≠ [] → 2 ≤ p.spine.length) →
    ERel (ContRel k X N p q) (contLoop bs d p) (contLoop bs' (d + X.o.length) q) := by
  intro bs
  induction bs with
  | nil =>
    intro bs' d p q he hd h hcu hN _
    obtain rfl : bs' = [] := by cases bs' with
      | nil => rfl
      | cons => simp at he
    exact .ok (.inr h rfl rfl rfl rfl hd hcu fun n => hN n rfl)
  | cons b bs ih =>
    intro bs' d p q he hd h hcu hN hl
    cases bs' with
    | nil => simp at he
    | cons b' bs' =>
      simp only [List.map_cons, List.cons.injEq] at he
      obtain ⟨he, hes⟩ := he
      have he0 := he
      simp only [erase, Prod.mk.injEq] at he
      have h1 : Sp X (findNextNonspace p) (findNextNonspace q) := h.congr (core_find _) (books_find _) (core_find _) (books_find _)
      have hc1 := find_rel hcu
      have hflag : (!b'.children.isEmpty || !bs'.isEmpty) = (!b.children.isEmpty || !bs.isEmpty) := by
        have : bs'.isEmpty = bs.isEmpty := by
          cases bs <;> cases bs' <;> simp_all
        rw [this, noColsL_isEmpty he.2]
      have hcr := continue_rel he.1 (!b.children.isEmpty || !bs.isEmpty) hc1
      simp only [contLoop, hflag]
      have k1 := core_continue b.data (!b.children.isEmpty || !bs.isEmpty) (findNextNonspace p)
      have k2 := books_continue b.data (!b.children.isEmpty || !bs.isEmpty) (findNextNonspace p)
      have k3 := core_continue b'.data (!b.children.isEmpty || !bs.isEmpty) (findNextNonspace q)
      have k4 := books_continue b'.data (!b.children.isEmpty || !bs.isEmpty) (findNextNonspace q)
      generalize continueBlock b.data (!b.children.isEmpty || !bs.isEmpty) (findNextNonspace p) = x at *
      generalize continueBlock b'.data (!b.children.isEmpty || !bs.isEmpty) (findNextNonspace q) = y at *
      obtain ⟨x, p1⟩ := x
      obtain ⟨y, q1⟩ := y
      obtain ⟨h2, h3⟩ := hcr
      simp only at h2 h3 k1 k2 k3 k4
      subst h2
      have h4 : Sp X p1 q1 := h1.congr k1 k2 k3 k4
      have e1 : p1.core = p.core := k1
      have e2 : p1.books = p.books := k2
      have e3 : q1.books = q.books := k4
      have es : p1.spine = p.spine := congrArg Core.spine e1
      cases y with
      | matched =>
        simp only
        have := ih (bs' := bs') (d + 1) hes (by omega) h4 h3.toCu (fun _ _ => h3) (fun _ => by rw [es]; exact hl (by simp))
        rw [show d + X.o.length + 1 = d + 1 + X.o.length by omega]
        refine this.mono ?_
        intro a b _ hab
        cases hab with
        | inl g => exact .inl g
        | inr g1 g2 g3 g3' g4 g5 g6 g7 => exact .inr g1 (g2.trans e1) (g3.trans e2) (g3'.trans e3) g4 g5 g6 g7
      | failed => exact .ok (.inr h4 e1 e2 e3 rfl hd h3.toCu fun _ => h3)
      | done =>
        simp only
        refine ERel.bind (finalizeTip_sp hX _ h4.line h4.low h4 (by rw [es]; exact hl (by simp))) ?_
        rintro p2 q2 ⟨g, _⟩
        exact .ok (.inl ⟨g.spine, g.refmap, g.line, g.oldtip, g.lastMatched, g.allClosed, g.low⟩)

/-! ### A whole line -/

/-- `incorporate_line` after the continuation loop. -/
def afterCont (ln : Str) : PState ⊕ (Nat × PState) → Except PyErr PState
  | .inl p => .ok p
  | .inr (depth, p) =>
    match blockAt { p with allClosed := depth == p.oldtip, lastMatched := depth } depth with
    | none => .error .attributeError
    | some container => do
      let p ← if container.t != .paragraph && acceptsLines container.t
        then pure { p with allClosed := depth == p.oldtip, lastMatched := depth }
        else startsLoop (ln.length + 1) container { p with allClosed := depth == p.oldtip, lastMatched := depth }
      let p ← addText p
      return { p with lastLineLength := ln.length }

/-- The state at the beginning of a line. -/
def atStart (p : PState) (ln : Str) : PState :=
  { p with
    oldtip := p.spine.length, offset := 0, column := 0, blank := false,
    partiallyConsumedTab := false, lineNumber := p.lineNumber + 1, currentLine := ln }

theorem incorporateLine_eq (p : PState) (ln : Str) : incorporateLine p ln =
    contLoop ((atStart p (replaceChar (Char.ofNat 0) (Char.ofNat 0xFFFD) ln)).spine.reverse.drop 1) 1
      (atStart p (replaceChar (Char.ofNat 0) (Char.ofNat 0xFFFD) ln)) >>=
      afterCont (replaceChar (Char.ofNat 0) (Char.ofNat 0xFFFD) ln) := by
  unfold incorporateLine
  refine congrArg _ (funext fun x => ?_)
  cases x with
  | inl p => rfl
  | inr r =>
    obtain ⟨d, p⟩ := r
    simp only [afterCont]
    cases blockAt { p with allClosed := d == p.oldtip, lastMatched := d } d <;> rfl

theorem blockAt_rel (hX : X.Ok) {l l' : List OpenBlk} (h : SpineRel X l l') : ∀ {i : Nat} {b : OpenBlk}, l.reverse[i]? = some b →
    ∃ b', l'.reverse[i + X.o.length]? = some b' ∧ CRel X b.data b'.data ∧ (i = 0 → b.data.t = .document) := by
  induction h with
  | @base b b' O cs h1 h2 hA h3 h4 _ =>
    intro i x hx
    have hO : O.length = X.o.length := by rw [← h4, List.length_map]
    have hi : i = 0 := by
      have := (List.getElem?_eq_some_iff.1 hx).1
      simp at this; exact this
    subst hi
    simp only [List.reverse_cons, List.reverse_nil, List.nil_append, List.getElem?_cons_zero, Option.some.injEq] at hx
    subst hx
    refine ⟨b', ?_, .inr ⟨h1, by have := hX.doc; rw [← h3] at this; exact this⟩, fun _ => h1⟩
    rw [List.reverse_cons, List.getElem?_append_right (by simp [hO])]
    simp [hO]
  | @cons a a' r r' he hr ih =>
    intro i x hx
    rw [List.reverse_cons] at hx ⊢
    by_cases hi : i < r.length
    · rw [List.getElem?_append_left (by simpa using hi)] at hx
      obtain ⟨b', h1, h2⟩ := ih hx
      refine ⟨b', ?_, h2⟩
      rw [List.getElem?_append_left (by rw [List.length_reverse, hr.length]; omega)]
      exact h1
    · have hi' : i = r.length := by
        have := (List.getElem?_eq_some_iff.1 hx).1
        simp at this; omega
      rw [List.getElem?_append_right (by simp [hi'])] at hx
      simp [hi'] at hx
      subst hx
      refine ⟨a', ?_, .inl (congrArg Prod.fst he), fun h0 => ?_⟩
      · rw [List.getElem?_append_right (by rw [List.length_reverse, hr.length]; omega)]
        simp [hi', hr.length]
      · have := hr.pos
        omega

theorem afterCont_rel (hX : X.Ok) {N : Prop} {p0 q0 : PState} {ln ln' : Str} (hln : ln.length ≤ ln'.length)
    {x y : PState ⊕ (Nat × PState)} (h : ContRel k X N p0 q0 x y) (hold : p0.oldtip = p0.spine.length) (hold' : q0.oldtip = p0.oldtip + X.o.length)
    (hN : 2 ≤ p0.spine.length → N) (hpos : X.K < p0.lineNumber) (hk : Keeps X (afterCont ln x)) : ERel (fun p' q' => Sp X p' q') (afterCont ln x) (afterCont ln' y) := by
  cases h with
  | inl g => exact .ok g
  | @inr d d' p q g1 g2 g3 g3' g4 g5 g6 g7 =>
    subst g4
    have es : p.spine = p0.spine := congrArg Core.spine g2
    have hpos : X.K < p.lineNumber := by rw [show p.lineNumber = p0.lineNumber from congrArg Core.line g2]; exact hpos
    have eo : p.oldtip = p.spine.length := by
      rw [es, ← hold]; exact congrArg Books.oldtip g3
    have eo' : q.oldtip = p.oldtip + X.o.length := by
      have e1 : q.oldtip = q0.oldtip := congrArg Books.oldtip g3'
      have e2 : p.oldtip = p0.oldtip := congrArg Books.oldtip g3
      rw [e1, e2]; exact hold'
    simp only [afterCont, blockAt]
    rw [show d + X.o.length - 1 = (d - 1) + X.o.length by omega]
    cases hb : p.spine.reverse[d - 1]? with
    | none => exact ERel.error
    | some b =>
      obtain ⟨b', hb', hcr, hdoc⟩ := blockAt_rel hX g1.spine hb
      have hdl : d ≤ p.spine.length := by
        have := (List.getElem?_eq_some_iff.1 hb).1
        simp at this; omega
      simp only [hb', Option.map_some]
      have hsp : Sp X { p with allClosed := d == p.oldtip, lastMatched := d }
          { q with allClosed := d + X.o.length == q.oldtip, lastMatched := d + X.o.length } := by
        refine ⟨g1.spine, g1.refmap, g1.line, fun _ => eo', fun _ => rfl, ?_, g1.low⟩
        show (d + X.o.length == q.oldtip) = (d == p.oldtip)
        rw [eo']
        by_cases h : d = p.oldtip
        · simp [h]
        · have : (d == p.oldtip) = false := by simpa using h
          rw [this]
          simp
          omega
      have hready : ReadyFor b.data { p with allClosed := d == p.oldtip, lastMatched := d } := by
        refine ⟨?_, fun _ => ⟨eo.symm, g5, by show d ≤ p.oldtip; omega⟩⟩
        have e1 : (if (d == p.oldtip) = true then 0 else p.oldtip - d) = p.oldtip - d := by
          by_cases h : d = p.oldtip
          · simp [h]
          · rw [if_neg (by simpa using h)]
        show ((p.ds.drop (if (d == p.oldtip) = true then 0 else p.oldtip - d)).head?.map (·.t)) = _
        rw [e1, PState.ds, ← List.map_drop, List.head?_map, List.head?_drop, eo]
        rw [List.getElem?_reverse (by omega)] at hb
        rw [show p.spine.length - d = p.spine.length - 1 - (d - 1) by omega, hb]
        rfl
      have hleaf : (b'.data.t != .paragraph && acceptsLines b'.data.t) = (b.data.t != .paragraph && acceptsLines b.data.t) := by
        rcases hcr with h | ⟨h1, h2 | h2 | h2⟩
        · have : b.data.t = b'.data.t := (congrArg NodeData.t h :)
          rw [this]
        · rw [h1, h2]
        · rw [h1, h2]; rfl
        · rw [h1, h2]; rfl
      rw [hleaf]
      have last : ∀ p1 q1 : PState, ((Rel k X p1 q1 ∧ ∃ e, ReadyFor e p1) ∧
          ∀ p', addText p1 = .ok p' → afterCont ln (.inr (d, p)) = .ok { p' with lastLineLength := ln.length }) → ERel (fun p' q' => Sp X p' q')
          (addText p1 >>= fun p => pure { p with lastLineLength := ln.length })
          (addText q1 >>= fun p => pure { p with lastLineLength := ln'.length }) := by
        rintro p1 q1 ⟨⟨f1, e, f2⟩, f3⟩
        refine ERel.bind (addText_rel hX f1.weak (.inr f1.toSp) (fun hkid p' hp' b' hb' => hk hkid _ (f3 p' hp') b' hb') f2) ?_
        intro p2 q2 f
        exact .ok ⟨f.spine, f.refmap, f.line, f.oldtip, f.lastMatched, f.allClosed, f.low⟩
      by_cases hl : (b.data.t != .paragraph && acceptsLines b.data.t) = true
      · rw [if_pos hl, if_pos hl]
        have h2 : 2 ≤ p0.spine.length := by
          rw [← es]
          have : d - 1 ≠ 0 := by
            intro h0
            rw [hdoc h0] at hl
            cases hl
          omega
        refine last _ _ ⟨⟨⟨hsp, g7 (hN h2), hpos⟩, _, hready⟩, ?_⟩
        intro p' hp'
        simp only [afterCont, blockAt, hb, Option.map_some]
        rw [if_pos hl]
        simp only [pure, Except.pure, bind, Except.bind, hp']
      · rw [if_neg hl, if_neg hl]
        refine ERel.bind (ERel.mono (startsLoop_rel hX _ _ (by omega) hcr hsp g6 hpos hready) fun p1 q1 he g => ⟨g, ?_⟩) last
        intro p' hp'
        simp only [afterCont, blockAt, hb, Option.map_some]
        rw [if_neg hl]
        simp only [pure, Except.pure, bind, Except.bind, he, hp']

end CM
