import Verif.Proofs.FlagInv
import Verif.Proofs.Item
import Verif.Spec.Lazy
/-
A line that goes on with the open paragraph, with or without the markers of the containers.
-/
set_option linter.unusedVariables false
namespace CM
open Spec

/-! ### The cursor before the text -/

/-- After spaces and tabs comes `x`. -/
def Stands (x : Str) (p : PState) : Prop := Cur p ∧ ∃ w, OnlySpTab w ∧ p.currentLine.drop p.offset = w ++ x

/-- The first character of the text. -/
def TextHead (x : Str) : Prop := ∃ c r, x = c :: r ∧ c ≠ ' ' ∧ c ≠ '\t' ∧ c ≠ '\n' ∧ c ≠ '\r' ∧ c ≠ '>'

theorem skipWs_only {c : Char} (r : Str) (h1 : c ≠ ' ') (h2 : c ≠ '\t') : ∀ (w : Str) (i cols : Nat), OnlySpTab w →
    ∃ k, skipWs (w ++ c :: r) i cols = (i + w.length, k, some c)
  | [], i, cols, _ => ⟨cols, by simp [skipWs, h1, h2]⟩
  | y :: w, i, cols, hw => by
    have hw' : OnlySpTab w := fun x hx => hw x (List.mem_cons_of_mem _ hx)
    rcases hw y (by simp) with rfl | rfl
    · obtain ⟨k, e⟩ := skipWs_only r h1 h2 w (i + 1) (cols + 1) hw'
      exact ⟨k, by simp only [List.cons_append, skipWs, e, beq_self_eq_true, if_true, List.length_cons]; congr 1; omega⟩
    · obtain ⟨k, e⟩ := skipWs_only r h1 h2 w (i + 1) (cols + (4 - cols % 4)) hw'
      refine ⟨k, ?_⟩
      simp only [List.cons_append, skipWs, beq_self_eq_true, if_true, List.length_cons]
      rw [if_neg (by decide), e]
      congr 1; omega

theorem find_stands {x : Str} {p : PState} (hx : TextHead x) (h : Stands x p) : (findNextNonspace p).blank = false ∧
    p.currentLine.drop (findNextNonspace p).nextNonspace = x := by
  obtain ⟨c, r, rfl, h1, h2, h3, h4, _⟩ := hx
  obtain ⟨hc, w, hw, he⟩ := h
  obtain ⟨k, e⟩ := skipWs_only r h1 h2 w p.offset p.column hw
  unfold findNextNonspace
  rw [he, e]
  refine ⟨by simp [h3, h4], ?_⟩
  show p.currentLine.drop (p.offset + w.length) = _
  rw [← List.drop_drop, he]
  simp

theorem advance_only {line x : Str} (hx : TextHead x) : ∀ (n count off col : Nat) (pct : Bool) (w : Str), OnlySpTab w → line.drop off = w ++ x →
    count + col ≤ (skipWs (w ++ x) off col).2.1 → count ≤ n →
    ∃ w', OnlySpTab w' ∧ line.drop (advanceLoop line true n count off col pct).1 = w' ++ x
  | 0, count, off, col, pct, w, hw, he, hc, hn => ⟨w, hw, he⟩
  | n + 1, count, off, col, pct, w, hw, he, hc, hn => by
    simp only [advanceLoop]
    by_cases h0 : count = 0
    · rw [if_pos (by simp [h0])]; exact ⟨w, hw, he⟩
    rw [if_neg (by simpa using h0)]
    cases w with
    | nil =>
      exfalso
      obtain ⟨c, r, rfl, h1, h2, _⟩ := hx
      simp [skipWs, h1, h2] at hc
      omega
    | cons y w =>
      have hy := hw y (by simp)
      have hw' : OnlySpTab w := fun x hx => hw x (List.mem_cons_of_mem _ hx)
      have hg : line[off]? = some y := by
        have : (line.drop off)[0]? = some y := by rw [he]; rfl
        rw [List.getElem?_drop] at this
        simpa using this
      have he' : line.drop (off + 1) = w ++ x := by rw [← List.drop_drop, he]; rfl
      rw [hg]
      rcases hy with rfl | rfl
      · simp only []
        rw [if_neg (by decide)]
        refine advance_only hx n (count - 1) (off + 1) (col + 1) false w hw' he' ?_ (by omega)
        simp only [List.cons_append, skipWs, beq_self_eq_true, if_true] at hc
        omega
      · simp only [beq_self_eq_true, if_true]
        simp only [List.cons_append, skipWs, beq_self_eq_true, if_true] at hc
        rw [if_neg (by decide)] at hc
        by_cases ht : 4 - col % 4 > count
        · have : min count (4 - col % 4) = count := by omega
          simp only [ht, decide_true, if_true, this, Nat.sub_self]
          refine ⟨'\t' :: w, hw, ?_⟩
          cases n with
          | zero => exact he
          | succ n => simp only [advanceLoop, beq_self_eq_true, if_true]; exact he
        · have hm : min count (4 - col % 4) = 4 - col % 4 := by omega
          simp only [ht, decide_false, Bool.false_eq_true, if_false, hm]
          exact advance_only hx n (count - (4 - col % 4)) (off + 1) (col + (4 - col % 4)) false w hw' he' (by omega) (by omega)

theorem adv_stands {x : Str} {p : PState} (hx : TextHead x) (h : Stands x p) {n : Nat} (hn : n ≤ (findNextNonspace p).indent) :
    Stands x (advanceOffset n true (findNextNonspace p)) := by
  have hc := h.1
  obtain ⟨_, w, hw, he⟩ := h
  refine ⟨cur_adv (p := findNextNonspace p) hc _ _, ?_⟩
  have hn : n ≤ (skipWs (p.currentLine.drop p.offset) p.offset p.column).2.1 - p.column := hn
  have hle := skipWs_le (p.currentLine.drop p.offset) p.offset p.column
  rw [he] at hn hle
  exact advance_only (line := p.currentLine) hx n n p.offset p.column p.partiallyConsumedTab w hw he (by omega) (Nat.le_refl _)

/-! ### The containers -/

/-- Containers and, at the end, a paragraph. -/
def Holders (bs : List OpenBlk) : Prop := ∃ cs b, bs = cs ++ [b] ∧ b.data.t = .paragraph ∧ ∀ c ∈ cs, c.data.t = .blockQuote ∨ c.data.t = .list ∨ c.data.t = .item

theorem Holders.cons {b : OpenBlk} {bs : List OpenBlk} (h : Holders (b :: bs)) :
    (b.data.t = .paragraph ∧ bs = []) ∨ ((b.data.t = .blockQuote ∨ b.data.t = .list ∨ b.data.t = .item) ∧ Holders bs) := by
  obtain ⟨cs, x, h1, h2, h3⟩ := h
  cases cs with
  | nil => simp at h1; obtain ⟨rfl, rfl⟩ := h1; exact .inl ⟨h2, rfl⟩
  | cons c cs =>
    simp only [List.cons_append, List.cons.injEq] at h1
    obtain ⟨rfl, rfl⟩ := h1
    exact .inr ⟨h3 b (by simp), cs, x, rfl, h2, fun c hc => h3 c (by simp [hc])⟩

theorem cont_stands {x : Str} (hx : TextHead x) : ∀ (bs : List OpenBlk) (d : Nat) {p : PState}, Holders bs → Stands x p →
    ∃ n q, contLoop bs d p = .ok (.inr (n, q)) ∧ Stands x q
  | [], d, p, hb, h => by obtain ⟨cs, b, h1, _⟩ := hb; simp at h1
  | b :: bs, d, p, hb, h => by
    obtain ⟨f1, f2⟩ := find_stands hx h
    have hf : Stands x (findNextNonspace p) := h
    simp only [contLoop]
    rcases hb.cons with ⟨hk, rfl⟩ | ⟨hk, hb'⟩
    · have : continueBlock b.data (!b.children.isEmpty || !([] : List OpenBlk).isEmpty) (findNextNonspace p) = (.matched, findNextNonspace p) := by
        simp [continueBlock, hk, f1]
      rw [this]
      exact ⟨_, _, rfl, hf⟩
    · rcases hk with hk | hk | hk
      · have hp : peekAt (findNextNonspace p).currentLine (findNextNonspace p).nextNonspace ≠ some '>' := by
          obtain ⟨c, r, rfl, _, _, _, _, h5⟩ := hx
          have := peekAt_drop f2
          show peekAt p.currentLine _ ≠ _
          rw [this]; simpa using h5
        have : continueBlock b.data (!b.children.isEmpty || !bs.isEmpty) (findNextNonspace p) = (.failed, findNextNonspace p) := by
          simp [continueBlock, hk, hp]
        rw [this]
        exact ⟨_, _, rfl, hf⟩
      · have : continueBlock b.data (!b.children.isEmpty || !bs.isEmpty) (findNextNonspace p) = (.matched, findNextNonspace p) := by
          simp [continueBlock, hk]
        rw [this]
        exact cont_stands hx bs _ hb' hf
      · obtain ⟨w, hw⟩ : ∃ w, continueBlock b.data (!b.children.isEmpty || !bs.isEmpty) (findNextNonspace p) =
            if (findNextNonspace p).indent ≥ w then (.matched, advanceOffset w true (findNextNonspace p)) else (.failed, findNextNonspace p) :=
          (by
            cases hl : b.data.listData with
            | none => exact ⟨0, by simp only [continueBlock, hk, f1, Bool.false_eq_true, if_false, hl]⟩
            | some l => exact ⟨l.markerOffset + l.padding, by simp only [continueBlock, hk, f1, Bool.false_eq_true, if_false, hl]⟩)
        rw [hw]
        by_cases hw : (findNextNonspace p).indent ≥ w
        · rw [if_pos hw]
          exact cont_stands hx bs _ hb' (adv_stands hx h hw)
        · rw [if_neg hw]
          exact ⟨_, _, rfl, hf⟩

/-- The blocks are those of the path. -/
def Along (b : OpenBlk) (d : NodeData) : Prop := b.data.t = d.t ∧ (d.t = .item → ∀ i, d.listData = some i → ∃ j, b.data.listData = some j ∧
  j.markerOffset = i.markerOffset ∧ j.padding = i.padding)

theorem advance_drop {p : PState} {l : Str} : ∀ (n : Nat) (off col : Nat) (pct b : Bool), p.currentLine.drop off = List.replicate n ' ' ++ l →
    p.currentLine.drop (advanceLoop p.currentLine b n n off col pct).1 = l
  | 0, off, col, pct, b, h => by simpa [advanceLoop] using h
  | n + 1, off, col, pct, b, h => by
    have hg : p.currentLine[off]? = some ' ' := by
      have : (p.currentLine.drop off)[0]? = some ' ' := by rw [h]; rfl
      rw [List.getElem?_drop] at this
      simpa using this
    have he' : p.currentLine.drop (off + 1) = List.replicate n ' ' ++ l := by rw [← List.drop_drop, h]; rfl
    simp only [advanceLoop]
    rw [if_neg (by simp), hg]
    simp only []
    rw [if_neg (by decide)]
    exact advance_drop n (off + 1) (col + 1) false b he'

theorem quote_drop {p : PState} {k : Nat} {y : Str} (hc : Cur p) (hk : k ≤ 3) (h : p.currentLine.drop p.offset = List.replicate k ' ' ++ '>' :: y) :
    (findNextNonspace p).indented = false ∧ peekAt p.currentLine (findNextNonspace p).nextNonspace = some '>' ∧
    (advanceOffset 1 false (advanceNextNonspace (findNextNonspace p))).offset = p.offset + k + 1 ∧
    p.currentLine.drop (p.offset + k + 1) = y := by
  have e := skipWs_replicate k '>' y (by decide) (by decide) p.offset p.column
  have e1 : (findNextNonspace p).nextNonspace = p.offset + k := by
    unfold findNextNonspace; rw [h, e]
  have hd : p.currentLine.drop (p.offset + k) = '>' :: y := by rw [← List.drop_drop, h]; simp
  have hlt : p.offset + k < p.currentLine.length := by
    rcases Nat.lt_or_ge (p.offset + k) p.currentLine.length with h | h
    · exact h
    · rw [List.drop_eq_nil_of_le h] at hd; cases hd
  refine ⟨?_, ?_, ?_, ?_⟩
  · unfold findNextNonspace; rw [h, e]; simp; omega
  · rw [e1]; exact peekAt_drop hd
  · rw [offset_chars (p := advanceNextNonspace (findNextNonspace p))]
    · show (findNextNonspace p).nextNonspace + 1 = _; rw [e1]
    · show (findNextNonspace p).nextNonspace + 1 ≤ p.currentLine.length; rw [e1]; omega
  · rw [← List.drop_drop, hd]; rfl

theorem unmarked_head {x w : Str} (hx : TextHead x) (hw : OnlySpTab w) {path : List NodeData} {l y : Str} (hu : Unmarked path l y) : y = w ++ x →
    ∃ w' c r, OnlySpTab w' ∧ l = w' ++ c :: r ∧ c ≠ ' ' ∧ c ≠ '\t' ∧ c ≠ '\n' ∧ c ≠ '\r' := by
  have hrep : ∀ k, OnlySpTab (List.replicate k ' ') := fun k z hz => .inl (List.eq_of_mem_replicate hz)
  induction hu with
  | rest =>
    rintro rfl
    obtain ⟨c, r, rfl, h1, h2, h3, h4, _⟩ := hx
    exact ⟨w, c, r, hw, rfl, h1, h2, h3, h4⟩
  | pass _ _ ih => exact ih
  | @quote d path k l y _ _ _ ih => exact fun _ => ⟨List.replicate k ' ', '>', ' ' :: l, hrep k, rfl, by decide, by decide, by decide, by decide⟩
  | @tightQuote d path k l y _ _ _ _ _ ih => exact fun _ => ⟨List.replicate k ' ', '>', l, hrep k, rfl, by decide, by decide, by decide, by decide⟩
  | @item d path i l y _ _ _ ih =>
    intro hy
    obtain ⟨w', c, r, h1, rfl, h2⟩ := ih hy
    refine ⟨List.replicate (i.markerOffset + i.padding) ' ' ++ w', c, r, ?_, by simp, h2⟩
    intro z hz
    rcases List.mem_append.1 hz with hz | hz
    · exact hrep _ z hz
    · exact h1 z hz

theorem cont_unmarked {x w : Str} (hx : TextHead x) (hw : OnlySpTab w) {path : List NodeData} {l y : Str} (hu : Unmarked path l y) : y = w ++ x →
    ∀ (bs : List OpenBlk) (d : Nat) {p : PState}, Holders bs → List.Forall₂ Along bs.dropLast path → (∀ d ∈ path, d.t ≠ .document) → Cur p →
    p.currentLine.drop p.offset = l → ∃ n q, contLoop bs d p = .ok (.inr (n, q)) ∧ Stands x q := by
  induction hu with
  | rest =>
    rintro rfl bs d p hb ha hnd hc he
    exact cont_stands hx bs d hb ⟨hc, w, hw, he⟩
  | @pass d' path l y hk hu ih =>
    intro hy bs d p hb ha hnd hc he
    obtain ⟨cs, b, rfl, hb1, hb2⟩ := hb
    rw [List.dropLast_concat] at ha
    cases ha with
    | @cons c _ cs _ h1 h2 =>
      have hd' := hnd d' (by simp)
      have hct : c.data.t = .list := by rw [h1.1]; rcases hk with h | h; exact absurd h hd'; exact h
      simp only [List.cons_append, contLoop]
      have : continueBlock c.data (!c.children.isEmpty || !(cs ++ [b]).isEmpty) (findNextNonspace p) = (.matched, findNextNonspace p) := by
        simp [continueBlock, hct]
      rw [this]
      exact ih hy (cs ++ [b]) (d + 1) ⟨cs, b, rfl, hb1, fun c hc => hb2 c (by simp [hc])⟩ (by rw [List.dropLast_concat]; exact h2)
        (fun d hd => hnd d (by simp [hd])) (p := findNextNonspace p) hc he
  | @quote d' path k l y hk h3 hu ih =>
    intro hy bs d p hb ha hnd hc he
    obtain ⟨cs, b, rfl, hb1, hb2⟩ := hb
    rw [List.dropLast_concat] at ha
    cases ha with
    | @cons c _ cs _ h1 h2 =>
      have hct : c.data.t = .blockQuote := by rw [h1.1]; exact hk
      simp only [List.cons_append, contLoop]
      obtain ⟨q1, q2, q3, q4⟩ := quote_drop hc h3 he
      have q2' : peekAt (findNextNonspace p).currentLine (findNextNonspace p).nextNonspace = some '>' := q2
      have : continueBlock c.data (!c.children.isEmpty || !(cs ++ [b]).isEmpty) (findNextNonspace p) = (.matched, eatQuoteMarker (findNextNonspace p)) := by
        simp [continueBlock, hct, q1, q2']
      rw [this]
      refine ih hy (cs ++ [b]) (d + 1) ⟨cs, b, rfl, hb1, fun c hc => hb2 c (by simp [hc])⟩ (by rw [List.dropLast_concat]; exact h2)
        (fun d hd => hnd d (by simp [hd])) (p := eatQuoteMarker (findNextNonspace p)) (cur_eat (curN_find hc)) ?_
      have hp : peekAt (advanceOffset 1 false (advanceNextNonspace (findNextNonspace p))).currentLine
          (advanceOffset 1 false (advanceNextNonspace (findNextNonspace p))).offset = some ' ' := by
        rw [q3]; exact peekAt_drop q4
      unfold eatQuoteMarker
      simp only [hp]
      rw [if_pos (by decide)]
      exact advance_drop (p := p) (l := l) 1 _ _ _ true (by rw [q3, q4]; rfl)
  | @tightQuote d' path k l y hk h3 hs ht hu ih =>
    intro hy bs d p hb ha hnd hc he
    obtain ⟨cs, b, rfl, hb1, hb2⟩ := hb
    rw [List.dropLast_concat] at ha
    cases ha with
    | @cons c _ cs _ h1 h2 =>
      have hct : c.data.t = .blockQuote := by rw [h1.1]; exact hk
      simp only [List.cons_append, contLoop]
      obtain ⟨q1, q2, q3, q4⟩ := quote_drop hc h3 he
      have q2' : peekAt (findNextNonspace p).currentLine (findNextNonspace p).nextNonspace = some '>' := q2
      have : continueBlock c.data (!c.children.isEmpty || !(cs ++ [b]).isEmpty) (findNextNonspace p) = (.matched, eatQuoteMarker (findNextNonspace p)) := by
        simp [continueBlock, hct, q1, q2']
      rw [this]
      refine ih hy (cs ++ [b]) (d + 1) ⟨cs, b, rfl, hb1, fun c hc => hb2 c (by simp [hc])⟩ (by rw [List.dropLast_concat]; exact h2)
        (fun d hd => hnd d (by simp [hd])) (p := eatQuoteMarker (findNextNonspace p)) (cur_eat (curN_find hc)) ?_
      have hp : peekAt (advanceOffset 1 false (advanceNextNonspace (findNextNonspace p))).currentLine
          (advanceOffset 1 false (advanceNextNonspace (findNextNonspace p))).offset = l.head? := by
        rw [q3, ← q4, head?_peek]; rfl
      unfold eatQuoteMarker
      simp only [hp]
      rw [if_neg]
      · show p.currentLine.drop (advanceOffset 1 false (advanceNextNonspace (findNextNonspace p))).offset = l
        rw [q3, q4]
      · cases hl : l.head? with
        | none => simp [isSpTabOpt]
        | some z =>
          rw [hl] at hs ht
          simp only [isSpTabOpt, isSpTab, Bool.or_eq_true, beq_iff_eq, not_or]
          exact ⟨fun h => hs (by rw [h]), fun h => ht (by rw [h])⟩
  | @item d' path i l y hk hi hu ih =>
    intro hy bs d p hb ha hnd hc he
    obtain ⟨cs, b, rfl, hb1, hb2⟩ := hb
    rw [List.dropLast_concat] at ha
    cases ha with
    | @cons c _ cs _ h1 h2 =>
      have hct : c.data.t = .item := by rw [h1.1]; exact hk
      obtain ⟨j, hj, j1, j2⟩ := h1.2 hk i hi
      simp only [List.cons_append, contLoop]
      have hnb : (findNextNonspace p).blank = false ∧ i.markerOffset + i.padding ≤ (findNextNonspace p).indent := by
        have e := skipWs_spaces (i.markerOffset + i.padding) l p.offset p.column
        have hle := skipWs_le l (p.offset + (i.markerOffset + i.padding)) (p.column + (i.markerOffset + i.padding))
        refine ⟨?_, ?_⟩
        · obtain ⟨w', c', r', hw', hl', c1, c2, c3, c4⟩ := unmarked_head hx hw hu hy
          have : Stands (c' :: r') p := by
            refine ⟨hc, List.replicate (i.markerOffset + i.padding) ' ' ++ w', ?_, by rw [he, hl']; simp⟩
            intro z hz
            rcases List.mem_append.1 hz with hz | hz
            · exact .inl (List.eq_of_mem_replicate hz)
            · exact hw' z hz
          obtain ⟨_, w2, hw2, he2⟩ := this
          obtain ⟨k2, e2⟩ := skipWs_only r' c1 c2 w2 p.offset p.column hw2
          unfold findNextNonspace
          rw [he2, e2]
          simp [c3, c4]
        · unfold findNextNonspace
          rw [he, e]
          show i.markerOffset + i.padding ≤ (skipWs l (p.offset + (i.markerOffset + i.padding)) (p.column + (i.markerOffset + i.padding))).2.1 - p.column
          omega
      have : continueBlock c.data (!c.children.isEmpty || !(cs ++ [b]).isEmpty) (findNextNonspace p) =
          (.matched, advanceOffset (i.markerOffset + i.padding) true (findNextNonspace p)) := by
        simp only [continueBlock, hct, hnb.1, Bool.false_eq_true, if_false, hj, j1, j2]
        rw [if_pos hnb.2]
      rw [this]
      exact ih hy (cs ++ [b]) (d + 1) ⟨cs, b, rfl, hb1, fun c hc => hb2 c (by simp [hc])⟩ (by rw [List.dropLast_concat]; exact h2)
        (fun d hd => hnd d (by simp [hd])) (p := advanceOffset (i.markerOffset + i.padding) true (findNextNonspace p)) (cur_adv (p := findNextNonspace p) hc _ _)
        (advance_drop (p := p) _ _ _ _ true he)

/-! ### The block starts -/

theorem textLine_kind {k k' : Kind} {x : Str} (h : TextLine k x) (hk : k ≠ .paragraph) (hk' : k' ≠ .paragraph) : TextLine k' x := by
  have e1 : (k != .paragraph) = true := by simpa using hk
  have e2 : (k' != .paragraph) = true := by simpa using hk'
  have hh : htmlBlockType k' x = htmlBlockType k x := by
    unfold htmlBlockType; simp only [e1, e2]
  have hm : listMarker k' x = listMarker k x := by
    unfold listMarker; simp only [e1, e2]
  refine ⟨h.nonul, h.head, h.quote, h.atx, h.fence, fun hc => by rw [hh]; exact h.html hc, fun h0 => absurd h0 hk', h.thematic, ?_⟩
  rw [hm]; exact h.list

theorem tryStarts_lazy {p : PState} {container : NodeData} {x : Str} (h : TextLine container.t x)
    (hl : p.currentLine.drop p.nextNonspace = x) (hi : p.indented = decide (p.indent ≥ 4)) (ht : tipKind p = some .paragraph) :
    tryStarts (blockStarts container) p = .ok (.none, p) := by
  have hpk : peekAt p.currentLine p.nextNonspace = x.head? := by rw [← hl, head?_peek]
  have hq : (x.head? == some '>') = false := by simpa using h.quote
  have e1 : startBlockQuote p = .ok (.none, p) := by
    simp [startBlockQuote, hpk, hq]
  have e2 : startAtx p = .ok (.none, p) := by
    simp [startAtx, hl, h.atx]
  have e3 : startFenced p = .ok (.none, p) := by
    simp [startFenced, hl, h.fence]
  have e4 : startHtml container.t p = .ok (.none, p) := by
    simp only [startHtml, hpk]
    split
    · rename_i hh
      simp only [Bool.and_eq_true, beq_iff_eq] at hh
      rw [hl, h.html hh.2]
    · rfl
  have e5 : startSetext container.t p = .ok (.none, p) := by
    simp only [startSetext]
    split
    · rename_i hh
      simp only [Bool.and_eq_true, beq_iff_eq] at hh
      rw [hl, h.setext hh.2]
    · rfl
  have e6 : startThematic p = .ok (.none, p) := by
    simp [startThematic, hl, h.thematic]
  have e7 : startListItem container p = .ok (.none, p) := by
    have : parseListMarker container.t p = .ok (none, p) := by
      unfold parseListMarker
      split
      · rfl
      · rw [hl]
        rcases h.list with hh | ⟨m, ty, b, st, dl, hh, hx⟩
        · rw [hh]
        · rw [hh]
          simp only
          have : peekAt p.currentLine (p.nextNonspace + m.length) = peekAt x m.length := by
            rw [← hl]; unfold peekAt; rw [List.getElem?_drop]
          rw [this]
          rw [if_pos (by simpa [Option.isSome_iff_ne_none] using hx)]
    unfold startListItem
    split
    · rw [this]; rfl
    · rfl
  have e8 : startIndented p = .ok (.none, p) := by
    simp [startIndented, ht]
  simp [blockStarts, tryStarts, e1, e2, e3, e4, e5, e6, e7, e8, bind, Except.bind]

theorem startsLoop_lazy {p : PState} {container : NodeData} {x : Str} {n : Nat} (h : TextLine container.t x) (hx : TextHead x) (hs : Stands x p)
    (ht : tipKind p = some .paragraph) : startsLoop (n + 1) container p = .ok (advanceNextNonspace (findNextNonspace p)) := by
  have hf := tryStarts_lazy (p := findNextNonspace p) h (find_stands hx hs).2 rfl ht
  rw [startsLoop]
  simp only [hf, bind, Except.bind]
  rw [ite_self]
  rfl

/-! ### The whole line -/

/-- The open paragraph with one more line. -/
def grown (x : Str) : List OpenBlk → List OpenBlk
  | [] => []
  | b :: r => { b with data := setContent b.data ((b.data.stringContent.getD []) ++ x ++ ['\n']) } :: r

theorem addLine_grown {p p' : PState} {x : Str} (h : addLine p = .ok p') (h1 : p.partiallyConsumedTab = false) (h2 : p.currentLine.drop p.offset = x) :
    p'.spine = grown x p.spine ∧ p'.refmap = p.refmap ∧ p'.lineNumber = p.lineNumber := by
  simp only [addLine] at h
  rw [if_neg (by simp [h1])] at h
  simp only [appendContent] at h
  cases hs : p.spine with
  | nil => rw [hs] at h; cases h
  | cons b r =>
    rw [hs] at h
    simp only at h
    cases hc : b.data.stringContent with
    | none => rw [hc] at h; cases h
    | some y =>
      rw [hc] at h
      cases h
      refine ⟨?_, rfl, rfl⟩
      simp [grown, hc, setContent, h2]

theorem setFlag_self {b : OpenBlk} (h : b.data.lastLineBlank = false) : ({ b with data := { b.data with lastLineBlank := false } } : OpenBlk) = b := by
  obtain ⟨d, cs⟩ := b
  cases d
  simp only at h
  subst h
  rfl

theorem chain_holders {d : NodeData} {ds : List NodeData} (h : Chain (d :: ds)) : ∀ e ∈ ds.dropLast, e.t = .blockQuote ∨ e.t = .list ∨ e.t = .item := by
  induction ds generalizing d with
  | nil => simp
  | cons e ds ih =>
    cases h with
    | cons h1 h2 h3 h4 =>
      intro f hf
      cases ds with
      | nil => simp at hf
      | cons g ds =>
        rw [List.dropLast_cons_cons] at hf
        rcases List.mem_cons.1 hf with rfl | hf
        · cases h4 with
          | cons _ h5 _ _ =>
            revert h1 h5
            generalize f.t = k
            generalize d.t = k'
            cases k <;> simp [canContain]
        · exact ih h4 f hf

theorem holders_of {p : PState} (hc : Chain p.ds) (ht : tipKind p = some .paragraph) : Holders (p.spine.reverse.drop 1) ∧
    ∀ d ∈ p.ds, acceptsLines d.t = true → d.t = .paragraph := by
  cases hs : p.spine with
  | nil => rw [PState.ds, hs] at hc; cases hc
  | cons b r =>
    rw [PState.ds, hs] at hc
    have hb : b.data.t = .paragraph := by simpa [tipKind, hs] using ht
    rcases List.eq_nil_or_concat r with rfl | ⟨r', e, rfl⟩
    · cases hc with
      | doc h => rw [hb] at h; cases h
    · simp only [List.concat_eq_append] at hc ⊢
      have hk := chain_holders hc
      rw [List.map_append, List.map_cons, List.map_nil, List.dropLast_concat] at hk
      refine ⟨⟨r'.reverse, b, by simp, hb, ?_⟩, ?_⟩
      · intro c hc'
        exact hk c.data (List.mem_map_of_mem (List.mem_reverse.1 hc'))
      · intro d hd ha
        rw [PState.ds, hs] at hd
        simp only [List.concat_eq_append, List.map_cons, List.map_append, List.map_nil, List.mem_cons, List.mem_append, List.not_mem_nil, or_false] at hd
        rcases hd with rfl | hd | rfl
        · exact hb
        · rcases hk d hd with h | h | h <;> rw [h] at ha <;> cases ha
        · obtain ⟨d', hd1, hd2⟩ := hc.last_doc
          have e0 : (b :: (r' ++ [e])).map (·.data) = (b.data :: r'.map (·.data)) ++ [e.data] := by simp
          rw [e0, List.getLast?_concat] at hd1
          cases hd1
          rw [hd2] at ha; cases ha

theorem unmarked_nul {path : List NodeData} {l y : Str} (hu : Unmarked path l y) (hy : Char.ofNat 0 ∉ y) : Char.ofNat 0 ∉ l := by
  have hrep : ∀ k, Char.ofNat 0 ∉ List.replicate k ' ' := fun k hz => absurd (List.eq_of_mem_replicate hz) (by decide)
  induction hu with
  | rest => exact hy
  | pass _ _ ih => exact ih hy
  | quote _ _ _ ih =>
    intro h
    rcases List.mem_append.1 h with h | h
    · exact hrep _ h
    · rcases List.mem_cons.1 h with h | h
      · exact absurd h (by decide)
      · rcases List.mem_cons.1 h with h | h
        · exact absurd h (by decide)
        · exact ih hy h
  | tightQuote _ _ _ _ _ ih =>
    intro h
    rcases List.mem_append.1 h with h | h
    · exact hrep _ h
    · rcases List.mem_cons.1 h with h | h
      · exact absurd h (by decide)
      · exact ih hy h
  | item _ _ _ ih =>
    intro h
    rcases List.mem_append.1 h with h | h
    · exact hrep _ h
    · exact ih hy h

theorem textHead_of {x : Str} (h : StartsNoBlock true x) : TextHead x := by
  obtain ⟨c, r, rfl, h1, _⟩ := h.first
  have hq := h.quote
  have hm : ∀ d, d ∈ " \t\n\r".toList → c ≠ d := fun d hd h => h1 (h ▸ hd)
  refine ⟨c, r, rfl, hm _ (by decide), hm _ (by decide), hm _ (by decide), hm _ (by decide), ?_⟩
  rintro rfl; exact hq rfl

/-- A line that goes on with the open paragraph. -/
theorem goes_on {p p' : PState} (hr : Ready p) (hi : FlagInv p) (ht : tipKind p = some .paragraph) {path : List NodeData} {d0 : NodeData} {l x : Str}
    (hp : List.Forall₂ Along (p.spine.reverse.drop 1).dropLast path) (hd0 : d0.t = .document) (h : GoesOn (d0 :: path) l x) (h1 : OneLine x)
    (he : incorporateLine p l = .ok p') : p'.spine = grown x p.spine ∧ p'.refmap = p.refmap ∧ p'.lineNumber = p.lineNumber + 1 := by
  obtain ⟨⟨w, hw, hu⟩, htx⟩ := h
  have hx := textHead_of (htx true)
  have hnul : Char.ofNat 0 ∉ l := by
    refine unmarked_nul hu ?_
    intro h
    rcases List.mem_append.1 h with h | h
    · rcases hw _ h with h | h <;> exact absurd h (by decide)
    · exact (htx true).noNul h
  have hu' : Unmarked path l (w ++ x) := by
    cases hu with
    | rest => exact .rest
    | pass _ hu => exact hu
    | quote h => rw [hd0] at h; cases h
    | tightQuote h => rw [hd0] at h; cases h
    | item h => rw [hd0] at h; cases h
  obtain ⟨hh, hacc⟩ := holders_of hr.good.chain ht
  have hnd : ∀ d ∈ path, d.t ≠ .document := by
    obtain ⟨cs, b, e1, _, e3⟩ := hh
    rw [e1, List.dropLast_concat] at hp
    clear e1 hu hu'
    induction hp with
    | nil => simp
    | @cons c d cs path h1 _ ih =>
      intro e he
      rcases List.mem_cons.1 he with rfl | he
      · intro h0
        have := e3 c (by simp)
        rw [h1.1, h0] at this
        simp at this
      · exact ih (fun c hc => e3 c (by simp [hc])) e he
  rw [incorporateLine_eq, replaceChar_id hnul] at he
  obtain ⟨n, q, f1, f2⟩ := cont_unmarked hx hw hu' rfl (p.spine.reverse.drop 1) 1 (p := atStart p l) hh hp hnd (Nat.zero_le _) rfl
  have f1 : contLoop ((atStart p l).spine.reverse.drop 1) 1 (atStart p l) = .ok (.inr (n, q)) := f1
  rcases cont_cases hr l with ⟨q', e1, _⟩ | ⟨n', q', c, e1, e2, e3, e4, e5, e6, e7, e8⟩
  · rw [f1] at e1; cases e1
  rw [f1] at e1
  cases e1
  rw [f1] at he
  simp only [bind, Except.bind, afterCont] at he
  rw [e5] at he
  simp only at he
  have hsp : q.spine = p.spine := congrArg Core.spine e2
  have hds : q.ds = p.ds := by simp only [PState.ds]; rw [hsp]
  have hot : q.oldtip = p.spine.length := congrArg Books.oldtip e3
  have hrm : q.refmap = p.refmap := congrArg Core.refmap e2
  have hln : q.lineNumber = p.lineNumber + 1 := congrArg Core.line e2
  have hcl : q.currentLine = l := congrArg Core.text e2
  have hcm : c ∈ p.ds := by
    rw [blockAt_ds] at e5
    have e5 : q.ds.reverse[n - 1]? = some c := e5
    rw [← hds]
    exact List.mem_reverse.1 (List.mem_of_getElem? e5)
  have hcc := hacc c hcm
  rw [if_neg (by
    simp only [Bool.and_eq_true, bne_iff_ne, ne_eq, not_and]
    intro h0 h1; exact h0 (hcc h1))] at he
  have htl : TextLine c.t x := by
    by_cases hk : c.t = .paragraph
    · rw [hk]; exact textLine_of (htx true) h1
    · exact textLine_kind (textLine_of (htx false) h1) (by decide) hk
  have hst : Stands x { q with allClosed := n == q.oldtip, lastMatched := n } := f2
  have htq : tipKind { q with allClosed := n == q.oldtip, lastMatched := n } = some .paragraph := by
    rw [← ht]; unfold tipKind; rw [← hsp]
  rw [startsLoop_lazy htl hx hst htq] at he
  simp only at he
  obtain ⟨g1, g2⟩ := find_stands hx hst
  generalize hr' : advanceNextNonspace (findNextNonspace { q with allClosed := n == q.oldtip, lastMatched := n }) = r at he
  have r1 : r.spine = p.spine := by rw [← hr']; exact hsp
  have r2 : r.allClosed = (n == q.oldtip) := by rw [← hr']; rfl
  have r3 : r.blank = false := by rw [← hr']; exact g1
  have r4 : r.partiallyConsumedTab = false := by rw [← hr']; rfl
  have r5 : r.currentLine.drop r.offset = x := by rw [← hr']; exact g2
  have r6 : r.refmap = p.refmap := by rw [← hr']; exact hrm
  have r7 : r.lineNumber = p.lineNumber + 1 := by rw [← hr']; exact hln
  have r8 : tipKind r = some .paragraph := by rw [← ht]; unfold tipKind; rw [r1]
  clear hr' g1 g2
  have key : ∀ z, addText r = .ok z → z.spine = grown x p.spine ∧ z.refmap = p.refmap ∧ z.lineNumber = p.lineNumber + 1 := by
    intro z hz
    simp only [addText] at hz
    by_cases ha : r.allClosed = true
    · rw [if_neg (by simp [ha])] at hz
      have hcu : closeUnmatched r = .ok r := by simp only [closeUnmatched]; rw [if_pos ha]
      rw [hcu] at hz
      simp only [bind, Except.bind] at hz
      cases hs : p.spine with
      | nil => rw [tipKind, hs] at ht; cases ht
      | cons b rest =>
        rw [r1, hs] at hz
        simp only [r3, Bool.false_eq_true, if_false] at hz
        have hfl : lineBlankFlag b r = false := by simp [lineBlankFlag, r3]
        rw [hfl] at hz
        have hn := hi ht
        have hid : (b :: rest).map (fun x => ({ x with data := { x.data with lastLineBlank := false } } : OpenBlk)) = b :: rest := by
          conv => rhs; rw [← List.map_id (b :: rest)]
          refine List.map_congr_left fun y hy => ?_
          exact setFlag_self (hn y.data (by rw [PState.ds, hs]; exact List.mem_map_of_mem hy))
        rw [hid] at hz
        have hb : b.data.t = .paragraph := by simpa [tipKind, hs] using ht
        rw [hb] at hz
        rw [if_pos (show acceptsLines Kind.paragraph = true from rfl)] at hz
        split at hz
        · cases hz
        · rename_i y hy
          rw [if_neg (by simp)] at hz
          cases hz
          obtain ⟨k1, k2, k3⟩ := addLine_grown hy r4 r5
          exact ⟨k1, k2.trans r6, k3.trans r7⟩
    · rw [if_pos (by simp [ha, r3, r8])] at hz
      obtain ⟨k1, k2, k3⟩ := addLine_grown hz r4 r5
      rw [r1] at k1
      exact ⟨k1, k2.trans r6, k3.trans r7⟩
  cases hz : addText r with
  | error => rw [hz] at he; cases he
  | ok z =>
    rw [hz] at he
    cases he
    exact key z hz

end CM
