import Verif.Proofs.Source
/-
The inline parser keeps `Source`: one step, the loop, and `parseInlines`.
-/
set_option linter.unusedSimpArgs false
set_option linter.unusedVariables false
namespace CM
open Spec

/-- At `pos` no delimiter run is cut. -/
def Fresh (S : Str) (pos : Nat) : Prop :=
  ∀ ch, ch = '*' ∨ ch = '_' → (S.take pos).getLast? = some ch → S[pos]? = some ch → ∃ x, S.take pos = x ++ ['\\', ch]

def BrD (b : Bracket) (ds : List Delim) : Prop :=
  (b.prevDelim = none ∧ ∀ d ∈ ds, b.node < d.node) ∨
  ∃ p, b.prevDelim = some p ∧ p < b.node ∧ (∃ d ∈ ds, d.node = p) ∧ ∀ d ∈ ds, b.node < d.node ∨ d.node ≤ p

structure SInv (c : Ctx) (strict : Bool) (info : List (Nat × Nat)) (st : IState) : Prop where
  le : st.pos ≤ c.subject.length
  br : BrInv c.smart strict c.refs c.subject info st.brackets st.children (List.range' 0 st.pos)
  inc : Inc st.children
  len : info.length = st.nextId
  one : 1 ≤ st.nextId
  mono : Mono info
  bound : ∀ a ∈ info, a.1 + a.2 ≤ st.pos
  ids : ∀ it ∈ st.children, it.id < st.nextId
  dorder : st.delims.Pairwise fun x y => y.node < x.node
  din : ∀ d ∈ st.delims, DelimIn st.children d
  dok : ∀ d ∈ st.delims, OkS c.subject info d
  border : st.brackets.Pairwise fun x y => y.node < x.node
  bid : ∀ b ∈ st.brackets, b.node < st.nextId
  bdel : ∀ b ∈ st.brackets, BrD b st.delims
  fresh : Fresh c.subject st.pos

variable {c : Ctx} {strict : Bool} {info : List (Nat × Nat)} {st st' : IState}

theorem sinv_start (c : Ctx) (strict : Bool) : SInv c strict [(0, 0)] ⟨0, [], [], [], 1⟩ where
  le := Nat.zero_le _
  br := .nil .nil
  inc := List.Pairwise.nil
  len := rfl
  one := Nat.le_refl _
  mono := by simp [Mono]
  bound := by simp
  ids := by simp
  dorder := List.Pairwise.nil
  din := by simp
  dok := by simp
  border := List.Pairwise.nil
  bid := by simp
  bdel := by simp
  fresh := by intro ch _ h; simp at h

theorem take_add_drop {S m r : Str} {pos : Nat} (h : S.drop pos = m ++ r) : S.take (pos + m.length) = S.take pos ++ m := by
  rw [List.take_add, h, List.take_left' rfl]

theorem fresh_of {S m r : Str} {pos : Nat} {z : Char} (h : S.drop pos = m ++ r) (hm : m.getLast? = some z)
    (h1 : z ≠ '*') (h2 : z ≠ '_') : Fresh S (pos + m.length) := by
  intro ch hch hl _
  exfalso
  have hne : m ≠ [] := by rintro rfl; simp at hm
  rw [take_add_drop h, getLast?_append_ticks hne, hm, Option.some.injEq] at hl
  subst hl
  rcases hch with h | h
  · exact h1 h
  · exact h2 h

theorem fresh_of' {S m r : Str} {pos n : Nat} {z : Char} (h : S.drop pos = m ++ r) (hm : m.getLast? = some z)
    (h1 : z ≠ '*') (h2 : z ≠ '_') (hn : n = m.length) : Fresh S (pos + n) := by
  subst hn; exact fresh_of h hm h1 h2

theorem inc_push {its : List Item} {t : Tree} (h : Inc its) : Inc (its ++ [⟨0, t⟩]) := by
  rw [inc_append]
  refine ⟨h, List.pairwise_singleton _ _, ?_⟩
  intro x _ y hy _ h0
  simp only [List.mem_singleton] at hy
  rw [hy] at h0
  exact absurd rfl h0

theorem delimIn_append {its its' : List Item} {d : Delim} (h : DelimIn its d) : DelimIn (its ++ its') d := by
  obtain ⟨h0, it, h1, h2⟩ := h
  exact ⟨h0, it, by simp [h1], h2⟩

theorem len_of_drop {S m r : Str} {pos : Nat} (h : S.drop pos = m ++ r) (hp : pos ≤ S.length) : pos + m.length ≤ S.length := by
  have := congrArg List.length h
  simp at this
  omega

/-- A node is appended. -/
theorem SInv.add (h : SInv c strict info st) {n : Nat} {t : Tree} (hn : 1 ≤ n) (hl : st.pos + n ≤ c.subject.length)
    (hs : Source c.smart strict c.refs c.subject (flagOf st.brackets) [t] st.pos (st.pos + n))
    (hf : Fresh c.subject (st.pos + n)) : SInv c strict info (st.add n t) where
  le := hl
  br := by
    have := h.br.push (Seg.single (t := t) (s := List.range' st.pos n) (rs_of_source hn hs))
    have e := List.range'_append_1 (s := 0) (m := st.pos) (n := n)
    rw [Nat.zero_add] at e
    rw [e] at this
    exact this
  inc := inc_push h.inc
  len := h.len
  one := h.one
  mono := h.mono
  bound := by intro a ha; have := h.bound a ha; simp only [add_pos]; omega
  ids := by
    intro it hit
    simp only [add_children, List.mem_append, List.mem_singleton] at hit
    rcases hit with hit | rfl
    · exact h.ids it hit
    · exact h.one
  dorder := h.dorder
  din := fun d hd => delimIn_append (h.din d hd)
  dok := h.dok
  border := h.border
  bid := h.bid
  bdel := h.bdel
  fresh := hf

/-- A node for the next characters `m` is appended. -/
theorem SInv.add' (h : SInv c strict info st) {n : Nat} {m r : Str} {t : Tree} {z : Char} (hm : c.rest st.pos = m ++ r)
    (hn : n = m.length) (hz : m.getLast? = some z) (h1 : z ≠ '*') (h2 : z ≠ '_')
    (hs : Source c.smart strict c.refs c.subject (flagOf st.brackets) [t] st.pos (st.pos + n)) :
    SInv c strict info (st.add n t) := by
  refine h.add ?_ ?_ hs ?_
  · have : m ≠ [] := by rintro rfl; simp at hz
    have := List.length_pos_of_ne_nil this
    omega
  · rw [hn]; exact len_of_drop hm h.le
  · exact fresh_of' hm hz h1 h2 hn

/-- A bracket is taken from the stack. -/
theorem SInv.pop (h : SInv c strict info st) {b : Bracket} {bs : List Bracket} (e : st.brackets = b :: bs) :
    SInv c strict info { st with brackets := bs } where
  le := h.le
  br := by have := h.br; rw [e] at this; exact this.pop
  inc := h.inc
  len := h.len
  one := h.one
  mono := h.mono
  bound := h.bound
  ids := h.ids
  dorder := h.dorder
  din := h.din
  dok := h.dok
  border := by have := h.border; rw [e] at this; exact (List.pairwise_cons.1 this).2
  bid := fun x hx => h.bid x (by rw [e]; exact List.mem_cons_of_mem _ hx)
  bdel := fun x hx => h.bdel x (by rw [e]; exact List.mem_cons_of_mem _ hx)
  fresh := h.fresh

theorem mono_more (h : SInv c strict info st) (n : Nat) : Mono (info ++ [(st.pos, n)]) := by
  unfold Mono
  rw [List.pairwise_append]
  refine ⟨h.mono, List.pairwise_singleton _ _, ?_⟩
  intro a ha b hb
  simp only [List.mem_singleton] at hb
  rw [hb]
  exact h.bound a ha

theorem bound_more (h : SInv c strict info st) (n : Nat) : ∀ a ∈ info ++ [(st.pos, n)], a.1 + a.2 ≤ st.pos + n := by
  intro a ha
  simp only [List.mem_append, List.mem_singleton] at ha
  rcases ha with ha | rfl
  · have := h.bound a ha; omega
  · exact Nat.le_refl _

theorem inc_tok (h : SInv c strict info st) (t : Tree) : Inc (st.children ++ [⟨st.nextId, t⟩]) := by
  rw [inc_append]
  refine ⟨h.inc, List.pairwise_singleton _ _, ?_⟩
  intro x hx y hy _ _
  simp only [List.mem_singleton] at hy
  rw [hy]
  exact h.ids x hx

theorem info_last (h : SInv c strict info st) (e : Nat × Nat) : (info ++ [e])[st.nextId]? = some e := by
  rw [← h.len]; simp

theorem delim_lt (h : SInv c strict info st) {d : Delim} (hd : d ∈ st.delims) : d.node < st.nextId := by
  obtain ⟨_, it, h1, h2, _⟩ := h.din d hd
  rw [← h2]; exact h.ids it h1

/-- A delimiter run is pushed. -/
theorem SInv.delim (h : SInv c strict info st) {n : Nat} {t : Tree} {d : Delim} (hd : d.node = st.nextId)
    (hl : st.pos + n ≤ c.subject.length)
    (ht : Tok (DS c.subject (info ++ [(st.pos, n)])) c.smart ⟨st.nextId, t⟩ (List.range' st.pos n))
    (hdt : DTok d t) (hok : OkS c.subject (info ++ [(st.pos, n)]) d) (hf : Fresh c.subject (st.pos + n)) :
    SInv c strict (info ++ [(st.pos, n)]) { st with
      pos := st.pos + n
      children := st.children ++ [⟨st.nextId, t⟩]
      delims := d :: st.delims
      nextId := st.nextId + 1 } where
  le := hl
  br := by
    have h0 : st.nextId ≠ 0 := by have := h.one; omega
    have := (h.br.more (e := (st.pos, n))).push (Seg.one (R := RS c.smart strict c.refs c.subject (flagOf st.brackets)) h0 ht)
    have e := List.range'_append_1 (s := 0) (m := st.pos) (n := n)
    rw [Nat.zero_add] at e
    rw [e] at this
    exact this
  inc := inc_tok h t
  len := by simp [h.len]
  one := Nat.le_add_left _ _
  mono := mono_more h n
  bound := bound_more h n
  ids := by
    intro it hit
    simp only [List.mem_append, List.mem_singleton] at hit
    rcases hit with hit | rfl
    · have := h.ids it hit; simp only; omega
    · simp
  dorder := by
    rw [List.pairwise_cons]
    refine ⟨fun x hx => ?_, h.dorder⟩
    rw [hd]; exact delim_lt h hx
  din := by
    intro x hx
    simp only [List.mem_cons] at hx
    rcases hx with rfl | hx
    · exact ⟨by have := h.one; omega, ⟨st.nextId, t⟩, by simp, hd.symm, hdt⟩
    · exact delimIn_append (h.din x hx)
  dok := by
    intro x hx
    simp only [List.mem_cons] at hx
    rcases hx with rfl | hx
    · exact hok
    · exact oks_more (h.dok x hx)
  border := h.border
  bid := by intro x hx; have := h.bid x hx; simp only; omega
  bdel := by
    intro b hb
    have hlt := h.bid b hb
    rcases h.bdel b hb with ⟨h1, h2⟩ | ⟨p, h1, h2, ⟨x, h3, h4⟩, h5⟩
    · refine Or.inl ⟨h1, fun x hx => ?_⟩
      simp only [List.mem_cons] at hx
      rcases hx with rfl | hx
      · omega
      · exact h2 x hx
    · refine Or.inr ⟨p, h1, h2, ⟨x, by simp [h3], h4⟩, fun x hx => ?_⟩
      simp only [List.mem_cons] at hx
      rcases hx with rfl | hx
      · left; omega
      · exact h5 x hx
  fresh := hf

/-- A bracket is pushed. -/
theorem SInv.bracket (h : SInv c strict info st) {n : Nat} {s : Str} {index : Nat} {image : Bool}
    (hl : st.pos + n ≤ c.subject.length)
    (ht : Tok (DS c.subject (info ++ [(st.pos, n)])) c.smart ⟨st.nextId, textNode s⟩ (List.range' st.pos n))
    (ho : OpenWord c.subject ⟨st.nextId, st.delims.head?.map (·.node), index, image, true⟩ (List.range' st.pos n))
    (hf : Fresh c.subject (st.pos + n)) :
    SInv c strict (info ++ [(st.pos, n)]) (addBracket { st with pos := st.pos + n } s index image) where
  le := hl
  br := by
    have h0 : st.nextId ≠ 0 := by have := h.one; omega
    have := BrInv.cons (b := ⟨st.nextId, st.delims.head?.map (·.node), index, image, true⟩) (h.br.more (e := (st.pos, n))) h0 ht ho .nil
    have e := List.range'_append_1 (s := 0) (m := st.pos) (n := n)
    rw [Nat.zero_add] at e
    rw [List.append_nil, e] at this
    exact this
  inc := inc_tok h _
  len := by simp [h.len, addBracket]
  one := Nat.le_add_left _ _
  mono := mono_more h n
  bound := bound_more h n
  ids := by
    intro it hit
    simp only [addBracket, List.mem_append, List.mem_singleton] at hit
    simp only [addBracket]
    rcases hit with hit | rfl
    · have := h.ids it hit; omega
    · simp
  dorder := h.dorder
  din := fun x hx => delimIn_append (h.din x hx)
  dok := fun x hx => oks_more (h.dok x hx)
  border := by
    simp only [addBracket]
    rw [List.pairwise_cons]
    exact ⟨fun x hx => h.bid x hx, h.border⟩
  bid := by
    intro x hx
    simp only [addBracket, List.mem_cons] at hx ⊢
    rcases hx with rfl | hx
    · simp
    · have := h.bid x hx; omega
  bdel := by
    intro b hb
    simp only [addBracket, List.mem_cons] at hb ⊢
    rcases hb with rfl | hb
    · cases hd : st.delims with
      | nil => exact Or.inl ⟨rfl, by simp⟩
      | cons x ds =>
        refine Or.inr ⟨x.node, rfl, delim_lt h (by simp [hd]), ⟨x, by simp, rfl⟩, fun y hy => ?_⟩
        right
        simp only [List.mem_cons] at hy
        rcases hy with rfl | hy
        · exact Nat.le_refl _
        · have := h.dorder
          rw [hd] at this
          have := (List.pairwise_cons.1 this).1 y hy
          omega
    · exact h.bdel b hb
  fresh := hf

/-! ### Links -/

theorem splitDelims_spec {b : Bracket} {ds : List Delim} (ho : ds.Pairwise fun x y => y.node < x.node) (h : BrD b ds)
    {above below : List Delim} (e : splitDelims b.prevDelim ds = (above, below)) :
    ds = above.reverse ++ below ∧ (∀ d ∈ above, b.node < d.node) ∧ (∀ d ∈ below, d.node < b.node) ∧
      ∀ p, b.prevDelim = some p → ∀ d ∈ ds, d.node ≤ p → d ∈ below := by
  unfold splitDelims at e
  simp only [Prod.mk.injEq] at e
  obtain ⟨rfl, rfl⟩ := e
  rw [List.reverse_reverse]
  have hsplit : ds = (ds.takeWhile fun d => some d.node != b.prevDelim) ++
      ds.drop (ds.takeWhile fun d => some d.node != b.prevDelim).length := by
    have h1 := List.takeWhile_append_dropWhile (p := fun d : Delim => some d.node != b.prevDelim) (l := ds)
    have h2 : ds.drop (ds.takeWhile fun d => some d.node != b.prevDelim).length =
        ds.dropWhile fun d => some d.node != b.prevDelim := by
      conv => lhs; arg 2; rw [← h1]
      rw [List.drop_left' rfl]
    rw [h2]; exact h1.symm
  refine ⟨hsplit, ?_⟩
  have h2 : ds.drop (ds.takeWhile fun d => some d.node != b.prevDelim).length =
      ds.dropWhile fun d => some d.node != b.prevDelim := by
    have h1 := List.takeWhile_append_dropWhile (p := fun d : Delim => some d.node != b.prevDelim) (l := ds)
    conv => lhs; arg 2; rw [← h1]
    rw [List.drop_left' rfl]
  rw [h2]
  clear h2 hsplit
  rcases h with ⟨h1, h2⟩ | ⟨p, h1, h2, ⟨x, h3, h4⟩, h5⟩
  · have hall : ∀ l : List Delim, (l.takeWhile fun d => some d.node != none) = l ∧
        (l.dropWhile fun d => some d.node != none) = [] := by
      intro l; induction l with
      | nil => simp
      | cons a l ih => simp [ih.1, ih.2]
    rw [h1, (hall ds).1, (hall ds).2]
    exact ⟨fun d hd => h2 d (by simpa using hd), by simp, by simp⟩
  · rw [h1]
    have key : ∀ l : List Delim, l.Pairwise (fun x y => y.node < x.node) → x ∈ l →
        (∀ d ∈ l.takeWhile (fun d => some d.node != some p), p < d.node ∧ d ∈ l) ∧
        (∀ d ∈ l.dropWhile (fun d => some d.node != some p), d.node ≤ p) ∧
        (∀ d ∈ l, d.node ≤ p → d ∈ l.dropWhile (fun d => some d.node != some p)) := by
      intro l
      induction l with
      | nil => simp
      | cons a l ih =>
        intro hp hx
        obtain ⟨q1, q2⟩ := List.pairwise_cons.1 hp
        by_cases ha : a.node = p
        · have e1 : (some a.node != some p) = false := by simp [ha]
          rw [List.takeWhile_cons, List.dropWhile_cons]
          simp only [e1, Bool.false_eq_true, if_false]
          refine ⟨by simp, ?_, fun d hd _ => hd⟩
          intro d hd
          simp only [List.mem_cons] at hd
          rcases hd with rfl | hd
          · omega
          · have := q1 d hd; omega
        · have e1 : (some a.node != some p) = true := by simp [ha]
          rw [List.takeWhile_cons, List.dropWhile_cons]
          simp only [e1, if_true]
          have hx' : x ∈ l := by
            simp only [List.mem_cons] at hx
            rcases hx with rfl | hx
            · exact absurd h4 ha
            · exact hx
          obtain ⟨i1, i2, i3⟩ := ih q2 hx'
          have hap : p < a.node := by rw [← h4]; exact q1 x hx'
          refine ⟨?_, i2, ?_⟩
          · intro d hd
            simp only [List.mem_cons] at hd
            rcases hd with rfl | hd
            · exact ⟨hap, by simp⟩
            · exact ⟨(i1 d hd).1, by simp [(i1 d hd).2]⟩
          · intro d hd hle
            simp only [List.mem_cons] at hd
            rcases hd with rfl | hd
            · omega
            · exact i3 d hd hle
    obtain ⟨k1, k2, k3⟩ := key ds ho h3
    refine ⟨fun d hd => ?_, fun d hd => ?_, ?_⟩
    · rw [List.mem_reverse] at hd
      obtain ⟨g1, g2⟩ := k1 d hd
      rcases h5 d g2 with h | h
      · exact h
      · omega
    · have := k2 d hd; omega
    · intro p' hp'
      obtain rfl := Option.some.inj hp'
      exact k3

theorem deactivate_mem {b : Bracket} {bs : List Bracket} (h : b ∈ deactivate bs) :
    ∃ b0 ∈ bs, b.node = b0.node ∧ b.prevDelim = b0.prevDelim := by
  simp only [deactivate, List.mem_map] at h
  obtain ⟨b0, h0, rfl⟩ := h
  refine ⟨b0, h0, ?_⟩
  split <;> simp

theorem deactivate_order {bs : List Bracket} (h : bs.Pairwise fun x y => y.node < x.node) :
    (deactivate bs).Pairwise fun x y => y.node < x.node := by
  induction bs with
  | nil => exact List.Pairwise.nil
  | cons b bs ih =>
    obtain ⟨h1, h2⟩ := List.pairwise_cons.1 h
    have := ih h2
    show ((if b.image then b else { b with active := false }) :: deactivate bs).Pairwise _
    rw [List.pairwise_cons]
    refine ⟨fun x hx => ?_, this⟩
    obtain ⟨b0, g0, g1, _⟩ := deactivate_mem hx
    rw [g1]
    have := h1 b0 g0
    split <;> exact this

/-- The state after a link or image. -/
theorem link_sinv (h : SInv c strict info st) {op : Bracket} {bs bs' : List Bracket} (hb : st.brackets = op :: bs)
    {pre post : List Item} {t node : Tree} (hch : st.children = pre ++ ⟨op.node, t⟩ :: post) (h0 : op.node ≠ 0)
    {above below : List Delim} (hd : splitDelims op.prevDelim st.delims = (above, below))
    (hbs : ∀ b ∈ bs', ∃ b0 ∈ bs, b.node = b0.node ∧ b.prevDelim = b0.prevDelim)
    (hbo : bs'.Pairwise fun x y => y.node < x.node) {k p : Nat} (hkp : k < p)
    (hbr : BrInv c.smart strict c.refs c.subject info bs' pre (List.range' 0 k))
    (hsrc : Source c.smart strict c.refs c.subject (flagOf bs') [node] k p) (hle : st.pos ≤ p) (hp : p ≤ c.subject.length)
    (hf : Fresh c.subject p) :
    SInv c strict info { st with pos := p, children := pre ++ [⟨0, node⟩], delims := below, brackets := bs' } := by
  obtain ⟨d1, d2, d3, d4⟩ := splitDelims_spec h.dorder (h.bdel op (by simp [hb])) hd
  have hinc := h.inc
  rw [hch] at hinc
  have hincp : Inc pre := (inc_append.1 hinc).1
  have hsub : ∀ d ∈ below, d ∈ st.delims := fun d hd => by rw [d1]; simp [hd]
  have hdo := h.dorder
  rw [d1, List.pairwise_append] at hdo
  have hbord := h.border
  rw [hb] at hbord
  obtain ⟨hb1, hb2⟩ := List.pairwise_cons.1 hbord
  refine
    { le := hp
      br := ?_
      inc := inc_push hincp
      len := h.len
      one := h.one
      mono := h.mono
      bound := fun a ha => Nat.le_trans (h.bound a ha) hle
      ids := ?_
      dorder := hdo.2.1
      din := ?_
      dok := fun d hd => h.dok d (hsub d hd)
      border := hbo
      bid := ?_
      bdel := ?_
      fresh := hf }
  · have := hbr.push (Seg.single (t := node) (s := List.range' k (p - k))
      (rs_of_source (by omega) (by rw [show k + (p - k) = p by omega]; exact hsrc)))
    have e := List.range'_append_1 (s := 0) (m := k) (n := p - k)
    rw [Nat.zero_add, show k + (p - k) = p by omega] at e
    rw [e] at this
    exact this
  · intro it hit
    simp only [List.mem_append, List.mem_singleton] at hit
    rcases hit with hit | rfl
    · exact h.ids it (by rw [hch]; simp [hit])
    · exact h.one
  · intro d hd
    obtain ⟨g0, it, g1, g2, g3⟩ := h.din d (hsub d hd)
    rw [hch] at g1
    have := inc_left hinc h0 g1 (by rw [g2]; exact g0) (by rw [g2]; exact d3 d hd)
    exact ⟨g0, it, by simp [this], g2, g3⟩
  · intro b hb'
    obtain ⟨b0, g0, g1, _⟩ := hbs b hb'
    rw [g1]
    exact h.bid b0 (by simp [hb, g0])
  · intro b hb'
    obtain ⟨b0, g0, g1, g2⟩ := hbs b hb'
    have hlt := hb1 b0 g0
    rcases h.bdel b0 (by simp [hb, g0]) with ⟨q1, q2⟩ | ⟨p', q1, q2, ⟨x, q3, q4⟩, q5⟩
    · exact Or.inl ⟨by rw [g2]; exact q1, fun d hd => by rw [g1]; exact q2 d (hsub d hd)⟩
    · refine Or.inr ⟨p', by rw [g2]; exact q1, by rw [g1]; exact q2, ⟨x, ?_, q4⟩, fun d hd => by rw [g1]; exact q5 d (hsub d hd)⟩
      rcases h.bdel op (by simp [hb]) with ⟨r1, r2⟩ | ⟨p'', r1, r2, _, r5⟩
      · have := r2 x q3; omega
      · rcases r5 x q3 with r | r
        · omega
        · exact d4 p'' r1 x q3 r

theorem closeLink_source (h : SInv c strict info st) {op : Bracket} {bs : List Bracket} (hb : st.brackets = op :: bs)
    (hact : op.active = true) (hj : c.subject[st.pos]? = some ']') {p : Nat} {dest title : Str}
    (ht : LinkTail strict c.refs c.subject op.index st.pos p dest title) (hp : p ≤ c.subject.length)
    (hf : Fresh c.subject p) (e : closeLink op bs dest title { st with pos := p } = .ok st') :
    SInv c strict info st' := by
  have hbr := h.br
  rw [hb] at hbr
  generalize hc : st.children = cs at hbr
  generalize hw : List.range' 0 st.pos = w at hbr
  cases hbr with
  | @cons b bs pre post w1 w0 w2 t hpre h0 htok how hpost =>
  have hinc := h.inc
  rw [hc] at hinc
  have hs : splitAtId op.node (pre ++ ⟨op.node, t⟩ :: post) = some (pre, ⟨op.node, t⟩, post) :=
    splitAtId_none (inc_unique hinc h0).1 rfl
  unfold closeLink at e
  simp only [hc, hs] at e
  cases hd : splitDelims op.prevDelim st.delims with
  | mk above below =>
  rw [hd] at e
  simp only at e
  cases hpe : processEmphasis above post with
  | error x => rw [hpe] at e; simp [bind, Except.bind] at e
  | ok inner =>
  rw [hpe] at e
  simp only [bind, Except.bind, pure, Except.pure, Except.ok.injEq] at e
  obtain ⟨d1, d2, d3, d4⟩ := splitDelims_spec h.dorder (h.bdel op (by simp [hb])) hd
  have hdo := h.dorder
  rw [d1, List.pairwise_append] at hdo
  have hord : above.Pairwise fun x y => x.node < y.node := by
    have := hdo.1
    rw [List.pairwise_reverse] at this
    exact this
  have hein : EInv (DS c.subject info) (OkS c.subject info) c.smart
      (RS c.smart strict c.refs c.subject (flagOf (op :: bs))) [] above post w2 := by
    refine ⟨hpost, (inc_cons.1 (inc_append.1 hinc).2.1).2, hord, ?_, ?_⟩
    · intro d hd
      have hd : d ∈ above := by simpa using hd
      obtain ⟨g0, it, g1, g2, g3⟩ := h.din d (by rw [d1]; simp [hd])
      rw [hc] at g1
      exact ⟨g0, it, inc_right hinc h0 g1 (by rw [g2]; exact g0) (by rw [g2]; exact d2 d hd), g2, g3⟩
    · intro d hd
      have hd : d ∈ above := by simpa using hd
      exact h.dok d (by rw [d1]; simp [hd])
  have hseg := (processEmphasis_inv (emphRel_source h.mono) hein hpe).1
  have hrs := hseg.rel (emphRel_source h.mono)
  obtain ⟨e1, e2⟩ := split_range hw.symm
  obtain ⟨e2, e3⟩ := split_range e2
  have hsrc := hrs _ e3
  have hlen : w1.length + w0.length + w2.length = st.pos := by
    have := congrArg List.length hw
    simp at this
    omega
  rw [Nat.zero_add, hlen] at hsrc
  have hjp := linkTail_pos ht
  have hpre' := hpre
  rw [e1] at hpre'
  have hbord := h.border
  rw [hb] at hbord
  obtain ⟨_, hb2⟩ := List.pairwise_cons.1 hbord
  rcases how with ⟨hi, ew, hx⟩ | ⟨hi, k, hk, ew, hx1, hx2⟩
  · have hfl : flagOf (op :: bs) = false := by simp [flagOf, hact, hi]
    have ek : op.index = w1.length := by
      rw [ew] at e2
      simp at e2
      exact e2
    rw [hfl, ew, ← ek] at hsrc
    have hnode : Source c.smart strict c.refs c.subject (flagOf (deactivate bs))
        [linkNode .link dest title (inner.map (·.node))] op.index p := by
      rw [flagOf_deactivate]
      exact .link hx hj hsrc ht
    rw [hi] at e
    simp only [Bool.false_eq_true, if_false] at e
    rw [← e]
    refine link_sinv h hb hc h0 hd (fun b hb => deactivate_mem hb) (deactivate_order hb2) (k := op.index) ?_ ?_ hnode
      (by omega) hp hf
    · omega
    · rw [ek]; exact hpre'.deact
  · have ek : k = w1.length := by
      rw [ew] at e2
      simp [List.range'_succ] at e2
      omega
    rw [ew, ← ek] at hsrc
    have hnode : Source c.smart strict c.refs c.subject (flagOf bs)
        [linkNode .image dest title (inner.map (·.node))] k p := by
      refine source_mono' (L := flagOf (op :: bs)) ?_ flagOf_cons
      rw [hk] at ht
      exact .image hx1 hx2 hj hsrc ht
    rw [hi] at e
    simp only [if_true] at e
    rw [← e]
    refine link_sinv h hb hc h0 hd (fun b hb => ⟨b, hb, rfl, rfl⟩) hb2 (k := k) ?_ ?_ hnode (by omega) hp hf
    · omega
    · rw [ek]; exact hpre'

theorem rest_len (c : Ctx) {p : Nat} {g : Str} {pos : Nat} (hpos : pos ≤ c.subject.length) (h : c.rest pos = g ++ c.rest p)
    (hp : p = pos + g.length) : p ≤ c.subject.length := by
  have := congrArg List.length h
  simp [Ctx.rest] at this
  omega

/-- What a link tail ends with. -/
theorem linkTail_last {S : Str} {refs : Str → Option RefDef} {i j k : Nat} {dest title : Str} (hj : S[j]? = some ']')
    (h : LinkTail strict refs S i j k dest title) : k ≤ S.length ∧ Fresh S k := by
  have hjl := (List.getElem?_eq_some_iff.1 hj).1
  cases h with
  | @inline w r _ _ h1 h2 =>
    have e : S.drop (j + 1) = (w ++ [')']) ++ r := by rw [h1]; simp
    have := len_of_drop e (by omega)
    rw [List.length_append] at this
    refine ⟨by simp at this; omega, ?_⟩
    have := fresh_of e (z := ')') (by simp) (by decide) (by decide)
    rw [List.length_append, ← Nat.add_assoc] at this
    exact this
  | @full g l r _ _ h1 h2 h3 h4 h5 =>
    obtain ⟨x, hx, _, _⟩ := h3
    have e : S.drop (j + 1) = (g ++ l) ++ r := by rw [h1]; simp
    have hlen := len_of_drop e (by omega)
    rw [List.length_append, ← Nat.add_assoc] at hlen
    refine ⟨hlen, ?_⟩
    have := fresh_of e (z := ']') (by rw [hx, ← List.cons_append, ← List.append_assoc, List.getLast?_concat]) (by decide) (by decide)
    rw [List.length_append, ← Nat.add_assoc] at this
    exact this
  | @collapsed g r _ _ h1 h2 h3 =>
    have e : S.drop (j + 1) = (g ++ ['[', ']']) ++ r := by rw [h1]; simp
    have hlen := len_of_drop e (by omega)
    rw [List.length_append, ← Nat.add_assoc] at hlen
    refine ⟨hlen, ?_⟩
    have := fresh_of e (z := ']') (by simp) (by decide) (by decide)
    rw [List.length_append, ← Nat.add_assoc] at this
    exact this
  | shortcut h1 =>
    refine ⟨hjl, ?_⟩
    exact fresh_of (m := [']']) (drop_one hj) (z := ']') rfl (by decide) (by decide)

theorem closeBracket_source (h : SInv c strict info st) (hstrict : strict = true → ¬ [']', '('] <:+: c.subject)
    (hj : c.subject[st.pos]? = some ']') (e : parseCloseBracket c st = .ok st') : SInv c strict info st' := by
  have hrest : c.rest st.pos = [']'] ++ c.rest (st.pos + 1) := drop_one hj
  have htext : ∀ {st1 : IState}, SInv c strict info st1 → st1.pos = st.pos → 
      SInv c strict info (st1.add 1 (textNode (lit "]"))) := by
    intro st1 h1 hp
    have hr1 : c.rest st1.pos = [']'] ++ c.rest (st.pos + 1) := by rw [hp]; exact hrest
    exact h1.add' hr1 rfl (z := ']') rfl (by decide) (by decide) (.closeB hr1)
  unfold parseCloseBracket at e
  simp only at e
  cases hb : st.brackets with
  | nil =>
    rw [hb] at e
    simp only [Except.ok.injEq] at e
    rw [← e]
    have := htext h rfl
    have e' : st = { st with brackets := [] } := by rw [← hb]
    rw [e'] at this
    exact this
  | cons op bs =>
    rw [hb] at e
    simp only at e
    have hpop := htext (h.pop hb) rfl
    by_cases hact : op.active = true
    · simp only [hact, Bool.not_true, Bool.false_eq_true, if_false] at e
      rcases inlineLink_shape c (st.pos + 1) with ⟨dest, title, p, w, r, h1, h2, h3, h4⟩ | ⟨p, g, h1, h2, h3, h4⟩
      · rw [h1] at e
        simp only at e
        have ht : LinkTail strict c.refs c.subject op.index st.pos p dest (title.getD []) := by
          rw [h3]; exact .inline h2 h4
        obtain ⟨q1, q2⟩ := linkTail_last hj ht
        exact closeLink_source h hb hact hj ht q1 q2 (by rw [hb]; exact e)
      · rw [h1] at e
        simp only at e
        have hskip : Skipped strict g (c.rest p) := by
          rcases h4 with rfl | ⟨h4, h5, h6⟩
          · exact Or.inl rfl
          · cases hstr : strict with
            | false => exact Or.inr ⟨rfl, h5, h6⟩
            | true =>
              exfalso
              apply hstrict hstr
              refine ⟨c.subject.take st.pos, c.subject.drop (st.pos + 1 + 1), ?_⟩
              have := drop_one h4
              rw [List.append_assoc]
              show _ ++ (']' :: '(' :: c.subject.drop (st.pos + 1 + 1)) = _
              rw [← drop_one h4, ← drop_one hj, List.take_append_drop]
        cases hr : referenceLink c op (st.pos + 1) p with
        | mk found q =>
          cases found with
          | none =>
            rw [hr] at e
            simp only [Except.ok.injEq] at e
            rw [← e]
            exact hpop
          | some dt =>
            obtain ⟨dest, title⟩ := dt
            rw [hr] at e
            simp only at e
            have ht := referenceLink_shape h2 h3 hskip hr
            obtain ⟨q1, q2⟩ := linkTail_last hj ht
            exact closeLink_source h hb hact hj ht q1 q2 (by rw [hb]; exact e)
    · have hact : op.active = false := by simpa using hact
      simp only [hact, Bool.not_false, if_true, Except.ok.injEq] at e
      rw [← e]
      exact hpop

/-! ### The other steps -/

/-- The first run of exactly `n` backticks. -/
theorem first_ticks {n : Nat} (hn : 1 ≤ n) {t : Str} (ht : t.head? ≠ some '`') (h : ¬ NoTicks n t) :
    ∃ x r, t = x ++ (List.replicate n '`' ++ r) ∧ x ≠ [] ∧ x.head? ≠ some '`' ∧ x.getLast? ≠ some '`' ∧ NoTicks n x ∧
      r.head? ≠ some '`' := by
  have h' : ∃ a b, t = a ++ (List.replicate n '`' ++ b) ∧ a.getLast? ≠ some '`' ∧ b.head? ≠ some '`' :=
    Classical.byContradiction fun hc => h hc
  have key : ∀ k, ∀ a b, a.length < k → t = a ++ (List.replicate n '`' ++ b) → a.getLast? ≠ some '`' → b.head? ≠ some '`' →
      ∃ x r, t = x ++ (List.replicate n '`' ++ r) ∧ x ≠ [] ∧ x.head? ≠ some '`' ∧ x.getLast? ≠ some '`' ∧ NoTicks n x ∧
      r.head? ≠ some '`' := by
    intro k
    induction k with
    | zero => intro a b hk; omega
    | succ k ih =>
      intro a b hk e h1 h2
      by_cases hno : NoTicks n a
      · have hne : a ≠ [] := by
          rintro rfl
          apply ht
          obtain ⟨k, rfl⟩ : ∃ k, n = k + 1 := ⟨n - 1, by omega⟩
          rw [e]; rfl
        refine ⟨a, b, e, hne, ?_, h1, hno, h2⟩
        cases a with
        | nil => exact absurd rfl hne
        | cons y ys => rw [e] at ht; simpa using ht
      · obtain ⟨a', b', e', h1', h2'⟩ : ∃ a' b', a = a' ++ (List.replicate n '`' ++ b') ∧ a'.getLast? ≠ some '`' ∧
            b'.head? ≠ some '`' := Classical.byContradiction fun hc => hno hc
        refine ih a' (b' ++ (List.replicate n '`' ++ b)) ?_ (by rw [e, e']; simp) h1' ?_
        · have := congrArg List.length e'
          simp at this
          omega
        · cases b' with
          | nil =>
            exfalso
            apply h1
            obtain ⟨k, rfl⟩ : ∃ k, n = k + 1 := ⟨n - 1, by omega⟩
            rw [e', List.append_nil, List.replicate_succ', ← List.append_assoc, List.getLast?_concat]
          | cons y ys => simpa using h2'
  obtain ⟨a, b, e, h1, h2⟩ := h'
  exact key (a.length + 1) a b (by omega) e h1 h2

/-- The first characters that are `ch`. -/
theorem lead_split (ch : Char) : ∀ s : Str, ∃ n r, s = List.replicate n ch ++ r ∧ r.head? ≠ some ch
  | [] => ⟨0, [], rfl, by simp⟩
  | x :: s => by
    by_cases hx : x = ch
    · obtain ⟨n, r, h1, h2⟩ := lead_split ch s
      exact ⟨n + 1, r, by rw [hx, h1]; rfl, h2⟩
    · exact ⟨0, x :: s, rfl, by simpa using hx⟩

theorem main_split : ∀ s : Str, ∃ m r, s = m ++ r ∧ (∀ c ∈ m, Ordinary c) ∧ ∀ c, r.head? = some c → ¬ Ordinary c
  | [] => ⟨[], [], rfl, by simp, by simp⟩
  | x :: s => by
    by_cases hx : Ordinary x
    · obtain ⟨m, r, h1, h2, h3⟩ := main_split s
      refine ⟨x :: m, r, by rw [h1]; rfl, ?_, h3⟩
      intro c hc
      simp only [List.mem_cons] at hc
      rcases hc with rfl | hc
      · exact hx
      · exact h2 c hc
    · exact ⟨[], x :: s, rfl, by simp, by simpa using hx⟩

theorem trail_split : ∀ s : Str, ∃ x k, s = x ++ List.replicate k ' ' ∧ x.getLast? ≠ some ' ' := by
  intro s
  obtain ⟨n, r, h1, h2⟩ := lead_split ' ' s.reverse
  refine ⟨r.reverse, n, ?_, by rw [List.getLast?_reverse]; exact h2⟩
  have := congrArg List.reverse h1
  rw [List.reverse_reverse, List.reverse_append, List.reverse_replicate] at this
  exact this

theorem inc_init {a : List Item} {x : Item} (h : Inc (a ++ [x])) : Inc a := (inc_append.1 h).1

theorem newline_source (h : SInv c strict info st) {t : Str} (hr : c.rest st.pos = '\n' :: t)
    (e : parseInline c st = .ok (some st')) : SInv c strict info st' := by
  obtain ⟨j, r, hj, hjr⟩ := lead_split ' ' t
  have hr' : c.rest st.pos = ('\n' :: List.replicate j ' ') ++ r := by rw [hr, hj]; rfl
  have hz : ∃ z, ('\n' :: List.replicate j ' ').getLast? = some z ∧ z ≠ '*' ∧ z ≠ '_' := by
    cases j with
    | zero => exact ⟨'\n', rfl, by decide, by decide⟩
    | succ j => exact ⟨' ', by rw [List.replicate_succ', ← List.cons_append, List.getLast?_concat], by decide, by decide⟩
  obtain ⟨z, hz1, hz2, hz3⟩ := hz
  have hlen : 1 + j = ('\n' :: List.replicate j ' ').length := by simp; omega
  by_cases hcase : ∃ its d cs l i, st.children = its ++ [⟨i, .node d cs⟩] ∧ d.t = .text ∧ d.literal = some l ∧
      (l.getLast? = some ' ' ∨ l = [])
  · obtain ⟨its, d, cs, l, i, hc, hd, hl, hsp⟩ := hcase
    rcases hsp with hsp | rfl
    swap
    · exfalso
      rw [parseInline, rest_peek hr] at e
      simp only [beq_self_eq_true, if_true, parseNewline, hc, List.getLast?_concat, hd, hl, List.getLast?_nil] at e
      simp [bind, Except.bind] at e
    have hbr := h.br
    generalize hw : List.range' 0 st.pos = w at hbr
    obtain ⟨rfl, w1, w2, ew, hb1, hb2, l', el'⟩ := hbr.last hc hd hl hsp hw.symm
    have ell : l = l' := by
      cases el'
      simpa using hl.symm
    subst ell
    rw [el'] at hc hb2
    obtain ⟨x, k, ex, hx⟩ := trail_split l
    have hk : 1 ≤ k := by
      cases k with
      | zero => simp at ex; rw [ex] at hsp; exact absurd hsp hx
      | succ k => omega
    rw [ex] at hc hb2
    have hstep := step_lineEnd (c := c) (st := st) (k := k) (j := j) (t := r) hr' hjr hc (Or.inr hk) hx
    rw [hstep] at e
    simp only [Except.ok.injEq, Option.some.injEq] at e
    rw [ew] at hw
    obtain ⟨e1, e2⟩ := split_range hw.symm
    have hsrc := hb2 _ e2
    have hlen' : w1.length + w2.length = st.pos := by
      have := congrArg List.length hw
      simp at this
      omega
    rw [Nat.zero_add, hlen'] at hsrc
    have hpos2 := (source_pos hsrc).2.2 (by simp)
    have hnew : Source c.smart strict c.refs c.subject (flagOf st.brackets)
        [textNode x, mkNode (if 2 ≤ k then .linebreak else .softbreak) []] w1.length (st.pos + 1 + j) :=
      .lineEnd hsrc hk hx hr' hjr
    have hbr2 := hb1.push (Seg.run (D := DS c.subject info) (smart := c.smart) (its := [⟨0, textNode x⟩, ⟨0, mkNode (if 2 ≤ k then .linebreak else .softbreak) []⟩])
      (its' := []) (s' := []) (by simp) (rs_of_source (n := st.pos + 1 + j - w1.length) (by omega)
        (by rw [show w1.length + (st.pos + 1 + j - w1.length) = st.pos + 1 + j by omega]; exact hnew)) .nil)
    rw [e1] at hbr2
    simp only [List.append_nil, List.length_range'] at hbr2
    have er := List.range'_append_1 (s := 0) (m := w1.length) (n := st.pos + 1 + j - w1.length)
    rw [Nat.zero_add, show w1.length + (st.pos + 1 + j - w1.length) = st.pos + (1 + j) by omega] at er
    rw [er] at hbr2
    have hinc := h.inc
    rw [hc] at hinc
    rw [← e]
    refine
      { le := ?_
        br := hbr2
        inc := ?_
        len := h.len
        one := h.one
        mono := h.mono
        bound := fun a ha => by have := h.bound a ha; simp only; omega
        ids := ?_
        dorder := h.dorder
        din := ?_
        dok := h.dok
        border := h.border
        bid := h.bid
        bdel := h.bdel
        fresh := ?_ }
    · rw [hlen]; exact len_of_drop hr' h.le
    · have := inc_push (t := mkNode (if 2 ≤ k then .linebreak else .softbreak) []) (inc_push (t := textNode x) (inc_init hinc))
      simpa using this
    · intro it hit
      simp only [List.mem_append, List.mem_cons, List.not_mem_nil, or_false] at hit
      have := h.one
      rcases hit with hit | rfl | rfl
      · exact h.ids it (by rw [hc]; simp [hit])
      · exact h.one
      · exact h.one
    · intro d' hd'
      obtain ⟨g0, it, g1, g2, g3⟩ := h.din d' hd'
      rw [hc] at g1
      simp only [List.mem_append, List.mem_singleton] at g1
      rcases g1 with g1 | rfl
      · exact ⟨g0, it, by simp [g1], g2, g3⟩
      · exact absurd g2.symm g0
    · exact fresh_of' hr' hz1 hz2 hz3 hlen
  · have hstep : parseInline c st = .ok (some (st.add (1 + j) (mkNode .softbreak []))) ∨
        ∃ x, parseInline c st = .error x := by
      by_cases hnl : NlOk st ('\n' :: List.replicate j ' ' ++ r)
      · exact Or.inl (step_newline hr' hjr hnl)
      · right
        unfold NlOk at hnl
        rw [Classical.not_imp] at hnl
        obtain ⟨_, hnl⟩ := hnl
        rw [Classical.not_forall] at hnl
        obtain ⟨⟨i, ⟨d, cs⟩⟩, hnl⟩ := hnl
        rw [Classical.not_imp, Classical.not_imp] at hnl
        obtain ⟨g1, g2, g3⟩ := hnl
        have g2 : d.t = .text := g2
        have g3 : ¬ ∃ l ch, d.literal = some l ∧ l.getLast? = some ch ∧ ch ≠ ' ' := g3
        rw [parseInline, rest_peek hr]
        simp only [beq_self_eq_true, if_true, parseNewline, g1, g2]
        cases hl : d.literal with
        | none => exact ⟨_, rfl⟩
        | some l =>
          simp only
          cases hg : l.getLast? with
          | none => exact ⟨_, rfl⟩
          | some ch =>
            exfalso
            by_cases hch : ch = ' '
            · apply hcase
              obtain ⟨its, hits⟩ : ∃ its, st.children = its ++ [⟨i, .node d cs⟩] := by
                rcases List.eq_nil_or_concat st.children with h0 | ⟨u, x, h0⟩
                · rw [h0] at g1; simp at g1
                · rw [h0, List.concat_eq_append, List.getLast?_concat] at g1
                  obtain rfl := Option.some.inj g1
                  exact ⟨u, by rw [h0, List.concat_eq_append]⟩
              exact ⟨its, d, cs, l, i, hits, g2, hl, Or.inl (by rw [hg, hch])⟩
            · exact g3 ⟨l, ch, hl, hg, hch⟩
    rcases hstep with hstep | ⟨x, hstep⟩
    · rw [hstep] at e
      simp only [Except.ok.injEq, Option.some.injEq] at e
      rw [← e]
      refine h.add' hr' hlen hz1 hz2 hz3 ?_
      rw [← Nat.add_assoc]
      exact .newline hr' hjr
    · rw [hstep] at e; cases e

theorem take_last_eq {S : Str} {pos : Nat} {ch : Char} (h : Fresh S pos) (hc : ch = '*' ∨ ch = '_')
    (hh : S[pos]? = some ch) : (S.take pos).getLast? = some ch → ∃ x, S.take pos = x ++ ['\\', ch] :=
  fun hl => h ch hc hl hh

theorem delims_source (h : SInv c strict info st) {ch : Char} (hch : ch = '*' ∨ ch = '_') {t : Str}
    (hr : c.rest st.pos = ch :: t) : ∃ info', SInv c strict info' (fallback ch (handleDelim c ch st)) := by
  obtain ⟨n, r, hn, hnr⟩ := lead_split ch (c.rest st.pos)
  have hpos : 1 ≤ n := by
    cases n with
    | zero => rw [hr] at hn; simp at hn; rw [← hn] at hnr; simp at hnr
    | succ n => omega
  have hsub : c.subject = c.subject.take st.pos ++ (List.replicate n ch ++ r) := by
    rw [← hn]; exact (List.take_append_drop _ _).symm
  have htl : (c.subject.take st.pos).length = st.pos := List.length_take_of_le h.le
  obtain ⟨o, cl, hs, ho, hc⟩ := C37_scanDelims (c.subject.take st.pos) r c.refmap c.smart ch n hch hpos hnr
  rw [← hsub, htl] at hs
  have hs : scanDelims c ch st.pos = some ⟨n, o, cl⟩ := hs
  have hend : st.pos + n ≤ c.subject.length := by
    have := len_of_drop (m := List.replicate n ch) hn h.le
    simpa using this
  have hsl : slice c.subject st.pos (st.pos + n) = List.replicate n ch := by
    unfold slice
    rw [List.drop_take, Nat.add_sub_cancel_left]
    show List.take n (c.rest st.pos) = _
    rw [hn, List.take_left' (by simp)]
  have e1 : (ch == '\'') = false := by rcases hch with rfl | rfl <;> rfl
  have e2 : (ch == '"') = false := by rcases hch with rfl | rfl <;> rfl
  have hrd : c.subject.drop (st.pos + n) = r := by
    have := rest_add hn
    simpa [Ctx.rest] using this
  have hget : ∀ x ∈ List.range' st.pos n, c.subject[x]? = some ch := by
    intro x hx
    rw [List.mem_range'_1] at hx
    rw [hsub, List.getElem?_append_right (by omega), htl, List.getElem?_append_left (by simp; omega),
      List.getElem?_replicate, if_pos (by omega)]
  have hlast := info_last h (st.pos, n)
  unfold handleDelim
  rw [hs]
  simp only [e1, e2, Bool.false_eq_true, if_false, hsl, fallback, if_true]
  refine ⟨_, h.delim (d := ⟨ch, n, n, st.nextId, o, cl⟩) rfl hend ?_ ?_ ?_ ?_⟩
  · have := Tok.run (D := DS c.subject (info ++ [(st.pos, n)])) (smart := c.smart) (i := st.nextId)
      (c := ch) (s := List.range' st.pos n) (by simpa using hpos) hch (fun x hx => ?_)
    · rw [List.length_range'] at this; exact this
    · refine ⟨st.pos, n, hlast, ?_, ?_, hget x hx⟩
      · rw [List.mem_range'_1] at hx; omega
      · rw [List.mem_range'_1] at hx; omega
  · exact Or.inl ⟨hch, hpos, rfl⟩
  · refine ⟨st.pos, hlast, fun _ => ⟨⟨hpos, ⟨r, hn, hnr⟩, ?_⟩, ?_, ?_⟩⟩
    · exact take_last_eq h.fresh hch (hget _ (by rw [List.mem_range'_1]; omega))
    · simp only [RunOpens]; rw [hrd]; exact ho
    · simp only [RunCloses]; rw [hrd]; exact hc
  · intro ch' hch' hl hh
    exfalso
    obtain ⟨k, rfl⟩ : ∃ k, n = k + 1 := ⟨n - 1, by omega⟩
    have := take_add_drop hn
    rw [List.length_replicate] at this
    rw [this, List.replicate_succ', ← List.append_assoc, List.getLast?_concat] at hl
    obtain rfl := Option.some.inj hl
    apply hnr
    rw [← hrd, List.head?_drop]
    exact hh

theorem quote_source (h : SInv c strict info st) (hs : c.smart = true) {ch : Char} (hch : ch = '\'' ∨ ch = '"') {t : Str}
    (hr : c.rest st.pos = ch :: t) : ∃ info', SInv c strict info' (fallback ch (handleDelim c ch st)) := by
  have hsc : ∃ o cl, scanDelims c ch st.pos = some ⟨1, o, cl⟩ := by
    unfold scanDelims
    have : countDelims c ch st.pos = 1 := by rcases hch with rfl | rfl <;> rfl
    simp only [this]
    exact ⟨_, _, rfl⟩
  obtain ⟨o, cl, hsc⟩ := hsc
  have hend : st.pos + 1 ≤ c.subject.length := rest_lt hr
  have hlast := info_last h (st.pos, 1)
  have hget : c.subject[st.pos]? = some ch := rest_peek hr
  have hD : DS c.subject (info ++ [(st.pos, 1)]) st.nextId ch st.pos :=
    ⟨st.pos, 1, hlast, by omega, by omega, hget⟩
  have hf : Fresh c.subject (st.pos + 1) := by
    refine fresh_of' (m := [ch]) hr rfl ?_ ?_ rfl
    · rcases hch with rfl | rfl <;> decide
    · rcases hch with rfl | rfl <;> decide
  unfold handleDelim
  rw [hsc]
  simp only [fallback, if_true]
  rcases hch with rfl | rfl
  · simp only [beq_self_eq_true, if_true]
    refine ⟨_, h.delim (d := ⟨'\'', 1, 1, st.nextId, o, cl⟩) rfl hend ?_ ?_ ?_ hf⟩
    · exact .single hs (Or.inl rfl) hD
    · exact Or.inr (Or.inl ⟨rfl, Or.inl rfl⟩)
    · exact ⟨st.pos, hlast, fun hq => absurd hq (by simp)⟩
  · simp only [show ('"' == '\'') = false by decide, Bool.false_eq_true, if_false, beq_self_eq_true, if_true]
    refine ⟨_, h.delim (d := ⟨'"', 1, 1, st.nextId, o, cl⟩) rfl hend ?_ ?_ ?_ hf⟩
    · exact .double hs (Or.inl rfl) hD
    · exact Or.inr (Or.inr ⟨rfl, Or.inl rfl⟩)
    · exact ⟨st.pos, hlast, fun hq => absurd hq (by simp)⟩

theorem openBracket_source (h : SInv c strict info st) {t : Str} (hr : c.rest st.pos = '[' :: t) :
    ∃ info', SInv c strict info' (parseOpenBracket st) := by
  have hget : c.subject[st.pos]? = some '[' := rest_peek hr
  refine ⟨_, h.bracket (n := 1) (rest_lt hr) (.openB ⟨st.pos, 1, info_last h _, by omega, by omega, hget⟩) ?_ ?_⟩
  · exact Or.inl ⟨rfl, rfl, hget⟩
  · exact fresh_of' (m := ['[']) hr rfl (by decide) (by decide) rfl

theorem bang_source (h : SInv c strict info st) {t : Str} (hr : c.rest st.pos = '!' :: t) :
    ∃ info', SInv c strict info' (parseBang c st) := by
  have hget : c.subject[st.pos]? = some '!' := rest_peek hr
  unfold parseBang
  by_cases hb : c.peek (st.pos + 1) = some '['
  · rw [if_pos (by simpa using hb)]
    have hr2 : c.rest st.pos = ['!', '['] ++ c.rest (st.pos + 1 + 1) := by
      unfold Ctx.rest
      rw [drop_one hget, drop_one hb]; rfl
    refine ⟨_, h.bracket (n := 2) ?_ (.openI ⟨st.pos, 2, info_last h _, by omega, by omega, hget⟩
      ⟨st.pos, 2, info_last h _, by omega, by omega, hb⟩) ?_ ?_⟩
    · exact len_of_drop hr2 h.le
    · exact Or.inr ⟨rfl, st.pos, rfl, rfl, hget, hb⟩
    · exact fresh_of' hr2 rfl (by decide) (by decide) rfl
  · rw [if_neg (by simpa using hb)]
    refine ⟨info, h.add' (m := ['!']) hr rfl rfl (by decide) (by decide) (.bang hr ?_)⟩
    have : t = c.rest (st.pos + 1) := (rest_succ hr).symm
    rw [this, Ctx.rest, List.head?_drop]
    exact hb

theorem ticks_source (h : SInv c strict info st) {t : Str} (hr : c.rest st.pos = '`' :: t)
    (e : parseInline c st = .ok (some st')) : SInv c strict info st' := by
  obtain ⟨n, r, hn, hnr⟩ := lead_split '`' (c.rest st.pos)
  have hpos : 1 ≤ n := by
    cases n with
    | zero => rw [hr] at hn; simp at hn; rw [← hn] at hnr; simp at hnr
    | succ n => omega
  have hlast : ∀ a : Str, (a ++ List.replicate n '`').getLast? = some '`' := by
    intro a
    obtain ⟨k, rfl⟩ : ∃ k, n = k + 1 := ⟨n - 1, by omega⟩
    rw [List.replicate_succ', ← List.append_assoc, List.getLast?_concat]
  by_cases hno : NoTicks n r
  · have := step_ticks hn hpos hnr hno
    rw [this] at e
    simp only [Except.ok.injEq, Option.some.injEq] at e
    rw [← e]
    exact h.add' hn (by simp) (hlast []) (by decide) (by decide) (.ticks hn hpos hnr hno)
  · obtain ⟨x, r', h1, h2, h3, h4, h5, h6⟩ := first_ticks hpos hnr hno
    obtain ⟨y, hy⟩ := codeText_exists x
    have hn' : c.rest st.pos = List.replicate n '`' ++ (x ++ List.replicate n '`') ++ r' := by rw [hn, h1]; simp
    have := step_code hn' hpos h2 h3 h4 h5 h6 hy
    rw [this] at e
    simp only [Except.ok.injEq, Option.some.injEq] at e
    rw [← e]
    refine h.add' hn' (by simp) (z := '`') ?_ (by decide) (by decide) (.code (by rw [← h1]; exact hn) hpos h2 h3 h4 h5 h6 hy)
    rw [← List.append_assoc]; exact hlast _

theorem backslash_source (h : SInv c strict info st) {t : Str} (hr : c.rest st.pos = '\\' :: t) :
    SInv c strict info (parseBackslash c st) := by
  have hpk : c.peek (st.pos + 1) = t.head? := by
    rw [← rest_succ hr, Ctx.rest, List.head?_drop]; rfl
  unfold parseBackslash
  simp only [hpk]
  have h1 : (∀ x, t.head? = some x → x ∉ asciiPunctuation ∧ x ≠ '\n') → SInv c strict info (st.add 1 (textNode ['\\'])) := by
    intro hx
    exact h.add' (m := ['\\']) hr rfl rfl (by decide) (by decide) (.backslash hr hx)
  cases t with
  | nil => exact h1 (by simp)
  | cons x t =>
    simp only [List.head?_cons]
    by_cases hx : x = '\n'
    · subst hx
      simp only [beq_self_eq_true, if_true]
      exact h.add' (n := 2) (m := ['\\', '\n']) hr rfl rfl (by decide) (by decide) (.hardBreak hr)
    · rw [if_neg (by simpa using hx)]
      cases hes : isEscapable x with
      | true =>
        simp only [if_true]
        have hm := (isEscapable_iff _).1 hes
        refine h.add (n := 2) (t := textNode [x]) (by omega) ?_ (.escape hr hm) ?_
        · exact len_of_drop (m := ['\\', x]) hr h.le
        · intro ch hch hl hh
          have := take_add_drop (m := ['\\', x]) hr
          have this : c.subject.take (st.pos + 2) = c.subject.take st.pos ++ ['\\', x] := this
          rw [this, show (['\\', x] : Str) = ['\\'] ++ [x] from rfl, ← List.append_assoc, List.getLast?_concat] at hl
          obtain rfl := Option.some.inj hl
          exact ⟨_, this⟩
      | false =>
        simp only [Bool.false_eq_true, if_false]
        refine h1 ?_
        intro y hy
        simp only [List.head?_cons, Option.some.injEq] at hy
        subst hy
        refine ⟨fun hm => ?_, hx⟩
        have := (isEscapable_iff _).2 hm
        rw [hes] at this; cases this

theorem less_source (h : SInv c strict info st) {t : Str} (hr : c.rest st.pos = '<' :: t) :
    SInv c strict info (fallback '<' (match parseAutolink c st with
      | (true, s) => (true, s)
      | (false, s) => parseHtmlTag c s)) := by
  have hsplit : ∀ {u r : Str}, c.rest st.pos = '<' :: (u ++ ['>']) ++ r → c.subject.drop st.pos = '<' :: (u ++ '>' :: r) := by
    intro u r hh
    unfold Ctx.rest at hh
    rw [hh]; simp
  unfold parseAutolink
  cases hm1 : c.match_ reEmailAutolink st.pos with
  | some mp =>
    obtain ⟨m, p⟩ := mp
    obtain ⟨rfl, h2, h3⟩ := match_den hm1
    obtain ⟨u, rfl, hu⟩ := email_of_den h3
    simp only [fallback, if_true, chop_wrap]
    refine h.add' (st := st) h2 rfl (z := '>') ?_ (by decide) (by decide) ?_
    · rw [← List.cons_append, List.getLast?_concat]
    · rw [show ('<' :: (u ++ ['>'])).length = u.length + 2 by simp, ← Nat.add_assoc]
      exact .email (hsplit h2) hu
  | none =>
    simp only
    cases hm2 : c.match_ reAutolink st.pos with
    | some mp =>
      obtain ⟨m, p⟩ := mp
      obtain ⟨rfl, h2, h3⟩ := match_den hm2
      obtain ⟨u, rfl, hu⟩ := (den_autolink _ _).1 h3
      simp only [fallback, if_true, chop_wrap]
      refine h.add' (st := st) h2 rfl (z := '>') ?_ (by decide) (by decide) ?_
      · rw [← List.cons_append, List.getLast?_concat]
      · rw [show ('<' :: (u ++ ['>'])).length = u.length + 2 by simp, ← Nat.add_assoc]
        exact .uri (hsplit h2) hu
    | none =>
      simp only
      unfold parseHtmlTag
      cases hm3 : c.match_ reHtmlTag st.pos with
      | some mp =>
        obtain ⟨m, p⟩ := mp
        obtain ⟨rfl, h2, h3⟩ := match_den hm3
        have htag : HtmlTag m := by
          have hre : reHtmlTag.rest (c.rest st.pos) = some (c.rest (st.pos + m.length)) := by
            unfold Ctx.match_ at hm3
            simp only [Option.map_eq_some_iff, Prod.mk.injEq] at hm3
            obtain ⟨m', g1, rfl, _⟩ := hm3
            obtain ⟨t', g2, g3⟩ := Re.matchPrefix_append g1
            rw [g2, rest_add g3]
          obtain ⟨m', g1, g2⟩ := htmlTag_match hre
          have := List.append_cancel_right (h2.symm.trans g1)
          rw [this]; exact g2
        simp only [fallback, if_true]
        exact h.add' (st := st) h2 rfl (htmlTag_ends htag).2 (by decide) (by decide) (.html h2 htag)
      | none =>
        simp only [fallback, Bool.false_eq_true, if_false]
        refine h.add' (st := st) (m := ['<']) hr rfl rfl (by decide) (by decide) (.less hr ?_)
        rintro ⟨m, r', g1, g2⟩
        have none_den : ∀ {re : Re}, c.match_ re st.pos = none → ∀ {m r : Str}, c.rest st.pos = m ++ r →
            ¬ ∀ n, Den n re m r := by
          intro re hn m r hm hd
          have h1 := match_none_rest hn
          have := Re.rest_isSome_iff (r := re) (s := c.rest st.pos).2 ⟨m, r, hm, hd _⟩
          rw [h1] at this; cases this
        rcases g2 with ⟨u, rfl, hu | hu⟩ | hu
        · exact none_den hm2 g1 fun n => (den_autolink _ _).2 ⟨u, rfl, hu⟩
        · exact none_den hm1 g1 fun n => email_den_of hu
        · exact htmlTag_none (match_none_rest hm3) ⟨m, r', g1, hu⟩

theorem refForm_den {n : Nat} {m t : Str} (h : RefForm m) : Den n reENTITY m t := by
  rcases h with ⟨k, h⟩ | ⟨nm, rfl, x, ds, rfl, h1, h2, h3, h4⟩
  · exact (numericRef_entity h).1 n t
  · exact den_entity_name n (isAlphaCI_iff.2 h1) h2 h3 fun c hc => isAlnumCI_iff.2 (h4 c hc)

theorem entity_source (h : SInv c strict info st) {t : Str} (hr : c.rest st.pos = '&' :: t) :
    SInv c strict info (fallback '&' (parseEntity c st)) := by
  unfold parseEntity
  cases hm : c.match_ reENTITY st.pos with
  | some mp =>
    obtain ⟨m, p⟩ := mp
    obtain ⟨rfl, h2, h3⟩ := match_den hm
    simp only [fallback, if_true]
    have hd := entity_decodes h3
    have hlast : m.getLast? = some ';' := by
      obtain ⟨x, hx, _⟩ := entity_semi h3
      rw [hx, List.getLast?_concat]
    exact h.add' (st := st) h2 rfl hlast (by decide) (by decide) (.ref h2 hd)
  | none =>
    simp only [fallback, Bool.false_eq_true, if_false]
    refine h.add' (st := st) (m := ['&']) hr rfl rfl (by decide) (by decide) (.amp hr ?_)
    rintro ⟨m, r', g1, g2⟩
    have h1 := match_none_rest hm
    have := Re.rest_isSome_iff (r := reENTITY) (s := c.rest st.pos).2 ⟨m, r', g1, refForm_den g2⟩
    rw [h1] at this; cases this

theorem string_source (h : SInv c strict info st) {ch : Char} {t : Str} (hr : c.rest st.pos = ch :: t) (ho : Ordinary ch) :
    SInv c strict info (fallback ch (parseString c st)) := by
  obtain ⟨m, r, hm, h1, h2⟩ := main_split (c.rest st.pos)
  have hne : m ≠ [] := by
    rintro rfl
    rw [hr] at hm
    simp at hm
    exact h2 ch (by rw [← hm]; rfl) ho
  have htl : (c.subject.take st.pos).length = st.pos := List.length_take_of_le h.le
  have hsub : c.subject = c.subject.take st.pos ++ (m ++ r) := by
    rw [← hm]; exact (List.take_append_drop _ _).symm
  have hs := C36_parseString (c.subject.take st.pos) m r c.refmap c.smart st htl.symm hne h1
    (fun x hx => by
      have := h2 x hx
      exact Classical.byContradiction fun hc => this hc)
  rw [← hsub, htl] at hs
  have hs' : parseString c st = _ := hs
  rw [hs']
  simp only [fallback, if_true]
  obtain ⟨z, hz⟩ : ∃ z, m.getLast? = some z := by
    cases hl : m.getLast? with
    | none => exact absurd (List.getLast?_eq_none_iff.1 hl) hne
    | some z => exact ⟨z, rfl⟩
  have hoz : Ordinary z := h1 z (List.mem_of_getLast? hz)
  refine h.add' (st := st) hm rfl hz ?_ ?_ ?_
  · rintro rfl; exact absurd hoz (by unfold Ordinary; decide)
  · rintro rfl; exact absurd hoz (by unfold Ordinary; decide)
  · cases hsm : c.smart with
    | false =>
      simp only [Bool.false_eq_true, if_false]
      rw [show (Source false strict c.refs c.subject) = Source c.smart strict c.refs c.subject by rw [hsm]]
      exact .plain hsm hm hne h1 h2
    | true =>
      simp only [if_true]
      rw [show (Source true strict c.refs c.subject) = Source c.smart strict c.refs c.subject by rw [hsm]]
      refine .smartPlain hsm hm hne h1 h2 ⟨_, ?_, ?_, rfl⟩
      · intro n hn; simp [hn]
      · intro n hn
        rw [if_neg (by omega)]
        exact C36_smartDashes n hn

/-- One step. -/
theorem parseInline_source (h : SInv c strict info st) (hstrict : strict = true → ¬ [']', '('] <:+: c.subject)
    (e : parseInline c st = .ok (some st')) : ∃ info', SInv c strict info' st' := by
  cases hr : c.rest st.pos with
  | nil =>
    have hn : c.peek st.pos = none := by
      simp only [Ctx.rest, List.drop_eq_nil_iff] at hr
      simp [Ctx.peek, hr]
    rw [parseInline, hn] at e
    cases e
  | cons ch t =>
    by_cases h1 : ch = '\n'
    · subst h1; exact ⟨info, newline_source h hr e⟩
    by_cases h2 : ch = '`'
    · subst h2; exact ⟨info, ticks_source h hr e⟩
    rw [parseInline, rest_peek hr] at e
    simp only at e
    rw [if_neg (by simpa using h1)] at e
    by_cases h3 : ch = '\\'
    · subst h3
      simp only [beq_self_eq_true, if_true, Except.ok.injEq, Option.some.injEq] at e
      rw [← e]; exact ⟨info, backslash_source h hr⟩
    rw [if_neg (by simpa using h3), if_neg (by simpa using h2)] at e
    by_cases h4 : ch = '*' ∨ ch = '_'
    · rw [if_pos (by simpa using h4)] at e
      simp only [Except.ok.injEq, Option.some.injEq] at e
      rw [← e]; exact delims_source h h4 hr
    rw [if_neg (by simpa using h4)] at e
    by_cases h5 : ch = '\'' ∨ ch = '"'
    · rw [if_pos (by simpa using h5)] at e
      simp only [Except.ok.injEq, Option.some.injEq] at e
      rw [← e]
      cases hsm : c.smart with
      | true => simp only [if_true]; exact quote_source h hsm h5 hr
      | false =>
        simp only [Bool.false_eq_true, if_false, fallback]
        refine ⟨info, h.add' (st := st) (m := [ch]) hr rfl rfl ?_ ?_ (.quote hsm hr h5)⟩
        · rcases h5 with rfl | rfl <;> decide
        · rcases h5 with rfl | rfl <;> decide
    rw [if_neg (by simpa using h5)] at e
    by_cases h6 : ch = '['
    · subst h6
      simp only [beq_self_eq_true, if_true, Except.ok.injEq, Option.some.injEq] at e
      rw [← e]; exact openBracket_source h hr
    rw [if_neg (by simpa using h6)] at e
    by_cases h7 : ch = '!'
    · subst h7
      simp only [beq_self_eq_true, if_true, Except.ok.injEq, Option.some.injEq] at e
      rw [← e]; exact bang_source h hr
    rw [if_neg (by simpa using h7)] at e
    by_cases h8 : ch = ']'
    · subst h8
      simp only [beq_self_eq_true, if_true] at e
      cases hp : parseCloseBracket c st with
      | error x => rw [hp] at e; simp [bind, Except.bind] at e
      | ok s =>
        rw [hp] at e
        simp only [bind, Except.bind, pure, Except.pure, Except.ok.injEq, Option.some.injEq] at e
        rw [← e]
        exact ⟨info, closeBracket_source h hstrict (rest_peek hr) hp⟩
    rw [if_neg (by simpa using h8)] at e
    by_cases h9 : ch = '<'
    · subst h9
      simp only [beq_self_eq_true, if_true, Except.ok.injEq, Option.some.injEq] at e
      rw [← e]; exact ⟨info, less_source h hr⟩
    rw [if_neg (by simpa using h9)] at e
    by_cases h10 : ch = '&'
    · subst h10
      simp only [beq_self_eq_true, if_true, Except.ok.injEq, Option.some.injEq] at e
      rw [← e]; exact ⟨info, entity_source h hr⟩
    rw [if_neg (by simpa using h10)] at e
    simp only [Except.ok.injEq, Option.some.injEq] at e
    rw [← e]
    refine ⟨info, string_source h hr ?_⟩
    unfold Ordinary
    rw [show "\n`[]\\!<&*_'\"".toList = ['\n', '`', '[', ']', '\\', '!', '<', '&', '*', '_', '\'', '"'] from rfl]
    simp only [List.mem_cons, List.not_mem_nil, or_false, not_or]
    simp only [not_or] at h4 h5
    exact ⟨h1, h2, h6, h8, h3, h7, h9, h10, h4.1, h4.2, h5.1, h5.2⟩

theorem inlineLoop_source (hstrict : strict = true → ¬ [']', '('] <:+: c.subject) : ∀ (fuel : Nat) {info : List (Nat × Nat)}
    {st st' : IState}, SInv c strict info st → inlineLoop c fuel st = .ok st' → ∃ info', SInv c strict info' st' ∧
      st'.pos = c.subject.length := by
  intro fuel
  induction fuel with
  | zero => intro info st st' _ e; cases e
  | succ fuel ih =>
    intro info st st' h e
    rw [inlineLoop] at e
    cases hp : parseInline c st with
    | error x => rw [hp] at e; simp [bind, Except.bind] at e
    | ok o =>
      rw [hp] at e
      cases o with
      | some s =>
        simp only [bind, Except.bind] at e
        obtain ⟨info', h'⟩ := parseInline_source h hstrict hp
        exact ih h' e
      | none =>
        simp only [bind, Except.bind, pure, Except.pure, Except.ok.injEq] at e
        subst e
        refine ⟨info, h, ?_⟩
        have hle := h.le
        cases hk : c.peek st.pos with
        | none => simp [Ctx.peek] at hk; omega
        | some ch =>
          exfalso
          have hne : ∀ {x : Except PyErr IState}, (do let s ← x; return some s : Except PyErr (Option IState)) ≠ .ok none := by
            intro x hx; cases x <;> simp [bind, Except.bind, pure, Except.pure] at hx
          have hne2 : ∀ {x : Except PyErr (Bool × IState)}, (do let s ← x; return some (fallback ch s) : Except PyErr (Option IState)) ≠ .ok none := by
            intro x hx; cases x <;> simp [bind, Except.bind, pure, Except.pure] at hx
          rw [parseInline, hk] at hp
          simp only at hp
          repeat' split at hp
          all_goals first
            | exact hne hp
            | exact hne2 hp
            | cases hp

/-- **Every inline node comes from the text.** -/
theorem parseInlines_source {smart strict : Bool} {refmap : RefMap} {content : Str} {ts : List Tree}
    (hstrict : strict = true → ¬ [']', '('] <:+: strip content) (e : parseInlines smart refmap content = .ok ts) :
    Source smart strict (fun l => refmap.get (normalizeReference l)) (strip content) true ts 0 (strip content).length := by
  unfold parseInlines at e
  simp only at e
  cases hl : inlineLoop ⟨strip content, refmap, smart⟩ ((strip content).length + 1) ⟨0, [], [], [], 1⟩ with
  | error x => rw [hl] at e; simp [bind, Except.bind] at e
  | ok st =>
    rw [hl] at e
    simp only [bind, Except.bind] at e
    obtain ⟨info, h, hpos⟩ := inlineLoop_source (c := ⟨strip content, refmap, smart⟩) (strict := strict) hstrict _
      (sinv_start _ strict) hl
    cases hp : processEmphasis st.delims.reverse st.children with
    | error x => rw [hp] at e; simp at e
    | ok items =>
      rw [hp] at e
      simp only [pure, Except.pure, Except.ok.injEq] at e
      have hein : EInv (DS (strip content) info) (OkS (strip content) info) smart
          (RS smart strict (fun l => refmap.get (normalizeReference l)) (strip content) true) [] st.delims.reverse st.children
          (List.range' 0 st.pos) := by
        refine ⟨h.br.toSeg, h.inc, ?_, ?_, ?_⟩
        · rw [List.reverse_nil, List.nil_append, List.pairwise_reverse]; exact h.dorder
        · intro d hd; exact h.din d (by simpa using hd)
        · intro d hd; exact h.dok d (by simpa using hd)
      have hseg := (processEmphasis_inv (emphRel_source h.mono) hein hp).1
      have := hseg.rel (emphRel_source h.mono) 0 (by simp)
      rw [List.length_range', Nat.zero_add, hpos] at this
      rw [← e]
      exact this

end CM
