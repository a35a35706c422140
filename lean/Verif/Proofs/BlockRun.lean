import Verif.Proofs.BlockSteps
import Verif.Proofs.LineEndings
/-
`incorporateLine` never fails and consists of steps.
-/
namespace CM

theorem steps_core_line {c c' : Core} (h : Steps c c') :
    c'.line = c.line ∧ c'.text = c.text ∧ c'.prevLen = c.prevLen := by
  induction h with
  | refl => exact ⟨rfl, rfl, rfl⟩
  | tail _ h ih => cases h <;> exact ih

theorem lineSteps_core_line {c c' : Core} (h : LineSteps c c') :
    c'.line = c.line ∧ c'.text = c.text ∧ c'.prevLen = c.prevLen := by
  cases h with
  | steps h => exact steps_core_line h
  | final h hf =>
    have := steps_core_line h
    cases hf; exact this

theorem ds_cons {p : PState} {b : OpenBlk} {r : List OpenBlk} (h : p.spine = b :: r) :
    p.ds = b.data :: r.map (·.data) := by simp [PState.ds, h]

theorem spine_of_ds {p : PState} {d : NodeData} {r : List NodeData} (h : p.ds = d :: r) :
    ∃ b sp, p.spine = b :: sp ∧ b.data = d ∧ sp.map (·.data) = r := by
  unfold PState.ds at h
  cases hs : p.spine with
  | nil => rw [hs] at h; simp at h
  | cons b sp => rw [hs] at h; simp at h; exact ⟨b, sp, rfl, h.1, h.2⟩

/-- One `finalize` of the tip. -/
theorem closeTip_any {p : PState} (hg : GoodChain p.ds) (h2 : 2 ≤ p.spine.length) {d : NodeData}
    (hd : p.ds.head? = some d) (l : Nat) :
    ∃ b par up t m, p.spine = b :: par :: up ∧ b.data = d ∧
      finalizeBlock (closeData l p.lastLineLength b.data) b.children p.refmap = .ok (t, m) ∧
      finalizeTip l p = .ok { p with
        spine := { par with children := par.children ++ t.toList } :: up, refmap := m } := by
  match hs : p.spine with
  | [] => rw [hs] at h2; simp at h2
  | [b] => rw [hs] at h2; simp at h2
  | b :: par :: up =>
    have hb : b.data = d := by rw [ds_cons hs] at hd; simpa using hd
    have hc : Closable b.data := hg.closable _ (by rw [ds_cons hs]; simp)
    obtain ⟨t, m, h1, h2⟩ := finalizeTip_ok hs hc l
    exact ⟨b, par, up, t, m, rfl, hb, h1, h2⟩

/-- One `finalize` of the tip as a step. -/
theorem closeTip_ok {p : PState} (hg : GoodChain p.ds) (h2 : 2 ≤ p.spine.length) {d : NodeData}
    (hd : p.ds.head? = some d) {l : Nat} (hl : startLine d ≤ l) (hl' : l + 1 = p.lineNumber) :
    ∃ sp m, finalizeTip l p = .ok { p with spine := sp, refmap := m } ∧
      Closing p.core { p.core with spine := sp, refmap := m } ∧ sp.map (·.data) = p.ds.drop 1 := by
  obtain ⟨b, par, up, t, m, hs, hb, h1, h2⟩ := closeTip_any hg h2 hd l
  refine ⟨_, m, h2, ?_, ?_⟩
  · exact ⟨l, b, par, up, t, m, hs, by rw [hb]; exact hl, hl', h1, rfl⟩
  · simp [PState.ds, hs]

/-- One `finalize` of the tip on the current line. -/
theorem closeTip_final {p : PState} (hg : GoodChain p.ds) (h2 : 2 ≤ p.spine.length) {d : NodeData}
    (hd : p.ds.head? = some d) (hl : startLine d ≤ p.lineNumber) (ht : EndsHere d) :
    ∃ sp m, finalizeTip p.lineNumber p = .ok { p with spine := sp, refmap := m } ∧
      Final p.core { p.core with spine := sp, refmap := m } ∧ sp.map (·.data) = p.ds.drop 1 := by
  obtain ⟨b, par, up, t, m, hs, hb, h1, h2⟩ := closeTip_any hg h2 hd p.lineNumber
  refine ⟨_, m, h2, ?_, ?_⟩
  · exact Final.close (c := p.core) hs (by rw [hb]; exact hl) (by rw [hb]; exact ht) h1
  · simp [PState.ds, hs]

theorem closeLoop_ok : ∀ (k : Nat) (fuel : Nat) (p : PState), k < fuel → p.oldtip = p.spine.length →
    1 ≤ p.lastMatched → p.oldtip = p.lastMatched + k → GoodChain p.ds →
    (∀ d ∈ p.ds, d.t ≠ .document → startLine d < p.lineNumber) →
    ∃ sp m, closeLoop fuel p = .ok { p with spine := sp, refmap := m, oldtip := p.lastMatched } ∧
      Steps p.core { p.core with spine := sp, refmap := m } ∧ sp.map (·.data) = p.ds.drop k := by
  intro k
  induction k with
  | zero =>
    intro fuel p hf ho h1 hk hg hold
    obtain ⟨fuel, rfl⟩ : ∃ f, fuel = f + 1 := ⟨fuel - 1, by omega⟩
    refine ⟨p.spine, p.refmap, ?_, .refl, rfl⟩
    simp only [closeLoop]
    rw [if_pos (by simp [hk])]
    have : p.oldtip = p.lastMatched := by omega
    cases p
    simp only at this
    simp [this]
  | succ k ih =>
    intro fuel p hf ho h1 hk hg hold
    obtain ⟨fuel, rfl⟩ : ∃ f, fuel = f + 1 := ⟨fuel - 1, by omega⟩
    have hlen : 2 ≤ p.spine.length := by omega
    cases hds : p.ds with
    | nil => exact absurd hds hg.chain.ne_nil
    | cons d r =>
      have hr : r ≠ [] := by
        rintro rfl
        have : p.ds.length = 1 := by rw [hds]; rfl
        simp [PState.ds] at this; omega
      obtain ⟨e, r', rfl⟩ := List.exists_cons_of_ne_nil hr
      have hnd : d.t ≠ .document := by have := hg.chain; rw [hds] at this; exact this.not_doc
      have hlt := hold d (by rw [hds]; simp) hnd
      obtain ⟨sp, m, e1, e2', e3⟩ := closeTip_ok (p := p) hg hlen (d := d) (by rw [hds]; rfl)
        (l := p.lineNumber - 1) (by omega) (by omega)
      have e2 := e2'.step
      simp only [closeLoop]
      rw [if_neg (by simp; omega), e1]
      have hds' : sp.map (·.data) = e :: r' := by rw [e3, hds]; rfl
      obtain ⟨sp2, m2, f1, f2, f3⟩ := ih fuel
        { p with spine := sp, refmap := m, oldtip := p.oldtip - 1 } (by omega)
        (by
          have h4 : sp.length = p.ds.length - 1 := by
            rw [← List.length_map (f := fun x : OpenBlk => x.data), e3]; simp
          simp only [PState.ds, List.length_map] at h4
          show p.oldtip - 1 = sp.length
          omega)
        h1 (by show p.oldtip - 1 = _; simp only; omega)
        (by
          have : ({ p with spine := sp, refmap := m, oldtip := p.oldtip - 1 } : PState).ds = e :: r' := hds'
          rw [this]; rw [hds] at hg; exact hg.tail)
        (by
          intro x hx
          have : ({ p with spine := sp, refmap := m, oldtip := p.oldtip - 1 } : PState).ds = e :: r' := hds'
          rw [this] at hx
          exact hold x (by rw [hds]; exact List.mem_cons_of_mem _ hx))
      refine ⟨sp2, m2, ?_, ?_, ?_⟩
      · exact f1
      · exact Relation.ReflTransGen.head e2 f2
      · rw [f3]
        show (sp.map (·.data)).drop k = _
        rw [hds']; rfl

/-- The situation in which the block starts are tried: `container` is the last matched block, and
either it is the tip, or the blocks above it are still open. -/
structure SP (container : NodeData) (p : PState) : Prop where
  good : GoodChain p.ds
  le : ∀ d ∈ p.ds, startLine d ≤ p.lineNumber
  pos : 1 ≤ p.lineNumber
  state : (p.allClosed = true ∧ ∃ d r, p.ds = d :: r ∧ d.t = container.t ∧
      d.listData = container.listData ∧ (wide d.t ∨ startLine d < p.lineNumber)) ∨
    (p.allClosed = false ∧ p.oldtip = p.spine.length ∧ 1 ≤ p.lastMatched ∧
      p.lastMatched < p.oldtip ∧ (∀ d ∈ p.ds, d.t ≠ .document → startLine d < p.lineNumber) ∧
      blockAt p p.lastMatched = some container)

theorem blockAt_ds (p : PState) (n : Nat) : blockAt p n = p.ds.reverse[n - 1]? := by
  simp [blockAt, PState.ds, ← List.map_reverse, List.getElem?_map]

theorem closeUnmatched_ok {container : NodeData} {p : PState} (h : SP container p) :
    ∃ sp m o, closeUnmatched p =
        .ok { p with spine := sp, refmap := m, oldtip := o, allClosed := true } ∧
      Steps p.core { p.core with spine := sp, refmap := m } ∧
      SP container { p with spine := sp, refmap := m, oldtip := o, allClosed := true } := by
  rcases h.state with ⟨ha, h'⟩ | ⟨ha, ho, h1, h2, h3, h4⟩
  · refine ⟨p.spine, p.refmap, p.oldtip, ?_, .refl, ?_⟩
    · simp only [closeUnmatched]; rw [if_pos ha, ← ha]
    · rw [← ha]; exact h
  · have hlen : p.ds.length = p.spine.length := by simp [PState.ds]
    obtain ⟨sp, m, e1, e2, e3⟩ := closeLoop_ok (p.oldtip - p.lastMatched) (p.oldtip + 1) p (by omega) ho h1
      (by omega) h.good h3
    refine ⟨sp, m, p.lastMatched, ?_, e2, ?_⟩
    · simp only [closeUnmatched]; rw [if_neg (by simp [ha]), e1]; rfl
    · have hds : ({ p with spine := sp, refmap := m, oldtip := p.lastMatched, allClosed := true } :
        PState).ds = p.ds.drop (p.oldtip - p.lastMatched) := e3
      refine ⟨?_, ?_, h.pos, Or.inl ⟨rfl, ?_⟩⟩
      · rw [hds]; exact h.good.drop _ (by omega)
      · rw [hds]; intro d hd; exact h.le d (List.mem_of_mem_drop hd)
      · rw [hds]
        rw [blockAt_ds, List.getElem?_reverse (by omega)] at h4
        have hidx : p.ds.length - 1 - (p.lastMatched - 1) = p.oldtip - p.lastMatched := by omega
        rw [hidx] at h4
        obtain ⟨hl, hcont⟩ := List.getElem?_eq_some_iff.1 h4
        refine ⟨container, p.ds.drop (p.oldtip - p.lastMatched + 1), ?_, rfl, rfl, ?_⟩
        · rw [List.drop_eq_getElem_cons hl, hcont]
        · by_cases hd : container.t = .document
          · exact Or.inl (Or.inl hd)
          · exact Or.inr (h3 container (hcont ▸ List.getElem_mem hl) hd)

/-- `add_child` closes blocks until the new one fits. -/
theorem addChildLoop_ok {tag : Kind} (htag : tag ≠ .item) : ∀ (fuel : Nat) (p : PState),
    p.spine.length < fuel → GoodChain p.ds → (∀ d ∈ p.ds.head?, wide d.t ∨ startLine d < p.lineNumber) →
    ∃ k sp m b r, addChildLoop tag fuel p = .ok { p with spine := sp, refmap := m } ∧
      Steps p.core { p.core with spine := sp, refmap := m } ∧ sp = b :: r ∧
      sp.map (·.data) = p.ds.drop k ∧ k < p.ds.length ∧ canContain b.data.t tag = true := by
  intro fuel
  induction fuel with
  | zero => intro p hf; omega
  | succ fuel ih =>
    intro p hf hg ht
    cases hs : p.spine with
    | nil => exact absurd (by simp [PState.ds, hs]) hg.chain.ne_nil
    | cons b r =>
      simp only [addChildLoop]
      rw [hs]
      simp only []
      by_cases hc : canContain b.data.t tag = true
      · rw [if_pos hc]
        exact ⟨0, p.spine, p.refmap, b, r, rfl, .refl, hs, rfl, by rw [ds_cons hs]; simp, hc⟩
      · rw [if_neg hc]
        have hw := ht b.data (by rw [ds_cons hs]; simp)
        have hlt : startLine b.data < p.lineNumber := by
          rcases hw with hw | hw
          · exact absurd (wide_canContain hw htag) hc
          · exact hw
        have hr : r ≠ [] := by
          rintro rfl
          have h1 := hg.chain
          rw [ds_cons hs] at h1
          cases h1 with
          | doc h => exact hc (wide_canContain (Or.inl h) htag)
        obtain ⟨e, r', rfl⟩ := List.exists_cons_of_ne_nil hr
        obtain ⟨sp, m, e1, e2', e3⟩ := closeTip_ok (p := p) hg (by rw [hs]; simp)
          (d := b.data) (by rw [ds_cons hs]; rfl) (l := p.lineNumber - 1) (by omega) (by omega)
        have e2 := e2'.step
        rw [e1]
        have hds : p.ds = b.data :: e.data :: r'.map (·.data) := by rw [ds_cons hs]; rfl
        have hds' : ({ p with spine := sp, refmap := m } : PState).ds = e.data :: r'.map (·.data) := by
          show sp.map (·.data) = _
          rw [e3, hds]; rfl
        have hlen : sp.length = p.spine.length - 1 := by
          rw [← List.length_map (f := fun x : OpenBlk => x.data), e3]; simp [PState.ds]
        obtain ⟨k, sp2, m2, b2, r2, f1, f2, f3, f4, f5, f6⟩ := ih { p with spine := sp, refmap := m }
          (by show sp.length < fuel; rw [hs] at hlen hf; simp at hlen hf; omega)
          (by rw [hds']; rw [hds] at hg; exact hg.tail)
          (by
            rw [hds']
            intro d hd
            simp only [List.head?_cons, Option.mem_def, Option.some.injEq] at hd
            subst hd
            right
            have := hg.chain.mono hds e.data (by rw [hds]; simp)
            exact Nat.lt_of_le_of_lt this hlt)
        refine ⟨k + 1, sp2, m2, b2, r2, f1, Relation.ReflTransGen.head e2 f2, f3, ?_, ?_, f6⟩
        · rw [f4, hds', hds]; rfl
        · rw [hds'] at f5; rw [hds]; simp at f5 ⊢; omega

/-- The spine after `add_child`. -/
theorem addChild_ok {tag : Kind} (htag : tag ≠ .item) (off : Nat) (f : NodeData → NodeData) {p : PState}
    (hg : GoodChain p.ds) (hl : ∀ d ∈ p.ds, startLine d ≤ p.lineNumber)
    (ht : ∀ d ∈ p.ds.head?, wide d.t ∨ startLine d < p.lineNumber) :
    ∃ sp m b r, addChild tag off f p =
        .ok { p with spine := ⟨f (atLine tag p.lineNumber off), []⟩ :: sp, refmap := m } ∧
      Steps p.core { p.core with spine := sp, refmap := m } ∧ sp = b :: r ∧
      canContain b.data.t tag = true ∧ GoodChain (sp.map (·.data)) ∧
      (∀ d ∈ sp.map (·.data), startLine d ≤ p.lineNumber) := by
  obtain ⟨k, sp, m, b, r, e1, e2, e3, e4, e5, e6⟩ := addChildLoop_ok htag (p.spine.length + 1) p (by omega) hg ht
  refine ⟨sp, m, b, r, ?_, e2, e3, e6, ?_, ?_⟩
  · simp only [addChild]; rw [e1]; rfl
  · rw [e4]; exact hg.drop k e5
  · rw [e4]; intro d hd; exact hl d (List.mem_of_mem_drop hd)

theorem good_push {d e : NodeData} {r : List NodeData} (hg : GoodChain (e :: r)) (hc : canContain e.t d.t = true)
    (hnd : d.t ≠ .document) (hcl : Closable d) (hl : startLine e ≤ startLine d) : GoodChain (d :: e :: r) :=
  ⟨.cons hc hnd hl hg.chain, by
    intro x hx
    rcases List.mem_cons.1 hx with rfl | hx
    · exact hcl
    · exact hg.closable x hx⟩

/-! ### Block starts -/

/-- The cursor. -/
def PState.cur (p : PState) : Nat × Nat × Nat × Nat × Nat × Bool × Bool × Bool :=
  (p.offset, p.column, p.nextNonspace, p.nextNonspaceColumn, p.indent, p.indented, p.blank,
    p.partiallyConsumedTab)

/-- After a block start that made a leaf. -/
structure Leaf (p : PState) : Prop where
  chain : Chain p.ds
  below : ∀ d ∈ p.ds.tail, Closable d
  tip : ∀ d ∈ p.ds.head?, (∃ x, d.stringContent = some x) ∧ (∃ sp, d.sourcepos = some sp) ∧
    (acceptsLines d.t = true ∨ (p.offset = p.currentLine.length ∧ Closable d))
  le : ∀ d ∈ p.ds, startLine d ≤ p.lineNumber
  pos : 1 ≤ p.lineNumber
  closed : p.allClosed = true
  cur : Cur p

/-- What a block start does. -/
def StartPost (container : NodeData) (p : PState) : Start → PState → Prop
  | .none, p' => Steps p.core p'.core ∧ SP container p' ∧ CurN p' ∧ p'.cur = p.cur
  | .leaf, p' => Steps p.core p'.core ∧ Leaf p'
  | .container, p' => Steps p.core p'.core ∧ p.offset < p'.offset ∧ Cur p' ∧
      ∃ b r, p'.spine = b :: r ∧ SP b.data p'

theorem SP.tip {container : NodeData} {p : PState} (h : SP container p) (hc : p.allClosed = true) :
    ∃ d r, p.ds = d :: r ∧ d.t = container.t ∧ d.listData = container.listData ∧
      (wide d.t ∨ startLine d < p.lineNumber) := by
  rcases h.state with ⟨_, h'⟩ | ⟨ha, _⟩
  · exact h'
  · rw [hc] at ha; cases ha

theorem SP.head {container : NodeData} {p : PState} (h : SP container p) (hc : p.allClosed = true) :
    ∀ d ∈ p.ds.head?, wide d.t ∨ startLine d < p.lineNumber := by
  obtain ⟨d, r, e, _, _, hw⟩ := h.tip hc
  intro x hx
  rw [e] at hx
  simp only [List.head?_cons, Option.mem_def, Option.some.injEq] at hx
  subst hx; exact hw

/-- Closing the unmatched blocks and adding a leaf or container. -/
theorem open_ok {container : NodeData} {p : PState} (h : SP container p) {tag : Kind} (htag : tag ≠ .item)
    (off : Nat) (f : NodeData → NodeData) :
    ∃ sp1 m1 o sp m b r,
      closeUnmatched p = .ok { p with spine := sp1, refmap := m1, oldtip := o, allClosed := true } ∧
      addChild tag off f { p with spine := sp1, refmap := m1, oldtip := o, allClosed := true } =
        .ok { p with
          spine := ⟨f (atLine tag p.lineNumber off), []⟩ :: sp, refmap := m, oldtip := o, allClosed := true } ∧
      Steps p.core { p.core with spine := sp, refmap := m } ∧ sp = b :: r ∧
      canContain b.data.t tag = true ∧ GoodChain (sp.map (·.data)) ∧
      (∀ d ∈ sp.map (·.data), startLine d ≤ p.lineNumber) := by
  obtain ⟨sp1, m1, o, e1, e2, e3⟩ := closeUnmatched_ok h
  obtain ⟨sp, m, b, r, f1, f2, f3, f4, f5, f6⟩ := addChild_ok htag off f e3.good e3.le (e3.head rfl)
  exact ⟨sp1, m1, o, sp, m, b, r, e1, f1, e2.trans f2, f3, f4, f5, f6⟩

theorem SP.frame {container : NodeData} {p q : PState} (h : SP container p) (hc : q.core = p.core)
    (hb : q.books = p.books) : SP container q := by
  have h1 : q.spine = p.spine := congrArg Core.spine hc
  have h2 : q.lineNumber = p.lineNumber := congrArg Core.line hc
  have h3 : q.allClosed = p.allClosed := congrArg Books.allClosed hb
  have h4 : q.oldtip = p.oldtip := congrArg Books.oldtip hb
  have h5 : q.lastMatched = p.lastMatched := congrArg Books.lastMatched hb
  have hd : q.ds = p.ds := by simp [PState.ds, h1]
  have h6 : blockAt q q.lastMatched = blockAt p p.lastMatched := by rw [blockAt_ds, blockAt_ds, hd, h5]
  refine ⟨hd ▸ h.good, ?_, h2 ▸ h.pos, ?_⟩
  · rw [hd, h2]; exact h.le
  · rw [h3, h4, h5, hd, h2, h1, ← h5, h6, h5]; exact h.state

theorem CurN.frame {p q : PState} (h : CurN p) (hc : q.core = p.core) (hb : q.cur = p.cur) : CurN q := by
  have h1 : q.currentLine = p.currentLine := congrArg Core.text hc
  simp only [PState.cur, Prod.mk.injEq] at hb
  obtain ⟨e1, e2, e3, e4, e5, e6, e7, e8⟩ := hb
  refine ⟨?_, ?_, ?_, ?_, ?_, ?_, ?_, by rw [e1, e3, h1]; exact h.white⟩
  · simp only [Cur, e1, h1]; exact h.cur
  · rw [e1, e3]; exact h.ge
  · rw [h1, e3]; exact h.le
  · rw [h1, e3]; exact h.nospace
  · rw [e6, e5]; exact h.indented
  · rw [h1, e3, e7]; exact h.blank
  · intro n hn
    rw [e5] at hn
    have := h.adv n hn
    simp only [advanceOffset] at this ⊢
    rw [h1, e1, e2, e3, e8]; exact this

/-- Nothing happened. -/
theorem post_none {container : NodeData} {p : PState} (h : SP container p) (hn : CurN p) :
    StartPost container p .none p := ⟨.refl, h, hn, rfl⟩

/-- The new block is the tip of a leaf state. -/
theorem leaf_of {p q : PState} {d : NodeData} {sp : List OpenBlk} {b : OpenBlk} {r : List OpenBlk}
    (hs : q.spine = ⟨d, []⟩ :: sp) (hsp : sp = b :: r) (hcc : canContain b.data.t d.t = true)
    (hg : GoodChain (sp.map (·.data))) (hle : ∀ d ∈ sp.map (·.data), startLine d ≤ p.lineNumber)
    (hd : startLine d = p.lineNumber) (hnd : d.t ≠ .document)
    (hx : ∃ x, d.stringContent = some x) (hpos : ∃ s, d.sourcepos = some s)
    (hacc : acceptsLines d.t = true ∨ (q.offset = q.currentLine.length ∧ Closable d))
    (hl : q.lineNumber = p.lineNumber) (hp : 1 ≤ p.lineNumber) (ha : q.allClosed = true) (hc : Cur q) :
    Leaf q := by
  have hds : q.ds = d :: b.data :: r.map (·.data) := by simp [PState.ds, hs, hsp]
  subst hsp
  refine ⟨?_, ?_, ?_, ?_, hl ▸ hp, ha, hc⟩
  · rw [hds]
    exact .cons hcc hnd (by rw [hd]; exact hle _ (by simp)) hg.chain
  · rw [hds]; exact hg.closable
  · rw [hds]
    intro x hx'
    simp only [List.head?_cons, Option.mem_def, Option.some.injEq] at hx'
    subst hx'
    exact ⟨hx, hpos, hacc⟩
  · rw [hds, hl]
    intro x hx'
    rcases List.mem_cons.1 hx' with rfl | hx'
    · omega
    · exact hle x hx'

theorem startLine_atLine (t : Kind) (l c : Nat) : startLine (atLine t l c) = l := rfl

theorem closable_atLine {t : Kind} (l c : Nat) : Closable (atLine t l c) :=
  ⟨⟨_, rfl⟩, by intro _ h; simp [atLine] at h, ⟨_, rfl⟩⟩

/-- A new block on top of `sp`. -/
theorem sp_push {p : PState} {d : NodeData} {sp : List OpenBlk} {b : OpenBlk} {r : List OpenBlk}
    (hs : p.spine = ⟨d, []⟩ :: sp) (hsp : sp = b :: r) (hcc : canContain b.data.t d.t = true)
    (hg : GoodChain (sp.map (·.data))) (hle : ∀ d ∈ sp.map (·.data), startLine d ≤ p.lineNumber)
    (hd : startLine d = p.lineNumber) (hw : wide d.t) (hnd : d.t ≠ .document) (hcl : Closable d)
    (hp : 1 ≤ p.lineNumber) (ha : p.allClosed = true) : SP d p := by
  have hds : p.ds = d :: b.data :: r.map (·.data) := by simp [PState.ds, hs, hsp]
  subst hsp
  refine ⟨?_, ?_, hp, Or.inl ⟨ha, _, _, hds, rfl, rfl, Or.inl hw⟩⟩
  · rw [hds]; exact good_push hg hcc hnd hcl (by rw [hd]; exact hle _ (by simp))
  · rw [hds]
    intro x hx
    rcases List.mem_cons.1 hx with rfl | hx
    · omega
    · exact hle x hx

theorem startBlockQuote_ok {container : NodeData} {p : PState} (h : SP container p) (hn : CurN p) :
    ∃ r p', startBlockQuote p = .ok (r, p') ∧ StartPost container p r p' := by
  simp only [startBlockQuote]
  by_cases hc : (!p.indented && peekAt p.currentLine p.nextNonspace == some '>') = true
  · rw [if_pos hc]
    simp only [Bool.and_eq_true, beq_iff_eq] at hc
    have hsp : SP container (eatQuoteMarker p) := h.frame (core_eat p) (books_eat p)
    have hnn : (eatQuoteMarker p).nextNonspace = p.nextNonspace := by
      simp only [eatQuoteMarker]; split <;> rfl
    have hlt : p.nextNonspace < p.currentLine.length := (List.getElem?_eq_some_iff.1 hc.2).1
    have hcore := core_eat p
    have hoff := offset_eat hn hc.2
    have hcur := cur_eat hn
    have htext : (eatQuoteMarker p).currentLine = p.currentLine := congrArg Core.text hcore
    generalize eatQuoteMarker p = q at *
    obtain ⟨sp1, m1, o, sp, m, b, r, e1, e2, e3, e4, e5, e6, e7⟩ :=
      open_ok hsp (tag := .blockQuote) (by simp) q.nextNonspace id
    rw [e1]; simp only [bind, Except.bind]; rw [e2]
    refine ⟨.container, _, rfl, ?_⟩
    show Steps p.core _ ∧ _
    rw [← hcore]
    refine ⟨e3.tail ?_, hoff, hcur, _, _, rfl, ?_⟩
    · exact Step.push (c := { q.core with spine := sp, refmap := m }) e4 e5
        (NewBlock.quote _ (by show q.nextNonspace < q.currentLine.length; rw [hnn, htext]; exact hlt)
          (by show q.currentLine[q.nextNonspace]? = some '>'; rw [hnn, htext]; exact hc.2))
    · exact sp_push rfl e4 e5 e6 e7 rfl (Or.inr (Or.inl rfl)) (by simp [atLine]) (closable_atLine _ _)
        hsp.pos rfl
  · rw [if_neg hc]
    exact ⟨_, _, rfl, post_none h hn⟩

theorem drop_lt {s m : Str} {k : Nat} {r : Re} (h : r.matchPrefix (s.drop k) = some m) (hm : 0 < m.length) :
    k < s.length ∧ k + m.length ≤ s.length := by
  have := Re.matchPrefix_length h
  rw [List.length_drop] at this
  omega

theorem startAtx_ok {container : NodeData} {p : PState} (h : SP container p) (hn : CurN p) :
    ∃ r p', startAtx p = .ok (r, p') ∧ StartPost container p r p' := by
  simp only [startAtx]
  by_cases hi : p.indented = true
  · rw [if_pos hi]; exact ⟨_, _, rfl, post_none h hn⟩
  · rw [if_neg hi]
    split
    · exact ⟨_, _, rfl, post_none h hn⟩
    · rename_i m hm
      have hml : 1 ≤ m.length := Re.matchPrefix_minLen hm
      have hlt := drop_lt hm (by omega)
      generalize hq : advanceOffset m.length false (advanceNextNonspace p) = q
      have hcore : q.core = p.core := by rw [← hq]; rfl
      have hbooks : q.books = p.books := by rw [← hq]; rfl
      have hnn : q.nextNonspace = p.nextNonspace := by rw [← hq]; rfl
      have hcur : Cur q := by rw [← hq]; exact cur_adv (cur_advN hn) _ _
      have htext : q.currentLine = p.currentLine := congrArg Core.text hcore
      have hsp : SP container q := h.frame hcore hbooks
      obtain ⟨sp1, m1, o, sp, m', b, r, e1, e2, e3, e4, e5, e6, e7⟩ :=
        open_ok hsp (tag := .heading) (by simp) q.nextNonspace
          (fun d => { d with
            level := some (strip m).length
            stringContent := some (atxContent (q.currentLine.drop q.offset)) })
      rw [e1]; simp only [bind, Except.bind]; rw [e2]
      refine ⟨.leaf, _, rfl, ?_⟩
      show Steps p.core _ ∧ _
      rw [← hcore]
      refine ⟨e3.tail ?_, ?_⟩
      · exact Step.push (c := { q.core with spine := sp, refmap := m' }) e4 e5
          (NewBlock.atx (c := { q.core with spine := sp, refmap := m' }) q.nextNonspace m q.offset
            (by show q.nextNonspace < q.currentLine.length; rw [hnn, htext]; exact hlt.1)
            (by show reATXHeadingMarker.matchPrefix (q.currentLine.drop q.nextNonspace) = _; rw [hnn, htext]; exact hm))
      · have hend := offset_end (p := { q with
            spine := ⟨{ atLine .heading q.lineNumber q.nextNonspace with
              level := some (strip m).length
              stringContent := some (atxContent (q.currentLine.drop q.offset)) }, []⟩ :: sp
            refmap := m', oldtip := o, allClosed := true }) hcur
        exact leaf_of (p := q) rfl e4 e5 e6 e7 rfl (by simp [atLine]) ⟨_, rfl⟩ ⟨_, rfl⟩
          (Or.inr ⟨hend, ⟨⟨_, rfl⟩, by intro hx; simp [atLine] at hx, ⟨_, rfl⟩⟩⟩) rfl hsp.pos rfl
          (cur_adv hcur _ _)

theorem startFenced_ok {container : NodeData} {p : PState} (h : SP container p) (hn : CurN p) :
    ∃ r p', startFenced p = .ok (r, p') ∧ StartPost container p r p' := by
  simp only [startFenced]
  by_cases hi : p.indented = true
  · rw [if_pos hi]; exact ⟨_, _, rfl, post_none h hn⟩
  · rw [if_neg hi]
    split
    · exact ⟨_, _, rfl, post_none h hn⟩
    · rename_i m hm
      have hml : 3 ≤ m.length := Re.matchPrefix_minLen hm
      have hlt := drop_lt hm (by omega)
      obtain ⟨sp1, m1, o, sp, m', b, r, e1, e2, e3, e4, e5, e6, e7⟩ :=
        open_ok h (tag := .codeBlock) (by simp) p.nextNonspace
          (fun d => { d with
            isFenced := true, fenceLength := m.length, fenceChar := m.head?, fenceOffset := p.indent })
      rw [e1]; simp only [bind, Except.bind]; rw [e2]
      refine ⟨.leaf, _, rfl, ?_⟩
      refine ⟨e3.tail ?_, ?_⟩
      · exact Step.push (c := { p.core with spine := sp, refmap := m' }) e4 e5
          (NewBlock.fenced (c := { p.core with spine := sp, refmap := m' }) p.nextNonspace m p.indent
            hlt.1 hm (by have := hn.indented; simp only [hi] at this; simp at this; omega))
      · exact leaf_of (p := p) rfl e4 e5 e6 e7 rfl (by simp [atLine]) ⟨_, rfl⟩ ⟨_, rfl⟩
          (Or.inl rfl) rfl h.pos rfl
          (cur_adv (p := advanceNextNonspace { p with
            spine := ⟨{ atLine .codeBlock p.lineNumber p.nextNonspace with
              isFenced := true, fenceLength := m.length, fenceChar := m.head?, fenceOffset := p.indent }, []⟩ :: sp
            refmap := m', oldtip := o, allClosed := true }) hn.le _ _)

theorem htmlBlockType_range {k : Kind} {s : Str} {i : Nat} (h : htmlBlockType k s = some i) : 1 ≤ i ∧ i ≤ 7 := by
  have := List.mem_of_find?_eq_some h
  simp at this; omega

theorem startHtml_ok {container : NodeData} {p : PState} (h : SP container p) (hn : CurN p) :
    ∃ r p', startHtml container.t p = .ok (r, p') ∧ StartPost container p r p' := by
  simp only [startHtml]
  by_cases hc : (!p.indented && peekAt p.currentLine p.nextNonspace == some '<') = true
  · rw [if_pos hc]
    simp only [Bool.and_eq_true, beq_iff_eq] at hc
    have hlt : p.nextNonspace < p.currentLine.length := (List.getElem?_eq_some_iff.1 hc.2).1
    split
    · rename_i i hi
      obtain ⟨sp1, m1, o, sp, m', b, r, e1, e2, e3, e4, e5, e6, e7⟩ :=
        open_ok h (tag := .htmlBlock) (by simp) p.offset (fun d => { d with htmlBlockType := i })
      rw [e1]; simp only [bind, Except.bind]; rw [e2]
      refine ⟨.leaf, _, rfl, ?_⟩
      refine ⟨e3.tail ?_, ?_⟩
      · exact Step.push (c := { p.core with spine := sp, refmap := m' }) e4 e5
          (NewBlock.html (c := { p.core with spine := sp, refmap := m' }) p.offset i
            (by show p.offset < p.currentLine.length; have := hn.ge; omega)
            (htmlBlockType_range hi).1 (htmlBlockType_range hi).2 ⟨_, p.nextNonspace, hn.ge, hn.white, hi⟩)
      · exact leaf_of (p := p) rfl e4 e5 e6 e7 rfl (by simp [atLine]) ⟨_, rfl⟩ ⟨_, rfl⟩
          (Or.inl rfl) rfl h.pos rfl hn.cur
    · exact ⟨_, _, rfl, post_none h hn⟩
  · rw [if_neg hc]; exact ⟨_, _, rfl, post_none h hn⟩

theorem startThematic_ok {container : NodeData} {p : PState} (h : SP container p) (hn : CurN p) :
    ∃ r p', startThematic p = .ok (r, p') ∧ StartPost container p r p' := by
  simp only [startThematic]
  by_cases hc : (!p.indented && (reThematicBreak.matchPrefix (p.currentLine.drop p.nextNonspace)).isSome) = true
  · rw [if_pos hc]
    simp only [Bool.and_eq_true, Option.isSome_iff_exists] at hc
    obtain ⟨_, m, hm⟩ := hc
    have hml : 3 ≤ m.length := Re.matchPrefix_minLen hm
    have hlt := drop_lt hm (by omega)
    obtain ⟨sp1, m1, o, sp, m', b, r, e1, e2, e3, e4, e5, e6, e7⟩ :=
      open_ok h (tag := .thematicBreak) (by simp) p.nextNonspace id
    rw [e1]; simp only [bind, Except.bind]; rw [e2]
    refine ⟨.leaf, _, rfl, ?_⟩
    refine ⟨e3.tail ?_, ?_⟩
    · exact Step.push (c := { p.core with spine := sp, refmap := m' }) e4 e5
        (NewBlock.thematic (c := { p.core with spine := sp, refmap := m' }) p.nextNonspace hlt.1
          (by show (reThematicBreak.matchPrefix (p.currentLine.drop p.nextNonspace)).isSome = true; rw [hm]; rfl))
    · exact leaf_of (p := p) rfl e4 e5 e6 e7 rfl (by simp [atLine]) ⟨_, rfl⟩ ⟨_, rfl⟩
        (Or.inr ⟨offset_end (p := { p with
            spine := ⟨atLine .thematicBreak p.lineNumber p.nextNonspace, []⟩ :: sp
            refmap := m', oldtip := o, allClosed := true }) hn.cur, closable_atLine _ _⟩) rfl h.pos rfl
        (cur_adv (p := { p with
            spine := ⟨atLine .thematicBreak p.lineNumber p.nextNonspace, []⟩ :: sp
            refmap := m', oldtip := o, allClosed := true }) hn.cur _ _)
  · rw [if_neg hc]; exact ⟨_, _, rfl, post_none h hn⟩

theorem startIndented_ok {container : NodeData} {p : PState} (h : SP container p) (hn : CurN p) :
    ∃ r p', startIndented p = .ok (r, p') ∧ StartPost container p r p' := by
  simp only [startIndented]
  by_cases hc : (p.indented && tipKind p != some .paragraph && !p.blank) = true
  · rw [if_pos hc]
    generalize hq : advanceOffset 4 true p = q
    have hcore : q.core = p.core := by rw [← hq]; rfl
    have hbooks : q.books = p.books := by rw [← hq]; rfl
    have hcur : Cur q := by rw [← hq]; exact cur_adv hn.cur _ _
    have hlt : q.offset < p.currentLine.length ∧
        ∃ j ch, q.offset ≤ j ∧ p.currentLine[j]? = some ch ∧ ch ≠ ' ' ∧ ch ≠ '\t' := by
      simp only [Bool.and_eq_true, Bool.not_eq_true'] at hc
      obtain ⟨⟨hi, _⟩, hb⟩ := hc
      rw [hn.indented, decide_eq_true_eq] at hi
      have h1 := hn.adv 4 hi
      rw [hq] at h1
      rw [hn.blank] at hb
      cases hx : p.currentLine[p.nextNonspace]? with
      | none => rw [hx] at hb; cases hb
      | some x =>
        refine ⟨Nat.lt_of_le_of_lt h1 (List.getElem?_eq_some_iff.1 hx).1, _, x, h1, hx, ?_, ?_⟩
        · rintro rfl; exact hn.nospace.2 hx
        · rintro rfl; exact hn.nospace.1 hx
    have htext : q.core.text = p.currentLine := by rw [hcore]; rfl
    have hsp : SP container q := h.frame hcore hbooks
    obtain ⟨sp1, m1, o, sp, m', b, r, e1, e2, e3, e4, e5, e6, e7⟩ :=
      open_ok hsp (tag := .codeBlock) (by simp) q.offset id
    rw [e1]; simp only [bind, Except.bind]; rw [e2]
    refine ⟨.leaf, _, rfl, ?_⟩
    show Steps p.core _ ∧ _
    rw [← hcore]
    refine ⟨e3.tail ?_, ?_⟩
    · exact Step.push (c := { q.core with spine := sp, refmap := m' }) e4 e5
        (NewBlock.indented (c := { q.core with spine := sp, refmap := m' }) q.offset (by show _ < q.core.text.length; rw [htext]; exact hlt.1)
          (by show ∃ j ch, q.offset ≤ j ∧ q.core.text[j]? = _ ∧ _; rw [htext]; exact hlt.2))
    · exact leaf_of (p := q) rfl e4 e5 e6 e7 rfl (by simp [atLine]) ⟨_, rfl⟩ ⟨_, rfl⟩
        (Or.inl rfl) rfl hsp.pos rfl hcur
  · rw [if_neg hc]; exact ⟨_, _, rfl, post_none h hn⟩

theorem canContain_leaf {e k k' : Kind} (h : canContain e k = true) (hk : k ≠ .item) (hk' : k' ≠ .item) :
    canContain e k' = true := by
  cases e <;> simp_all [canContain]

theorem startSetext_ok {container : NodeData} {p : PState} (h : SP container p) (hn : CurN p) :
    ∃ r p', startSetext container.t p = .ok (r, p') ∧ StartPost container p r p' := by
  simp only [startSetext]
  by_cases hc : (!p.indented && container.t == .paragraph) = true
  · rw [if_pos hc]
    simp only [Bool.and_eq_true, beq_iff_eq] at hc
    split
    · exact ⟨_, _, rfl, post_none h hn⟩
    · rename_i m hm
      obtain ⟨sp1, m1, o, e1, e2, e3⟩ := closeUnmatched_ok h
      rw [e1]; simp only [bind, Except.bind]
      obtain ⟨d, r, hds, htd, hld, hw⟩ := e3.tip rfl
      obtain ⟨b, sp, hs, rfl, rfl⟩ := spine_of_ds hds
      replace hs : sp1 = b :: sp := hs
      subst hs
      have htp : b.data.t = .paragraph := by rw [htd, hc.2]
      have hgood := e3.good
      rw [hds] at hgood
      obtain ⟨x, hx⟩ := (hgood.closable b.data (by simp)).content
      simp only [hx]
      obtain ⟨⟨x', m', hb⟩, hr⟩ := refLoop_ok (x.length + 1) x m1 false (by omega)
      rw [hr]
      simp only []
      have hne : sp ≠ [] := by
        rintro rfl
        cases hgood.chain with
        | doc h => rw [h] at htp; cases htp
      obtain ⟨e, sp', rfl⟩ := List.exists_cons_of_ne_nil hne
      have hchain := hgood.chain
      simp only [List.map_cons] at hchain
      by_cases hemp : x'.isEmpty = true
      · rw [if_pos hemp]
        have hnil : x' = [] := by simpa using hemp
        subst hnil
        refine ⟨.none, _, rfl, e2.tail ?_, ?_, ?_, rfl⟩
        · exact Step.refs (c := { p.core with spine := b :: e :: sp', refmap := m1 }) rfl htp hx hr
        · have hds2 : ∀ q : PState, q.spine = { b with data := { b.data with stringContent := some [] } } :: e :: sp' →
              q.ds = { b.data with stringContent := some [] } :: e.data :: sp'.map (·.data) := by
            intro q hq; simp [PState.ds, hq]
          refine ⟨?_, ?_, h.pos, Or.inl ⟨rfl, ?_⟩⟩
          · rw [hds2 _ rfl]
            cases hchain with
            | cons h1 h2 h3 h4 =>
              refine ⟨.cons h1 h2 h3 h4, ?_⟩
              intro y hy
              rcases List.mem_cons.1 hy with rfl | hy
              · exact ⟨⟨_, rfl⟩, (fun hk => by rw [show ({ b.data with stringContent := some [] } : NodeData).t = b.data.t from rfl, htp] at hk; cases hk),
                  (hgood.closable b.data (by simp)).pos⟩
              · exact hgood.closable y (List.mem_cons_of_mem _ hy)
          · rw [hds2 _ rfl]
            intro y hy
            have hle := e3.le
            rw [hds] at hle
            rcases List.mem_cons.1 hy with rfl | hy
            · exact hle b.data (by simp)
            · exact hle y (List.mem_cons_of_mem _ hy)
          · rw [hds2 _ rfl]
            exact ⟨_, _, rfl, htd, hld, hw⟩
        · exact ⟨hn.cur, hn.ge, hn.le, hn.nospace, hn.indented, hn.blank, hn.adv, hn.white⟩
      · rw [if_neg hemp]
        refine ⟨.leaf, _, rfl, e2.tail ?_, ?_⟩
        · exact Step.setext (c := { p.core with spine := b :: e :: sp', refmap := m1 })
            (if m.head? == some '=' then 1 else 2) rfl htp hx hr (by simpa using hemp) (by split <;> simp)
            ⟨p.nextNonspace, m, hm, rfl⟩
            (by have hle := e3.le; rw [hds] at hle; exact hle b.data (by simp))
        · have hds2 : ∀ q : PState, q.spine = ⟨setextData b.data (if m.head? == some '=' then 1 else 2) x', []⟩ :: e :: sp' →
              q.ds = setextData b.data (if m.head? == some '=' then 1 else 2) x' :: e.data :: sp'.map (·.data) := by
            intro q hq; simp [PState.ds, hq]
          have hsl : startLine (setextData b.data (if m.head? == some '=' then 1 else 2) x') = startLine b.data := rfl
          have hcl : Closable (setextData b.data (if m.head? == some '=' then 1 else 2) x') :=
            ⟨⟨_, rfl⟩, (fun hk => by cases hk), (hgood.closable b.data (by simp)).pos⟩
          have hcurq : Cur ({ p with
            spine := ⟨setextData b.data (if m.head? == some '=' then 1 else 2) x', []⟩ :: e :: sp'
            refmap := m', oldtip := o, allClosed := true } : PState) := hn.cur
          have hle := e3.le
          rw [hds] at hle
          refine ⟨?_, ?_, ?_, ?_, h.pos, rfl, cur_adv hcurq _ _⟩
          · rw [hds2 _ rfl]
            cases hchain with
            | cons h1 h2 h3 h4 =>
              exact .cons (canContain_leaf h1 (by rw [htp]; simp) (by simp [setextData])) (by simp [setextData]) h3 h4
          · rw [hds2 _ rfl]
            intro y hy
            exact hgood.closable y (List.mem_cons_of_mem _ hy)
          · rw [hds2 _ rfl]
            intro y hy
            simp only [List.head?_cons, Option.mem_def, Option.some.injEq] at hy
            subst hy
            exact ⟨⟨_, rfl⟩, hcl.pos, Or.inr ⟨offset_end hcurq, hcl⟩⟩
          · rw [hds2 _ rfl]
            intro y hy
            rcases List.mem_cons.1 hy with rfl | hy
            · exact hle b.data (by simp)
            · exact hle y (List.mem_cons_of_mem _ hy)
  · rw [if_neg hc]; exact ⟨_, _, rfl, post_none h hn⟩

/-! ### List items -/

theorem column_one {p : PState} {c : Char} (hc : p.currentLine[p.offset]? = some c) :
    (advanceOffset 1 true p).column = p.column + 1 := by
  show (advanceLoop p.currentLine true 1 1 p.offset p.column p.partiallyConsumedTab).2.1 = _
  simp only [advanceLoop]
  rw [if_neg (by simp), hc]
  simp only []
  split
  · simp; omega
  · simp

theorem advance_none {p : PState} (hc : p.currentLine[p.offset]? = none) : advanceOffset 1 true p = p := by
  simp only [advanceOffset, advanceLoop]
  rw [if_neg (by simp), hc]

theorem markerSpaces_ok (startCol : Nat) : ∀ (fuel : Nat) (p : PState), Cur p → startCol ≤ p.column →
    6 ≤ fuel + (p.column - startCol) → 1 ≤ fuel →
    ∃ o col pct, markerSpaces startCol fuel p =
      .ok { p with offset := o, column := col, partiallyConsumedTab := pct } ∧
      p.offset ≤ o ∧ o ≤ p.currentLine.length := by
  intro fuel
  induction fuel with
  | zero => intro p _ _ _ h; omega
  | succ fuel ih =>
    intro p hcur hcol hf _
    simp only [markerSpaces]
    have h1 : p.offset ≤ (advanceOffset 1 true p).offset := offset_adv hcur 1 true
    have h2 : (advanceOffset 1 true p).offset ≤ p.currentLine.length := cur_adv hcur 1 true
    by_cases hc : (decide ((advanceOffset 1 true p).column - startCol < 5) &&
        isSpTabOpt (peekAt (advanceOffset 1 true p).currentLine (advanceOffset 1 true p).offset)) = true
    · rw [if_pos hc]
      simp only [Bool.and_eq_true, decide_eq_true_eq] at hc
      cases hp : p.currentLine[p.offset]? with
      | none =>
        exfalso
        rw [advance_none hp] at hc
        simp [peekAt, hp, isSpTabOpt] at hc
      | some c =>
        have hcol' := column_one hp
        obtain ⟨o, col, pct, e1, e2, e3⟩ := ih (advanceOffset 1 true p) (cur_adv hcur 1 true) (by omega) (by omega)
          (by omega)
        exact ⟨o, col, pct, e1, by omega, e3⟩
    · rw [if_neg hc]
      exact ⟨_, _, _, rfl, h1, h2⟩

theorem advance_cols {p : PState} {n : Nat} {c : Char} (hc : p.currentLine[p.offset]? = some c)
    (hn : 1 ≤ n) (ht : c ≠ '\t') : p.offset + 1 ≤ (advanceOffset n true p).offset := by
  obtain ⟨n, rfl⟩ : ∃ k, n = k + 1 := ⟨n - 1, by omega⟩
  show _ ≤ (advanceLoop p.currentLine true (n + 1) (n + 1) p.offset p.column p.partiallyConsumedTab).1
  simp only [advanceLoop]
  rw [if_neg (by simp), hc]
  simp only []
  rw [if_neg (by simpa using ht)]
  have hlt : p.offset < p.currentLine.length := (List.getElem?_eq_some_iff.1 hc).1
  exact (advanceLoop_spec p.currentLine true n (n + 1 - 1) (p.offset + 1) (p.column + 1) false (by omega)).1

theorem listMarker_pos {k : Kind} {s m : Str} {x : ListType × Option Char × Option Nat × Option Char}
    (h : listMarker k s = some (m, x)) : 1 ≤ m.length ∧ s ≠ [] := by
  cases s with
  | nil => simp [listMarker] at h
  | cons c cs =>
    refine ⟨?_, by simp⟩
    simp only [listMarker] at h
    split at h
    · simp only [Option.some.injEq, Prod.mk.injEq] at h; rw [← h.1]; simp
    · split at h
      · cases h
      · rename_i m' hm
        split at h
        · simp only [Option.some.injEq, Prod.mk.injEq] at h
          rw [← h.1]
          have : 2 ≤ m'.length := Re.matchPrefix_minLen hm
          omega
        · cases h

theorem parseListMarker_ok {p : PState} (k : Kind) (hn : CurN p) :
    parseListMarker k p = .ok (none, p) ∨
    ∃ l o col pct, parseListMarker k p =
        .ok (some l, { p with offset := o, column := col, partiallyConsumedTab := pct }) ∧
      p.offset < o ∧ o ≤ p.currentLine.length ∧ MarkerAt p.core p.nextNonspace l := by
  simp only [parseListMarker]
  by_cases hi : p.indent ≥ 4
  · rw [if_pos hi]; exact Or.inl rfl
  · rw [if_neg hi]
    split
    · exact Or.inl rfl
    · rename_i m ty bullet start delim hm
      have hmp := listMarker_pos hm
      by_cases h1 : (!((peekAt p.currentLine (p.nextNonspace + m.length)).isNone ||
          isSpTabOpt (peekAt p.currentLine (p.nextNonspace + m.length)))) = true
      · rw [if_pos h1]; exact Or.inl rfl
      · rw [if_neg h1]
        by_cases h2 : (k == .paragraph &&
            !((p.currentLine.drop (p.nextNonspace + m.length)).any isNonSpace)) = true
        · rw [if_pos h2]; exact Or.inl rfl
        · rw [if_neg h2]
          right
          have hlt : p.nextNonspace < p.currentLine.length := by
            rcases Nat.lt_or_ge p.nextNonspace p.currentLine.length with h | h
            · exact h
            · exact absurd (List.drop_eq_nil_of_le h) hmp.2
          have hc : (advanceNextNonspace p).currentLine[(advanceNextNonspace p).offset]? =
              some p.currentLine[p.nextNonspace] := List.getElem?_eq_getElem hlt
          have hnt : p.currentLine[p.nextNonspace] ≠ '\t' := by
            intro he
            apply hn.nospace.1
            rw [List.getElem?_eq_getElem hlt, he]
          have hadv : p.nextNonspace + 1 ≤ (advanceOffset m.length true (advanceNextNonspace p)).offset :=
            advance_cols hc hmp.1 hnt
          have hge := hn.ge
          have hcur1 : Cur (advanceOffset m.length true (advanceNextNonspace p)) := cur_adv (cur_advN hn) _ _
          have hcur1' : (advanceOffset m.length true (advanceNextNonspace p)).offset ≤ p.currentLine.length := hcur1
          obtain ⟨o, col, pct, e1, e2, e3⟩ := markerSpaces_ok
            (advanceOffset m.length true (advanceNextNonspace p)).column 6 _ hcur1 (Nat.le_refl _) (by omega) (by omega)
          rw [e1]
          simp only [bind, Except.bind]
          have hmark : ∀ pad off, MarkerAt p.core p.nextNonspace ⟨ty, true, bullet, start, delim, pad, off⟩ :=
            fun pad off => ⟨hlt, rfl, ⟨k, m, hm, by
              rw [Bool.not_eq_true, Bool.not_eq_false'] at h1; exact h1⟩⟩
          split
          · split
            · refine ⟨_, _, _, _, rfl, ?_, ?_, hmark _ _⟩
              · have := offset_adv (p := { advanceOffset m.length true (advanceNextNonspace p) with
                  partiallyConsumedTab := pct }) hcur1' 1 true
                have h3 : p.offset < (advanceOffset m.length true (advanceNextNonspace p)).offset := by omega
                exact Nat.lt_of_lt_of_le h3 this
              · exact cur_adv (p := { advanceOffset m.length true (advanceNextNonspace p) with
                  partiallyConsumedTab := pct }) hcur1' 1 true
            · exact ⟨_, _, _, _, rfl, by omega, hcur1', hmark _ _⟩
          · exact ⟨_, _, _, _, rfl, by omega, e3, hmark _ _⟩

theorem addChild_item {p : PState} {b : OpenBlk} {r : List OpenBlk} (hs : p.spine = b :: r)
    (hb : b.data.t = .list) (off : Nat) (f : NodeData → NodeData) :
    addChild .item off f p = .ok { p with spine := ⟨f (atLine .item p.lineNumber off), []⟩ :: p.spine } := by
  have h : addChildLoop .item (p.spine.length + 1) p = .ok p := by
    simp only [addChildLoop]; rw [hs]; simp [hb, canContain]
  simp only [addChild]; rw [h]; rfl

theorem closable_item {t : Kind} (l c : Nat) (x : Option ListData) :
    Closable { atLine t l c with listData := x } :=
  ⟨⟨_, rfl⟩, (fun _ h => by simp [atLine] at h), ⟨_, rfl⟩⟩

theorem startListItem_ok {container : NodeData} {p : PState} (h : SP container p) (hn : CurN p) :
    ∃ r p', startListItem container p = .ok (r, p') ∧ StartPost container p r p' := by
  simp only [startListItem]
  by_cases hc : (!p.indented || container.t == .list) = true
  · rw [if_pos hc]
    rcases parseListMarker_ok container.t hn with h1 | ⟨l, o, col, pct, h1, h2, h3, h4⟩
    · rw [h1]; exact ⟨_, _, rfl, post_none h hn⟩
    · rw [h1]
      simp only [bind, Except.bind]
      have hsp : SP container { p with offset := o, column := col, partiallyConsumedTab := pct } :=
        h.frame rfl rfl
      obtain ⟨sp1, m1, o1, e1, e2, e3⟩ := closeUnmatched_ok hsp
      rw [e1]; simp only []
      obtain ⟨d, r, hds, htd, hld, hw⟩ := e3.tip rfl
      obtain ⟨b, sp, hs, rfl, rfl⟩ := spine_of_ds hds
      replace hs : sp1 = b :: sp := hs
      by_cases ht : ((tipKind ({ p with
          offset := o, column := col, partiallyConsumedTab := pct,
          spine := sp1, refmap := m1, oldtip := o1, allClosed := true } : PState)) != some .list ||
          !(listsMatch container.listData l)) = true
      · rw [if_pos ht]
        obtain ⟨sp2, m2, b2, r2, f1, f2, f3, f4, f5, f6⟩ := addChild_ok (tag := .list) (by simp) p.nextNonspace
          (fun d => { d with listData := some l }) e3.good e3.le (e3.head rfl)
        rw [f1]; simp only []
        rw [addChild_item rfl rfl]
        refine ⟨.container, _, rfl, ?_, h2, h3, _, _, rfl, ?_⟩
        · refine Relation.ReflTransGen.tail (e2.trans f2) ?_
          exact Step.pushList (c := { p.core with spine := sp2, refmap := m2 }) p.nextNonspace l f3 f4
            ⟨h4.inside, h4.tight, h4.marker⟩
        · have hg2 : GoodChain ({ atLine .list p.lineNumber p.nextNonspace with listData := some l } ::
              sp2.map (·.data)) := by
            subst f3
            exact good_push f5 f4 (by simp [atLine]) (closable_item _ _ _) (f6 b2.data (by simp))
          refine sp_push (sp := ⟨{ atLine .list p.lineNumber p.nextNonspace with listData := some l }, []⟩ :: sp2)
            rfl rfl rfl hg2 ?_ rfl (Or.inr (Or.inr rfl)) (by simp [atLine]) (closable_item _ _ _) h.pos rfl
          intro y hy
          rcases List.mem_cons.1 hy with rfl | hy
          · exact Nat.le_refl _
          · exact f6 y hy
      · rw [if_neg ht]
        subst hs
        have htip : b.data.t = .list ∧ listsMatch container.listData l = true := by
          simpa [tipKind] using ht
        simp only [pure, Except.pure]
        rw [addChild_item rfl htip.1]
        refine ⟨.container, _, rfl, ?_, h2, h3, _, _, rfl, ?_⟩
        · refine Relation.ReflTransGen.tail e2 ?_
          exact Step.pushItem (c := { p.core with spine := b :: sp, refmap := m1 }) p.nextNonspace l rfl htip.1
            (by rw [hld]; exact htip.2) ⟨h4.inside, h4.tight, h4.marker⟩
        · exact sp_push (sp := b :: sp) rfl rfl (by rw [htip.1]; rfl) e3.good e3.le rfl (Or.inr (Or.inr rfl))
            (by simp [atLine]) (closable_item _ _ _) h.pos rfl
  · rw [if_neg hc]; exact ⟨_, _, rfl, post_none h hn⟩

theorem StartPost.trans {container : NodeData} {p q : PState} {r : Start} {p' : PState}
    (h : Steps p.core q.core) (hc : q.cur = p.cur) (h' : StartPost container q r p') :
    StartPost container p r p' := by
  cases r with
  | none => exact ⟨h.trans h'.1, h'.2.1, h'.2.2.1, h'.2.2.2.trans hc⟩
  | leaf => exact ⟨h.trans h'.1, h'.2⟩
  | container =>
    refine ⟨h.trans h'.1, ?_, h'.2.2⟩
    have : q.offset = p.offset := congrArg (·.1) hc
    rw [← this]; exact h'.2.1

theorem tryStarts_ok {container : NodeData} (fs : List (PState → Except PyErr (Start × PState)))
    (hf : ∀ f ∈ fs, ∀ p, SP container p → CurN p → ∃ r p', f p = .ok (r, p') ∧ StartPost container p r p') :
    ∀ p, SP container p → CurN p → ∃ r p', tryStarts fs p = .ok (r, p') ∧ StartPost container p r p' := by
  induction fs with
  | nil => intro p h hn; exact ⟨_, _, rfl, post_none h hn⟩
  | cons f fs ih =>
    intro p h hn
    obtain ⟨r, p', e1, e2⟩ := hf f (by simp) p h hn
    simp only [tryStarts]
    rw [e1]
    simp only [bind, Except.bind]
    cases r with
    | none =>
      obtain ⟨h1, h2, h3, h4⟩ := e2
      obtain ⟨r, p'', e3, e4⟩ := ih (fun f hf' => hf f (List.mem_cons_of_mem _ hf')) p' h2 h3
      exact ⟨r, p'', e3, StartPost.trans h1 h4 e4⟩
    | leaf => exact ⟨_, _, rfl, e2⟩
    | container => exact ⟨_, _, rfl, e2⟩

theorem blockStarts_ok {container : NodeData} {p : PState} (h : SP container p) (hn : CurN p) :
    ∃ r p', tryStarts (blockStarts container) p = .ok (r, p') ∧ StartPost container p r p' := by
  refine tryStarts_ok _ ?_ p h hn
  intro f hf p h hn
  simp only [blockStarts, List.mem_cons, List.not_mem_nil, or_false] at hf
  rcases hf with rfl | rfl | rfl | rfl | rfl | rfl | rfl | rfl
  · exact startBlockQuote_ok h hn
  · exact startAtx_ok h hn
  · exact startFenced_ok h hn
  · exact startHtml_ok h hn
  · exact startSetext_ok h hn
  · exact startThematic_ok h hn
  · exact startListItem_ok h hn
  · exact startIndented_ok h hn

/-- The offset is at the first character that is neither a space nor a tab. -/
def CurB (p : PState) : Prop :=
  p.blank = false → p.offset = p.nextNonspace ∧ p.partiallyConsumedTab = false ∧
    ∃ ch, p.currentLine[p.offset]? = some ch ∧ ch ≠ ' ' ∧ ch ≠ '\t'

theorem curB_advN {p : PState} (h : CurN p) : CurB (advanceNextNonspace p) := by
  intro hb
  refine ⟨rfl, rfl, ?_⟩
  have hb' : p.blank = false := hb
  have h1 := h.blank
  have h2 := h.nospace
  rw [hb'] at h1
  show ∃ ch, p.currentLine[p.nextNonspace]? = some ch ∧ _
  cases hc : p.currentLine[p.nextNonspace]? with
  | none => rw [hc] at h1; cases h1
  | some ch =>
    rw [hc] at h2
    exact ⟨ch, rfl, fun h => h2.2 (by rw [h]), fun h => h2.1 (by rw [h])⟩

/-- After the block starts: either the text is still to be placed, or a leaf was opened. -/
def Started (p : PState) : Prop :=
  (∃ container, SP container p ∧ Cur p ∧ (CurB p ∨ acceptsLines container.t = true)) ∨ Leaf p

theorem startsLoop_ok : ∀ (fuel : Nat) (container : NodeData) (p : PState), SP container p → Cur p →
    p.currentLine.length < fuel + p.offset →
    ∃ p', startsLoop fuel container p = .ok p' ∧ Steps p.core p'.core ∧ Started p' := by
  intro fuel
  induction fuel with
  | zero => intro container p h hc hf; have : p.offset ≤ p.currentLine.length := hc; omega
  | succ fuel ih =>
    intro container p h hc hf
    have h' : SP container (findNextNonspace p) := h.frame rfl rfl
    have hn := curN_find hc
    simp only [startsLoop]
    have hcore : (findNextNonspace p).core = p.core := rfl
    have hline : (findNextNonspace p).currentLine = p.currentLine := rfl
    have hoff : (findNextNonspace p).offset = p.offset := rfl
    generalize findNextNonspace p = q at *
    generalize (!q.indented && !_) = cond
    cases cond with
    | true =>
      exact ⟨_, rfl, by rw [core_advN, hcore], Or.inl ⟨container, h'.frame rfl rfl, cur_advN hn, Or.inl (curB_advN hn)⟩⟩
    | false =>
      rw [if_neg (by simp)]
      obtain ⟨r, p', e1, e2⟩ := blockStarts_ok h' hn
      rw [e1]
      simp only [bind, Except.bind]
      cases r with
      | none =>
        exact ⟨_, rfl, by rw [core_advN, ← hcore]; exact e2.1,
          Or.inl ⟨container, e2.2.1.frame rfl rfl, cur_advN e2.2.2.1, Or.inl (curB_advN e2.2.2.1)⟩⟩
      | leaf => exact ⟨_, rfl, by rw [← hcore]; exact e2.1, Or.inr e2.2⟩
      | container =>
        obtain ⟨h1, h2, h3, b, r, h4, h5⟩ := e2
        simp only [h4]
        have htext : p'.currentLine = q.currentLine := (steps_core_line h1).2.1
        obtain ⟨p'', f1, f2, f3⟩ := ih b.data p' h5 h3 (by rw [htext, hline]; omega)
        exact ⟨p'', f1, by rw [← hcore]; exact h1.trans f2, f3⟩

/-! ### The rest of the line -/

theorem addLine_ok {p : PState} {b : OpenBlk} {r : List OpenBlk} {x : Str} (hs : p.spine = b :: r)
    (hx : b.data.stringContent = some x) : ∃ k off o, addLine p = .ok { p with
      spine := { b with data := setContent b.data (x ++ lineText p.core k off) } :: r, offset := o } := by
  simp only [addLine]
  split
  · refine ⟨4 - p.column % 4, p.offset + 1, p.offset + 1, ?_⟩
    simp only [appendContent, hs, hx]; rfl
  · refine ⟨0, p.offset, p.offset, ?_⟩
    simp only [appendContent, hs, hx]; rfl

theorem newline_lineText (c : Core) (k off : Nat) : '\n' ∈ lineText c k off := by
  simp [lineText]

/-- Adding a line to the tip. -/
theorem addLine_good {p : PState} {b : OpenBlk} {r : List OpenBlk} {x : Str} (hs : p.spine = b :: r)
    (ha : acceptsLines b.data.t = true) (hx : b.data.stringContent = some x)
    (hch : Chain p.ds) (hcl : ∀ d ∈ p.ds.tail, Closable d) (hpos : ∃ s, b.data.sourcepos = some s)
    (hle : ∀ d ∈ p.ds, startLine d ≤ p.lineNumber) :
    ∃ sp o b', addLine p = .ok { p with spine := b' :: sp, offset := o } ∧
      Step p.core { p.core with spine := b' :: sp } ∧ (b'.data.t = b.data.t ∧ b'.data.htmlBlockType = b.data.htmlBlockType) ∧
      startLine b'.data = startLine b.data ∧ GoodChain ((b' :: sp).map (·.data)) ∧
      (∀ d ∈ (b' :: sp).map (·.data), startLine d ≤ p.lineNumber) := by
  obtain ⟨k, off, o, e⟩ := addLine_ok hs hx
  refine ⟨_, o, _, e, Step.addLine x k off hs ha hx, ⟨rfl, rfl⟩, rfl, ?_, ?_⟩
  · rw [ds_cons hs] at hch hcl
    refine ⟨?_, ?_⟩
    · cases hr : r with
      | nil =>
        rw [hr] at hch
        cases hch with
        | doc h => exact .doc h
      | cons e r' =>
        rw [hr] at hch
        cases hch with
        | cons h1 h2 h3 h4 => exact .cons h1 h2 h3 h4
    · intro d hd
      rcases List.mem_cons.1 hd with rfl | hd
      · exact ⟨⟨_, rfl⟩, fun _ _ => ⟨_, rfl, List.mem_append_right _ (newline_lineText _ _ _)⟩, hpos⟩
      · exact hcl d hd
  · rw [ds_cons hs] at hle
    intro d hd
    rcases List.mem_cons.1 hd with rfl | hd
    · exact hle b.data (by simp)
    · exact hle d (List.mem_cons_of_mem _ hd)

/-- Setting the flag of a node. -/
def flagData (flag : Bool) (d : NodeData) : NodeData := { d with lastLineBlank := flag }

theorem chain_flag (flag : Bool) {ds : List NodeData} (h : Chain ds) : Chain (ds.map (flagData flag)) := by
  induction h with
  | doc h => exact .doc h
  | cons h1 h2 h3 _ ih => exact .cons h1 h2 h3 ih

theorem closable_flag (flag : Bool) {d : NodeData} (h : Closable d) : Closable (flagData flag d) :=
  ⟨h.content, h.fence, h.pos⟩

theorem flagSpine_ds (blank flag : Bool) (b : OpenBlk) (r : List OpenBlk) :
    (flagSpine blank flag b r).map (·.data) = ((b :: r).map (·.data)).map (flagData flag) := by
  simp only [flagSpine, List.map_map, List.map_cons]
  refine List.cons_eq_cons.2 ⟨?_, ?_⟩
  · cases blank <;> rfl
  · rfl

theorem good_flag (flag : Bool) {ds : List NodeData} (h : GoodChain ds) : GoodChain (ds.map (flagData flag)) := by
  refine ⟨chain_flag flag h.chain, ?_⟩
  intro d hd
  obtain ⟨e, he, rfl⟩ := List.mem_map.1 hd
  exact closable_flag flag (h.closable e he)

/-- After a line. -/
structure Done (p : PState) : Prop where
  good : GoodChain p.ds
  le : ∀ d ∈ p.ds, startLine d ≤ p.lineNumber

/-- The last part of `addText`: the tip is `b`, the unmatched blocks are closed. -/
theorem place_ok {p : PState} {b : OpenBlk} {r : List OpenBlk} (hs : p.spine = b :: r)
    (hch : Chain p.ds) (hcl : ∀ d ∈ p.ds.tail, Closable d)
    (hx : ∃ x, b.data.stringContent = some x) (hpos : ∃ s, b.data.sourcepos = some s)
    (hacc : acceptsLines b.data.t = true ∨
      (Closable b.data ∧ (((wide b.data.t ∨ startLine b.data < p.lineNumber) ∧ CurB p) ∨
        p.offset = p.currentLine.length)))
    (hle : ∀ d ∈ p.ds, startLine d ≤ p.lineNumber) (t : Kind) (ht : b.data.t = t) (i : Nat) (hi : b.data.htmlBlockType = i) :
    ∃ p', (if acceptsLines t then do
        let p ← addLine p
        if t == .htmlBlock && decide (i ≥ 1) && decide (i ≤ 5) &&
            (reHtmlBlockClose i).found (p.currentLine.drop p.offset) then
          finalizeTip p.lineNumber p
        else return p
      else if p.offset < p.currentLine.length && !p.blank then do
        let p ← addChild .paragraph p.offset id p
        addLine (advanceNextNonspace p)
      else return p) = Except.ok p' ∧ LineSteps p.core p'.core ∧ Done p' := by
  subst ht
  subst hi
  by_cases ha : acceptsLines b.data.t = true
  · rw [if_pos ha]
    obtain ⟨x, hx⟩ := hx
    obtain ⟨sp, o, b', e1, e2, e3, e4, e5, e6⟩ := addLine_good hs ha hx hch hcl hpos hle
    rw [e1]
    simp only [bind, Except.bind]
    by_cases hh : (b.data.t == .htmlBlock && decide (b.data.htmlBlockType ≥ 1) && decide (b.data.htmlBlockType ≤ 5) &&
        (reHtmlBlockClose b.data.htmlBlockType).found (p.currentLine.drop o)) = true
    · rw [if_pos hh]
      simp only [Bool.and_eq_true, beq_iff_eq, decide_eq_true_eq] at hh
      have htb : b'.data.t = .htmlBlock := e3.1.trans hh.1.1.1
      have h2 : 2 ≤ (b' :: sp).length := by
        cases sp with
        | nil =>
          cases e5.chain with
          | doc h => simp only at h; rw [htb] at h; cases h
        | cons a b => simp
      obtain ⟨sp2, m2, f1, f2, f3⟩ := closeTip_final (p := { p with spine := b' :: sp, offset := o }) e5 h2
        (d := b'.data) rfl (e6 _ (by simp)) (Or.inr ⟨htb, by rw [e3.2]; exact hh.1.1.2, by rw [e3.2]; exact hh.1.2⟩)
      refine ⟨_, f1, .final (Relation.ReflTransGen.single e2) f2, ?_, ?_⟩
      · show GoodChain (sp2.map (·.data))
        rw [f3]; exact e5.drop 1 (by rw [List.length_map]; omega)
      · show ∀ d ∈ sp2.map (·.data), _
        rw [f3]; intro d hd; exact e6 d (List.mem_of_mem_drop hd)
    · rw [if_neg hh]
      exact ⟨_, rfl, .steps (Relation.ReflTransGen.single e2), e5, e6⟩
  · rw [if_neg ha]
    have hc : Closable b.data ∧ (((wide b.data.t ∨ startLine b.data < p.lineNumber) ∧ CurB p) ∨
        p.offset = p.currentLine.length) := by
      rcases hacc with h | h
      · exact absurd h ha
      · exact h
    have hg : GoodChain p.ds := ⟨hch, by
      rw [ds_cons hs] at hcl ⊢
      intro d hd
      rcases List.mem_cons.1 hd with rfl | hd
      · exact hc.1
      · exact hcl d hd⟩
    by_cases hcond : (decide (p.offset < p.currentLine.length) && !p.blank) = true
    · rw [if_pos hcond]
      simp only [Bool.and_eq_true, decide_eq_true_eq] at hcond
      obtain ⟨hw, hB⟩ : (wide b.data.t ∨ startLine b.data < p.lineNumber) ∧ CurB p := by
        rcases hc.2 with h | h
        · exact h
        · omega
      obtain ⟨sp, m, b2, r2, f1, f2, f3, f4, f5, f6⟩ := addChild_ok (tag := .paragraph) (by simp) p.offset id hg hle
        (by rw [ds_cons hs]; intro d hd; simp only [List.head?_cons, Option.mem_def, Option.some.injEq] at hd; subst hd; exact hw)
      rw [f1]
      simp only [bind, Except.bind]
      have hg2 : GoodChain (atLine .paragraph p.lineNumber p.offset :: sp.map (·.data)) := by
        subst f3
        exact good_push f5 f4 (by simp [atLine]) (closable_atLine _ _) (f6 b2.data (by simp))
      have hle2 : ∀ d ∈ atLine .paragraph p.lineNumber p.offset :: sp.map (·.data), startLine d ≤ p.lineNumber := by
        intro d hd
        rcases List.mem_cons.1 hd with rfl | hd
        · exact Nat.le_refl _
        · exact f6 d hd
      obtain ⟨hoff, hpct, ch, hch1, hch2, hch3⟩ := hB (by simpa using hcond.2)
      subst f3
      refine ⟨{ advanceNextNonspace { p with refmap := m } with
        spine := ⟨setContent (atLine .paragraph p.lineNumber p.offset) (lineText p.core 0 p.offset), []⟩ :: b2 :: r2 },
        ?_, .steps (f2.tail (Step.paragraph (c := { p.core with spine := b2 :: r2, refmap := m }) p.offset rfl f4
          hch1 hch2 hch3)), ⟨?_, ?_⟩, ?_⟩
      · simp only [addLine, advanceNextNonspace, appendContent, hoff, lineText, PState.core, setContent]
        rfl
      · have := hg2.chain
        cases this with
        | cons h1 h2 h3 h4 => exact .cons h1 h2 h3 h4
      · intro d hd
        rcases List.mem_cons.1 hd with rfl | hd
        · exact ⟨⟨_, rfl⟩, (fun h => by cases h), ⟨_, rfl⟩⟩
        · exact hg2.closable d (List.mem_cons_of_mem _ hd)
      · intro d hd
        rcases List.mem_cons.1 hd with rfl | hd
        · exact Nat.le_refl _
        · exact f6 d hd
    · rw [if_neg hcond]
      exact ⟨_, rfl, .steps .refl, hg, hle⟩

theorem addText_ok {p : PState} (h : Started p) :
    ∃ p', addText p = .ok p' ∧ LineSteps p.core p'.core ∧ Done p' := by
  -- the closing of the blocks, in both cases
  have key : ∃ sp m o, closeUnmatched p =
        .ok { p with spine := sp, refmap := m, oldtip := o, allClosed := true } ∧
      Steps p.core { p.core with spine := sp, refmap := m } ∧
      Chain (sp.map (·.data)) ∧ (∀ d ∈ (sp.map (·.data)).tail, Closable d) ∧
      (∀ d ∈ sp.map (·.data), startLine d ≤ p.lineNumber) ∧
      ∀ d ∈ (sp.map (·.data)).head?, (∃ x, d.stringContent = some x) ∧ (∃ s, d.sourcepos = some s) ∧
        (acceptsLines d.t = true ∨ (Closable d ∧ (((wide d.t ∨ startLine d < p.lineNumber) ∧ CurB p) ∨
          p.offset = p.currentLine.length))) := by
    rcases h with ⟨container, h, _, hB⟩ | h
    · obtain ⟨sp, m, o, e1, e2, e3⟩ := closeUnmatched_ok h
      refine ⟨sp, m, o, e1, e2, e3.good.chain, ?_, e3.le, ?_⟩
      · intro d hd; exact e3.good.closable d (List.mem_of_mem_tail hd)
      · intro d hd
        have hc := e3.good.closable d (List.mem_of_mem_head? hd)
        refine ⟨hc.content, hc.pos, ?_⟩
        rcases hB with hB | hB
        · exact Or.inr ⟨hc, Or.inl ⟨e3.head rfl d hd, hB⟩⟩
        · obtain ⟨d', r, e, ht, _⟩ := e3.tip rfl
          have : sp.map (·.data) = d' :: r := e
          rw [this] at hd
          simp only [List.head?_cons, Option.mem_def, Option.some.injEq] at hd
          subst hd
          exact Or.inl (by rw [ht]; exact hB)
    · refine ⟨p.spine, p.refmap, p.oldtip, ?_, .refl, h.chain, h.below, h.le, ?_⟩
      · simp only [closeUnmatched]; rw [if_pos h.closed, ← h.closed]
      · intro d hd
        obtain ⟨h1, h2, h3⟩ := h.tip d hd
        refine ⟨h1, h2, ?_⟩
        rcases h3 with h3 | ⟨h3, h4⟩
        · exact Or.inl h3
        · exact Or.inr ⟨h4, Or.inr h3⟩
  simp only [addText]
  by_cases hlazy : (!p.allClosed && !p.blank && tipKind p == some .paragraph) = true
  · rw [if_pos hlazy]
    rcases h with ⟨container, h, _⟩ | h
    · cases hs : p.spine with
      | nil => exact absurd (by simp [PState.ds, hs]) h.good.chain.ne_nil
      | cons b r =>
        have hb : b.data.t = .paragraph := by
          simp only [Bool.and_eq_true, tipKind, hs] at hlazy; simpa using hlazy.2
        have hc := h.good.closable b.data (by rw [ds_cons hs]; simp)
        obtain ⟨x, hx⟩ := hc.content
        obtain ⟨sp, o, b', e1, e2, e3, e4, e5, e6⟩ := addLine_good hs (by rw [hb]; rfl) hx h.good.chain
          (fun d hd => h.good.closable d (List.mem_of_mem_tail hd)) hc.pos h.le
        exact ⟨_, e1, .steps (Relation.ReflTransGen.single e2), e5, e6⟩
    · rw [h.closed] at hlazy; simp at hlazy
  · rw [if_neg hlazy]
    obtain ⟨sp, m, o, e1, e2, e3, e4, e5, e6⟩ := key
    rw [e1]
    simp only [bind, Except.bind]
    cases sp with
    | nil => exact absurd rfl e3.ne_nil
    | cons b r =>
      simp only []
      have hb := e6 b.data rfl
      have hdata : (if p.blank = true then { b with children := markLastChild b.children } else b).data = b.data := by
        split <;> rfl
      generalize hflag : lineBlankFlag _ _ = flag
      have hspine : ∀ b', b' = (if p.blank = true then { b with children := markLastChild b.children } else b) →
          (b' :: r).map (fun x : OpenBlk => { x with data := { x.data with lastLineBlank := flag } }) =
            flagSpine p.blank flag b r := by
        rintro b' rfl; rfl
      rw [hspine _ rfl]
      rw [hdata]
      have hds : ({ p with spine := flagSpine p.blank flag b r, refmap := m, oldtip := o, allClosed := true } : PState).ds
          = ((b :: r).map (·.data)).map (flagData flag) := flagSpine_ds _ _ _ _
      obtain ⟨p', f1, f2, f3⟩ := place_ok
        (p := { p with spine := flagSpine p.blank flag b r, refmap := m, oldtip := o, allClosed := true })
        (b := { (if p.blank = true then { b with children := markLastChild b.children } else b) with
          data := flagData flag (if p.blank = true then { b with children := markLastChild b.children } else b).data })
        rfl (by rw [hds]; exact chain_flag flag e3)
        (by
          rw [hds]
          intro d hd
          rw [← List.map_tail] at hd
          obtain ⟨y, hy, rfl⟩ := List.mem_map.1 hd
          exact closable_flag flag (e4 y hy))
        (by rw [hdata]; exact hb.1) (by rw [hdata]; exact hb.2.1)
        (by
          rw [hdata]
          rcases hb.2.2 with h | ⟨h1, h2⟩
          · exact Or.inl h
          · exact Or.inr ⟨closable_flag flag h1, h2⟩)
        (by
          rw [hds]
          intro d hd
          obtain ⟨y, hy, rfl⟩ := List.mem_map.1 hd
          exact e5 y hy)
        b.data.t (by rw [hdata]; rfl) b.data.htmlBlockType (by rw [hdata]; rfl)
      refine ⟨p', f1, ?_, f3⟩
      exact .head (e2.tail (Step.flags (c := { p.core with spine := b :: r, refmap := m }) p.blank flag rfl)) f2

/-! ### The continuation loop -/

theorem continueBlock_spec (d : NodeData) (hc : Bool) {p : PState} (hn : CurN p) :
    (continueBlock d hc p).2.core = p.core ∧ (continueBlock d hc p).2.books = p.books ∧
    Cur (continueBlock d hc p).2 ∧
    ((continueBlock d hc p).1 = .done → d.t = .codeBlock ∧ (continueBlock d hc p).2 = p) := by
  simp only [continueBlock]
  cases d.t
  case blockQuote =>
    simp only []
    split
    · exact ⟨core_eat p, books_eat p, cur_eat hn, by simp⟩
    · exact ⟨rfl, rfl, hn.cur, by simp⟩
  case item =>
    simp only []
    split
    · split
      · exact ⟨rfl, rfl, cur_advN hn, by simp⟩
      · exact ⟨rfl, rfl, hn.cur, by simp⟩
    · split
      · split
        · exact ⟨rfl, rfl, cur_adv hn.cur _ _, by simp⟩
        · exact ⟨rfl, rfl, hn.cur, by simp⟩
      · split
        · exact ⟨rfl, rfl, cur_adv hn.cur _ _, by simp⟩
        · exact ⟨rfl, rfl, hn.cur, by simp⟩
  case codeBlock =>
    simp only []
    split
    · split
      · exact ⟨rfl, rfl, hn.cur, by simp⟩
      · exact ⟨core_fence _ p, books_fence _ p, cur_fence hn.cur _, by simp⟩
    · split
      · exact ⟨rfl, rfl, cur_adv hn.cur _ _, by simp⟩
      · split
        · exact ⟨rfl, rfl, cur_advN hn, by simp⟩
        · exact ⟨rfl, rfl, hn.cur, by simp⟩
  case htmlBlock =>
    simp only []
    split <;> exact ⟨rfl, rfl, hn.cur, by simp⟩
  case paragraph =>
    simp only []
    split <;> exact ⟨rfl, rfl, hn.cur, by simp⟩
  all_goals exact ⟨rfl, rfl, hn.cur, by simp⟩

/-- Only a fenced code block ends the line. -/
theorem continueBlock_fenced (d : NodeData) (hc : Bool) (p : PState) (h : (continueBlock d hc p).1 = .done) : d.isFenced = true := by
  simp only [continueBlock] at h
  cases hd : d.t <;> rw [hd] at h
  case codeBlock =>
    dsimp only at h
    split at h
    · assumption
    · split at h
      · cases h
      · split at h <;> cases h
  case item =>
    dsimp only at h
    split at h
    · split at h <;> cases h
    · split at h
      · split at h <;> cases h
      · split at h <;> cases h
  case blockQuote | htmlBlock | paragraph =>
    dsimp only at h
    split at h <;> cases h
  all_goals cases h

/-- Result of the continuation loop. -/
def ContPost (p : PState) (lo hi : Nat) : PState ⊕ (Nat × PState) → Prop
  | .inr (d, q) => lo ≤ d ∧ d ≤ hi ∧ q.core = p.core ∧ q.books = p.books ∧ Cur q
  | .inl q => ∃ sp m o c n nc i ib bl pct,
      q = { p with
        spine := sp, refmap := m, offset := o, column := c, nextNonspace := n, nextNonspaceColumn := nc,
        indent := i, indented := ib, blank := bl, partiallyConsumedTab := pct,
        lastLineLength := p.currentLine.length } ∧
      Final p.core { p.core with spine := sp, refmap := m } ∧ sp.map (·.data) = p.ds.drop 1 ∧
      2 ≤ p.spine.length

theorem ContPost.mono {p : PState} {lo lo' hi : Nat} (h : lo' ≤ lo) {r : PState ⊕ (Nat × PState)}
    (hp : ContPost p lo hi r) : ContPost p lo' hi r := by
  cases r with
  | inl q => exact hp
  | inr x => exact ⟨Nat.le_trans h hp.1, hp.2⟩

theorem contPost_frame {p q : PState} {lo hi : Nat} (hc : q.core = p.core) (hb : q.books = p.books)
    {r : PState ⊕ (Nat × PState)} (hp : ContPost q lo hi r) : ContPost p lo hi r := by
  cases r with
  | inr x => exact ⟨hp.1, hp.2.1, hp.2.2.1.trans hc, hp.2.2.2.1.trans hb, hp.2.2.2.2⟩
  | inl x =>
    obtain ⟨sp, m, o, c, n, nc, i, ib, bl, pct, h1, h2, h3, h4⟩ := hp
    refine ⟨sp, m, o, c, n, nc, i, ib, bl, pct, ?_, ?_, ?_, ?_⟩
    · rw [h1]
      have e1 : q.lineNumber = p.lineNumber := congrArg Core.line hc
      have e2 : q.currentLine = p.currentLine := congrArg Core.text hc
      have e3 : q.allClosed = p.allClosed := congrArg Books.allClosed hb
      have e4 : q.oldtip = p.oldtip := congrArg Books.oldtip hb
      have e5 : q.lastMatched = p.lastMatched := congrArg Books.lastMatched hb
      have e6 : q.doc = p.doc := congrArg Books.doc hb
      rw [e1, e2, e3, e4, e5, e6]
    · rw [← hc]; exact h2
    · have : q.ds = p.ds := by simp only [PState.ds]; rw [show q.spine = p.spine from congrArg Core.spine hc]
      rw [← this]; exact h3
    · rw [show p.spine = q.spine from (congrArg Core.spine hc).symm]; exact h4

theorem contLoop_ok : ∀ (bs : List OpenBlk) (depth : Nat) (p : PState), Cur p → GoodChain p.ds →
    (∀ d ∈ p.ds, startLine d ≤ p.lineNumber) → 1 ≤ depth → p.spine.reverse.drop depth = bs →
    depth + bs.length = p.spine.length →
    ∃ r, contLoop bs depth p = .ok r ∧ ContPost p depth p.spine.length r := by
  intro bs
  induction bs with
  | nil =>
    intro depth p hc hg hle h1 hd hl
    exact ⟨_, rfl, Nat.le_refl _, by simp at hl; omega, rfl, rfl, hc⟩
  | cons b bs ih =>
    intro depth p hc hg hle h1 hd hl
    simp only [contLoop]
    have hn := curN_find hc
    have hcore : (findNextNonspace p).core = p.core := rfl
    have hbooks : (findNextNonspace p).books = p.books := rfl
    obtain ⟨s1, s2, s3, s4⟩ := continueBlock_spec b.data (!b.children.isEmpty || !bs.isEmpty) hn
    cases hr : continueBlock b.data (!b.children.isEmpty || !bs.isEmpty) (findNextNonspace p) with
    | mk r q =>
      rw [hr] at s1 s2 s3 s4
      simp only at s1 s2 s3 s4
      have hqs : q.spine = p.spine := congrArg Core.spine (s1.trans hcore)
      have hqds : q.ds = p.ds := by simp only [PState.ds]; rw [hqs]
      have hql : q.lineNumber = p.lineNumber := congrArg Core.line (s1.trans hcore)
      cases r with
      | matched =>
        obtain ⟨r, e1, e2⟩ := ih (depth + 1) q s3 (by rw [hqds]; exact hg)
          (by rw [hqds, hql]; exact hle) (by omega)
          (by rw [hqs, ← List.drop_drop, hd]; rfl) (by rw [hqs, ← hl]; simp; omega)
        refine ⟨r, e1, ?_⟩
        rw [hqs] at e2
        exact contPost_frame (s1.trans hcore) (s2.trans hbooks) (e2.mono (by omega))
      | failed =>
        refine ⟨_, rfl, Nat.le_refl _, by simp at hl; omega, s1.trans hcore, s2.trans hbooks, s3⟩
      | done =>
        obtain ⟨ht, hq⟩ := s4 rfl
        simp only []
        -- the code block is the tip
        have hidx : p.ds[p.spine.length - 1 - depth]? = some b.data := by
          have h2 : p.spine.reverse[depth]? = some b := by
            have := congrArg (·[0]?) hd
            simpa [List.getElem?_drop] using this
          have hlt : depth < p.spine.length := by simp at hl; omega
          rw [List.getElem?_reverse hlt] at h2
          simp only [PState.ds, List.getElem?_map, h2]; rfl
        have h0 := hg.chain.leaf_tip _ hidx (by rw [ht]; intro t; rfl)
        rw [h0] at hidx
        have hlen : 2 ≤ p.spine.length := by simp at hl; omega
        have hgq : GoodChain q.ds := by rw [hqds]; exact hg
        obtain ⟨sp, m, e1, e2, e3⟩ := closeTip_final hgq (by rw [hqs]; exact hlen) (d := b.data)
          (by rw [hqds, List.head?_eq_getElem?]; exact hidx)
          (by rw [hql]; exact hle _ (List.mem_of_getElem? hidx)) (Or.inl ⟨ht, continueBlock_fenced _ _ _ (by rw [hr])⟩)
        rw [e1]
        refine ⟨_, rfl, ?_⟩
        rw [hq] at e1 e2 e3 ⊢
        exact ⟨sp, m, p.offset, p.column, _, _, _, _, _, p.partiallyConsumedTab, rfl, e2, e3, hlen⟩

/-! ### One line -/

/-- Between two lines. -/
structure Ready (p : PState) : Prop where
  good : GoodChain p.ds
  le : ∀ d ∈ p.ds, startLine d ≤ p.lineNumber ∨ (d.t = .document ∧ startLine d ≤ 1)

/-- The part of the state that counts at the start of line `ln`. -/
def lineCore (p : PState) (ln : Str) : Core :=
  ⟨p.spine, p.refmap, p.lineNumber + 1, replaceChar (Char.ofNat 0) (Char.ofNat 0xFFFD) ln, p.lastLineLength⟩

theorem incorporateLine_ok {p : PState} (h : Ready p) (ln : Str) :
    ∃ p' c, incorporateLine p ln = .ok p' ∧ LineSteps (lineCore p ln) c ∧
      p'.core = { c with prevLen := ln.length } ∧ Ready p' := by
  simp only [incorporateLine]
  generalize hln : replaceChar (Char.ofNat 0) (Char.ofNat 0xFFFD) ln = l
  have hlen : l.length = ln.length := by rw [← hln]; simp [replaceChar]
  generalize hq : ({ p with
    oldtip := p.spine.length, offset := 0, column := 0, blank := false,
    partiallyConsumedTab := false, lineNumber := p.lineNumber + 1, currentLine := l } : PState) = q
  have hqc : q.core = lineCore p ln := by rw [← hq]; simp only [lineCore, hln]; rfl
  have hqs : q.spine = p.spine := by rw [← hq]
  have hqds : q.ds = p.ds := by simp only [PState.ds]; rw [hqs]
  have hqo : q.oldtip = p.spine.length := by rw [← hq]
  have hql : q.lineNumber = p.lineNumber + 1 := by rw [← hq]
  have hqt : q.currentLine = l := by rw [← hq]
  have hqcur : Cur q := by rw [← hq]; exact Nat.zero_le _
  have hqle : ∀ d ∈ q.ds, startLine d ≤ q.lineNumber := by
    rw [hqds, hql]; intro d hd
    rcases h.le d hd with h | h
    · omega
    · omega
  have hqold : ∀ d ∈ q.ds, d.t ≠ .document → startLine d < q.lineNumber := by
    rw [hqds, hql]; intro d hd hnd
    rcases h.le d hd with h | h
    · omega
    · exact absurd h.1 hnd
  have hspos : 1 ≤ q.spine.length := by
    have := h.good.chain.ne_nil
    rw [hqs]
    cases hs : p.spine with
    | nil => simp [PState.ds, hs] at this
    | cons a b => simp
  rw [← hqs] at hqo
  obtain ⟨r, e1, e2⟩ := contLoop_ok (q.spine.reverse.drop 1) 1 q hqcur (hqds ▸ h.good) hqle (Nat.le_refl _) rfl
    (by simp; omega)
  rw [← hqs, e1]
  simp only [bind, Except.bind]
  cases r with
  | inl x =>
    obtain ⟨sp, m, o, c, n, nc, i, ib, bl, pct, f1, f2, f3, f4⟩ := e2
    refine ⟨_, { lineCore p ln with spine := sp, refmap := m }, rfl, ?_, ?_, ?_, ?_⟩
    · rw [hqc] at f2; exact .final .refl f2
    · rw [f1]
      simp only [PState.core, hqt, hlen, hql, lineCore, hln]
    · have : x.ds = q.ds.drop 1 := by rw [f1]; exact f3
      rw [this, hqds]
      exact h.good.drop 1 (by simp only [PState.ds, List.length_map]; rw [← hqs]; omega)
    · have : x.ds = q.ds.drop 1 := by rw [f1]; exact f3
      rw [this]
      have hxl : x.lineNumber = q.lineNumber := by rw [f1]
      rw [hxl]
      intro d hd
      exact Or.inl (hqle d (List.mem_of_mem_drop hd))
  | inr x =>
    obtain ⟨depth, q2⟩ := x
    obtain ⟨f1, f2, f3, f4, f5⟩ := e2
    simp only []
    have hs2 : q2.spine = q.spine := congrArg Core.spine f3
    have hds2 : q2.ds = q.ds := by simp only [PState.ds]; rw [hs2]
    have ho2 : q2.oldtip = q.oldtip := congrArg Books.oldtip f4
    have hl2 : q2.lineNumber = q.lineNumber := congrArg Core.line f3
    have ht2 : q2.currentLine = q.currentLine := congrArg Core.text f3
    have hdsl : q.ds.length = q.spine.length := by simp [PState.ds]
    have hcont : ∃ d, q.ds[q.spine.length - depth]? = some d :=
      ⟨_, List.getElem?_eq_getElem (by omega)⟩
    obtain ⟨container, hcont⟩ := hcont
    have hblock : ∀ a : Bool, blockAt { q2 with allClosed := a, lastMatched := depth } depth = some container := by
      intro a
      rw [blockAt_ds]
      show q2.ds.reverse[depth - 1]? = _
      rw [hds2, List.getElem?_reverse (by omega), ← hcont]
      congr 1; omega
    rw [hblock]
    simp only []
    have hSP : SP container { q2 with allClosed := depth == q2.oldtip, lastMatched := depth } := by
      refine ⟨?_, ?_, ?_, ?_⟩
      · show GoodChain q2.ds; rw [hds2, hqds]; exact h.good
      · show ∀ d ∈ q2.ds, startLine d ≤ q2.lineNumber; rw [hds2, hl2]; exact hqle
      · show 1 ≤ q2.lineNumber; rw [hl2, hql]; omega
      · by_cases heq : depth = q2.oldtip
        · left
          refine ⟨by simp [heq], ?_⟩
          have h0 : q.spine.length - depth = 0 := by omega
          rw [h0] at hcont
          show ∃ d r, q2.ds = d :: r ∧ _
          rw [hds2]
          cases hc : q.ds with
          | nil => rw [hc] at hcont; simp at hcont
          | cons d r =>
            rw [hc] at hcont
            simp only [List.getElem?_cons_zero, Option.some.injEq] at hcont
            subst hcont
            refine ⟨d, r, rfl, rfl, rfl, ?_⟩
            show _ ∨ startLine d < q2.lineNumber
            rw [hl2]
            by_cases hd : d.t = .document
            · exact Or.inl (Or.inl hd)
            · exact Or.inr (hqold d (by rw [hc]; simp) hd)
        · right
          refine ⟨by simpa using heq, ?_, f1, ?_, ?_, hblock _⟩
          · show q2.oldtip = q2.spine.length
            rw [ho2, hs2, hqo]
          · show depth < q2.oldtip
            omega
          · show ∀ d ∈ q2.ds, d.t ≠ .document → startLine d < q2.lineNumber
            rw [hds2, hl2]; exact hqold
    have hstart : ∃ p3, (if (container.t != .paragraph && acceptsLines container.t) = true then
          (pure { q2 with allClosed := depth == q2.oldtip, lastMatched := depth } : Except PyErr PState)
        else startsLoop (l.length + 1) container { q2 with allClosed := depth == q2.oldtip, lastMatched := depth })
          = .ok p3 ∧ Steps q.core p3.core ∧ Started p3 := by
      by_cases hm : (container.t != .paragraph && acceptsLines container.t) = true
      · rw [if_pos hm]
        refine ⟨_, rfl, ?_, Or.inl ⟨container, hSP, f5, Or.inr (by simp only [Bool.and_eq_true] at hm; exact hm.2)⟩⟩
        rw [← f3]; exact .refl
      · rw [if_neg hm]
        obtain ⟨p3, g1, g2, g3⟩ := startsLoop_ok (l.length + 1) container _ hSP f5
          (by show q2.currentLine.length < _; rw [ht2, hqt]; omega)
        refine ⟨p3, g1, ?_, g3⟩
        rw [← f3]; exact g2
    obtain ⟨p3, g1, g2, g3⟩ := hstart
    obtain ⟨p4, k1, k2, k3⟩ := addText_ok g3
    have hfin : LineSteps (lineCore p ln) p4.core := by rw [← hqc]; exact .head g2 k2
    by_cases hm : (container.t != .paragraph && acceptsLines container.t) = true
    · rw [if_pos hm] at g1 ⊢
      simp only [pure, Except.pure, Except.ok.injEq] at g1 ⊢
      rw [g1, k1]
      refine ⟨_, _, rfl, hfin, ?_, k3.good, fun d hd => Or.inl (k3.le d hd)⟩
      simp only [PState.core, hlen]
    · rw [if_neg hm] at g1 ⊢
      rw [g1]
      simp only []
      rw [k1]
      refine ⟨_, _, rfl, hfin, ?_, k3.good, fun d hd => Or.inl (k3.le d hd)⟩
      simp only [PState.core, hlen]

/-! ### The whole block phase -/

/-- The state before the first line. -/
def startCore : Core := ⟨[⟨docNode, []⟩], [], 0, [], 0⟩

/-- The beginning of the next line. -/
def nextLine (c : Core) (ln : Str) : Core :=
  { c with line := c.line + 1, text := replaceChar (Char.ofNat 0) (Char.ofNat 0xFFFD) ln }

/-- The states between the lines. -/
inductive Reaches : List Str → Core → Prop
  | nil : Reaches [] startCore
  | line {ls : List Str} {c c' : Core} {ln : Str} : Reaches ls c → LineSteps (nextLine c ln) c' →
      Reaches (ls ++ [ln]) { c' with prevLen := ln.length }

theorem Reaches.line_eq {ls : List Str} {c : Core} (h : Reaches ls c) : c.line = ls.length := by
  induction h with
  | nil => rfl
  | line _ hs ih =>
    have := (lineSteps_core_line hs).1
    simp only [nextLine] at this
    simp [this, ih]

theorem lines_ok : ∀ (ls done : List Str) (p : PState), Ready p → Reaches done p.core →
    ∃ p', ls.foldlM incorporateLine p = .ok p' ∧ Ready p' ∧ Reaches (done ++ ls) p'.core := by
  intro ls
  induction ls with
  | nil => intro done p h hr; exact ⟨p, rfl, h, by simpa using hr⟩
  | cons ln ls ih =>
    intro done p h hr
    obtain ⟨p1, c, e1, e2, e3, e4⟩ := incorporateLine_ok h ln
    have hr' : Reaches (done ++ [ln]) p1.core := by rw [e3]; exact .line hr e2
    obtain ⟨p', f1, f2, f3⟩ := ih (done ++ [ln]) p1 e4 hr'
    refine ⟨p', ?_, f2, by simpa using f3⟩
    rw [List.foldlM_cons, e1]
    exact f1

theorem ready_reset (p : PState) : Ready p.reset ∧ Reaches [] p.reset.core := by
  refine ⟨⟨⟨.doc rfl, ?_⟩, ?_⟩, .nil⟩
  · intro d hd
    simp only [PState.ds, PState.reset, List.map_cons, List.map_nil, List.mem_singleton] at hd
    subst hd
    exact ⟨⟨_, rfl⟩, (fun h => by cases h), ⟨_, rfl⟩⟩
  · intro d hd
    simp only [PState.ds, PState.reset, List.map_cons, List.map_nil, List.mem_singleton] at hd
    subst hd
    exact Or.inr ⟨rfl, Nat.le_refl _⟩

theorem finalizeAll_ok : ∀ (sp : List OpenBlk) (fuel len : Nat) (p : PState), p.spine = sp → sp.length < fuel →
    GoodChain p.ds → p.lineNumber = len + 1 → (∀ d ∈ p.ds, d.t ≠ .document → startLine d ≤ len) →
    ∃ p' c b, finalizeAll len fuel p = .ok p' ∧ Relation.ReflTransGen Closing p.core c ∧ c.spine = [b] ∧ b.data.t = .document ∧
      GoodChain [b.data] ∧
      p'.spine = [] ∧ p'.doc = some (.node (closeData len c.prevLen b.data) b.children) ∧
      p'.refmap = c.refmap := by
  intro sp
  induction hlen : sp.length generalizing sp with
  | zero =>
    intro fuel len p hs hf hg
    have : sp = [] := List.eq_nil_of_length_eq_zero hlen
    subst this
    exact absurd (by simp [PState.ds, hs]) hg.chain.ne_nil
  | succ n ih =>
    intro fuel len p hs hf hg hl hle
    obtain ⟨fuel, rfl⟩ : ∃ f, fuel = f + 1 := ⟨fuel - 1, by omega⟩
    match sp, hs, hlen with
    | [], hs, hlen => simp at hlen
    | [b], hs, hlen =>
      have hds : p.ds = [b.data] := by simp [PState.ds, hs]
      rw [hds] at hg
      have hdoc : b.data.t = .document := by
        cases hg.chain with
        | doc h => exact h
      have hfin : finalizeTip len p = .ok { p with
          spine := [], doc := some (.node (closeData len p.lastLineLength b.data) b.children) } := by
        have hb : finalizeBlock (closeData len p.lastLineLength b.data) b.children p.refmap =
            .ok (some (.node (closeData len p.lastLineLength b.data) b.children), p.refmap) := by
          simp only [finalizeBlock]
          rw [show (closeData len p.lastLineLength b.data).t = .document from hdoc]
        simp only [finalizeTip, hs]
        simp only [closeData] at hb
        rw [hb]
        rfl
      refine ⟨{ p with
          spine := [], doc := some (.node (closeData len p.lastLineLength b.data) b.children) },
        p.core, b, ?_, .refl, hs, hdoc, hg, rfl, rfl, rfl⟩
      simp only [finalizeAll]
      rw [hs]
      simp only []
      rw [hfin]
      obtain ⟨fuel, rfl⟩ : ∃ f, fuel = f + 1 := ⟨fuel - 1, by simp at hf; omega⟩
      rfl
    | b :: par :: up, hs, hlen =>
      have hds : p.ds = b.data :: par.data :: up.map (·.data) := by simp [PState.ds, hs]
      have hnd : b.data.t ≠ .document := by have := hg.chain; rw [hds] at this; exact this.not_doc
      obtain ⟨sp', m, e1, e2, e3⟩ := closeTip_ok hg (by rw [hs]; simp) (d := b.data) (by rw [hds]; rfl)
        (l := len) (hle _ (by rw [hds]; simp) hnd) hl.symm
      rw [hds] at e3
      have hlen' : sp'.length = n := by
        have := congrArg List.length e3
        simp at this hlen
        omega
      have hds' : ({ p with spine := sp', refmap := m } : PState).ds = par.data :: up.map (·.data) := e3
      obtain ⟨p', c, b', f1, f2, f3⟩ := ih sp' hlen' fuel len { p with spine := sp', refmap := m } rfl
        (by simp at hf hlen; omega) (by rw [hds']; rw [hds] at hg; exact hg.tail) hl
        (by rw [hds']; intro d hd; exact hle d (by rw [hds]; exact List.mem_cons_of_mem _ hd))
      refine ⟨p', c, b', ?_, Relation.ReflTransGen.head e2 f2, f3⟩
      simp only [finalizeAll]
      rw [hs]
      simp only []
      rw [e1]
      exact f1

/-- Nothing that `finalizeAll` does depends on the line number. -/
theorem finalizeTip_line (len n : Nat) (p : PState) :
    finalizeTip len { p with lineNumber := n } =
      (finalizeTip len p).map fun q => { q with lineNumber := n } := by
  simp only [finalizeTip]
  cases p.spine with
  | nil => rfl
  | cons b r =>
    simp only []
    cases finalizeBlock _ b.children p.refmap with
    | error e => rfl
    | ok x => cases r <;> rfl

theorem finalizeAll_cons {len fuel : Nat} {p : PState} (h : p.spine ≠ []) :
    finalizeAll len (fuel + 1) p = (finalizeTip len p).bind (finalizeAll len fuel) := by
  simp only [finalizeAll]
  split
  · rename_i hs; exact absurd hs h
  · rfl

theorem finalizeAll_nil {len fuel : Nat} {p : PState} (h : p.spine = []) :
    finalizeAll len (fuel + 1) p = .ok p := by
  simp only [finalizeAll]
  split
  · rfl
  · rename_i hs; rw [hs] at h; cases h

theorem finalizeAll_line (len n : Nat) : ∀ (fuel : Nat) (p : PState),
    finalizeAll len fuel { p with lineNumber := n } =
      (finalizeAll len fuel p).map fun q => { q with lineNumber := n } := by
  intro fuel
  induction fuel with
  | zero => intro p; rfl
  | succ fuel ih =>
    intro p
    by_cases hs : p.spine = []
    · rw [finalizeAll_nil hs, finalizeAll_nil (p := { p with lineNumber := n }) hs]; rfl
    · rw [finalizeAll_cons hs, finalizeAll_cons (p := { p with lineNumber := n }) hs, finalizeTip_line]
      cases finalizeTip len p with
      | error e => rfl
      | ok q => exact ih q

theorem inputLines_pos (s : Str) : 1 ≤ (inputLines s).length := by
  have h1 : 1 ≤ (splitLineEndings s).length := by
    unfold splitLineEndings
    split
    · simp
    · simp
    · split
      · simp
      · split <;> simp
  simp only [inputLines]
  split
  · rename_i h
    have h2 : 2 ≤ (splitLineEndings s).length := by
      revert h
      clear h1
      fun_induction splitLineEndings s with
      | case1 => intro h; simp at h
      | case2 cs ih =>
        intro _
        have : 1 ≤ (splitLineEndings cs).length := by
          unfold splitLineEndings
          split
          · simp
          · simp
          · split
            · simp
            · split <;> simp
        simp; omega
      | case3 c cs h1 h2 ih =>
        intro _
        have : 1 ≤ (splitLineEndings cs).length := by
          unfold splitLineEndings
          split
          · simp
          · simp
          · split
            · simp
            · split <;> simp
        simp; omega
      | case4 c cs h1 h2 h3 ih =>
        intro h
        have : cs ≠ [] := by
          rintro rfl
          simp at h; subst h; simp at h2
        rw [List.getLast?_cons_of_ne_nil this] at h
        have := ih h
        rw [h3] at this; simp at this
      | case5 c cs h1 h2 l ls h3 ih =>
        intro h
        have : cs ≠ [] := by
          rintro rfl
          simp at h; subst h; simp at h2
        rw [List.getLast?_cons_of_ne_nil this] at h
        have := ih h
        rw [h3] at this
        simpa using this
    simp; omega
  · exact h1

/-- The block phase always succeeds, closes all blocks, and consists of steps. -/
theorem blockPhase_ok (p : PState) (s : Str) : ∃ p' c c2 b, blockPhase p s = .ok p' ∧
    Reaches (inputLines s) c ∧ Relation.ReflTransGen Closing { c with line := c.line + 1 } c2 ∧ c2.spine = [b] ∧
    b.data.t = .document ∧ GoodChain [b.data] ∧ p'.spine = [] ∧
    p'.doc = some (.node (closeData (inputLines s).length c2.prevLen b.data) b.children) ∧
    p'.refmap = c2.refmap := by
  obtain ⟨p1, e1, e2, e3⟩ := lines_ok (inputLines s) [] p.reset (ready_reset p).1 (ready_reset p).2
  rw [List.nil_append] at e3
  have hl := e3.line_eq
  obtain ⟨p', c2, b, f1, f2, f3, f4, f5, f6, f7, f8⟩ := finalizeAll_ok p1.spine (p1.spine.length + 1) (inputLines s).length
    { p1 with lineNumber := (inputLines s).length + 1 } rfl (by omega) e2.good rfl
    (by
      intro d hd hnd
      rcases e2.le d hd with h | h
      · exact Nat.le_trans h (Nat.le_of_eq hl)
      · exact absurd h.1 hnd)
  rw [finalizeAll_line] at f1
  cases hfin : finalizeAll (inputLines s).length (p1.spine.length + 1) p1 with
  | error e => rw [hfin] at f1; simp [Except.map] at f1
  | ok q =>
    rw [hfin] at f1
    simp only [Except.map, Except.ok.injEq] at f1
    refine ⟨q, p1.core, c2, b, ?_, e3, ?_, f3, f4, f5, ?_, ?_, ?_⟩
    · simp only [blockPhase]; rw [e1]; exact hfin
    · have : ({ p1.core with line := p1.core.line + 1 } : Core) =
          ({ p1 with lineNumber := (inputLines s).length + 1 } : PState).core := by rw [hl]; rfl
      rw [this]; exact f2
    · rw [← f6, ← f1]
    · rw [← f7, ← f1]
    · rw [← f8, ← f1]

end CM
