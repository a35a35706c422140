import Verif.Proofs.Concat
/-
Closing several blocks: at the end of the input, at a line that continues none of them, and when a
block is added that they cannot contain (C57).
-/
namespace CM
open Spec

/-- Close `n` blocks. -/
def closeN (len : Nat) : Nat → PState → Except PyErr PState
  | 0, p => .ok p
  | n + 1, p => (finalizeTip len p).bind (closeN len n)

theorem closeN_add (len : Nat) : ∀ (n m : Nat) (p : PState), closeN len (n + m) p = (closeN len n p).bind (closeN len m) := by
  intro n m
  induction n with
  | zero => intro p; simp [closeN, Except.bind]
  | succ n ih =>
    intro p
    rw [show n + 1 + m = (n + m) + 1 by omega, closeN, closeN]
    cases finalizeTip len p with
    | error => rfl
    | ok p1 => exact ih p1

/-- Closing depends on the open blocks, the definitions and the length of the line before. -/
theorem closeN_run {len : Nat} : ∀ (n : Nat) {p p' : PState}, closeN len n p = .ok p' → n < p.spine.length →
    ∃ S m, p' = { p with spine := S, refmap := m } ∧ S.length + n = p.spine.length ∧
      (S.drop 1 = (p.spine.drop n).drop 1) ∧ (S.head?.map (·.data)) = ((p.spine.drop n).head?.map (·.data)) ∧
      ∀ q : PState, q.spine = p.spine → q.refmap = p.refmap → q.lastLineLength = p.lastLineLength →
        closeN len n q = .ok { q with spine := S, refmap := m } := by
  intro n
  induction n with
  | zero =>
    intro p p' h _
    cases h
    refine ⟨p.spine, p.refmap, rfl, rfl, rfl, rfl, fun q h1 h2 _ => ?_⟩
    rw [← h1, ← h2]; rfl
  | succ n ih =>
    intro p p' h hn
    rw [closeN] at h
    cases hf : finalizeTip len p with
    | error => rw [hf] at h; cases h
    | ok p1 =>
      rw [hf] at h
      have h : closeN len n p1 = .ok p' := h
      obtain ⟨a, par, up, hs⟩ : ∃ a par up, p.spine = a :: par :: up := by
        cases hs : p.spine with
        | nil => rw [hs] at hn; simp at hn
        | cons a r =>
          cases r with
          | nil => rw [hs] at hn; simp at hn
          | cons par up => exact ⟨a, par, up, rfl⟩
      obtain ⟨t, m, h1, h2⟩ := finalizeTip_inv hs hf
      have hs1 : p1.spine = { par with children := par.children ++ t.toList } :: up := by rw [h2]
      obtain ⟨S, m', e1, e2, e3, e3', e4⟩ := ih h (by rw [hs1]; rw [hs] at hn; simpa using hn)
      refine ⟨S, m', ?_, ?_, ?_, ?_, ?_⟩
      · rw [e1, h2]
      · rw [hs1] at e2; rw [hs]; simp only [List.length_cons] at e2 ⊢; omega
      · rw [e3, hs1, hs]
        cases n with
        | zero => rfl
        | succ n => rfl
      · rw [e3', hs1, hs]
        cases n with
        | zero => rfl
        | succ n => rfl
      · intro q q1 q2 q3
        have hq := finalizeTip_run (p := q) (l := len) (q1.trans hs) (by rw [q3, q2]; exact h1)
        rw [closeN, hq]
        have := e4 { q with spine := { par with children := par.children ++ t.toList } :: up, refmap := m } hs1.symm (by rw [h2]) (by rw [h2]; exact q3)
        exact this

theorem set_oldtip {q : PState} {n : Nat} (h : q.oldtip = n) : { q with oldtip := n } = q := by
  subst h; rfl

theorem set_closed {q : PState} {n : Nat} (h : q.oldtip = n) (h' : q.allClosed = true) : { q with oldtip := n, allClosed := true } = q := by
  subst h; rw [← h']

/-- The loop of `close_unmatched_blocks`. -/
theorem closeLoop_closeN : ∀ (n fuel : Nat) {q q' : PState}, closeN (q.lineNumber - 1) n q = .ok q' → q.oldtip = q.lastMatched + n → n < q.spine.length →
    n < fuel → closeLoop fuel q = .ok { q' with oldtip := q.lastMatched } := by
  intro n
  induction n with
  | zero =>
    intro fuel q q' h ho _ hf
    obtain ⟨fuel, rfl⟩ : ∃ k, fuel = k + 1 := ⟨fuel - 1, by omega⟩
    cases h
    rw [closeLoop, if_pos (by simp [ho]), set_oldtip (show q.oldtip = q.lastMatched from ho)]
  | succ n ih =>
    intro fuel q q' h ho hn hf
    obtain ⟨fuel, rfl⟩ : ∃ k, fuel = k + 1 := ⟨fuel - 1, by omega⟩
    rw [closeN] at h
    cases hf : finalizeTip (q.lineNumber - 1) q with
    | error => rw [hf] at h; cases h
    | ok p1 =>
      rw [hf] at h
      have h : closeN (q.lineNumber - 1) n p1 = .ok q' := h
      obtain ⟨a, par, up, hs⟩ : ∃ a par up, q.spine = a :: par :: up := by
        cases hs : q.spine with
        | nil => rw [hs] at hn; simp at hn
        | cons a r =>
          cases r with
          | nil => rw [hs] at hn; simp at hn
          | cons par up => exact ⟨a, par, up, rfl⟩
      obtain ⟨t, m, h1, h2⟩ := finalizeTip_inv hs hf
      have hs1 : p1.spine = { par with children := par.children ++ t.toList } :: up := by rw [h2]
      have hlt : n < p1.spine.length := by rw [hs1]; rw [hs] at hn; simpa using hn
      have hl : p1.lineNumber = q.lineNumber := by rw [h2]
      rw [← hl] at h
      obtain ⟨S, m', e1, _, _, _, e4⟩ := closeN_run n h hlt
      have hc := e4 { p1 with oldtip := p1.oldtip - 1 } rfl rfl rfl
      rw [closeLoop, if_neg (by simp [ho]), hf]
      show closeLoop fuel { p1 with oldtip := p1.oldtip - 1 } = _
      have := ih fuel (q := { p1 with oldtip := p1.oldtip - 1 }) (q' := { p1 with oldtip := p1.oldtip - 1, spine := S, refmap := m' }) hc (by rw [h2]; simp only; omega) hlt (by omega)
      rw [this, e1]
      simp only [h2]

/-- `close_unmatched_blocks`. -/
theorem closeUnmatched_closeN {n : Nat} {q q' : PState} (h : closeN (q.lineNumber - 1) n q = .ok q') (ho : q.oldtip = q.lastMatched + n)
    (hn : n < q.spine.length) (hc : q.allClosed = (n == 0)) : closeUnmatched q = .ok { q' with oldtip := q.lastMatched, allClosed := true } := by
  unfold closeUnmatched
  by_cases h0 : n = 0
  · subst h0
    cases h
    have hc : q.allClosed = true := hc
    rw [if_pos hc, set_closed (show q.oldtip = q.lastMatched from ho) hc]
  · have hc : q.allClosed = false := by rw [hc]; simp [h0]
    rw [if_neg (by rw [hc]; simp), closeLoop_closeN n _ h ho hn (by omega)]
    rfl

/-- Closing blocks that cannot contain the new one. -/
theorem addChildLoop_one {tag : Kind} {fuel : Nat} {q q' : PState} {a b : OpenBlk} {r : List OpenBlk} (hs : q.spine = a :: b :: r)
    (h : finalizeTip (q.lineNumber - 1) q = .ok q') (ha : canContain a.data.t tag = false) (hb : canContain b.data.t tag = true) :
    addChildLoop tag (fuel + 2) q = .ok q' := by
  obtain ⟨t, m, h1, h2⟩ := finalizeTip_inv hs h
  rw [addChildLoop, hs]
  simp only [ha, h, Except.bind, bind]
  rw [addChildLoop, h2]
  simp only [hb, if_true, Bool.false_eq_true, if_false]

theorem addChildLoop_zero {tag : Kind} {fuel : Nat} {q : PState} {b : OpenBlk} {r : List OpenBlk} (hs : q.spine = b :: r)
    (hb : canContain b.data.t tag = true) : addChildLoop tag (fuel + 1) q = .ok q := by
  rw [addChildLoop, hs]
  simp only [hb, if_true]

/-- The end of the input. -/
theorem finalizeAll_closeN {len : Nat} : ∀ (n : Nat) {p p' : PState} {b : OpenBlk}, closeN len n p = .ok p' → n + 1 = p.spine.length → p'.spine = [b] →
    b.data.t = .document → finalizeAll len (n + 2) p = .ok { p' with spine := [], doc := some (.node (closeData len p'.lastLineLength b.data) b.children) } := by
  intro n
  induction n with
  | zero =>
    intro p p' b h _ hs hb
    cases h
    simp only [finalizeAll, finalizeTip, hs, Except.bind, bind]
    simp only [finalizeBlock, hb, pure, Except.pure, finalizeAll, closeData]
  | succ n ih =>
    intro p p' b h hl hs hb
    rw [closeN] at h
    cases hf : finalizeTip len p with
    | error => rw [hf] at h; cases h
    | ok p1 =>
      rw [hf] at h
      have h : closeN len n p1 = .ok p' := h
      have hne : p.spine ≠ [] := by intro e; rw [e] at hl; simp at hl
      rw [finalizeAll_cons hne, hf]
      show finalizeAll len (n + 2) p1 = _
      refine ih h ?_ hs hb
      obtain ⟨a, par, up, hsp⟩ : ∃ a par up, p.spine = a :: par :: up := by
        cases hs : p.spine with
        | nil => exact absurd hs hne
        | cons a r =>
          cases r with
          | nil => rw [hs] at hl; simp at hl
          | cons par up => exact ⟨a, par, up, rfl⟩
      obtain ⟨t, m, h1, h2⟩ := finalizeTip_inv hsp hf
      rw [h2]; rw [hsp] at hl; simpa using hl

/-- Closing related blocks. -/
theorem closeN_sp {X : Sim} (hX : X.Ok) (len : Nat) {len' : Nat} (hl : len' = len + X.N) (hK : X.K ≤ len) : ∀ (n : Nat) {p q : PState}, Sp X p q → n < p.spine.length →
    ERel (Sp X) (closeN len n p) (closeN len' n q) := by
  intro n
  induction n with
  | zero => intro p q h _; exact .ok h
  | succ n ih =>
    intro p q h hn
    rw [closeN, closeN]
    refine ERel.bind (finalizeTip_sp hX len hl hK h (by omega)) fun p' q' h' => ih h'.1 (by have := h'.2.2.2.2.2.1; omega)

end CM
