import Verif.Proofs.Swap
import Verif.Proofs.Interrupt
/-
While a paragraph is open, no open block has its blank-line flag set.
-/
set_option linter.unusedVariables false
namespace CM
open Spec

/-! ### Block starts -/

theorem open_made {p p' : PState} {s s' : Start} {tag : Kind} {off : PState → Nat} {f : PState → NodeData → NodeData} {g : PState → PState}
    (h : (do let p ← closeUnmatched p; let p ← addChild tag (off p) (f p) p; return (s, g p)) = Except.ok (s', p'))
    (hf : ∀ x d, (f x d).t = d.t) (hg : ∀ x, (g x).allClosed = x.allClosed ∧ (g x).spine = x.spine) :
    s' = s ∧ p'.allClosed = true ∧ tipKind p' = some tag := by
  cases hc : closeUnmatched p with
  | error => rw [hc] at h; cases h
  | ok q =>
    rw [hc] at h
    simp only [Except.bind, bind] at h
    cases ha : addChild tag (off q) (f q) q with
    | error => rw [ha] at h; cases h
    | ok r =>
      rw [ha] at h
      cases h
      refine ⟨rfl, ?_, ?_⟩
      · rw [(hg r).1, closed_addChild ha]; exact closed_close hc
      · unfold addChild at ha
        cases hl : addChildLoop tag (q.spine.length + 1) q with
        | error => rw [hl] at ha; cases ha
        | ok z =>
          rw [hl] at ha
          cases ha
          unfold tipKind
          rw [(hg _).2]
          simp [hf]

theorem tip_addChild {tag : Kind} {off : Nat} {f : NodeData → NodeData} (hf : ∀ d, (f d).t = d.t) {p p' : PState} (ha : addChild tag off f p = .ok p') :
    tipKind p' = some tag := by
  unfold addChild at ha
  cases hl : addChildLoop tag (p.spine.length + 1) p with
  | error => rw [hl] at ha; cases ha
  | ok z =>
    rw [hl] at ha
    cases ha
    simp [tipKind, hf]

/-- What a block start does. -/
def StartMade (p p' : PState) (s : Start) : Prop :=
  (s = .none ∧ (p' = p ∨ p'.allClosed = true)) ∨ (s ≠ .none ∧ p'.allClosed = true ∧ tipKind p' ≠ some .paragraph)

theorem made_of {p p' : PState} {s s' : Start} {k : Kind} (h : s' = s ∧ p'.allClosed = true ∧ tipKind p' = some k) (hs : s ≠ .none)
    (hk : k ≠ .paragraph) : StartMade p p' s' := by
  obtain ⟨rfl, h1, h2⟩ := h
  exact .inr ⟨hs, h1, by rw [h2]; simpa using hk⟩

theorem start_made {c : NodeData} {p p' : PState} {s : Start} {f : PState → Except PyErr (Start × PState)} (hf : f ∈ blockStarts c)
    (h : f p = .ok (s, p')) : StartMade p p' s := by
  have none : ∀ {s p'}, (Except.ok (Start.none, p) : Except PyErr _) = .ok (s, p') → StartMade p p' s := by
    intro s p' h; cases h; exact .inl ⟨rfl, .inl rfl⟩
  simp only [blockStarts, List.mem_cons, List.not_mem_nil, or_false] at hf
  rcases hf with rfl | rfl | rfl | rfl | rfl | rfl | rfl | rfl
  · unfold startBlockQuote at h
    split at h
    · exact made_of (open_made (tag := .blockQuote) (off := fun p => p.nextNonspace) (f := fun _ => id) (g := id) h (fun _ _ => rfl) (fun _ => ⟨rfl, rfl⟩))
        (by decide) (by decide)
    · exact none h
  · unfold startAtx at h
    split at h
    · exact none h
    · split at h
      · exact none h
      · exact made_of (open_made (tag := .heading) (off := fun p => p.nextNonspace) (f := fun p d => { d with level := _, stringContent := _ }) (g := advanceToEnd)
          h (fun _ _ => rfl) (fun _ => ⟨rfl, rfl⟩)) (by decide) (by decide)
  · unfold startFenced at h
    split at h
    · exact none h
    · split at h
      · exact none h
      · exact made_of (open_made (tag := .codeBlock) (off := fun p => p.nextNonspace)
          (f := fun p d => { d with isFenced := true, fenceLength := _, fenceChar := _, fenceOffset := p.indent })
          (g := fun p => advanceOffset _ false (advanceNextNonspace p)) h (fun _ _ => rfl) (fun _ => ⟨rfl, rfl⟩)) (by decide) (by decide)
  · unfold startHtml at h
    split at h
    · split at h
      · exact made_of (open_made (tag := .htmlBlock) (off := fun p => p.offset) (f := fun _ d => { d with htmlBlockType := _ }) (g := id)
          h (fun _ _ => rfl) (fun _ => ⟨rfl, rfl⟩)) (by decide) (by decide)
      · exact none h
    · exact none h
  · unfold startSetext at h
    split at h
    · split at h
      · exact none h
      · cases hc : closeUnmatched p with
        | error => rw [hc] at h; cases h
        | ok q =>
          rw [hc] at h
          have hq := closed_close hc
          simp only [Except.bind, bind] at h
          split at h
          · cases h
          · split at h
            · cases h
            · rename_i content _
              cases hl : refLoop (content.length + 1) content q.refmap false with
              | error => rw [hl] at h; cases h
              | ok x =>
                rw [hl] at h
                simp only at h
                split at h
                · cases h; exact .inl ⟨rfl, .inr hq⟩
                · cases h; exact .inr ⟨by decide, hq, by simp [tipKind, advanceToEnd, advanceOffset]⟩
    · exact none h
  · unfold startThematic at h
    split at h
    · exact made_of (open_made (tag := .thematicBreak) (off := fun p => p.nextNonspace) (f := fun _ => id) (g := advanceToEnd)
        h (fun _ _ => rfl) (fun _ => ⟨rfl, rfl⟩)) (by decide) (by decide)
    · exact none h
  · unfold startListItem at h
    split at h
    · cases hm : parseListMarker c.t p with
      | error => rw [hm] at h; cases h
      | ok x =>
        obtain ⟨x, q⟩ := x
        rw [hm] at h
        simp only [Except.bind, bind] at h
        cases x with
        | none => cases h; exact .inl ⟨rfl, .inl ((parseListMarker_core hm).2.2 rfl)⟩
        | some l =>
          simp only at h
          cases hc : closeUnmatched q with
          | error => rw [hc] at h; cases h
          | ok q1 =>
            rw [hc] at h
            have hq1 := closed_close hc
            simp only at h
            split at h
            · cases ha : addChild .list q1.nextNonspace (fun d => { d with listData := some l }) q1 with
              | error => rw [ha] at h; cases h
              | ok q2 =>
                rw [ha] at h
                simp only at h
                cases hb : addChild .item q2.nextNonspace (fun d => { d with listData := some l }) q2 with
                | error => rw [hb] at h; cases h
                | ok q3 =>
                  rw [hb] at h; cases h
                  exact .inr ⟨by decide, by rw [closed_addChild hb, closed_addChild ha]; exact hq1, by rw [tip_addChild (fun _ => by rfl) hb]; decide⟩
            · simp only [pure, Except.pure] at h
              cases hb : addChild .item q1.nextNonspace (fun d => { d with listData := some l }) q1 with
              | error => rw [hb] at h; cases h
              | ok q3 =>
                rw [hb] at h; cases h
                exact .inr ⟨by decide, by rw [closed_addChild hb]; exact hq1, by rw [tip_addChild (fun _ => by rfl) hb]; decide⟩
    · exact none h
  · unfold startIndented at h
    split at h
    · exact made_of (open_made (tag := .codeBlock) (off := fun p => p.offset) (f := fun _ => id) (g := id) h (fun _ _ => rfl) (fun _ => ⟨rfl, rfl⟩))
        (by decide) (by decide)
    · exact none h

theorem tryStarts_made {c : NodeData} : ∀ (fs : List (PState → Except PyErr (Start × PState))) {p p' : PState} {s : Start}, (∀ f ∈ fs, f ∈ blockStarts c) →
    tryStarts fs p = .ok (s, p') → StartMade p p' s
  | [], p, p', s, _, h => by cases h; exact .inl ⟨rfl, .inl rfl⟩
  | f :: fs, p, p', s, hf, h => by
    unfold tryStarts at h
    cases he : f p with
    | error => rw [he] at h; cases h
    | ok x =>
      obtain ⟨r, q⟩ := x
      rw [he] at h
      have hq := start_made (hf f (by simp)) he
      simp only [Except.bind, bind] at h
      cases r with
      | none =>
        have hm := tryStarts_made fs (fun f h => hf f (by simp [h])) h
        rcases hq with ⟨_, rfl | hc⟩ | ⟨h0, _⟩
        · exact hm
        · have hc' := closed_tryStarts fs (fun f h => hf f (by simp [h])) hc h
          rcases hm with ⟨rfl, _⟩ | hm
          · exact .inl ⟨rfl, .inr hc'⟩
          · exact .inr hm
        · exact absurd rfl h0
      | container => cases h; exact hq
      | leaf => cases h; exact hq

/-! ### The loop of block starts -/

/-- After the block starts of a line: the container `c` was looked at with the state `p`. -/
def StartsMade (c : NodeData) (p p' : PState) : Prop :=
  (∃ c', SP c' p' ∧ (p'.allClosed = false → p'.spine = p.spine) ∧ (c'.t = .paragraph → c' = c ∧ p'.blank = (findNextNonspace p).blank)) ∨
    (Leaf p' ∧ tipKind p' ≠ some .paragraph)

theorem startsLoop_made : ∀ (fuel : Nat) (c : NodeData) (p p' : PState), SP c p → Cur p → startsLoop fuel c p = .ok p' → StartsMade c p p' := by
  intro fuel
  induction fuel with
  | zero => intro c p p' _ _ h; cases h
  | succ fuel ih =>
    intro c p p' hsp hc h
    have hsp' : SP c (findNextNonspace p) := hsp.frame rfl rfl
    have hn := curN_find hc
    simp only [startsLoop] at h
    generalize (!(findNextNonspace p).indented && !_) = b at h
    cases b with
    | true =>
      simp only [if_true] at h; cases h
      exact .inl ⟨c, hsp'.frame rfl rfl, fun _ => rfl, fun _ => ⟨rfl, rfl⟩⟩
    | false =>
      simp only [Bool.false_eq_true, if_false] at h
      obtain ⟨r, q, e1, e2⟩ := blockStarts_ok hsp' hn
      have hm := tryStarts_made _ (fun _ h => h) e1
      rw [e1] at h
      simp only [Except.bind, bind] at h
      cases r with
      | none =>
        cases h
        refine .inl ⟨c, e2.2.1.frame rfl rfl, ?_, fun _ => ⟨rfl, ?_⟩⟩
        · rcases hm with ⟨_, rfl | hm⟩ | ⟨h0, _⟩
          · intro _; rfl
          · intro h0; rw [show (advanceNextNonspace q).allClosed = q.allClosed from rfl, hm] at h0; cases h0
          · exact absurd rfl h0
        · show q.blank = _
          have := e2.2.2.2
          simp only [PState.cur, Prod.mk.injEq] at this
          exact this.2.2.2.2.2.2.1
      | leaf =>
        cases h
        rcases hm with ⟨h0, _⟩ | ⟨_, _, h0⟩
        · cases h0
        · exact .inr ⟨e2.2, h0⟩
      | container =>
        rcases hm with ⟨h0, _⟩ | ⟨_, hq, h0⟩
        · cases h0
        simp only at h
        obtain ⟨_, _, h3, b, rest, h4, h5⟩ := e2
        rw [h4] at h
        simp only at h
        have hb : b.data.t ≠ .paragraph := by
          intro hb; apply h0; simp [tipKind, h4, hb]
        have hp' := closed_starts hq h
        rcases ih b.data q p' h5 h3 h with ⟨c', k1, _, k3⟩ | k
        · refine .inl ⟨c', k1, fun h => (by rw [hp'] at h; cases h), fun h => ?_⟩
          obtain ⟨rfl, _⟩ := k3 h
          exact absurd h hb
        · exact .inr k

/-! ### The rest of the line -/

/-- The flags of the open blocks. -/
def NoFlags (p : PState) : Prop := ∀ d ∈ p.ds, d.lastLineBlank = false

theorem tipKind_ds (p : PState) : tipKind p = p.ds.head?.map (·.t) := by
  unfold tipKind PState.ds
  cases p.spine <;> rfl

/-- A block that has a block inside is no paragraph. -/
theorem chain_par {d e : NodeData} {r : List NodeData} (h : Chain (d :: e :: r)) : e.t ≠ .paragraph := by
  cases h with
  | cons h _ _ _ => intro h0; rw [h0] at h; cases h

theorem finalizeTip_ds {l : Nat} {p p' : PState} (h : finalizeTip l p = .ok p') : p'.ds = p.ds.tail ∧ p'.blank = p.blank := by
  unfold finalizeTip at h
  cases hs : p.spine with
  | nil => rw [hs] at h; cases h
  | cons b rest =>
    rw [hs] at h
    simp only at h
    cases hf : finalizeBlock { b.data with isOpen := false, sourcepos := b.data.sourcepos.map fun sp => (sp.1, (l, p.lastLineLength)) } b.children p.refmap with
    | error e => rw [hf] at h; cases h
    | ok x =>
      rw [hf] at h
      cases rest <;> cases h <;> simp [PState.ds, hs]

theorem addChildLoop_ds {tag : Kind} : ∀ {n : Nat} {p p' : PState}, addChildLoop tag n p = .ok p' → ∀ d ∈ p'.ds, d ∈ p.ds := by
  intro n
  induction n with
  | zero => intro p p' h; cases h
  | succ n ih =>
    intro p p' h
    unfold addChildLoop at h
    split at h
    · cases h
    · split at h
      · cases h; exact fun _ h => h
      · cases hf : finalizeTip (p.lineNumber - 1) p with
        | error => rw [hf] at h; cases h
        | ok q =>
          rw [hf] at h
          intro d hd
          have := ih h d hd
          rw [(finalizeTip_ds hf).1] at this
          exact List.mem_of_mem_tail this

theorem addLine_ds {p p' : PState} (h : addLine p = .ok p') : ∃ b r x, p.spine = b :: r ∧ p'.spine = { b with data := setContent b.data x } :: r := by
  simp only [addLine] at h
  cases hs : p.spine with
  | nil => split at h <;> (simp only [appendContent, hs] at h; cases h)
  | cons b r =>
    cases hx : b.data.stringContent with
    | none => split at h <;> (simp only [appendContent, hs, hx] at h; cases h)
    | some x => split at h <;> (simp only [appendContent, hs, hx] at h; cases h; exact ⟨b, r, _, rfl, rfl⟩)

theorem addText_flags {p p' : PState} (h : addText p = .ok p') (ht : tipKind p' = some .paragraph)
    (hlazy : p.allClosed = false → tipKind p = some .paragraph → NoFlags p)
    (hst : (∃ c, SP c p ∧ (c.t = .paragraph → p.blank = false)) ∨ (Leaf p ∧ tipKind p ≠ some .paragraph)) : NoFlags p' := by
  have key : ∃ sp m o, closeUnmatched p = .ok { p with spine := sp, refmap := m, oldtip := o, allClosed := true } ∧
      Chain (sp.map (·.data)) ∧ (∀ b r, sp = b :: r → b.data.t = .paragraph → p.blank = false) := by
    rcases hst with ⟨c, h1, h2⟩ | ⟨h1, h2⟩
    · obtain ⟨sp, m, o, e1, e2, e3⟩ := closeUnmatched_ok h1
      refine ⟨sp, m, o, e1, e3.good.chain, ?_⟩
      intro b r hb hk
      obtain ⟨d', r', e, k1, _⟩ := e3.tip rfl
      have : sp.map (·.data) = d' :: r' := e
      rw [hb] at this
      simp only [List.map_cons, List.cons.injEq] at this
      exact h2 (by rw [← k1, ← this.1]; exact hk)
    · refine ⟨p.spine, p.refmap, p.oldtip, ?_, h1.chain, ?_⟩
      · simp only [closeUnmatched]; rw [if_pos h1.closed, ← h1.closed]
      · intro b r hb hk
        exact absurd (by simp [tipKind, hb, hk]) h2
  simp only [addText] at h
  by_cases hl : (!p.allClosed && !p.blank && tipKind p == some .paragraph) = true
  · rw [if_pos hl] at h
    simp only [Bool.and_eq_true, Bool.not_eq_true', beq_iff_eq] at hl
    have hn := hlazy hl.1.1 hl.2
    obtain ⟨b, r, x, h1, h2⟩ := addLine_ds h
    intro d hd
    simp only [PState.ds, h2, List.map_cons, List.mem_cons] at hd
    rcases hd with rfl | hd
    · exact hn b.data (by simp [PState.ds, h1])
    · exact hn d (by rw [PState.ds, h1]; exact List.mem_cons_of_mem _ hd)
  · rw [if_neg hl] at h
    obtain ⟨sp, m, o, e1, e2, e3⟩ := key
    rw [e1] at h
    simp only [bind, Except.bind] at h
    cases sp with
    | nil => exact absurd rfl e2.ne_nil
    | cons b r =>
      simp only [] at h
      generalize hb : (if p.blank = true then { b with children := markLastChild b.children } else b : OpenBlk) = b' at h
      have hbd : b'.data = b.data := by rw [← hb]; split <;> rfl
      have hflag : p.blank = false → ∀ q : PState, q.blank = p.blank → lineBlankFlag b' q = false := by
        intro h0 q hq; simp [lineBlankFlag, hq, h0]
      generalize hfl : lineBlankFlag b' _ = flag at h
      have hflag : p.blank = false → flag = false := fun h0 => by rw [← hfl]; exact hflag h0 _ rfl
      have hmem : ∀ x ∈ (b' :: r).map fun x => ({ x with data := { x.data with lastLineBlank := flag } } : OpenBlk), x.data.lastLineBlank = flag := by
        intro x hx
        obtain ⟨y, _, rfl⟩ := List.mem_map.1 hx
        rfl
      by_cases ha : acceptsLines b'.data.t = true
      · rw [if_pos ha] at h
        split at h
        · cases h
        · rename_i q hq
          obtain ⟨b2, r2, x, h1, h2⟩ := addLine_ds hq
          simp only [List.map_cons, List.cons.injEq] at h1
          obtain ⟨rfl, rfl⟩ := h1
          split at h
          · -- the block is closed
            exfalso
            have h3 := (finalizeTip_ds h).1
            rw [tipKind_ds, h3] at ht
            rw [PState.ds, h2] at ht
            cases r with
            | nil => simp at ht
            | cons c r =>
              simp only [List.map_cons, List.tail_cons, List.head?_cons, Option.map_some, Option.some.injEq] at ht
              exact chain_par e2 ht
          · cases h
            have hk : b.data.t = .paragraph := by
              rw [tipKind_ds, PState.ds, h2] at ht
              simp only [List.map_cons, List.head?_cons, Option.map_some, Option.some.injEq, setContent] at ht
              rw [← hbd]; exact ht
            have h0 := hflag (e3 b r rfl hk)
            intro d hd
            rw [PState.ds, h2] at hd
            simp only [List.map_cons, List.mem_cons] at hd
            rcases hd with rfl | hd
            · exact h0
            · obtain ⟨y, hy, rfl⟩ := List.mem_map.1 hd
              rw [hmem y (List.mem_cons_of_mem _ hy)]; exact h0
      · rw [if_neg ha] at h
        split at h
        · rename_i hc
          simp only [Bool.and_eq_true, Bool.not_eq_true'] at hc
          have h0 := hflag hc.2
          split at h
          · cases h
          · rename_i q hq
            unfold addChild at hq
            simp only [bind, Except.bind] at hq
            split at hq
            · cases hq
            · rename_i z hz
              have hz := addChildLoop_ds hz
              cases hq
              obtain ⟨b2, r2, x, h1, h2⟩ := addLine_ds h
              simp only [advanceNextNonspace, List.cons.injEq] at h1
              obtain ⟨rfl, rfl⟩ := h1
              intro d hd
              rw [PState.ds, h2] at hd
              simp only [List.map_cons, List.mem_cons] at hd
              rcases hd with rfl | hd
              · rfl
              · have := hz d hd
                obtain ⟨y, hy, rfl⟩ := List.mem_map.1 this
                rw [hmem y hy]; exact h0
        · cases h
          exfalso
          have : b'.data.t = .paragraph := by
            simpa [tipKind] using ht
          rw [this] at ha
          exact ha rfl

/-! ### A whole line -/

/-- An open paragraph has no flagged block around it. -/
def FlagInv (p : PState) : Prop := tipKind p = some .paragraph → NoFlags p

/-- What the continuation loop gives. -/
theorem cont_cases {p : PState} (h : Ready p) (l : Str) :
    (∃ q, contLoop ((atStart p l).spine.reverse.drop 1) 1 (atStart p l) = .ok (.inl q) ∧ q.ds = p.ds.drop 1 ∧ 2 ≤ p.spine.length) ∨
    ∃ n q c, contLoop ((atStart p l).spine.reverse.drop 1) 1 (atStart p l) = .ok (.inr (n, q)) ∧ q.core = (atStart p l).core ∧
      q.books = (atStart p l).books ∧ Cur q ∧ blockAt { q with allClosed := n == q.oldtip, lastMatched := n } n = some c ∧
      SP c { q with allClosed := n == q.oldtip, lastMatched := n } ∧ 1 ≤ n ∧ n ≤ p.spine.length := by
  generalize hq : atStart p l = q
  have hqs : q.spine = p.spine := by rw [← hq]; rfl
  have hqds : q.ds = p.ds := by simp only [PState.ds]; rw [hqs]
  have hqo : q.oldtip = p.spine.length := by rw [← hq]; rfl
  have hql : q.lineNumber = p.lineNumber + 1 := by rw [← hq]; rfl
  have hqcur : Cur q := by rw [← hq]; exact Nat.zero_le _
  have hqle : ∀ d ∈ q.ds, startLine d ≤ q.lineNumber := by
    rw [hqds, hql]; intro d hd
    rcases h.le d hd with h | h
    · omega
    · omega
  have hqold : ∀ d ∈ q.ds, d.t ≠ .document → startLine d < q.lineNumber := by
    rw [hqds, hql]; intro d hd hnd
    rcases h.le d hd with h | h
    · omega
    · exact absurd h.1 hnd
  have hspos : 1 ≤ q.spine.length := by
    have := h.good.chain.ne_nil
    rw [hqs]
    cases hs : p.spine with
    | nil => simp [PState.ds, hs] at this
    | cons a b => simp
  rw [← hqs] at hqo
  obtain ⟨r, e1, e2⟩ := contLoop_ok (q.spine.reverse.drop 1) 1 q hqcur (hqds ▸ h.good) hqle (Nat.le_refl _) rfl
    (by simp; omega)
  cases r with
  | inl x =>
    obtain ⟨sp, m, o, c, n, nc, i, ib, bl, pct, f1, f2, f3, f4⟩ := e2
    refine .inl ⟨x, e1, ?_, by rw [← hqs]; exact f4⟩
    rw [f1, ← hqds]; exact f3
  | inr x =>
    obtain ⟨depth, q2⟩ := x
    obtain ⟨f1, f2, f3, f4, f5⟩ := e2
    have hs2 : q2.spine = q.spine := congrArg Core.spine f3
    have hds2 : q2.ds = q.ds := by simp only [PState.ds]; rw [hs2]
    have ho2 : q2.oldtip = q.oldtip := congrArg Books.oldtip f4
    have hl2 : q2.lineNumber = q.lineNumber := congrArg Core.line f3
    have hdsl : q.ds.length = q.spine.length := by simp [PState.ds]
    have hcont : ∃ d, q.ds[q.spine.length - depth]? = some d :=
      ⟨_, List.getElem?_eq_getElem (by omega)⟩
    obtain ⟨container, hcont⟩ := hcont
    have hblock : ∀ a : Bool, blockAt { q2 with allClosed := a, lastMatched := depth } depth = some container := by
      intro a
      rw [blockAt_ds]
      show q2.ds.reverse[depth - 1]? = _
      rw [hds2, List.getElem?_reverse (by omega), ← hcont]
      congr 1; omega
    refine .inr ⟨depth, q2, container, e1, f3, f4, f5, hblock _, ?_, f1, by rw [← hqs]; exact f2⟩
    refine ⟨?_, ?_, ?_, ?_⟩
    · show GoodChain q2.ds; rw [hds2, hqds]; exact h.good
    · show ∀ d ∈ q2.ds, startLine d ≤ q2.lineNumber; rw [hds2, hl2]; exact hqle
    · show 1 ≤ q2.lineNumber; rw [hl2, hql]; omega
    · by_cases heq : depth = q2.oldtip
      · left
        refine ⟨by simp [heq], ?_⟩
        have h0 : q.spine.length - depth = 0 := by omega
        rw [h0] at hcont
        show ∃ d r, q2.ds = d :: r ∧ _
        rw [hds2]
        cases hc : q.ds with
        | nil => rw [hc] at hcont; simp at hcont
        | cons d r =>
          rw [hc] at hcont
          simp only [List.getElem?_cons_zero, Option.some.injEq] at hcont
          subst hcont
          refine ⟨d, r, rfl, rfl, rfl, ?_⟩
          show _ ∨ startLine d < q2.lineNumber
          rw [hl2]
          by_cases hd : d.t = .document
          · exact Or.inl (Or.inl hd)
          · exact Or.inr (hqold d (by rw [hc]; simp) hd)
      · right
        refine ⟨by simpa using heq, ?_, f1, ?_, ?_, hblock _⟩
        · show q2.oldtip = q2.spine.length
          rw [ho2, hs2, hqo]
        · show depth < q2.oldtip
          omega
        · show ∀ d ∈ q2.ds, d.t ≠ .document → startLine d < q2.lineNumber
          rw [hds2, hl2]; exact hqold

/-- The last matched block is a paragraph only on a line that is not blank. -/
theorem cont_blank : ∀ (bs : List OpenBlk) (d n : Nat) {p q : PState}, contLoop bs d p = .ok (.inr (n, q)) → n ≠ d → Cur p →
    ∀ b, bs[n - d - 1]? = some b → b.data.t = .paragraph → n = d + bs.length → (findNextNonspace q).blank = false
  | [], d, n, p, q, h, hn, hc, b, hb, hk, hl => by simp at hl; exact absurd hl hn
  | b0 :: bs, d, n, p, q, h, hn, hc, b, hb, hk, hl => by
    simp only [contLoop] at h
    have hcn := curN_find hc
    obtain ⟨s1, s2, s3, s4⟩ := continueBlock_spec b0.data (!b0.children.isEmpty || !bs.isEmpty) hcn
    cases hx : continueBlock b0.data (!b0.children.isEmpty || !bs.isEmpty) (findNextNonspace p) with
    | mk x r =>
      rw [hx] at h s3
      cases x with
      | matched =>
        simp only at h
        by_cases h1 : n = d + 1
        · subst h1
          have : bs = [] := by
            simp only [List.length_cons] at hl
            exact List.eq_nil_of_length_eq_zero (by omega)
          subst this
          cases h
          simp only [Nat.add_sub_cancel_left, Nat.sub_self, List.getElem?_cons_zero, Option.some.injEq] at hb
          subst hb
          rw [continueBlock.eq_def] at hx
          rw [hk] at hx
          simp only at hx
          split at hx
          · cases hx
          · rename_i hb
            cases hx
            have : findNextNonspace (findNextNonspace p) = findNextNonspace p := rfl
            rw [this]
            simpa using hb
        · refine cont_blank bs (d + 1) n h h1 s3 b ?_ hk (by simp only [List.length_cons] at hl; omega)
          have : n - d - 1 = (n - (d + 1) - 1) + 1 := by simp only [List.length_cons] at hl; omega
          rw [this] at hb
          exact hb
      | failed => cases h; exact absurd rfl hn
      | done =>
        simp only at h
        cases hf : finalizeTip r.lineNumber r with
        | error => rw [hf] at h; cases h
        | ok => rw [hf] at h; cases h

theorem flag_line {p p' : PState} (h : Ready p) (hi : FlagInv p) {l : Str} (hp : incorporateLine p l = .ok p') : FlagInv p' := by
  rw [incorporateLine_eq] at hp
  generalize replaceChar (Char.ofNat 0) (Char.ofNat 0xFFFD) l = l at hp
  intro ht
  rcases cont_cases h l with ⟨q, e1, e2, e3⟩ | ⟨n, q, c, e1, e2, e3, e4, e5, e6, e7, e8⟩
  · rw [e1] at hp
    cases hp
    exfalso
    rw [tipKind_ds, e2] at ht
    have hch := h.good.chain
    cases hd : p.ds with
    | nil => rw [hd] at ht; simp at ht
    | cons x r =>
      rw [hd] at ht hch
      cases r with
      | nil => simp at ht
      | cons y r =>
        simp only [List.drop_succ_cons, List.drop_zero, List.head?_cons, Option.map_some, Option.some.injEq] at ht
        exact chain_par hch ht
  · rw [e1] at hp
    simp only [bind, Except.bind, afterCont] at hp
    rw [e5] at hp
    simp only at hp
    have hsp : q.spine = p.spine := congrArg Core.spine e2
    have hds : q.ds = p.ds := by simp only [PState.ds]; rw [hsp]
    have hlen : p.ds.length = p.spine.length := by simp [PState.ds]
    have hot : q.oldtip = p.spine.length := congrArg Books.oldtip e3
    -- the container is a paragraph only on a line that is not blank
    have hcb : c.t = .paragraph → (findNextNonspace { q with allClosed := n == q.oldtip, lastMatched := n }).blank = false := by
      intro hc
      have hb : (findNextNonspace { q with allClosed := n == q.oldtip, lastMatched := n }).blank = (findNextNonspace q).blank := rfl
      rw [hb]
      have hidx : p.ds[p.spine.length - n]? = some c := by
        rw [blockAt_ds] at e5
        have e5 : q.ds.reverse[n - 1]? = some c := e5
        rw [hds, List.getElem?_reverse (by omega)] at e5
        rw [← e5]; congr 1; omega
      have h0 := h.good.chain.leaf_tip _ hidx (by rw [hc]; intro t; rfl)
      have hn : n = p.spine.length := by omega
      have hpos : 1 < p.spine.length := by
        have hch := h.good.chain
        rw [h0] at hidx
        cases hd : p.ds with
        | nil => rw [hd] at hidx; simp at hidx
        | cons x r =>
          rw [hd] at hidx hch
          simp only [List.getElem?_cons_zero, Option.some.injEq] at hidx
          subst hidx
          cases r with
          | nil => cases hch with | doc h => rw [h] at hc; cases hc
          | cons => rw [← hlen, hd]; simp
      have hat : ((atStart p l).spine.reverse.drop 1)[n - 1 - 1]? = p.spine.reverse[n - 1]? := by
        rw [List.getElem?_drop]
        show p.spine.reverse[_]? = _
        congr 1; omega
      have hcd : (p.spine.reverse[n - 1]?).map (·.data) = some c := by
        have : blockAt { q with allClosed := n == q.oldtip, lastMatched := n } n = (p.spine.reverse[n - 1]?).map (·.data) := by
          unfold blockAt; rw [show ({ q with allClosed := n == q.oldtip, lastMatched := n } : PState).spine = q.spine from rfl, hsp]
        rw [← this]; exact e5
      obtain ⟨b, hb, rfl⟩ := Option.map_eq_some_iff.1 hcd
      refine cont_blank _ 1 n e1 (by omega) (Nat.zero_le _) b (by rw [hat]; exact hb) hc ?_
      rw [List.length_drop, List.length_reverse]
      show n = 1 + (p.spine.length - 1)
      omega
    have fin : ∀ r, ((c.t ≠ .paragraph ∧ r = { q with allClosed := n == q.oldtip, lastMatched := n }) ∨
        startsLoop (l.length + 1) c { q with allClosed := n == q.oldtip, lastMatched := n } = .ok r) → ∀ z, addText r = .ok z →
        p' = { z with lastLineLength := l.length } → NoFlags p' := by
      intro r hr z hz hzp
      subst hzp
      refine addText_flags (p' := z) hz ht ?_ ?_
      · intro h1 h2
        have hrs : r.spine = p.spine := by
          rcases hr with ⟨_, hr⟩ | hr
          · rw [hr]; exact hsp
          · rcases startsLoop_made _ _ _ _ e6 e4 hr with ⟨c', k1, k2, k3⟩ | ⟨k1, k2⟩
            · rw [k2 h1]; exact hsp
            · rw [k1.closed] at h1; cases h1
        have : tipKind r = tipKind p := by unfold tipKind; rw [hrs]
        have hn := hi (this ▸ h2)
        intro d hd
        exact hn d (by rw [PState.ds, ← hrs]; exact hd)
      · rcases hr with ⟨hm, hr⟩ | hr
        · subst hr
          exact .inl ⟨c, e6, fun hc => absurd hc hm⟩
        · rcases startsLoop_made _ _ _ _ e6 e4 hr with ⟨c', k1, k2, k3⟩ | k
          · refine .inl ⟨c', k1, ?_⟩
            intro hc
            obtain ⟨rfl, hb⟩ := k3 hc
            rw [hb]; exact hcb hc
          · exact .inr k
    by_cases hm : (c.t != .paragraph && acceptsLines c.t) = true
    · rw [if_pos hm] at hp
      simp only [pure, Except.pure] at hp
      simp only [Bool.and_eq_true, bne_iff_ne, ne_eq] at hm
      cases hz : addText { q with allClosed := n == q.oldtip, lastMatched := n } with
      | error => rw [hz] at hp; cases hp
      | ok z => rw [hz] at hp; cases hp; exact fin _ (.inl ⟨hm.1, rfl⟩) z hz rfl
    · rw [if_neg hm] at hp
      cases hr : startsLoop (l.length + 1) c { q with allClosed := n == q.oldtip, lastMatched := n } with
      | error => rw [hr] at hp; cases hp
      | ok r =>
        rw [hr] at hp
        simp only at hp
        cases hz : addText r with
        | error => rw [hz] at hp; cases hp
        | ok z => rw [hz] at hp; cases hp; exact fin _ (.inr hr) z hz rfl

theorem flag_lines : ∀ (ls : List Str) {p p' : PState}, Ready p → FlagInv p → ls.foldlM incorporateLine p = .ok p' → FlagInv p'
  | [], p, p', h, hi, hp => by cases hp; exact hi
  | l :: ls, p, p', h, hi, hp => by
    obtain ⟨p1, c, e1, e2, e3, e4⟩ := incorporateLine_ok h l
    rw [List.foldlM_cons, e1] at hp
    exact flag_lines ls e4 (flag_line h hi e1) hp

theorem flag_reset (p : PState) : FlagInv p.reset := by
  intro h; cases h

end CM
