import Verif.Proofs.LastPath
import Verif.Proofs.First
import Verif.Proofs.CloseN
import Verif.Spec.Blank
/-
Blank lines (C64).
-/
set_option linter.unusedVariables false
namespace CM
open Spec

/-! ### What a blank line does -/

/-- How many of the open blocks (the outermost first) a blank line continues, if none of them is a code block or an HTML block. -/
def blankDepth : List OpenBlk → Nat → Nat
  | [], d => d
  | b :: bs, d =>
    if b.data.t = .document ∨ b.data.t = .list ∨ (b.data.t = .item ∧ (!b.children.isEmpty || !bs.isEmpty) = true) then blankDepth bs (d + 1) else d

/-- The blocks a blank line continues. -/
def Passes (b : OpenBlk) : Prop := b.data.t = .document ∨ b.data.t = .list ∨ b.data.t = .item

theorem blankDepth_le : ∀ (bs : List OpenBlk) (d : Nat), d ≤ blankDepth bs d ∧ blankDepth bs d ≤ d + bs.length
  | [], d => ⟨Nat.le_refl _, Nat.le_refl _⟩
  | b :: bs, d => by
    rw [blankDepth]
    have := blankDepth_le bs (d + 1)
    simp only [List.length_cons]
    split <;> omega

theorem blankDepth_take : ∀ (bs : List OpenBlk) (d : Nat), ∀ x ∈ bs.take (blankDepth bs d - d), Passes x
  | [], d => by simp
  | b :: bs, d => by
    rw [blankDepth]
    have h1 := blankDepth_le bs (d + 1)
    have ih := blankDepth_take bs (d + 1)
    split
    · rename_i hb
      rw [show blankDepth bs (d + 1) - d = (blankDepth bs (d + 1) - (d + 1)) + 1 by omega, List.take_succ_cons]
      intro x hx
      rcases List.mem_cons.1 hx with rfl | hx
      · exact hb.imp_right fun h => h.imp_right And.left
      · exact ih x hx
    · simp

/-- The cursor is in a line with nothing but spaces and tabs left. -/
def AtBlank (p : PState) : Prop := OnlySpTab (p.currentLine.drop p.offset)

theorem find_blank {p : PState} (h : AtBlank p) : (findNextNonspace p).blank = true ∧
    (findNextNonspace p).currentLine.drop (findNextNonspace p).nextNonspace = [] := by
  obtain ⟨t1, t2⟩ := takeWhile_blank h
  have hsk : skipWs (p.currentLine.drop p.offset) p.offset p.column =
      (p.offset + (p.currentLine.drop p.offset).length, columnFrom p.column (p.currentLine.drop p.offset), none) := by
    rw [skipWs_eq, t1, t2]; rfl
  constructor
  · have : (findNextNonspace p).blank = match (skipWs (p.currentLine.drop p.offset) p.offset p.column).2.2 with
      | none => true
      | some c => c == '\n' || c == '\r' := rfl
    rw [this, hsk]
  · show p.currentLine.drop (skipWs _ _ _).1 = _
    rw [hsk]
    apply List.drop_eq_nil_of_le
    simp only [List.length_drop]
    omega

theorem atBlank_find {p : PState} (h : AtBlank p) : AtBlank (findNextNonspace p) := h

theorem atBlank_adv {p : PState} (h : AtBlank p) : AtBlank (advanceNextNonspace (findNextNonspace p)) := by
  have : (advanceNextNonspace (findNextNonspace p)).currentLine.drop (advanceNextNonspace (findNextNonspace p)).offset = [] := (find_blank h).2
  rw [AtBlank, this]
  intro c hc; cases hc

theorem cont_onblank : ∀ (bs : List OpenBlk) (d : Nat) {p : PState}, AtBlank p → (∀ b ∈ bs, b.data.t ≠ .codeBlock ∧ b.data.t ≠ .htmlBlock) →
    ∃ q, contLoop bs d p = .ok (.inr (blankDepth bs d, q)) ∧ q.core = p.core ∧ q.books = p.books ∧ AtBlank q
  | [], d, p, h, _ => ⟨p, rfl, rfl, rfl, h⟩
  | b :: bs, d, p, h, hk => by
    obtain ⟨f1, f2⟩ := find_blank h
    have hb := hk b (by simp)
    have fpk : peekAt (findNextNonspace p).currentLine (findNextNonspace p).nextNonspace = none := by
      rw [← head?_peek, f2]; rfl
    have stop : continueBlock b.data (!b.children.isEmpty || !bs.isEmpty) (findNextNonspace p) = (.failed, findNextNonspace p) →
        ∃ q, contLoop (b :: bs) d p = .ok (.inr (d, q)) ∧ q.core = p.core ∧ q.books = p.books ∧ AtBlank q := by
      intro he
      refine ⟨findNextNonspace p, ?_, rfl, rfl, h⟩
      rw [contLoop]
      simp only [he]
    have go : ∀ q0 : PState, continueBlock b.data (!b.children.isEmpty || !bs.isEmpty) (findNextNonspace p) = (.matched, q0) →
        q0.core = p.core → q0.books = p.books → AtBlank q0 →
        ∃ q, contLoop (b :: bs) d p = .ok (.inr (blankDepth bs (d + 1), q)) ∧ q.core = p.core ∧ q.books = p.books ∧ AtBlank q := by
      intro q0 he e1 e2 e3
      obtain ⟨q, g1, g2, g3, g4⟩ := cont_onblank bs (d + 1) e3 fun x hx => hk x (by simp [hx])
      refine ⟨q, ?_, g2.trans e1, g3.trans e2, g4⟩
      rw [contLoop]
      simp only [he]
      exact g1
    rw [blankDepth]
    cases ht : b.data.t
    case document =>
      rw [if_pos (.inl rfl)]
      exact go (findNextNonspace p) (by simp only [continueBlock, ht]) rfl rfl h
    case list =>
      rw [if_pos (.inr (.inl rfl))]
      exact go (findNextNonspace p) (by simp only [continueBlock, ht]) rfl rfl h
    case item =>
      cases hc : (!b.children.isEmpty || !bs.isEmpty) with
      | true =>
        rw [if_pos (.inr (.inr ⟨rfl, rfl⟩))]
        exact go (advanceNextNonspace (findNextNonspace p)) (by simp only [continueBlock, ht, f1, hc, if_true]) rfl rfl (atBlank_adv h)
      | false =>
        rw [if_neg (by simp)]
        exact stop (by simp only [continueBlock, ht, f1, hc, if_true]; rfl)
    case codeBlock => exact absurd ht hb.1
    case htmlBlock => exact absurd ht hb.2
    case blockQuote =>
      rw [if_neg (by simp)]
      exact stop (by simp only [continueBlock, ht, fpk]; simp)
    case paragraph =>
      rw [if_neg (by simp)]
      exact stop (by simp only [continueBlock, ht, f1, if_true])
    all_goals
      rw [if_neg (by simp)]
      exact stop (by simp only [continueBlock, ht])

theorem starts_onblank {p : PState} (c : NodeData) (n : Nat) (h : AtBlank p) (hc : c.t ≠ .paragraph) :
    startsLoop (n + 1) c p = .ok (advanceNextNonspace (findNextNonspace p)) := by
  obtain ⟨f2, f5⟩ := find_blank h
  have f6 : peekAt (findNextNonspace p).currentLine (findNextNonspace p).nextNonspace = none := by
    rw [← head?_peek, f5]; rfl
  unfold startsLoop
  simp only [f6]
  cases hi : (findNextNonspace p).indented with
  | false => rw [if_pos (by rfl)]; rfl
  | true =>
    rw [if_neg (by simp)]
    have hi4 : (findNextNonspace p).indent ≥ 4 := by
      have : (findNextNonspace p).indented = decide ((findNextNonspace p).indent ≥ 4) := rfl
      rw [this] at hi
      exact of_decide_eq_true hi
    have e : tryStarts (blockStarts c) (findNextNonspace p) = .ok (.none, findNextNonspace p) := by
      unfold blockStarts
      have e1 : startBlockQuote (findNextNonspace p) = .ok (.none, findNextNonspace p) := by unfold startBlockQuote; rw [hi]; rfl
      have e2 : startAtx (findNextNonspace p) = .ok (.none, findNextNonspace p) := by unfold startAtx; rw [hi]; rfl
      have e3 : startFenced (findNextNonspace p) = .ok (.none, findNextNonspace p) := by unfold startFenced; rw [hi]; rfl
      have e4 : startHtml c.t (findNextNonspace p) = .ok (.none, findNextNonspace p) := by unfold startHtml; rw [hi]; rfl
      have e4' : startSetext c.t (findNextNonspace p) = .ok (.none, findNextNonspace p) := by unfold startSetext; rw [hi]; rfl
      have e5 : startThematic (findNextNonspace p) = .ok (.none, findNextNonspace p) := by unfold startThematic; rw [hi]; rfl
      have e6 : startListItem c (findNextNonspace p) = .ok (.none, findNextNonspace p) := by
        unfold startListItem parseListMarker
        rw [if_pos hi4]
        split <;> rfl
      have e7 : startIndented (findNextNonspace p) = .ok (.none, findNextNonspace p) := by unfold startIndented; rw [f2]; simp
      rw [try_none e1, try_none e2, try_none e3, try_none e4, try_none e4', try_none e5, try_none e6, try_none e7]
      rfl
    rw [e]; rfl

/-- The open blocks after a blank line has closed what it closes. -/
def blankSpine : List OpenBlk → List OpenBlk
  | [] => []
  | b :: rest => ({ b with children := markLastChild b.children } :: rest).map fun x => { x with data := { x.data with lastLineBlank := true } }

/-- A blank line. -/
theorem onblank_line {p z : PState} {l : Str} {n k : Nat} (hr : Ready p) (hk : ∀ b ∈ p.spine, b.data.t ≠ .codeBlock ∧ b.data.t ≠ .htmlBlock) (hl : OnlySpTab l)
    (hn : n = blankDepth (p.spine.reverse.drop 1) 1) (hkn : n + k = p.spine.length) (hz : closeN p.lineNumber k p = .ok z) :
    ∃ p1, incorporateLine p l = .ok p1 ∧ p1.spine = blankSpine z.spine ∧ p1.refmap = z.refmap ∧ p1.lineNumber = p.lineNumber + 1 := by
  have hnul : noNul l = l := noNul_none fun hm => by rcases hl _ hm with h | h <;> revert h <;> decide
  have hne : p.spine ≠ [] := fun h => hr.good.chain.ne_nil (by simp [PState.ds, h])
  have hn1 : 1 ≤ n := by rw [hn]; exact (blankDepth_le _ _).1
  obtain ⟨q, g1, g2, g3, g4⟩ := cont_onblank (p.spine.reverse.drop 1) 1 (p := atStart p l) hl
    (fun b hb => hk b (List.mem_reverse.1 (List.mem_of_mem_drop hb)))
  rw [← hn] at g1
  have qs : q.spine = p.spine := congrArg Core.spine g2
  have qm : q.refmap = p.refmap := congrArg Core.refmap g2
  have qn : q.lineNumber = p.lineNumber + 1 := congrArg Core.line g2
  have ql : q.lastLineLength = p.lastLineLength := congrArg Core.prevLen g2
  have qo : q.oldtip = p.spine.length := congrArg Books.oldtip g3
  -- the container
  have hlt : n - 1 < p.spine.reverse.length := by rw [List.length_reverse]; omega
  obtain ⟨c, hc⟩ : ∃ c, p.spine.reverse[n - 1]? = some c := ⟨_, List.getElem?_eq_getElem hlt⟩
  have hdoc : ∃ d r, p.spine.reverse = d :: r ∧ d.data.t = .document := by
    obtain ⟨d, hd1, hd2⟩ := hr.good.chain.last_doc
    rw [PState.ds, List.getLast?_map, Option.map_eq_some_iff] at hd1
    obtain ⟨y, hy1, rfl⟩ := hd1
    rw [← List.head?_reverse] at hy1
    cases hrv : p.spine.reverse with
    | nil => rw [hrv] at hy1; cases hy1
    | cons a r => rw [hrv] at hy1; cases hy1; exact ⟨_, r, rfl, hd2⟩
  have hcp : Passes c := by
    obtain ⟨d, r, e1, e2⟩ := hdoc
    rw [e1] at hc hn
    by_cases h1 : n = 1
    · rw [h1] at hc; cases hc; exact .inl e2
    · obtain ⟨m, rfl⟩ : ∃ m, n = m + 2 := ⟨n - 2, by omega⟩
      have hc : r[m]? = some c := hc
      have hn : m + 2 = blankDepth r 1 := hn
      refine blankDepth_take r 1 c ?_
      rw [← hn]
      exact List.mem_of_getElem? (i := m) (by rw [List.getElem?_take_of_lt (by omega)]; exact hc)
  obtain ⟨S, m, k1, k2, k3, k4, k5⟩ := closeN_run k hz (by omega)
  have hzs : z.spine = S := by rw [k1]
  have hzm : z.refmap = m := by rw [k1]
  -- the innermost block that is left
  obtain ⟨b, up, hS⟩ : ∃ b up, S = b :: up := by
    cases S with
    | nil => simp at k2; omega
    | cons b up => exact ⟨b, up, rfl⟩
  have hbc : b.data = c.data := by
    have hd : (p.spine.drop k).head? = some c := by
      rw [← hc, List.head?_drop, List.getElem?_reverse (by rw [List.length_reverse] at hlt; exact hlt)]
      congr 1; omega
    rw [hS, hd] at k4
    simpa using k4
  have hbp : b.data.t = .document ∨ b.data.t = .list ∨ b.data.t = .item := by rw [hbc]; exact hcp
  have hpar : c.data.t ≠ .paragraph := by rcases hcp with h | h | h <;> rw [h] <;> decide
  have hacc : acceptsLines b.data.t = false := by rcases hbp with h | h | h <;> rw [h] <;> rfl
  have haccc : acceptsLines c.data.t = false := by rw [← hbc]; exact hacc
  have hstart : b.data.t = .item → startLine b.data ≤ p.lineNumber := by
    intro hi
    rw [hbc] at hi ⊢
    have hmem : c ∈ p.spine := List.mem_reverse.1 (List.mem_of_getElem? hc)
    rcases hr.le c.data (by rw [PState.ds]; exact List.mem_map_of_mem hmem) with h | h
    · exact h
    · rw [hi] at h; cases h.1
  -- the line
  rw [incorporateLine_eq, replaceChar_nul, hnul]
  show ∃ p1, (contLoop (p.spine.reverse.drop 1) 1 (atStart p l) >>= afterCont l) = .ok p1 ∧ _
  rw [g1]
  show ∃ p1, afterCont l (.inr (n, q)) = .ok p1 ∧ _
  have hba : blockAt { q with allClosed := n == q.oldtip, lastMatched := n } n = some c.data := by
    show (q.spine.reverse[n - 1]?).map _ = _
    rw [qs, hc]; rfl
  simp only [afterCont, hba]
  rw [if_neg (by rw [haccc]; simp)]
  have hst := starts_onblank (p := { q with allClosed := n == q.oldtip, lastMatched := n }) c.data l.length g4 hpar
  rw [hst]
  have Qf := find_blank (p := { q with allClosed := n == q.oldtip, lastMatched := n }) g4
  generalize hQ : advanceNextNonspace (findNextNonspace { q with allClosed := n == q.oldtip, lastMatched := n }) = Q
  have Qs : Q.spine = p.spine := by rw [← hQ]; exact qs
  have Qm : Q.refmap = p.refmap := by rw [← hQ]; exact qm
  have Qn : Q.lineNumber = p.lineNumber + 1 := by rw [← hQ]; exact qn
  have Ql : Q.lastLineLength = p.lastLineLength := by rw [← hQ]; exact ql
  have Qo : Q.oldtip = p.spine.length := by rw [← hQ]; exact qo
  have QM : Q.lastMatched = n := by rw [← hQ]; rfl
  have Qa : Q.allClosed = (k == 0) := by
    rw [← hQ]; show (n == q.oldtip) = _
    rw [qo, ← hkn]
    by_cases h0 : k = 0
    · subst h0; simp
    · have e1 : (n == n + k) = false := by simp [h0]
      have e2 : (k == 0) = false := by simp [h0]
      rw [e1, e2]
  have Qb : Q.blank = true := by rw [← hQ]; exact Qf.1
  clear hQ hst Qf
  have hcl := closeUnmatched_closeN (n := k) (q := Q) (by rw [Qn, Nat.add_sub_cancel]; exact k5 Q Qs Qm Ql) (by rw [Qo, QM, hkn]) (by rw [Qs]; omega) Qa
  simp only [bind, Except.bind, addText]
  rw [if_neg (by rw [Qb]; simp), hcl]
  simp only [hS, Qb, if_true]
  have hfl : ∀ P : PState, P.blank = true → P.lineNumber = p.lineNumber + 1 → lineBlankFlag { b with children := markLastChild b.children } P = true := by
    intro P hP1 hP2
    unfold lineBlankFlag
    simp only [hP1, hP2, Bool.true_and]
    rcases hbp with h | h | h
    · simp [h]
    · simp [h]
    · have := hstart h
      cases hsp : b.data.sourcepos with
      | none => simp [h]
      | some sp =>
        have e : startLine b.data = sp.1.1 := by simp [startLine, hsp]
        rw [e] at this
        simp only [h, Option.map_some]
        have hne : (some sp.1.1 == some (p.lineNumber + 1)) = false := by
          simp; omega
        rw [hne]; simp
  simp only [hacc, Bool.false_eq_true, if_false, Bool.not_true, Bool.and_false]
  refine ⟨_, rfl, ?_, ?_, ?_⟩
  · rw [hzs, hS]
    have : ∀ f, f = true → ({ b with children := markLastChild b.children } :: up).map (fun x : OpenBlk => { x with data := { x.data with lastLineBlank := f } }) =
        blankSpine (b :: up) := by rintro _ rfl; rfl
    exact this _ (hfl _ rfl Qn)
  · exact hzm.symm
  · exact Qn

/-! ### Several blank lines -/

theorem closeN_ok {len : Nat} : ∀ (k n : Nat) {p r : PState}, finalizeAll len n p = .ok r → k < p.spine.length →
    ∃ z m, closeN len k p = .ok z ∧ finalizeAll len m z = .ok r
  | 0, n, p, r, h, _ => ⟨p, n, rfl, h⟩
  | k + 1, 0, p, r, h, _ => by cases h
  | k + 1, n + 1, p, r, h, hk => by
    have hne : p.spine ≠ [] := by intro h0; rw [h0] at hk; simp at hk
    rw [finalizeAll_cons hne] at h
    cases hf : finalizeTip len p with
    | error => rw [hf] at h; cases h
    | ok q =>
      rw [hf] at h
      have h : finalizeAll len n q = .ok r := h
      obtain ⟨a, par, up, hs⟩ : ∃ a par up, p.spine = a :: par :: up := by
        cases hs : p.spine with
        | nil => exact absurd hs hne
        | cons a r =>
          cases r with
          | nil => rw [hs] at hk; simp at hk
          | cons par up => exact ⟨a, par, up, rfl⟩
      obtain ⟨t, m, h1, h2⟩ := finalizeTip_inv hs hf
      obtain ⟨z, m, e1, e2⟩ := closeN_ok k n h (by rw [h2]; rw [hs] at hk; simpa using hk)
      exact ⟨z, m, by rw [closeN, hf]; exact e1, e2⟩

/-- All open blocks go on at a blank line. -/
def AllPass : List OpenBlk → Prop
  | [] => True
  | b :: r => (b.data.t = .item → b.children ≠ []) ∧ ∀ x ∈ b :: r, Passes x

theorem passes_depth : ∀ (bs : List OpenBlk) (d : Nat), (∀ x ∈ bs, Passes x) → (∀ b, bs.getLast? = some b → b.data.t = .item → b.children ≠ []) →
    blankDepth bs d = d + bs.length
  | [], d, _, _ => rfl
  | b :: bs, d, h1, h2 => by
    rw [blankDepth]
    have hc : b.data.t = .item → (!b.children.isEmpty || !bs.isEmpty) = true := by
      intro hi
      cases bs with
      | nil => have := h2 b rfl hi; simpa using this
      | cons => simp
    rw [if_pos]
    · rw [passes_depth bs (d + 1) (fun x hx => h1 x (by simp [hx])) ?_]
      · simp only [List.length_cons]; omega
      · intro x hx
        cases bs with
        | nil => cases hx
        | cons y ys => exact h2 x (by rw [List.getLast?_cons_cons]; exact hx)
    · rcases h1 b (by simp) with h | h | h
      · exact .inl h
      · exact .inr (.inl h)
      · exact .inr (.inr ⟨h, hc h⟩)

theorem allPass_depth {sp : List OpenBlk} (h : AllPass sp) (hn : sp ≠ []) : blankDepth (sp.reverse.drop 1) 1 = sp.length := by
  cases sp with
  | nil => exact absurd rfl hn
  | cons b r =>
    obtain ⟨h1, h2⟩ := h
    rw [passes_depth]
    · simp; omega
    · intro x hx
      exact h2 x (List.mem_reverse.1 (List.mem_of_mem_drop hx))
    · intro x hx
      have : (b :: r).reverse.getLast? = some x := by
        rw [List.getLast?_drop] at hx
        split at hx
        · cases hx
        · exact hx
      rw [List.getLast?_reverse] at this
      cases this
      exact h1

theorem blankSpine_idem (sp : List OpenBlk) : blankSpine (blankSpine sp) = blankSpine sp := by
  cases sp with
  | nil => rfl
  | cons b r =>
    simp only [blankSpine, List.map_cons, List.map_map, markLast_idem]
    rfl

theorem markLast_nil {cs : List Tree} (h : markLastChild cs = []) : cs = [] := by
  match cs, h with
  | [], _ => rfl
  | [.node d ks], h => exact absurd h (by simp [markLastChild])
  | t :: u :: r, h => exact absurd h (by simp [markLastChild])

theorem allPass_blank {sp : List OpenBlk} (h : AllPass sp) : AllPass (blankSpine sp) := by
  cases sp with
  | nil => trivial
  | cons b r =>
    obtain ⟨h1, h2⟩ := h
    refine ⟨fun hi hc => h1 hi (markLast_nil hc), ?_⟩
    intro x hx
    have hx : x ∈ ({ b with children := markLastChild b.children } :: r).map fun x : OpenBlk => { x with data := { x.data with lastLineBlank := true } } := hx
    obtain ⟨y, hy, rfl⟩ := List.mem_map.1 hx
    show Passes y
    rcases List.mem_cons.1 hy with rfl | hy
    · exact h2 b (by simp)
    · exact h2 y (by simp [hy])

theorem passes_kinds {x : OpenBlk} (h : Passes x) : x.data.t ≠ .codeBlock ∧ x.data.t ≠ .htmlBlock := by
  rcases h with h | h | h <;> rw [h] <;> decide

/-- More blank lines. -/
theorem more_blank : ∀ (ws : List Str) {p p' : PState} {sp : List OpenBlk}, Ready p → p.spine = blankSpine sp → AllPass sp → (∀ w ∈ ws, OnlySpTab w) →
    ws.foldlM incorporateLine p = .ok p' → p'.spine = p.spine ∧ p'.refmap = p.refmap ∧ p'.lineNumber = p.lineNumber + ws.length
  | [], p, p', sp, hr, hs, ha, hw, h => by cases h; exact ⟨rfl, rfl, rfl⟩
  | w :: ws, p, p', sp, hr, hs, ha, hw, h => by
    have hne : p.spine ≠ [] := fun h => hr.good.chain.ne_nil (by simp [PState.ds, h])
    have hap : AllPass p.spine := by rw [hs]; exact allPass_blank ha
    obtain ⟨p1, e1, e2, e3, e4⟩ := onblank_line (z := p) (k := 0) hr (fun b hb => by
      cases hsp : p.spine with
      | nil => exact absurd hsp hne
      | cons x r => rw [hsp] at hap hb; exact passes_kinds (hap.2 b hb)) (hw w (by simp)) rfl (by rw [allPass_depth hap hne]; rfl) rfl
    rw [List.foldlM_cons, e1] at h
    have h : ws.foldlM incorporateLine p1 = .ok p' := h
    obtain ⟨q, c, f1, _, _, f2⟩ := incorporateLine_ok hr w
    rw [e1] at f1
    cases f1
    have e2' : p1.spine = p.spine := by rw [e2, hs, blankSpine_idem]
    obtain ⟨g1, g2, g3⟩ := more_blank ws f2 (e2'.trans hs) ha (fun x hx => hw x (by simp [hx])) h
    refine ⟨g1.trans e2', g2.trans e3, ?_⟩
    rw [g3, e4, List.length_cons]; omega

/-! ### The lines of the blocks -/

/-- A block that begins and ends before line `N`. -/
def PosBefore (N : Nat) (d : NodeData) : Prop := ∀ a b, d.sourcepos = some (a, b) → a.1 < N ∧ b.1 < N

theorem posBefore_flagless (N : Nat) : Flagless fun d _ => PosBefore N d := fun d _ => Iff.rfl

theorem posBefore_norm {N : Nat} {cs cs' : List Tree} (h : normList cs = normList cs') (ha : ∀ t ∈ cs, All (PosBefore N) t) :
    ∀ t ∈ cs', All (PosBefore N) t := by
  rw [← everyNodeList_iff] at ha ⊢
  rw [← everyNodeList_norm (posBefore_flagless N)] at ha ⊢
  rw [← h]; exact ha

/-- The open block and all in it begins and ends before line `N`; open blocks have no end yet. -/
def BlkBefore (N : Nat) (b : OpenBlk) : Prop := PosBefore N b.data ∧ ∀ t ∈ b.children, All (PosBefore N) t

mutual
theorem posBefore_mono {N M : Nat} (h : N ≤ M) : ∀ t : Tree, All (PosBefore N) t → All (PosBefore M) t
  | .node d cs => by
    intro ht
    have ih := posBefore_monoL h cs
    exact everyNode_iff.2 ⟨fun a b hs => ⟨Nat.lt_of_lt_of_le ((everyNode_iff.1 ht).1 a b hs).1 h, Nat.lt_of_lt_of_le ((everyNode_iff.1 ht).1 a b hs).2 h⟩,
      ih (everyNode_iff.1 ht).2⟩
theorem posBefore_monoL {N M : Nat} (h : N ≤ M) : ∀ ts : List Tree, (∀ t ∈ ts, All (PosBefore N) t) → ∀ t ∈ ts, All (PosBefore M) t
  | [] => fun _ => nofun
  | t :: ts => by
    intro ht u hu
    have i1 := posBefore_mono h t
    have i2 := posBefore_monoL h ts
    rcases List.mem_cons.1 hu with rfl | hu
    · exact i1 (ht u (by simp))
    · exact i2 (fun x hx => ht x (by simp [hx])) u hu
end

theorem BlkBefore.mono {N M : Nat} (h : N ≤ M) {b : OpenBlk} (hb : BlkBefore N b) : BlkBefore M b :=
  ⟨fun x y hs => ⟨Nat.lt_of_lt_of_le (hb.1 x y hs).1 h, Nat.lt_of_lt_of_le (hb.1 x y hs).2 h⟩, fun t ht => posBefore_mono h t (hb.2 t ht)⟩

theorem blk_close {N l len : Nat} {b par : OpenBlk} {up : List OpenBlk} {m m' : RefMap} {t : Option Tree} (h : ∀ x ∈ b :: par :: up, BlkBefore N x)
    (hl : l < N) (hf : finalizeBlock (closeData l len b.data) b.children m = .ok (t, m')) :
    ∀ x ∈ ({ par with children := par.children ++ t.toList } : OpenBlk) :: up, BlkBefore N x := by
  intro x hx
  rcases List.mem_cons.1 hx with rfl | hx
  · refine ⟨(h par (by simp)).1, ?_⟩
    intro u hu
    rcases List.mem_append.1 hu with hu | hu
    · exact (h par (by simp)).2 u hu
    · cases t with
      | none => simp at hu
      | some t =>
        simp only [Option.toList_some, List.mem_singleton] at hu
        subst hu
        obtain ⟨s1, s2⟩ := finalize_sig hf
        have s3 := finalize_pos hf
        obtain ⟨d, cs⟩ := u
        refine everyNode_iff.2 ⟨?_, posBefore_norm s2.symm (h b (by simp)).2⟩
        intro a e hs
        have s3 : d.sourcepos = b.data.sourcepos.map fun sp => (sp.1, (l, len)) := s3
        rw [hs] at s3
        cases hbs : b.data.sourcepos with
        | none => rw [hbs] at s3; cases s3
        | some sp =>
          rw [hbs] at s3
          simp only [Option.map_some, Option.some.injEq, Prod.mk.injEq] at s3
          rw [s3.1, s3.2]
          exact ⟨((h b (by simp)).1 sp.1 sp.2 hbs).1, hl⟩
  · exact h x (by simp [hx])

theorem blk_flags {N : Nat} {b : OpenBlk} {r : List OpenBlk} (blank flag : Bool) (h : ∀ x ∈ b :: r, BlkBefore N x) :
    ∀ x ∈ flagSpine blank flag b r, BlkBefore N x := by
  intro y hy
  simp only [flagSpine] at hy
  obtain ⟨z, hz, rfl⟩ := List.mem_map.1 hy
  rcases List.mem_cons.1 hz with rfl | hz
  · cases blank with
    | false => exact ⟨(h b (by simp)).1, (h b (by simp)).2⟩
    | true => exact ⟨(h b (by simp)).1, posBefore_norm (norm_markLast b.children).symm (h b (by simp)).2⟩
  · exact ⟨(h z (by simp [hz])).1, (h z (by simp [hz])).2⟩

theorem newBlock_pos {c : Core} {d : NodeData} (h : NewBlock c d) : ∃ col, d.sourcepos = some ((c.line, col), (0, 0)) := by
  cases h <;> exact ⟨_, rfl⟩

theorem blk_new {N l col : Nat} {d : NodeData} (hd : d.sourcepos = some ((l, col), (0, 0))) (hl : l < N) : BlkBefore N ⟨d, []⟩ := by
  refine ⟨?_, by simp⟩
  intro a b hs
  have hs : d.sourcepos = some (a, b) := hs
  rw [hd] at hs
  cases hs
  exact ⟨hl, by simp only; omega⟩

theorem step_blk {N : Nat} {c c' : Core} (hN : c.line < N) (h : ∀ x ∈ c.spine, BlkBefore N x) (hs : Step c c') : ∀ x ∈ c'.spine, BlkBefore N x := by
  have new : ∀ (d : NodeData) (r : List OpenBlk), BlkBefore N ⟨d, []⟩ → (∀ x ∈ r, BlkBefore N x) → ∀ x ∈ (⟨d, []⟩ : OpenBlk) :: r, BlkBefore N x := by
    intro d r hd hr x hx
    rcases List.mem_cons.1 hx with rfl | hx
    · exact hd
    · exact hr x hx
  have swap : ∀ (d : NodeData) (b : OpenBlk) (r : List OpenBlk), d.sourcepos = b.data.sourcepos → (∀ x ∈ b :: r, BlkBefore N x) →
      ∀ x ∈ ({ b with data := d } : OpenBlk) :: r, BlkBefore N x := by
    intro d b r h2 hr x hx
    rcases List.mem_cons.1 hx with rfl | hx
    · refine ⟨?_, (hr b (by simp)).2⟩
      intro x y hs
      exact (hr b (by simp)).1 x y (by rw [← h2]; exact hs)
    · exact hr x (by simp [hx])
  cases hs with
  | @close l b par up t m e1 e2 e3 e4 =>
    rw [e1] at h
    exact blk_close h (by omega) e4
  | push e1 e2 e3 =>
    obtain ⟨col, e⟩ := newBlock_pos e3
    exact new _ _ (blk_new e hN) h
  | paragraph => exact new _ _ (blk_new rfl hN) h
  | pushItem => exact new _ _ (blk_new rfl hN) h
  | pushList => exact new _ _ (blk_new rfl hN) (new _ _ (blk_new rfl hN) h)
  | @addLine b r x k off e1 e2 e3 => rw [e1] at h; exact swap _ b r rfl h
  | @flags b r blank flag e1 => rw [e1] at h; exact blk_flags blank flag h
  | @refs b r x m has e1 e2 e3 e4 => rw [e1] at h; exact swap _ b r rfl h
  | @setext b r x x' m has lvl e1 e2 e3 e4 e5 e6 e7 e8 =>
    rw [e1] at h
    refine new _ _ ⟨?_, by simp⟩ fun y hy => h y (by simp [hy])
    exact (h b (by simp)).1

theorem steps_blk {N : Nat} {c c' : Core} (hN : c.line < N) (h : ∀ x ∈ c.spine, BlkBefore N x) (hs : Steps c c') : ∀ x ∈ c'.spine, BlkBefore N x := by
  induction hs with
  | refl => exact h
  | tail hs hstep ih => exact step_blk (by rw [(steps_core_line hs).1]; exact hN) ih hstep

theorem reaches_blk {ls : List Str} {c : Core} (h : Reaches ls c) : ∀ x ∈ c.spine, BlkBefore (max 2 (c.line + 1)) x := by
  induction h with
  | nil =>
    intro x hx
    simp only [startCore, List.mem_singleton] at hx
    subst hx
    exact blk_new (d := docNode) rfl (by omega)
  | @line ls c c' ln hr hs ih =>
    have e := (lineSteps_core_line hs).1
    show ∀ x ∈ c'.spine, BlkBefore (max 2 (c'.line + 1)) x
    rw [e]
    have h0 : ∀ x ∈ (nextLine c ln).spine, BlkBefore (max 2 ((nextLine c ln).line + 1)) x := fun x hx =>
      (ih x hx).mono (by show max 2 (c.line + 1) ≤ max 2 (c.line + 1 + 1); omega)
    cases hs with
    | steps hs => exact steps_blk (by omega) h0 hs
    | final hs hf =>
      have h1 := steps_blk (by omega) h0 hs
      have hl := (steps_core_line hs).1
      cases hf with
      | close f1 f2 f3 f4 =>
        rw [f1] at h1
        exact blk_close h1 (by omega) f4

theorem closeN_blk {N len : Nat} (hl : len < N) : ∀ (k : Nat) {p z : PState}, (∀ x ∈ p.spine, BlkBefore N x) → k < p.spine.length → closeN len k p = .ok z →
    ∀ x ∈ z.spine, BlkBefore N x
  | 0, p, z, h, _, hz => by cases hz; exact h
  | k + 1, p, z, h, hk, hz => by
    rw [closeN] at hz
    cases hf : finalizeTip len p with
    | error => rw [hf] at hz; cases hz
    | ok q =>
      rw [hf] at hz
      have hz : closeN len k q = .ok z := hz
      obtain ⟨a, par, up, hs⟩ : ∃ a par up, p.spine = a :: par :: up := by
        cases hs : p.spine with
        | nil => rw [hs] at hk; simp at hk
        | cons a r =>
          cases r with
          | nil => rw [hs] at hk; simp at hk
          | cons par up => exact ⟨a, par, up, rfl⟩
      obtain ⟨t, m, h1, h2⟩ := finalizeTip_inv hs hf
      rw [hs] at h
      refine closeN_blk hl k (p := q) ?_ (by rw [h2]; rw [hs] at hk; simpa using hk) hz
      rw [h2]
      exact blk_close h hl h1

theorem blankSpine_blk {N : Nat} {sp : List OpenBlk} (h : ∀ x ∈ sp, BlkBefore N x) : ∀ x ∈ blankSpine sp, BlkBefore N x := by
  cases sp with
  | nil => simp [blankSpine]
  | cons b r => exact blk_flags true true h

/-! ### The rest of the text -/

def pushPos (k n : Nat) (sp : Pos) : Pos := ((later k n sp.1.1, 0), (later k n sp.2.1, 0))

/-- The second run has `N` more lines before line `K`. -/
def gapSim (β : NodeData) (K N : Nat) : Sim where
  β := β
  o := []
  A := []
  N := N
  φ := pushPos K N
  ψ := dropCols
  flag := fun _ _ => True
  kid := False
  K := K

theorem later_ge {k n l : Nat} (h : k ≤ l) : later k n l = l + n := if_neg (by omega)

theorem later_inj {k n a b : Nat} (h : later k n a = later k n b) : a = b := by
  unfold later at h
  split at h <;> split at h <;> omega

theorem gapSim_ok {β : NodeData} {K N : Nat} (h : β.t = .document) (hK : 1 ≤ K) : (gapSim β K N).Ok where
  doc := .inl h
  new := by
    intro l c c' hl
    simp only [gapSim] at hl
    have e : later K N 0 = 0 := if_pos hK
    simp [gapSim, pushPos, dropCols, later_ge (Nat.le_of_lt hl), e]
  close := by
    intro x y l c c' hl h
    simp only [gapSim, pushPos, dropCols, Prod.mk.injEq, and_true] at h hl ⊢
    exact ⟨h.1, later_ge hl⟩
  start := by
    intro x y l hl h
    simp only [gapSim, pushPos, dropCols, Prod.mk.injEq, and_true] at h hl ⊢
    rw [← h.1, ← later_ge (n := N) (Nat.le_of_lt hl)]
    exact ⟨fun h => by rw [h], later_inj⟩
  mark := .inr rfl
  flag := fun _ _ _ _ => trivial
  ref := refKeeps_id

theorem er_before {K N : Nat} {d : NodeData} (h : PosBefore K d) : er (pushPos K N) d = er dropCols d := by
  unfold er
  cases hs : d.sourcepos with
  | none => rfl
  | some sp =>
    obtain ⟨a, b⟩ := sp
    obtain ⟨h1, h2⟩ := h a b hs
    simp only [Option.map_some, pushPos, dropCols, later, if_pos h1, if_pos h2]

mutual
theorem erT_before {K N : Nat} : ∀ t : Tree, All (PosBefore K) t → erT (pushPos K N) t = erT dropCols t
  | .node d cs => by
    intro h
    have ih := erL_before (K := K) (N := N) cs
    obtain ⟨h1, h2⟩ := everyNode_iff.1 h
    rw [erT, erT, er_before h1, ih h2]
theorem erL_before {K N : Nat} : ∀ ts : List Tree, (∀ t ∈ ts, All (PosBefore K) t) → erL (pushPos K N) ts = erL dropCols ts
  | [] => fun _ => rfl
  | t :: ts => by
    intro h
    have i1 := erT_before (K := K) (N := N) t
    have i2 := erL_before (K := K) (N := N) ts
    rw [erL, erL, i1 (h t (by simp)), i2 fun x hx => h x (by simp [hx])]
end

theorem spine_gap {β : NodeData} {K N : Nat} : ∀ (P : List OpenBlk) {b : OpenBlk}, b.data.t = .document → { b.data with lastLineBlank := false } = β →
    (∀ x ∈ P ++ [b], ∀ t ∈ x.children, All (PosBefore K) t) → (∀ x ∈ P, PosBefore K x.data) → SpineRel (gapSim β K N) (P ++ [b]) (P ++ [b])
  | [], b, h, hb, h1, _ => .base (cs := b.children) h (erL_before _ (h1 b (by simp))) rfl hb rfl (fun _ _ => trivial)
  | x :: P, b, h, hb, h1, h2 => by
    refine .cons ?_ (spine_gap P h hb (fun y hy => h1 y (by simp at hy ⊢; exact .inr hy)) fun y hy => h2 y (by simp [hy]))
    show erase (pushPos K N) x = erase dropCols x
    unfold erase
    rw [er_before (h2 x (by simp)), erL_before _ (h1 x (by simp))]

/-- The same open blocks, `N` lines further down. -/
theorem gap_rest {p q : PState} {N : Nat} (h1 : q.spine = p.spine) (h2 : q.refmap = p.refmap) (h3 : q.lineNumber = p.lineNumber + N) (hr : Ready p)
    (hK : 1 ≤ p.lineNumber) (hb1 : ∀ x ∈ p.spine, ∀ t ∈ x.children, All (PosBefore p.lineNumber) t)
    (hb2 : ∀ x ∈ p.spine, x.data.t ≠ .document → PosBefore p.lineNumber x.data) (bs : List Str) (len : Nat) (hlen : p.lineNumber ≤ len) :
    ERel (fun p' q' => q'.refmap = p'.refmap ∧ ∃ d d' cs cs', p'.doc = some (.node d cs) ∧ q'.doc = some (.node d' cs') ∧ d.t = .document ∧
        d'.t = .document ∧ erL (pushPos p.lineNumber N) cs = erL dropCols cs')
      (bs.foldlM incorporateLine p >>= fun p => finalizeAll len (p.spine.length + 1) p)
      (bs.foldlM incorporateLine q >>= fun p => finalizeAll (len + N) (p.spine.length + 1) p) := by
  obtain ⟨d, hd1, hd2⟩ := hr.good.chain.last_doc
  obtain ⟨A, b, hA⟩ : ∃ A b, p.spine = A ++ [b] := by
    rcases List.eq_nil_or_concat p.spine with h0 | ⟨A, b, h0⟩
    · rw [PState.ds, h0] at hd1; simp at hd1
    · exact ⟨A, b, by simpa using h0⟩
  have hb : b.data.t = .document := by
    rw [PState.ds, hA] at hd1
    simp at hd1
    rw [hd1]; exact hd2
  have hAk : ∀ x ∈ A, x.data.t ≠ .document := by
    have hch := hr.good.chain
    rw [PState.ds, hA] at hch
    have : ∀ (A : List OpenBlk), Chain ((A ++ [b]).map (·.data)) → ∀ x ∈ A, x.data.t ≠ .document := by
      intro A
      induction A with
      | nil => simp
      | cons a A ih =>
        intro hc x hx
        rw [List.cons_append, List.map_cons] at hc
        generalize hg : (A ++ [b]).map (·.data) = ds at hc ih
        cases hc with
        | doc _ => simp at hg
        | cons _ g2 _ g4 =>
          rcases List.mem_cons.1 hx with rfl | hx
          · exact g2
          · exact ih g4 x hx
    exact this A hch
  generalize hβ : { b.data with lastLineBlank := false } = β
  have hβt : β.t = .document := by rw [← hβ]; exact hb
  generalize hKK : p.lineNumber = K at *
  have hX := gapSim_ok (N := N) hβt hK
  have hsp : Sp (gapSim β K N) p (q.stale p.allClosed p.oldtip p.lastMatched) := by
    refine ⟨?_, h2, by rw [hKK]; exact h3, fun _ => rfl, fun _ => rfl, rfl, Nat.le_of_eq hKK.symm⟩
    show SpineRel _ p.spine q.spine
    rw [h1, hA]
    rw [hA] at hb1 hb2
    exact spine_gap A hb hβ hb1 fun x hx => hb2 x (by simp [hx]) (hAk x hx)
  have hst : Stale (q.stale p.allClosed p.oldtip p.lastMatched) q := ⟨q.allClosed, q.oldtip, q.lastMatched, rfl⟩
  intro z hz
  cases hf : bs.foldlM incorporateLine p with
  | error => rw [hf] at hz; cases hz
  | ok p2 =>
    rw [hf] at hz
    have hz : finalizeAll len (p2.spine.length + 1) p2 = .ok z := hz
    obtain ⟨q2, k3, k4⟩ := same_lines hX rfl id bs hsp p2 hf
    obtain ⟨q3, k5, k6⟩ := lines_stale bs hst q2 k3
    obtain ⟨a, o, m, rfl⟩ := k6
    have hlen2 : q2.spine.length = p2.spine.length := by rw [k4.spine.length]; rfl
    obtain ⟨r, k7, k8, d2, d3, cs2, cs, k9, k10, k11, k12, k13⟩ := finalizeAll_same hX hβt rfl len hlen _ k4 z hz
    obtain ⟨r', l1, l2⟩ := finalizeAll_stale (len + N) _ ⟨a, o, m, rfl⟩ r k7
    obtain ⟨a', o', m', rfl⟩ := l2
    rw [k5]
    refine ⟨r.stale a' o' m', ?_, k8, d2, d3, cs2, cs, k9, k10, k11, k12, k13⟩
    show finalizeAll (len + N) ((q2.stale a o m).spine.length + 1) (q2.stale a o m) = _
    rw [← l1]
    show finalizeAll (len + N) (q2.spine.length + 1) _ = _
    rw [hlen2]

/-! ### The whole text -/

/-- Both documents, from their blocks. -/
theorem parse_rel {smart : Bool} {s s' : Str} {r r' : PState} {φ ψ : Pos → Pos} {d d' : NodeData} {cs cs' : List Tree} (i1 : blockPhase PState.init s = .ok r)
    (i2 : blockPhase PState.init s' = .ok r') (hm : r'.refmap = r.refmap) (k3 : r.doc = some (.node d cs)) (k4 : r'.doc = some (.node d' cs'))
    (k5 : d.t = .document) (k6 : d'.t = .document) (k7 : erL φ cs = erL ψ cs') :
    (∃ e, parse smart s = .error e ∧ parse smart s' = .error e) ∨
    ∃ xs ys, parse smart s = .ok (.node d xs) ∧ parse smart s' = .ok (.node d' ys) ∧ erL φ xs = erL ψ ys := by
  have hr := inlines_rel smart r.refmap k7
  rw [parse_blocks i1 k3, parse_blocks i2 k4, hm]
  simp only [processInlines, k5, k6, bind, Except.bind]
  cases g1 : processInlinesList smart r.refmap cs with
  | error x =>
    rw [g1] at hr
    cases g2 : processInlinesList smart r.refmap cs' with
    | error y => rw [g2] at hr; cases hr; exact .inl ⟨x, rfl, rfl⟩
    | ok => rw [g2] at hr; cases hr
  | ok x =>
    rw [g1] at hr
    cases g2 : processInlinesList smart r.refmap cs' with
    | error y => rw [g2] at hr; cases hr
    | ok y =>
      rw [g2] at hr
      simp only [Except.map, Except.ok.injEq] at hr
      exact .inr ⟨x, y, rfl, rfl, hr.symm⟩

mutual
theorem erT_pushed (k n : Nat) : ∀ t : Tree, erT (pushPos k n) t = noColsT (pushedT k n t)
  | .node d cs => by
    have ih := erL_pushed k n cs
    rw [erT, pushedT, noColsT, ih]
    congr 1
    unfold er noCols pushed
    cases d.sourcepos <;> rfl
theorem erL_pushed (k n : Nat) : ∀ ts : List Tree, erL (pushPos k n) ts = noColsL (pushedL k n ts)
  | [] => rfl
  | t :: ts => by
    have i1 := erT_pushed k n t
    have i2 := erL_pushed k n ts
    rw [erL, pushedL, noColsL, i1, i2]
end

/-! ### The last block of the tree -/

theorem lastKind_norm {k : Kind} {t : Tree} (h : LastKind k t) : ∀ {t' : Tree}, normTree t' = normTree t → LastKind k t' := by
  induction h with
  | @here d cs h1 h2 =>
    rintro ⟨d', cs'⟩ hn
    simp only [normTree, Tree.node.injEq] at hn
    have e : d'.t = d.t := (congrArg NodeData.t hn.1 : (normData d').t = (normData d).t)
    refine .here (e.trans h1) (h2.imp_left fun h => ?_)
    have := hn.2
    rw [h, normList_eq_map, normList_eq_map] at this
    simpa using this
  | @inside d cs t h1 h2 h3 ih =>
    rintro ⟨d', cs'⟩ hn
    simp only [normTree, Tree.node.injEq] at hn
    have e : d'.t = d.t := (congrArg NodeData.t hn.1 : (normData d').t = (normData d).t)
    have hl : (normList cs').getLast? = (normList cs).getLast? := by rw [hn.2]
    rw [normList_eq_map, normList_eq_map, List.getLast?_map, List.getLast?_map, h2] at hl
    obtain ⟨t', e1, e2⟩ := Option.map_eq_some_iff.1 hl
    exact .inside (by rw [e]; exact h1) e1 (ih e2)

theorem built_last {len k : Nat} {bs : List OpenBlk} {t : Option Tree} (h : Built len k bs t)
    (hk : ∀ b ∈ bs.dropLast, b.data.t ∈ [Kind.document, .blockQuote, .list, .item]) {b : OpenBlk} (hb : bs.getLast? = some b) (hp : b.data.t ≠ .paragraph)
    (hc : b.children = [] ∨ b.data.t ∉ [Kind.document, .blockQuote, .list, .item]) : ∃ u, t = some u ∧ LastKind b.data.t u := by
  induction h with
  | @tip x t m m' hf =>
    simp only [List.getLast?_singleton, Option.some.injEq] at hb
    subst hb
    obtain ⟨⟨d, ks⟩, rfl, e2⟩ := finalizeBlock_kind hf hp
    obtain ⟨s1, s2⟩ := finalize_sig hf
    refine ⟨_, rfl, .here e2 (hc.imp_left fun h => ?_)⟩
    have s2 : normList ks = normList x.children := s2
    rw [h, normList_eq_map, normList_eq_map] at s2
    simpa using s2
  | @cons x c cs t u m m' hbd hf ih =>
    rw [List.getLast?_cons_cons] at hb
    obtain ⟨v, rfl, hv⟩ := ih (fun y hy => hk y (by rw [List.dropLast_cons_cons]; exact List.mem_cons_of_mem _ hy)) hb
    have hx := hk x (by rw [List.dropLast_cons_cons]; simp)
    have hxp : x.data.t ≠ .paragraph := by intro h; rw [h] at hx; revert hx; decide
    obtain ⟨⟨d, ks⟩, rfl, e2⟩ := finalizeBlock_kind hf hxp
    obtain ⟨s1, s2⟩ := finalize_sig hf
    have s2 : normList ks = normList (x.children ++ (some v).toList) := s2
    have hl : (normList ks).getLast? = some (normTree v) := by
      rw [s2, normList_eq_map, List.map_append, Option.toList_some, List.map_singleton, List.getLast?_concat]
    rw [normList_eq_map, List.getLast?_map] at hl
    obtain ⟨v', e3, e4⟩ := Option.map_eq_some_iff.1 hl
    have e2 : d.t = x.data.t := e2
    exact ⟨_, rfl, .inside (by rw [e2]; exact hx) e3 (lastKind_norm hv e4)⟩

theorem inlinesList_getLast {smart : Bool} {m : RefMap} {ts ts' : List Tree} (h : processInlinesList smart m ts = .ok ts') {t : Tree} (ht : ts.getLast? = some t) :
    ∃ t', ts'.getLast? = some t' ∧ processInlines smart m t = .ok t' := by
  obtain ⟨a, rfl⟩ : ∃ a, ts = a ++ [t] := by
    rcases List.eq_nil_or_concat ts with h0 | ⟨A, b, h0⟩
    · rw [h0] at ht; cases ht
    · have h0 : ts = A ++ [b] := by simpa using h0
      rw [h0, List.getLast?_concat] at ht
      cases ht
      exact ⟨A, h0⟩
  rw [inlines_append] at h
  cases h1 : processInlinesList smart m a with
  | error => rw [h1] at h; cases h
  | ok x =>
    rw [h1] at h
    simp only [Except.bind, processInlinesList] at h
    cases h2 : processInlines smart m t with
    | error => rw [h2] at h; cases h
    | ok u =>
      rw [h2] at h
      simp only [bind, Except.bind, pure, Except.pure, Except.map, Except.ok.injEq] at h
      exact ⟨u, by rw [← h, List.getLast?_concat], rfl⟩

theorem lastKind_inlines {smart : Bool} {m : RefMap} {k : Kind} {u : Tree} (h : LastKind k u) : ∀ {t : Tree}, processInlines smart m u = .ok t → LastKind k t := by
  induction h with
  | @here d cs h1 h2 =>
    intro t hu
    simp only [processInlines, bind, Except.bind] at hu
    cases hc : processInlinesList smart m cs with
    | error => rw [hc] at hu; cases hu
    | ok cs' =>
      rw [hc] at hu
      simp only at hu
      split at hu
      · rename_i hk
        have : k ∉ [Kind.document, .blockQuote, .list, .item] := by
          rw [h1] at hk
          simp only [Bool.or_eq_true, beq_iff_eq] at hk
          rcases hk with rfl | rfl <;> decide
        split at hu
        · cases hu
        · split at hu
          · cases hu
          · cases hu; exact .here h1 (.inr this)
      · cases hu
        refine .here h1 (h2.imp_left ?_)
        rintro rfl
        cases hc; rfl
  | @inside d cs t h1 h2 h3 ih =>
    intro t hu
    simp only [processInlines, bind, Except.bind] at hu
    cases hc : processInlinesList smart m cs with
    | error => rw [hc] at hu; cases hu
    | ok cs' =>
      rw [hc] at hu
      simp only at hu
      split at hu
      · rename_i hk
        exfalso
        simp only [Bool.or_eq_true, beq_iff_eq] at hk
        rcases hk with hk | hk <;> rw [hk] at h1 <;> revert h1 <;> decide
      · cases hu
        obtain ⟨v, hv1, hv2⟩ := inlinesList_getLast hc h2
        exact .inside h1 hv1 (ih hv2)

theorem chain_containers {d : NodeData} {ds : List NodeData} (h : Chain (d :: ds)) : ∀ e ∈ ds, e.t ∈ [Kind.document, .blockQuote, .list, .item] := by
  induction ds generalizing d with
  | nil => simp
  | cons e ds ih =>
    intro f hf
    cases h with
    | cons h1 h2 h3 h4 =>
      rcases List.mem_cons.1 hf with rfl | hf
      · cases hk : f.t <;> simp [canContain, hk] at h1 ⊢
      · exact ih h4 f hf

/-- The blocks a blank line leaves open. -/
theorem closed_passes {p z : PState} {n k : Nat} (hr : Ready p) (hn : n = blankDepth (p.spine.reverse.drop 1) 1) (hkn : n + k = p.spine.length)
    (hz : closeN p.lineNumber k p = .ok z) : ∀ x ∈ z.spine, Passes x := by
  have hn1 : 1 ≤ n := by rw [hn]; exact (blankDepth_le _ _).1
  obtain ⟨S, m, k1, k2, k3, k4, k5⟩ := closeN_run k hz (by omega)
  have hzs : z.spine = S := by rw [k1]
  have hdat : S.map (·.data) = (p.spine.drop k).map (·.data) := by
    cases S with
    | nil => simp at k2; omega
    | cons b up =>
      cases hd : p.spine.drop k with
      | nil => rw [hd] at k4; cases k4
      | cons c r =>
        rw [hd] at k3 k4
        simp only [List.head?_cons, Option.map_some, Option.some.injEq] at k4
        simp only [List.drop_succ_cons, List.drop_zero] at k3
        rw [List.map_cons, List.map_cons, k4, k3]
  have hpass : ∀ x ∈ p.spine.drop k, Passes x := by
    intro x hx
    obtain ⟨d, hd1, hd2⟩ := hr.good.chain.last_doc
    rw [PState.ds, List.getLast?_map, Option.map_eq_some_iff] at hd1
    obtain ⟨y, hy1, rfl⟩ := hd1
    rw [← List.head?_reverse] at hy1
    have hx : x ∈ p.spine.reverse.take n := by
      rw [List.take_reverse, List.mem_reverse]
      rw [show p.spine.length - n = k by omega]; exact hx
    cases hrv : p.spine.reverse with
    | nil => rw [hrv] at hy1; cases hy1
    | cons a r =>
      rw [hrv] at hy1 hx hn
      cases hy1
      obtain ⟨m, rfl⟩ : ∃ m, n = m + 1 := ⟨n - 1, by omega⟩
      rw [List.take_succ_cons] at hx
      rcases List.mem_cons.1 hx with rfl | hx
      · exact .inl hd2
      · have hn : m + 1 = blankDepth r 1 := hn
        refine blankDepth_take r 1 x ?_
        rw [← hn]; exact hx
  rw [hzs]
  intro x hx
  have : x.data ∈ (p.spine.drop k).map (·.data) := by rw [← hdat]; exact List.mem_map_of_mem hx
  obtain ⟨y, hy, e⟩ := List.mem_map.1 this
  have := hpass y hy
  unfold Passes at this ⊢
  rw [← e]; exact this

/-- The open blocks of a text whose last block is neither code nor HTML. -/
theorem last_of_parse {smart : Bool} {s : Str} {as : List Str} {t : Tree} {p : PState} (hs : TextLines s as) (ht : parse smart s = .ok t)
    (hp : as.foldlM incorporateLine PState.init.reset = .ok p) (h1 : ¬ LastKind .codeBlock t) (h2 : ¬ LastKind .htmlBlock t) :
    Ready p ∧ p.lineNumber = as.length ∧ (∀ b ∈ p.spine, b.data.t ≠ .codeBlock ∧ b.data.t ≠ .htmlBlock) ∧
    ∃ k z, blankDepth (p.spine.reverse.drop 1) 1 + k = p.spine.length ∧ closeN p.lineNumber k p = .ok z ∧
      (¬ LastKind .item t → AllPass z.spine) := by
  obtain ⟨q, f1, f2, f3⟩ := lines_ok as [] PState.init.reset (ready_reset PState.init).1 (ready_reset PState.init).2
  rw [hp] at f1
  cases f1
  rw [List.nil_append] at f3
  obtain ⟨r1, c1, c2, b1, i1, _, _, _, hb1, _, _, i2, _⟩ := blockPhase_ok PState.init s
  have j1 := i1
  unfold blockPhase at j1
  simp only [inputLines_of hs] at j1
  rw [hp] at j1
  have j1 : finalizeAll as.length (p.spine.length + 1) p = .ok r1 := j1
  rw [parse_blocks i1 i2] at ht
  have hln : p.lineNumber = as.length := f3.line_eq
  have hne : p.spine ≠ [] := fun h => f2.good.chain.ne_nil (by simp [PState.ds, h])
  -- the last block of the tree
  have key : ∀ (z : PState) (m : Nat) (x : OpenBlk) (up : List OpenBlk), z.spine = x :: up → Chain (z.spine.map (·.data)) → finalizeAll as.length m z = .ok r1 →
      x.data.t ≠ .paragraph → (x.children = [] ∨ x.data.t ∉ [Kind.document, .blockQuote, .list, .item]) → LastKind x.data.t t := by
    intro z m x up hzs hch hz hxp hxc
    have hbt := finalizeAll_built _ hzs hz
    rw [i2] at hbt
    have hcont : ∀ b ∈ z.spine.reverse.dropLast, b.data.t ∈ [Kind.document, .blockQuote, .list, .item] := by
      rw [hzs, List.reverse_cons, List.dropLast_concat]
      intro y hy
      rw [hzs, List.map_cons] at hch
      exact chain_containers hch y.data (List.mem_map_of_mem (List.mem_reverse.1 hy))
    obtain ⟨u, e1, e2⟩ := built_last hbt hcont (b := x) (by rw [List.getLast?_reverse, hzs]; rfl) hxp hxc
    cases e1
    exact lastKind_inlines e2 ht
  have hkinds : ∀ b ∈ p.spine, b.data.t ≠ .codeBlock ∧ b.data.t ≠ .htmlBlock := by
    cases hsp : p.spine with
    | nil => exact absurd hsp hne
    | cons x up =>
      intro b hb
      have hch := f2.good.chain
      rcases List.mem_cons.1 hb with rfl | hb
      · constructor
        · intro h0
          have := key p _ b up hsp hch j1 (by rw [h0]; decide) (.inr (by rw [h0]; decide))
          rw [h0] at this
          exact h1 this
        · intro h0
          have := key p _ b up hsp hch j1 (by rw [h0]; decide) (.inr (by rw [h0]; decide))
          rw [h0] at this
          exact h2 this
      · rw [PState.ds, hsp, List.map_cons] at hch
        have := chain_containers hch b.data (List.mem_map_of_mem hb)
        constructor <;> intro h0 <;> rw [h0] at this <;> revert this <;> decide
  obtain ⟨k, hk⟩ : ∃ k, blankDepth (p.spine.reverse.drop 1) 1 + k = p.spine.length := by
    have := (blankDepth_le (p.spine.reverse.drop 1) 1).2
    have hl : (p.spine.reverse.drop 1).length + 1 = p.spine.length := by
      rw [List.length_drop, List.length_reverse]
      have : 0 < p.spine.length := List.length_pos_iff.2 hne
      omega
    exact ⟨p.spine.length - blankDepth (p.spine.reverse.drop 1) 1, by omega⟩
  have hk1 := (blankDepth_le (p.spine.reverse.drop 1) 1).1
  obtain ⟨z, m, e1, e2⟩ := closeN_ok (len := as.length) k _ j1 (by omega)
  rw [← hln] at e1
  refine ⟨f2, hln, hkinds, k, z, hk, e1, ?_⟩
  intro h3
  have hpass := closed_passes f2 rfl hk e1
  cases hzs : z.spine with
  | nil => trivial
  | cons x up =>
    rw [hzs] at hpass
    refine ⟨?_, hpass⟩
    intro hi hc
    have hch : Chain (z.spine.map (·.data)) := by
      obtain ⟨S, m, k1, k2, k3, k4, k5⟩ := closeN_run k e1 (by omega)
      have hzS : z.spine = S := by rw [k1]
      have hdat : S.map (·.data) = (p.spine.drop k).map (·.data) := by
        rw [← hzS, hzs] at k3 k4 ⊢
        cases hd : p.spine.drop k with
        | nil => rw [hd] at k4; cases k4
        | cons c r =>
          rw [hd] at k3 k4
          simp only [List.head?_cons, Option.map_some, Option.some.injEq] at k4
          simp only [List.drop_succ_cons, List.drop_zero] at k3
          rw [List.map_cons, List.map_cons, k4, k3]
      rw [hzS, hdat, List.map_drop]
      exact (f2.good.drop k (by rw [PState.ds, List.length_map]; omega)).chain
    have := key z m x up hzs hch e2 (by rw [hi]; decide) (.inl hc)
    rw [hi] at this
    exact h3 this

/-- One blank line for another. -/
theorem blank_swap {smart : Bool} {sa s s' : Str} {as bs : List Str} {l l' : Str} {t : Tree} (ha : TextLines sa as)
    (hs : TextLines s (as ++ l :: bs)) (hs' : TextLines s' (as ++ l' :: bs)) (ht : parse smart sa = .ok t) (h1 : ¬ LastKind .codeBlock t)
    (h2 : ¬ LastKind .htmlBlock t) (hl : OnlySpTab l) (hl' : OnlySpTab l') : (∃ e, parse smart s = .error e ∧ parse smart s' = .error e) ∨
    ∃ d d' xs ys, parse smart s = .ok (.node d xs) ∧ parse smart s' = .ok (.node d' ys) ∧ d.t = .document ∧ d'.t = .document ∧
      noColsL xs = noColsL ys := by
  refine swap_parse hs hs' ?_
  intro p p1 p2 hp e1 e2
  obtain ⟨g1, g2, g3, k, z, g4, g5, _⟩ := last_of_parse ha ht hp h1 h2
  obtain ⟨q1, f1, f2, f3, f4⟩ := onblank_line g1 g3 hl rfl g4 g5
  obtain ⟨q2, f5, f6, f7, f8⟩ := onblank_line g1 g3 hl' rfl g4 g5
  rw [e1] at f1
  cases f1
  rw [e2] at f5
  cases f5
  exact ⟨f6.trans f2.symm, f7.trans f3.symm, f8.trans f4.symm⟩

/-- Several blank lines for one. -/
theorem blank_more {smart : Bool} {sa s s' : Str} {as bs ws : List Str} {l w : Str} {t : Tree} (ha : TextLines sa as)
    (hs : TextLines s (as ++ l :: bs)) (hs' : TextLines s' (as ++ (w :: ws) ++ bs)) (ht : parse smart sa = .ok t) (h1 : ¬ LastKind .codeBlock t)
    (h2 : ¬ LastKind .htmlBlock t) (h3 : ¬ LastKind .item t) (hl : OnlySpTab l) (hw : ∀ x ∈ w :: ws, OnlySpTab x) :
    (∃ e, parse smart s = .error e ∧ parse smart s' = .error e) ∨
    ∃ d d' xs ys, parse smart s = .ok (.node d xs) ∧ parse smart s' = .ok (.node d' ys) ∧ d.t = .document ∧ d'.t = .document ∧
      noColsL (pushedL (as.length + 1) ws.length xs) = noColsL ys := by
  obtain ⟨p, f1, f2, f3⟩ := lines_ok as [] PState.init.reset (ready_reset PState.init).1 (ready_reset PState.init).2
  rw [List.nil_append] at f3
  obtain ⟨g1, g2, g3, k, z, g4, g5, g6⟩ := last_of_parse ha ht f1 h1 h2
  have g6 := g6 h3
  obtain ⟨p1, e1, e2, e3, e4⟩ := onblank_line g1 g3 hl rfl g4 g5
  obtain ⟨q1, e5, e6, e7, e8⟩ := onblank_line g1 g3 (hw w (by simp)) rfl g4 g5
  obtain ⟨p1', c, j1, _, _, hr1⟩ := incorporateLine_ok g1 l
  rw [e1] at j1
  cases j1
  obtain ⟨q1', c', j1, _, _, hr2⟩ := incorporateLine_ok g1 w
  rw [e5] at j1
  cases j1
  obtain ⟨q2, m1, m2, _⟩ := lines_ok ws (as ++ [w]) q1 hr2 (by
    obtain ⟨x, y1, y2, y3⟩ := lines_ok [w] as p g1 f3
    rw [List.foldlM_cons, e5] at y1
    cases y1
    exact y3)
  obtain ⟨m3, m4, m5⟩ := more_blank ws hr2 e6 g6 (fun x hx => hw x (by simp [hx])) m1
  have hl1 : p1.lineNumber = as.length + 1 := by rw [e4, g2]
  -- the lines of the blocks so far
  have hbz : (∀ x ∈ z.spine, ∀ t ∈ x.children, All (PosBefore p1.lineNumber) t) ∧ ∀ x ∈ z.spine, x.data.t ≠ .document → PosBefore p1.lineNumber x.data := by
    have hb := reaches_blk f3
    have hpl : p.core.line = as.length := g2
    rw [hpl] at hb
    cases as with
    | nil =>
      cases f1
      have hsp : (PState.init.reset).spine = [⟨docNode, []⟩] := rfl
      have hk0 : k = 0 := by
        have e : blankDepth ((PState.init.reset).spine.reverse.drop 1) 1 = 1 := rfl
        rw [e, hsp] at g4
        simp at g4
        exact g4
      subst hk0
      cases g5
      constructor
      · intro x hx
        rw [hsp] at hx
        simp only [List.mem_singleton] at hx
        subst hx
        intro t ht; cases ht
      · intro x hx hd
        rw [hsp] at hx
        simp only [List.mem_singleton] at hx
        subst hx
        exact absurd rfl hd
    | cons a as =>
      have hmax : max 2 ((a :: as).length + 1) = p1.lineNumber := by rw [hl1]; simp only [List.length_cons]; omega
      rw [hmax] at hb
      have := closeN_blk (N := p1.lineNumber) (by rw [e4]; omega) k hb (by
        have := (blankDepth_le (p.spine.reverse.drop 1) 1).1
        omega) g5
      exact ⟨fun x hx => (this x hx).2, fun x hx _ => (this x hx).1⟩
  have hbp : (∀ x ∈ p1.spine, ∀ t ∈ x.children, All (PosBefore p1.lineNumber) t) ∧ ∀ x ∈ p1.spine, x.data.t ≠ .document → PosBefore p1.lineNumber x.data := by
    rw [e2]
    cases hzs : z.spine with
    | nil => simp [blankSpine]
    | cons b r =>
      rw [hzs] at hbz
      have hmem : ∀ x ∈ blankSpine (b :: r), ∃ y ∈ b :: r, x.data.t = y.data.t ∧ x.data.sourcepos = y.data.sourcepos ∧ normList x.children = normList y.children := by
        intro x hx
        have hx : x ∈ ({ b with children := markLastChild b.children } :: r).map fun x : OpenBlk => { x with data := { x.data with lastLineBlank := true } } := hx
        obtain ⟨y, hy, rfl⟩ := List.mem_map.1 hx
        rcases List.mem_cons.1 hy with rfl | hy
        · exact ⟨b, by simp, rfl, rfl, norm_markLast b.children⟩
        · exact ⟨y, by simp [hy], rfl, rfl, rfl⟩
      constructor
      · intro x hx
        obtain ⟨y, hy, _, _, y3⟩ := hmem x hx
        exact posBefore_norm y3.symm (hbz.1 y hy)
      · intro x hx hd
        obtain ⟨y, hy, y1, y2, _⟩ := hmem x hx
        have := hbz.2 y hy (by rw [← y1]; exact hd)
        intro a c hs
        exact this a c (by rw [← y2]; exact hs)
  obtain ⟨r1, c1, c2, b1, i1, _, _, _, hb1, _, _, i2, _⟩ := blockPhase_ok PState.init s
  have j1 := i1
  unfold blockPhase at j1
  simp only [inputLines_of hs] at j1
  rw [foldlM_append_ok f1, List.foldlM_cons, e1] at j1
  have j1 : (bs.foldlM incorporateLine p1 >>= fun p => finalizeAll (as ++ l :: bs).length (p.spine.length + 1) p) = .ok r1 := j1
  obtain ⟨r2, k1, k2, d, d', cs, cs', k3, k4, k5, k6, k7⟩ := gap_rest (q := q2) (N := ws.length) (by rw [m3, e6, e2]) (by rw [m4, e7, e3]) (by rw [m5, e8, e4]) hr1
    (by rw [hl1]; omega) hbp.1 hbp.2 bs (as ++ l :: bs).length (by rw [hl1]; simp) r1 j1
  have i3 : blockPhase PState.init s' = .ok r2 := by
    unfold blockPhase
    simp only [inputLines_of hs']
    rw [List.append_assoc, foldlM_append_ok f1, List.cons_append, List.foldlM_cons, e5]
    have e : (as ++ w :: (ws ++ bs)).length = (as ++ l :: bs).length + ws.length := by simp; omega
    rw [e]
    show ((ws ++ bs).foldlM incorporateLine q1 >>= fun p => finalizeAll ((as ++ l :: bs).length + ws.length) (p.spine.length + 1) p) = _
    rw [foldlM_append_ok m1]
    exact k1
  rw [hl1] at k7
  rcases parse_rel (smart := smart) i1 i3 k2 k3 k4 k5 k6 k7 with h | ⟨xs, ys, y1, y2, y3⟩
  · exact .inl h
  · exact .inr ⟨d, d', xs, ys, y1, y2, k5, k6, by rw [← erL_pushed, ← erL_dropCols]; exact y3⟩

/-- Blank lines at the beginning. -/
theorem blank_first {smart : Bool} {s s' : Str} {bs ws : List Str} (hs : TextLines s bs) (hs' : TextLines s' (ws ++ bs)) (hw : ∀ x ∈ ws, OnlySpTab x) :
    (∃ e, parse smart s = .error e ∧ parse smart s' = .error e) ∨
    ∃ d d' xs ys, parse smart s = .ok (.node d xs) ∧ parse smart s' = .ok (.node d' ys) ∧ d.t = .document ∧ d'.t = .document ∧
      noColsL ys = noColsL (movedL ws.length xs) := by
  obtain ⟨p1, b, f1, f2, f3⟩ := fresh_blanks ws (fresh_reset PState.init) hw
  obtain ⟨q, f4, _, f5⟩ := lines_ok ws [] PState.init.reset (ready_reset PState.init).1 (ready_reset PState.init).2
  rw [f1] at f4
  cases f4
  have hln : p1.lineNumber = ws.length := by have h := f5.line_eq; rw [List.nil_append] at h; exact h
  obtain ⟨r1, c1, c2, b1, i1, _, _, _, hb1, _, _, i2, _⟩ := blockPhase_ok PState.init s
  have j1 := i1
  unfold blockPhase at j1
  simp only [inputLines_of hs] at j1
  generalize hX : concatSim { b.data with lastLineBlank := false } (markLastChild []) ws.length = X
  have hXok : X.Ok := by rw [← hX]; exact concatSim_ok f2.doc
  have hXo : X.o = [] := by rw [← hX]; rfl
  have hXN : X.N = ws.length := by rw [← hX]; rfl
  have hXA : X.A = [] := by rw [← hX]; rfl
  have hXβ : X.β = { b.data with lastLineBlank := false } := by rw [← hX]; rfl
  have hsp : Sp X PState.init.reset (p1.stale PState.init.reset.allClosed PState.init.reset.oldtip PState.init.reset.lastMatched) := by
    refine ⟨?_, by rw [← hX]; exact f3, ?_, ?_, ?_, rfl, by rw [← hX]; exact Nat.zero_le _⟩
    · show SpineRel _ _ p1.spine
      rw [f2.spine]
      exact .base (cs := []) rfl rfl (by rw [hXA, f2.empty]; rfl) hXβ.symm (by rw [hXo]; rfl) (by rw [← hX]; exact fun _ _ => trivial)
    · show p1.lineNumber = _
      rw [hln, hXN]; show _ = 0 + _; omega
    · intro h; cases h
    · intro h; cases h
  have hst : Stale (p1.stale PState.init.reset.allClosed PState.init.reset.oldtip PState.init.reset.lastMatched) p1 :=
    ⟨p1.allClosed, p1.oldtip, p1.lastMatched, rfl⟩
  cases hf : bs.foldlM incorporateLine PState.init.reset with
  | error => rw [hf] at j1; cases j1
  | ok p2 =>
    rw [hf] at j1
    have j1 : finalizeAll bs.length (p2.spine.length + 1) p2 = .ok r1 := j1
    obtain ⟨q2, k3, k4⟩ := same_lines hXok hXo (by rw [← hX]; exact id) bs hsp p2 hf
    obtain ⟨q3, k5, k6⟩ := lines_stale bs hst q2 k3
    obtain ⟨a, o, m, rfl⟩ := k6
    have hlen2 : q2.spine.length = p2.spine.length := by rw [k4.spine.length, hXo]; rfl
    obtain ⟨r, k7, k8, d2, d3, cs2, cs, k9, k10, k11, k12, k13⟩ := finalizeAll_same hXok (by rw [hXβ]; exact f2.doc) hXo bs.length
      (by rw [← hX]; exact Nat.zero_le _) _ k4 r1 j1
    obtain ⟨r', l1, l2⟩ := finalizeAll_stale (bs.length + X.N) _ ⟨a, o, m, rfl⟩ r k7
    obtain ⟨a', o', m', rfl⟩ := l2
    have i3 : blockPhase PState.init s' = .ok (r.stale a' o' m') := by
      unfold blockPhase
      simp only [inputLines_of hs']
      rw [foldlM_append_ok f1, k5, ← l1, hXN, List.length_append, Nat.add_comm bs.length]
      show finalizeAll _ (q2.spine.length + 1) _ = _
      rw [hlen2]
    have k10 : (r.stale a' o' m').doc = some (.node d3 (X.A ++ cs)) := k10
    rw [hXA] at k10
    rcases parse_rel (smart := smart) i1 i3 (by rw [← hX] at k8; exact k8) k9 k10 k11 k12 k13 with h | ⟨xs, ys, y1, y2, y3⟩
    · exact .inl h
    · refine .inr ⟨d2, d3, xs, ys, y1, y2, k11, k12, ?_⟩
      rw [← hX] at y3
      exact moved_list (parse_hasEnd y1) y3

end CM
