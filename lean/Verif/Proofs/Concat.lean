import Mathlib.Data.List.Chain
import Verif.Proofs.QuoteDoc
import Verif.Proofs.Refs
/-
Texts that are separated by an empty line (C55): the blocks of the first, then those of the second.
-/
namespace CM
open Spec

/-! ### The empty line closes the blocks of the first text -/

theorem finalizeBlock_kind {d : NodeData} {cs : List Tree} {m m' : RefMap} {t : Option Tree} (h : finalizeBlock d cs m = .ok (t, m'))
    (hp : d.t ≠ .paragraph) : ∃ x, t = some x ∧ x.data.t = d.t := by
  unfold finalizeBlock at h
  cases hk : d.t with
  | paragraph => exact absurd hk hp
  | list =>
    rw [hk] at h; cases h
    refine ⟨_, rfl, ?_⟩
    unfold finalizeList
    repeat' split
    all_goals exact hk
  | codeBlock =>
    rw [hk] at h
    cases hf : finalizeCode d with
    | error e => simp only [hf, Except.bind, bind] at h; cases h
    | ok d' =>
      simp only [hf, Except.bind, bind, pure, Except.pure] at h
      cases h
      refine ⟨_, rfl, ?_⟩
      unfold finalizeCode at hf
      repeat' split at hf
      all_goals first | cases hf | skip
      all_goals exact hk
  | htmlBlock =>
    rw [hk] at h
    cases hf : finalizeHtml d with
    | error e => simp only [hf, Except.bind, bind] at h; cases h
    | ok d' =>
      simp only [hf, Except.bind, bind, pure, Except.pure] at h
      cases h
      refine ⟨_, rfl, ?_⟩
      unfold finalizeHtml at hf
      repeat' split at hf
      all_goals first | cases hf | skip
      all_goals exact hk
  | _ => rw [hk] at h; cases h; exact ⟨_, rfl, hk⟩

/-- Closing all blocks at the end of the input, and at a line that belongs to none of them. -/
theorem closes_to {len : Nat} : ∀ (n : Nat) (A : List OpenBlk) {b : OpenBlk} {p q r : PState}, A.length = n → p.spine = A ++ [b] → q.spine = p.spine →
    q.refmap = p.refmap → q.lastLineLength = p.lastLineLength → q.oldtip = A.length + 1 → q.lastMatched = 1 →
    q.lineNumber = len + 1 → b.data.t = .document → finalizeAll len (A.length + 2) p = .ok r →
    ∃ q' cs, closeLoop (A.length + 2) q = .ok q' ∧ q'.spine = [{ b with children := cs }] ∧ q'.refmap = r.refmap ∧
      r.doc = some (.node (closeData len p.lastLineLength b.data) cs) ∧ q'.curs = q.curs ∧ q'.lineNumber = q.lineNumber ∧
      (A = [] → cs = b.children) ∧
      ∀ k, (A.getLast?.map fun c => c.data.t) = some k → k ≠ .paragraph → ∃ t, cs.getLast? = some t ∧ t.data.t = k := by
  intro n
  induction n with
  | zero =>
    intro A b p q r hn hp hq hm hl ho hlm hln hb hr
    obtain rfl := List.eq_nil_of_length_eq_zero hn
    rw [List.nil_append] at hp
    refine ⟨q, b.children, ?_, by rw [hq, hp], ?_, ?_, rfl, rfl, fun _ => rfl, by simp⟩
    · simp [closeLoop, ho, hlm]
    · simp only [finalizeAll, finalizeTip, finalizeBlock, hp, hb, Except.bind, bind, pure, Except.pure, List.length_nil] at hr
      cases hr
      exact hm
    · simp only [finalizeAll, finalizeTip, finalizeBlock, hp, hb, Except.bind, bind, pure, Except.pure, List.length_nil] at hr
      cases hr
      simp only [closeData, hb]
  | succ n ih =>
    intro A0 b p q r hn hp hq hm hl ho hlm hln hb hr
    obtain ⟨a, A, rfl⟩ : ∃ a A, A0 = a :: A := by
      cases A0 with
      | nil => simp at hn
      | cons a A => exact ⟨a, A, rfl⟩
    have hn : A.length = n := by simpa using hn
    have hne : p.spine ≠ [] := by rw [hp]; simp
    rw [List.length_cons, finalizeAll_cons hne] at hr
    cases hf : finalizeTip len p with
    | error e => rw [hf] at hr; cases hr
    | ok p1 =>
      rw [hf] at hr
      have hr : finalizeAll len (A.length + 2) p1 = .ok r := hr
      obtain ⟨par, up, hup⟩ : ∃ par up, A ++ [b] = par :: up := by
        cases A with
        | nil => exact ⟨b, [], rfl⟩
        | cons x A => exact ⟨x, A ++ [b], rfl⟩
      have hps : p.spine = a :: par :: up := by rw [hp, List.cons_append, hup]
      obtain ⟨t, m, h1, h2⟩ := finalizeTip_inv hps hf
      have hq1 := finalizeTip_run (p := q) (l := len) (hq.trans hps) (by rw [hl, hm]; exact h1)
      have hstep : closeLoop (A.length + 1 + 2) q = closeLoop (A.length + 2)
          { q with spine := { par with children := par.children ++ t.toList } :: up, refmap := m, oldtip := q.oldtip - 1 } := by
        rw [show A.length + 1 + 2 = (A.length + 2) + 1 from rfl, closeLoop, if_neg (by simp [ho, hlm]),
          show q.lineNumber - 1 = len by omega, hq1]
        rfl
      -- the new spine
      have hA : ∃ A2 b2, { par with children := par.children ++ t.toList } :: up = A2 ++ [b2] ∧ A2.length = A.length ∧
          b2.data = b.data ∧ (A = [] → b2.children = b.children ++ t.toList) ∧ (A ≠ [] → b2 = b) ∧
          A2.map (fun x => x.data.t) = A.map (fun x => x.data.t) := by
        cases A with
        | nil =>
          rw [List.nil_append, List.cons.injEq] at hup
          obtain ⟨rfl, rfl⟩ := hup
          exact ⟨[], _, rfl, rfl, rfl, fun _ => rfl, fun h => absurd rfl h, rfl⟩
        | cons x A =>
          rw [List.cons_append, List.cons.injEq] at hup
          obtain ⟨rfl, rfl⟩ := hup
          exact ⟨_ :: A, b, rfl, rfl, rfl, fun h => (by cases h), fun _ => rfl, rfl⟩
      obtain ⟨A2, b2, e1, e2, e3, e4, e5, e6⟩ := hA
      have hll : p1.lastLineLength = p.lastLineLength := by rw [h2]
      obtain ⟨q', cs, g1, g2, g3, g4, g5, g6, g7, g8⟩ := ih A2 (b := b2) (p := p1) (r := r)
        (q := { q with spine := { par with children := par.children ++ t.toList } :: up, refmap := m, oldtip := q.oldtip - 1 })
        (e2.trans hn) (by rw [h2]; exact e1) (by rw [h2]) (by rw [h2]) (by rw [h2]; exact hl)
        (by rw [e2]; simp only [ho, List.length_cons]; omega) hlm hln (by rw [e3]; exact hb) (by rw [e2]; exact hr)
      rw [e2] at g1
      refine ⟨q', cs, hstep.trans g1, ?_, g3, ?_, g5, g6, fun h => (by cases h), ?_⟩
      · rw [g2, ← e3]
      · rw [g4, hll, e3]
      · intro k hk hnp
        cases A with
        | nil =>
          rw [g7 (List.eq_nil_of_length_eq_zero e2), e4 rfl]
          simp only [List.getLast?_singleton, Option.map_some, Option.some.injEq] at hk
          subst hk
          obtain ⟨x, hx, hx'⟩ := finalizeBlock_kind h1 hnp
          exact ⟨x, by rw [hx]; simp, hx'⟩
        | cons y A =>
          rw [List.getLast?_cons_cons, ← List.getLast?_map, ← e6, List.getLast?_map] at hk
          exact g8 k hk hnp

/-- Blocks that an empty line ends. -/
def endKinds : List Kind := [.paragraph, .heading, .thematicBreak, .blockQuote]

/-- An empty line ends the block. -/
def EndsAtEmpty (d : NodeData) : Prop := d.t ∈ endKinds ∨ (d.t = .htmlBlock ∧ (d.htmlBlockType = 6 ∨ d.htmlBlockType = 7))

/-- The state of a parser on an empty line. -/
structure OnEmpty (p : PState) : Prop where
  line : p.currentLine = []
  off : p.offset = 0

theorem OnEmpty.find {p : PState} (h : OnEmpty p) : OnEmpty (findNextNonspace p) ∧ (findNextNonspace p).blank = true ∧
    (findNextNonspace p).indented = false ∧ (findNextNonspace p).nextNonspace = 0 := by
  have hs : skipWs (p.currentLine.drop p.offset) p.offset p.column = (0, p.column, none) := by
    rw [h.line, h.off]; rfl
  refine ⟨⟨h.line, h.off⟩, ?_, ?_, ?_⟩
  · show (match (skipWs _ _ _).2.2 with | none => true | some c => c == '\n' || c == '\r') = true
    rw [hs]
  · show decide ((skipWs _ _ _).2.1 - p.column ≥ 4) = false
    rw [hs]; simp
  · show (skipWs _ _ _).1 = 0
    rw [hs]

theorem cont_empty {p : PState} {bs : List OpenBlk} (h : OnEmpty p) (hk : ∀ c, bs.head? = some c → EndsAtEmpty c.data) :
    ∃ p', contLoop bs 1 p = .ok (.inr (1, p')) ∧ OnEmpty p' ∧ p'.core = p.core ∧ p'.books = p.books := by
  cases bs with
  | nil => exact ⟨p, rfl, h, rfl, rfl⟩
  | cons c bs =>
    have hc := hk c rfl
    obtain ⟨h1, h2, h3, h4⟩ := h.find
    refine ⟨findNextNonspace p, ?_, h1, core_find _, books_find _⟩
    have hf : ∀ x, continueBlock c.data x (findNextNonspace p) = (.failed, findNextNonspace p) := by
      intro x
      unfold continueBlock
      have hpk : peekAt (findNextNonspace p).currentLine (findNextNonspace p).nextNonspace = none := by
        rw [h1.line]; rfl
      simp only [EndsAtEmpty, endKinds, List.mem_cons, List.not_mem_nil, or_false] at hc
      rcases hc with (hc | hc | hc | hc) | ⟨hc, hc'⟩ <;> rw [hc]
      · simp only [h2, if_true]
      · rw [hpk, if_neg (by simp)]
      · have : (c.data.htmlBlockType == 6 || c.data.htmlBlockType == 7) = true := by simpa using hc'
        simp only [h2, Bool.true_and, this, if_true]
    simp only [contLoop, hf]

/-- An empty line that ends all open blocks. -/
theorem blank_line_of {len : Nat} {A : List OpenBlk} {b : OpenBlk} {p r : PState} (hp : p.spine = A ++ [b]) (hb : b.data.t = .document)
    (hln : p.lineNumber = len) (hr : finalizeAll len (A.length + 2) p = .ok r) {d : NodeData} {cs : List Tree}
    (hdoc : r.doc = some (.node d cs)) (hA : ∀ c, A.getLast? = some c → EndsAtEmpty c.data) :
    ∃ q', incorporateLine p [] = .ok q' ∧ q'.spine = [⟨{ b.data with lastLineBlank := true }, markLastChild cs⟩] ∧
      q'.refmap = r.refmap ∧ q'.lineNumber = len + 1 ∧ q'.allClosed = true := by
  rw [incorporateLine_eq, show replaceChar (Char.ofNat 0) (Char.ofNat 0xFFFD) [] = [] from rfl]
  have hrev : (atStart p []).spine.reverse.drop 1 = A.reverse := by
    show p.spine.reverse.drop 1 = _
    rw [hp]; simp
  obtain ⟨p1, c1, c2, c3, c4⟩ := cont_empty (p := atStart p []) (bs := A.reverse) ⟨rfl, rfl⟩ (by rw [List.head?_reverse]; exact hA)
  rw [hrev, c1]
  simp only [Except.bind, bind, afterCont]
  have s1 : p1.spine = A ++ [b] := (congrArg Core.spine c3).trans hp
  have hbl : blockAt { p1 with allClosed := 1 == p1.oldtip, lastMatched := 1 } 1 = some b.data := by
    show (p1.spine.reverse[0]?).map _ = _
    rw [s1]; simp
  rw [hbl]
  simp only [hb]
  rw [if_neg (by decide)]
  have o1 : p1.oldtip = A.length + 1 := by
    have : p1.oldtip = p.spine.length := (congrArg Books.oldtip c4 :)
    rw [this, hp]; simp
  generalize hp2 : ({ p1 with allClosed := 1 == p1.oldtip, lastMatched := 1 } : PState) = p2
  have e2 : OnEmpty p2 := by rw [← hp2]; exact ⟨c2.line, c2.off⟩
  obtain ⟨f1, f2, f3, f4⟩ := e2.find
  have hst : startsLoop (([] : Str).length + 1) b.data p2 = .ok (advanceNextNonspace (findNextNonspace p2)) := by
    unfold startsLoop
    have hpk : peekAt (findNextNonspace p2).currentLine (findNextNonspace p2).nextNonspace = none := by
      rw [f1.line]; rfl
    simp only [hpk, f3]
    rfl
  rw [hst]
  simp only [addText]
  generalize hp3 : advanceNextNonspace (findNextNonspace p2) = p3
  have g1 : p3.blank = true := by rw [← hp3]; exact f2
  have g2 : p3.spine = A ++ [b] := by rw [← hp3, ← s1, ← hp2]; rfl
  have g3 : p3.currentLine = [] := by rw [← hp3]; exact f1.line
  have g4 : p3.oldtip = A.length + 1 := by rw [← hp3, ← o1, ← hp2]; rfl
  have g5 : p3.lastMatched = 1 := by rw [← hp3, ← hp2]; rfl
  have g6 : p3.allClosed = (1 == A.length + 1) := by rw [← hp3, ← o1, ← hp2]; rfl
  have g7 : p3.lineNumber = len + 1 := by
    have : p1.lineNumber = p.lineNumber + 1 := (congrArg Core.line c3 :)
    rw [← hp3, ← hln, ← this, ← hp2]; rfl
  have g8 : p3.refmap = p.refmap := by
    have : p1.refmap = p.refmap := (congrArg Core.refmap c3 :)
    rw [← this, ← hp3, ← hp2]; rfl
  have g9 : p3.lastLineLength = p.lastLineLength := by
    have : p1.lastLineLength = p.lastLineLength := (congrArg Core.prevLen c3 :)
    rw [← this, ← hp3, ← hp2]; rfl
  rw [if_neg (by rw [g1]; simp)]
  obtain ⟨q', cs', h1, h2, h3, h4, h5, h6, _, _⟩ := closes_to (q := p3) A.length A rfl hp (g2.trans hp.symm) g8 g9 g4 g5 g7 hb hr
  rw [hdoc] at h4
  cases h4
  have hcl : ∃ q2, closeUnmatched p3 = .ok q2 ∧ q2.spine = [{ b with children := cs }] ∧ q2.refmap = r.refmap ∧ q2.curs = p3.curs ∧
      q2.lineNumber = len + 1 ∧ q2.allClosed = true := by
    unfold closeUnmatched
    by_cases ha : p3.allClosed = true
    · rw [if_pos ha]
      have : A.length = 0 := by rw [g6] at ha; simp at ha; simp [ha]
      simp only [closeLoop, g4, g5, this] at h1
      rw [if_pos (by rfl)] at h1
      cases h1
      exact ⟨_, rfl, h2, h3, rfl, g7, ha⟩
    · rw [if_neg ha, g4, h1]
      exact ⟨_, rfl, h2, h3, h5, h6.trans g7, rfl⟩
  obtain ⟨q2, k1, k2, k3, k4, k5, k7⟩ := hcl
  have k6 : q2.blank = true := (congrArg CursorAt.blank k4).trans g1
  simp only [k1, Except.bind, bind, k2, k6, if_true, hb]
  simp only [Bool.not_true, Bool.and_false, Bool.false_eq_true, if_false, pure, Except.pure]
  rw [if_neg (by decide)]
  refine ⟨_, rfl, ?_, k3, k5, k7⟩
  have : lineBlankFlag { b with children := markLastChild cs } q2 = true := by
    simp [lineBlankFlag, k6, hb]
  simp only [List.map_cons, List.map_nil]
  rw [this, hb]

theorem blank_line {len : Nat} {A : List OpenBlk} {b : OpenBlk} {p r : PState} (hp : p.spine = A ++ [b]) (hb : b.data.t = .document)
    (hln : p.lineNumber = len) (hr : finalizeAll len (A.length + 2) p = .ok r) {d : NodeData} {cs : List Tree}
    (hdoc : r.doc = some (.node d cs)) (hk : ∀ t, cs.getLast? = some t → t.data.t ∈ endKinds) :
    ∃ q', incorporateLine p [] = .ok q' ∧ q'.spine = [⟨{ b.data with lastLineBlank := true }, markLastChild cs⟩] ∧
      q'.refmap = r.refmap ∧ q'.lineNumber = len + 1 ∧ q'.allClosed = true := by
  have hA : ∀ c, A.getLast? = some c → c.data.t ∈ endKinds := by
    intro c hc
    obtain ⟨q', cs', _, _, _, h4, _, _, _, h8⟩ := closes_to (q := { p with oldtip := A.length + 1, lastMatched := 1, lineNumber := len + 1 })
      A.length A rfl hp rfl rfl rfl rfl rfl rfl hb hr
    rw [hdoc] at h4
    cases h4
    by_cases hnp : c.data.t = .paragraph
    · rw [hnp]; decide
    · obtain ⟨t, ht, ht'⟩ := h8 c.data.t (by rw [hc]; rfl) hnp
      rw [← ht']
      exact hk t ht
  exact blank_line_of hp hb hln hr hdoc fun c hc => .inl (hA c hc)

/-! ### The lines of the second text -/

/-- The blocks `A` come before those of the second text, which is `N` lines further down. -/
def concatSim (β : NodeData) (A : List Tree) (N : Nat) : Sim where
  β := β
  o := []
  A := A
  N := N
  φ := fun x => ((x.1.1 + N, 0), (if x.2.1 = 0 then 0 else x.2.1 + N, 0))
  ψ := fun y => ((y.1.1, 0), (if y.2.1 ≤ N then 0 else y.2.1, 0))
  flag := fun _ _ => True
  kid := False

theorem markLast_idem : ∀ cs : List Tree, markLastChild (markLastChild cs) = markLastChild cs
  | [] => rfl
  | [.node d cs] => rfl
  | t :: u :: r => by
    have ih := markLast_idem (u :: r)
    obtain ⟨v, w, e⟩ : ∃ v w, markLastChild (u :: r) = v :: w := by
      cases r with
      | nil => cases u; exact ⟨_, _, rfl⟩
      | cons x r => exact ⟨u, markLastChild (x :: r), by rw [markLastChild]⟩
    rw [markLastChild, e, markLastChild, ← e, ih]

theorem concatSim_ok {β : NodeData} {cs : List Tree} {N : Nat} (h : β.t = .document) : (concatSim β (markLastChild cs) N).Ok where
  doc := .inl h
  new := by intro l c c' _; simp [concatSim]
  close := by
    intro x y l c c' _ h
    simp only [concatSim, Prod.mk.injEq, and_true] at h ⊢
    refine ⟨h.1, ?_⟩
    by_cases hl : l = 0
    · subst hl; simp
    · rw [if_neg hl, if_neg (by omega)]
  start := by
    intro x y l _ h
    simp only [concatSim, Prod.mk.injEq, and_true] at h
    have := h.1
    simp only [concatSim]
    omega
  mark := .inr (markLast_idem cs)
  flag := fun _ _ _ _ => trivial
  ref := refKeeps_id

theorem same_line {X : Sim} (hX : X.Ok) (ho : X.o = []) {p q : PState} (h : Sp X p q) (l : Str) (hk : Keeps X (incorporateLine p l)) :
    ERel (Sp X) (incorporateLine p l) (incorporateLine q l) := by
  rw [incorporateLine_eq] at hk ⊢
  rw [incorporateLine_eq]
  generalize replaceChar (Char.ofNat 0) (Char.ofNat 0xFFFD) l = l at hk
  refine line_rel (k := 0) (q1 := atStart q l) hX h (Nat.le_refl _) rfl rfl
    ⟨⟨[], rfl, rfl⟩, rfl, rfl, rfl, .inl rfl⟩ ?_ hk
  intro A b A' b' O cs hp hq _ _ _ h3 h4
  have hO : O = [] := by
    rw [ho] at h4
    cases O with
    | nil => rfl
    | cons => simp at h4
  rw [ho, hq, hO]
  simp

theorem same_lines {X : Sim} (hX : X.Ok) (ho : X.o = []) (hk : ¬ X.kid) : ∀ (ls : List Str) {p q : PState}, Sp X p q →
    ERel (Sp X) (ls.foldlM incorporateLine p) (ls.foldlM incorporateLine q) := by
  intro ls
  induction ls with
  | nil => intro p q h; exact .ok h
  | cons l ls ih =>
    intro p q h
    rw [List.foldlM_cons, List.foldlM_cons]
    exact ERel.bind (same_line hX ho h l fun h => absurd h hk) fun a b hab => ih hab

/-- Closing all blocks at the end. -/
theorem finalizeAll_same {X : Sim} (hX : X.Ok) (hβ : X.β.t = .document) (ho : X.o = []) (len : Nat) (hK : X.K ≤ len) :
    ∀ (n : Nat) {p q : PState}, Sp X p q → ERel (fun p' q' => q'.refmap = X.ref p'.refmap ∧
      ∃ d d' cs cs', p'.doc = some (.node d cs) ∧ q'.doc = some (.node d' (X.A ++ cs')) ∧ d.t = .document ∧
        d'.t = .document ∧ erL X.φ cs = erL X.ψ cs') (finalizeAll len n p) (finalizeAll (len + X.N) n q) := by
  intro n
  induction n with
  | zero => intro p q _; exact ERel.error
  | succ n ih =>
    intro p q h
    have hp : p.spine ≠ [] := by have := h.spine.pos; intro e; rw [e] at this; simp at this
    have hq : q.spine ≠ [] := by
      intro e; have := h.spine.length; rw [e, ho] at this
      exact hp (List.eq_nil_of_length_eq_zero (by simpa using this.symm))
    by_cases h2 : 2 ≤ p.spine.length
    · rw [finalizeAll_cons hp, finalizeAll_cons hq]
      refine ERel.bind (finalizeTip_sp hX len rfl hK h h2) ?_
      intro p' q' h'
      exact ih h'.1
    · have hspine := h.spine
      generalize hps : p.spine = sp at hspine h2
      generalize hqs : q.spine = sq at hspine
      cases hspine with
      | cons _ hr => have := hr.pos; rw [List.length_cons] at h2; omega
      | @base b b' O cs g1 g2 gA g3 g4 _ =>
        have hO : O = [] := by
          rw [ho] at g4
          cases O with
          | nil => rfl
          | cons => simp at g4
        subst hO
        have hb' : b'.data.t = .document := by rw [← g3] at hβ; exact hβ
        cases n with
        | zero =>
          rw [finalizeAll_cons hp]
          have : ∀ (z : Except PyErr PState) (R : PState → PState → Prop) (w : Except PyErr PState), ERel R (z.bind (finalizeAll len 0)) w := by
            intro z R w; cases z <;> exact ERel.error
          exact this _ _ _
        | succ n =>
          simp only [finalizeAll, hps, hqs, finalizeTip, finalizeBlock, g1, hb', Except.bind, bind, pure, Except.pure]
          exact .ok ⟨h.refmap, _, _, _, cs, rfl, by rw [gA], rfl, rfl, g2⟩

/-! ### Texts without definitions -/

/-- No `]:`. -/
def NoPair (x : Str) : Prop := x.IsChain fun a b => ¬ (a = ']' ∧ b = ':')

theorem noPair_of {x : Str} (h : ¬ [']', ':'] <:+: x) : NoPair x := by
  induction x with
  | nil => exact .nil
  | cons a x ih =>
    have hx := ih fun hi => h (hi.trans (List.suffix_cons a x).isInfix)
    cases x with
    | nil => exact .singleton a
    | cons b x =>
      refine .cons_cons ?_ hx
      rintro ⟨rfl, rfl⟩
      exact h ⟨[], x, rfl⟩

theorem NoPair.suffix {x y : Str} (h : NoPair y) (hx : x <:+ y) : NoPair x := by
  obtain ⟨z, rfl⟩ := hx
  exact (List.isChain_append.1 h).2.1

theorem textFrom_noPair {ls : List Str} (hl : ∀ l ∈ ls, NoPair l) {x : Str} (h : TextFrom ls x) :
    NoPair x ∧ (x = [] ∨ x.getLast? = some '\n') := by
  induction h with
  | nil => exact ⟨.nil, .inl rfl⟩
  | @line x line l k _ hm hs ih =>
    have h1 : NoPair (l ++ ['\n']) := List.isChain_append.2 ⟨(hl line hm).suffix hs, .singleton _, by simp⟩
    have h2 : NoPair (List.replicate k ' ') := by
      induction k with
      | zero => exact .nil
      | succ k ih =>
        cases k with
        | zero => exact .singleton _
        | succ k => exact .cons_cons (by decide) ih
    have h3 : NoPair (List.replicate k ' ' ++ (l ++ ['\n'])) := by
      refine List.isChain_append.2 ⟨h2, h1, ?_⟩
      intro a ha b hb
      have : a = ' ' := List.eq_of_mem_replicate (List.mem_of_getLast? ha)
      rintro ⟨rfl, _⟩
      exact absurd this (by decide)
    refine ⟨List.isChain_append.2 ⟨ih.1, h3, ?_⟩, .inr ?_⟩
    · intro a ha b hb
      rcases ih.2 with rfl | e
      · simp at ha
      · rw [e] at ha
        simp only [Option.mem_def, Option.some.injEq] at ha
        rintro ⟨rfl, _⟩
        exact absurd ha (by decide)
    · rw [← List.append_assoc, ← List.append_assoc, List.getLast?_concat]

theorem afterDefinitions_suffix {strict : Bool} {y z : Str} (h : AfterDefinitions strict y z) : z <:+ y := by
  induction h with
  | here => exact List.suffix_rfl
  | next _ _ ih => exact (List.suffix_append _ _).trans ih

theorem not_defined {ls : List Str} (hl : ∀ l ∈ ls, NoPair l) {k dest title : Str} : ¬ DefinedIn false ls k dest title := by
  rintro ⟨y, w, r, l, h1, h2, h3, _⟩
  have hy := ((textFrom_noPair hl h1).1.suffix (afterDefinitions_suffix h2))
  have key : ∀ {l x : Str}, LinkLabel l → w = l ++ ':' :: x → False := by
    rintro l x ⟨z, rfl, _⟩ rfl
    have e : ('[' :: (z ++ [']']) ++ ':' :: x) ++ r = ('[' :: z) ++ (']' :: ':' :: (x ++ r)) := by simp
    rw [e] at hy
    have := (List.isChain_append.1 hy).2.1
    cases this with
    | cons_cons h _ => exact h ⟨rfl, rfl⟩
  cases h3 with
  | untitled a => exact key a rfl
  | titled a => exact key a rfl
  | stray _ a => exact key a rfl

theorem no_definitions {p p' : PState} {s : Str} {ls : List Str} (hs : TextLines s ls) (hl : ∀ l ∈ ls, ¬ [']', ':'] <:+: l)
    (h : blockPhase p s = .ok p') : p'.refmap = [] := by
  have hf := blockPhase_from h
  rw [textLines_of hs] at hf
  have hn : ∀ l ∈ ls.map noNul, NoPair l := by
    intro l h
    obtain ⟨l0, h0, rfl⟩ := List.mem_map.1 h
    have := noPair_of (hl l0 h0)
    unfold noNul
    rw [NoPair, List.isChain_map]
    refine List.IsChain.imp ?_ this
    intro a b hab
    rintro ⟨h1, h2⟩
    refine hab ⟨?_, ?_⟩
    · split at h1
      · exact absurd h1 (by decide)
      · exact h1
    · split at h2
      · exact absurd h2 (by decide)
      · exact h2
  cases hm : p'.refmap with
  | nil => rfl
  | cons e m =>
    exfalso
    have : p'.refmap.get e.1 = some e.2 := by rw [hm]; simp [RefMap.get]
    exact not_defined hn (hf _ _ this).2

/-! ### Block phase and parse -/

theorem foldlM_append_ok {p p1 : PState} {as bs : List Str} (h : as.foldlM incorporateLine p = .ok p1) :
    (as ++ bs).foldlM incorporateLine p = bs.foldlM incorporateLine p1 := by
  rw [List.foldlM_append, h]; rfl

theorem Chain.last_doc {ds : List NodeData} (h : Chain ds) : ∃ d, ds.getLast? = some d ∧ d.t = .document := by
  induction h with
  | doc h => exact ⟨_, rfl, h⟩
  | @cons d e r _ _ _ _ ih => 
    obtain ⟨x, h1, h2⟩ := ih
    exact ⟨x, by rw [List.getLast?_cons_cons]; exact h1, h2⟩

/-- The definitions of two texts, one after the other. -/
def mergeRefs (m0 m : RefMap) : RefMap := m.foldl (fun a e => if (a.get e.1).isSome then a else a ++ [e]) m0

theorem refs_get_append (a b : RefMap) (k : Str) : RefMap.get (a ++ b) k = (a.get k).or (b.get k) := by
  unfold RefMap.get
  rw [List.find?_append]
  cases List.find? _ a <;> simp

theorem mergeRefs_get : ∀ (m m0 : RefMap) (k : Str), (mergeRefs m0 m).get k = (m0.get k).or (m.get k)
  | [], m0, k => by simp [mergeRefs, RefMap.get]
  | e :: m, m0, k => by
    have ih := mergeRefs_get m
    unfold mergeRefs at ih ⊢
    rw [List.foldl_cons, ih]
    have he : RefMap.get (e :: m) k = (RefMap.get [e] k).or (RefMap.get m k) := refs_get_append [e] m k
    rw [he]
    by_cases h : (m0.get e.1).isSome = true
    · rw [if_pos h]
      by_cases hk : e.1 = k
      · subst hk
        obtain ⟨x, hx⟩ := Option.isSome_iff_exists.1 h
        simp [hx]
      · have : RefMap.get [e] k = none := by simp [RefMap.get, hk]
        simp [this]
    · rw [if_neg h, refs_get_append, Option.or_assoc]

theorem mergeRefs_keeps (m0 : RefMap) : RefKeeps (mergeRefs m0) := by
  intro s m
  unfold parseReference
  extract_lets c
  generalize parseLinkLabel c 0 = n
  simp only
  split
  · rfl
  split
  · rfl
  split
  · rfl
  split
  · rfl
  split
  · rfl
  rename_i e _ _
  generalize normalizeReference _ = k
  have hg := mergeRefs_get m m0 k
  cases h1 : m.get k with
  | some x =>
    rw [h1] at hg
    simp only
    cases h2 : m0.get k <;> rw [h2] at hg <;> simp only [Option.or_some, Option.none_or, Option.some_or] at hg <;> rw [hg]
  | none =>
    rw [h1, Option.or_none] at hg
    simp only
    have hx : ∀ x, mergeRefs m0 (m ++ [(k, x)]) = if ((mergeRefs m0 m).get k).isSome then mergeRefs m0 m else mergeRefs m0 m ++ [(k, x)] := by
      intro x; unfold mergeRefs; rw [List.foldl_append]; rfl
    simp only [hx]
    cases h2 : (mergeRefs m0 m).get k <;> simp

/-- The block phase of the first text, of the second and of both. -/
theorem concat_blocks {s1 s2 s : Str} {as bs : List Str} (h1 : TextLines s1 as) (h2 : TextLines s2 bs) (h : TextLines s (as ++ [] :: bs))
    {r1 r2 : PState} (e1 : blockPhase PState.init s1 = .ok r1) (e2 : blockPhase PState.init s2 = .ok r2) {d1 : NodeData} {cs1 : List Tree}
    (hd : r1.doc = some (.node d1 cs1)) (hk : ∀ t, cs1.getLast? = some t → t.data.t ∈ endKinds) :
    ∃ β r d2 d cs2 cs, β.t = .document ∧ blockPhase PState.init s = .ok r ∧ r.refmap = mergeRefs r1.refmap r2.refmap ∧ r2.doc = some (.node d2 cs2) ∧
      r.doc = some (.node d (markLastChild cs1 ++ cs)) ∧ d2.t = .document ∧ d.t = .document ∧
      erL (concatSim β (markLastChild cs1) (as.length + 1)).φ cs2 = erL (concatSim β (markLastChild cs1) (as.length + 1)).ψ cs := by
  unfold blockPhase at e1 e2 ⊢
  simp only [inputLines_of h1, inputLines_of h2, inputLines_of h] at e1 e2 ⊢
  obtain ⟨p1, f1, f2, f3⟩ := lines_ok as [] PState.init.reset (ready_reset PState.init).1 (ready_reset PState.init).2
  have hln : p1.lineNumber = as.length := by have h := f3.line_eq; rw [List.nil_append] at h; exact h
  rw [f1] at e1
  have e1 : finalizeAll as.length (p1.spine.length + 1) p1 = .ok r1 := e1
  obtain ⟨d, hd1, hd2⟩ := f2.good.chain.last_doc
  obtain ⟨A, b, hA⟩ : ∃ A b, p1.spine = A ++ [b] := by
    rcases List.eq_nil_or_concat p1.spine with h0 | ⟨A, b, h0⟩
    · rw [PState.ds, h0] at hd1; simp at hd1
    · exact ⟨A, b, by simpa using h0⟩
  have hb : b.data.t = .document := by
    rw [PState.ds, hA] at hd1
    simp at hd1
    rw [hd1]; exact hd2
  have hlen : p1.spine.length + 1 = A.length + 2 := by rw [hA]; simp
  rw [hlen] at e1
  obtain ⟨q1, g1, g2, g3, g4, g5⟩ := blank_line hA hb hln e1 hd hk
  rw [foldlM_append_ok f1, List.foldlM_cons, g1]
  generalize hX : ({ concatSim { b.data with lastLineBlank := false } (markLastChild cs1) (as.length + 1) with ref := mergeRefs r1.refmap } : Sim) = X
  have hXok : X.Ok := by
    rw [← hX]
    have h := concatSim_ok (cs := cs1) (N := as.length + 1) (β := { b.data with lastLineBlank := false }) hb
    exact ⟨h.doc, h.new, h.close, h.start, h.mark, h.flag, mergeRefs_keeps _⟩
  have hXr : X.ref = mergeRefs r1.refmap := by rw [← hX]
  have hXo : X.o = [] := by rw [← hX]; rfl
  have hXN : X.N = as.length + 1 := by rw [← hX]; rfl
  have hXA : X.A = markLastChild cs1 := by rw [← hX]; rfl
  have hXβ : X.β = { b.data with lastLineBlank := false } := by rw [← hX]; rfl
  have hsp : Sp X PState.init.reset q1 := by
    refine ⟨?_, ?_, ?_, ?_, ?_, ?_, by rw [← hX]; exact Nat.zero_le _⟩
    · rw [g2]
      exact .base (cs := []) rfl rfl (by rw [hXA]; simp) hXβ.symm (by rw [hXo]; rfl) (by rw [← hX]; exact fun _ _ => trivial)
    · rw [g3, hXr]; rfl
    · rw [g4, hXN]; show _ = 0 + _; omega
    · intro h; cases h
    · intro h; cases h
    · rw [g5]; rfl
  have hbind : ∀ (x : Except PyErr PState) (y : PState), (x >>= fun p => finalizeAll bs.length (p.spine.length + 1) p) = .ok y →
      ∃ z, x = .ok z ∧ finalizeAll bs.length (z.spine.length + 1) z = .ok y := by
    intro x y h
    cases x with
    | error e => cases h
    | ok z => exact ⟨z, rfl, h⟩
  obtain ⟨p2, k1, k2⟩ := hbind _ _ e2
  obtain ⟨q2, k3, k4⟩ := same_lines hXok hXo (by rw [← hX]; exact id) bs hsp p2 k1
  have hlen2 : q2.spine.length = p2.spine.length := by rw [k4.spine.length, hXo]; simp
  obtain ⟨r, k5, k6, d2, d, cs2, cs, k7, k8, k9, k10, k11⟩ := finalizeAll_same hXok (by rw [hXβ]; exact hb) hXo bs.length (by rw [← hX]; exact Nat.zero_le _) _ k4 r2 k2
  refine ⟨{ b.data with lastLineBlank := false }, r, d2, d, cs2, cs, hb, ?_, by rw [k6, hXr], k7, by rw [k8, hXA], k9, k10, by rw [← hX] at k11; exact k11⟩
  show (List.foldlM incorporateLine q1 bs >>= fun p => finalizeAll (as ++ [] :: bs).length (p.spine.length + 1) p) = _
  rw [k3]
  show finalizeAll (as ++ [] :: bs).length (q2.spine.length + 1) q2 = _
  rw [hlen2, ← k5, hXN, List.length_append, List.length_cons]
  congr 1
  omega

theorem inlines_append (sm : Bool) (m : RefMap) : ∀ a b : List Tree, processInlinesList sm m (a ++ b) =
    (processInlinesList sm m a).bind fun x => (processInlinesList sm m b).map fun y => x ++ y := by
  intro a b
  induction a with
  | nil =>
    simp only [List.nil_append, processInlinesList, Except.bind]
    cases processInlinesList sm m b <;> rfl
  | cons t ts ih =>
    rw [List.cons_append, processInlinesList, processInlinesList, ih]
    cases processInlines sm m t with
    | error => rfl
    | ok t' =>
      cases processInlinesList sm m ts with
      | error => rfl
      | ok ts' => cases processInlinesList sm m b <;> rfl

theorem inlines_mark (sm : Bool) (m : RefMap) : ∀ cs : List Tree, processInlinesList sm m (markLastChild cs) =
    (processInlinesList sm m cs).map markLastChild
  | [] => rfl
  | [.node d cs] => by
    obtain ⟨t, sp, a1, a2, a3, sc, a5, a6, a7, a8, a9, a10, a11, a12, a13, a14, a15, a16, a17⟩ := d
    simp only [markLastChild, processInlinesList, processInlines]
    cases processInlinesList sm m cs with
    | error => rfl
    | ok x =>
      simp only [Except.bind, bind, pure, Except.pure]
      by_cases hp : (t == .paragraph || t == .heading) = true
      · rw [if_pos hp, if_pos hp]
        cases sc with
        | none => rfl
        | some c =>
          simp only []
          cases parseInlines sm m c with
          | error => rfl
          | ok => rfl
      · rw [if_neg hp, if_neg hp]; rfl
  | t :: u :: r => by
    have ih := inlines_mark sm m (u :: r)
    rw [markLastChild, processInlinesList.eq_2, ih, processInlinesList.eq_2 _ _ t]
    cases processInlines sm m t with
    | error => rfl
    | ok t' =>
      cases hx : processInlinesList sm m (u :: r) with
      | error => rfl
      | ok x =>
        obtain ⟨y, z, rfl⟩ : ∃ y z, x = y :: z := by
          rw [processInlinesList] at hx
          cases h1 : processInlines sm m u with
          | error => rw [h1] at hx; cases hx
          | ok y =>
            cases h2 : processInlinesList sm m r with
            | error => rw [h1, h2] at hx; cases hx
            | ok z => rw [h1, h2] at hx; cases hx; exact ⟨y, z, rfl⟩
        simp only [Except.map, Except.bind, bind, pure, Except.pure, markLastChild]

theorem inlines_last (sm : Bool) (m : RefMap) {cs xs : List Tree} (h : processInlinesList sm m cs = .ok xs) {t : Tree}
    (ht : cs.getLast? = some t) : ∃ u, xs.getLast? = some u ∧ u.data = t.data := by
  obtain ⟨a, rfl⟩ : ∃ a, cs = a ++ [t] := by
    rcases List.eq_nil_or_concat cs with h0 | ⟨A, b, h0⟩
    · rw [h0] at ht; cases ht
    · have h0 : cs = A ++ [b] := by simpa using h0
      rw [h0, List.getLast?_concat] at ht
      cases ht
      exact ⟨A, h0⟩
  rw [inlines_append] at h
  cases h1 : processInlinesList sm m a with
  | error => rw [h1] at h; cases h
  | ok x =>
    rw [h1] at h
    simp only [Except.bind, processInlinesList] at h
    cases h2 : processInlines sm m t with
    | error => rw [h2] at h; cases h
    | ok u =>
      rw [h2] at h
      simp only [bind, Except.bind, pure, Except.pure, Except.map, Except.ok.injEq] at h
      refine ⟨u, by rw [← h, List.getLast?_concat], ?_⟩
      obtain ⟨d, cs⟩ := t
      unfold processInlines at h2
      cases h3 : processInlinesList sm m cs with
      | error => rw [h3] at h2; cases h2
      | ok y =>
        rw [h3] at h2
        simp only [bind, Except.bind, pure, Except.pure] at h2
        by_cases hp : (d.t == .paragraph || d.t == .heading) = true
        · rw [if_pos hp] at h2
          cases h4 : d.stringContent with
          | none => rw [h4] at h2; cases h2
          | some c =>
            rw [h4] at h2
            cases h5 : parseInlines sm m c with
            | error => simp only [h5] at h2; cases h2
            | ok => simp only [h5] at h2; cases h2; rfl
        · rw [if_neg hp] at h2; cases h2; rfl

/-- Both parses. -/
theorem concat_parse {smart : Bool} {s1 s2 s : Str} {as bs : List Str} (h1 : TextLines s1 as) (h2 : TextLines s2 bs)
    (h : TextLines s (as ++ [] :: bs)) (hn : ∀ l ∈ as ++ bs, ¬ [']', ':'] <:+: l) {d1 : NodeData} {xs1 : List Tree}
    (e1 : parse smart s1 = .ok (.node d1 xs1)) (hk : ∀ t, xs1.getLast? = some t → t.data.t ∈ endKinds) :
    (∃ e, parse smart s2 = .error e ∧ parse smart s = .error e) ∨
    ∃ β d2 d xs2 ys, parse smart s2 = .ok (.node d2 xs2) ∧ parse smart s = .ok (.node d (markLastChild xs1 ++ ys)) ∧
      d2.t = .document ∧ d.t = .document ∧
      erL (concatSim β [] (as.length + 1)).φ xs2 = erL (concatSim β [] (as.length + 1)).ψ ys := by
  obtain ⟨r1, c1, c2, b1, i1, _, _, _, hb1, _, _, i2, _⟩ := blockPhase_ok PState.init s1
  obtain ⟨r2, _, _, _, j1, _⟩ := blockPhase_ok PState.init s2
  have m1 := no_definitions h1 (fun l hl => hn l (List.mem_append_left _ hl)) i1
  have m2 := no_definitions h2 (fun l hl => hn l (List.mem_append_right _ hl)) j1
  have hp1 := parse_blocks (smart := smart) i1 i2
  rw [m1, e1, processInlines] at hp1
  simp only [closeData, hb1, bind, Except.bind] at hp1
  cases f1 : processInlinesList smart [] b1.children with
  | error => rw [f1] at hp1; cases hp1
  | ok ys1 =>
    rw [f1] at hp1
    cases hp1
    have hk' : ∀ t, b1.children.getLast? = some t → t.data.t ∈ endKinds := by
      intro t ht
      obtain ⟨u, hu1, hu2⟩ := inlines_last smart [] f1 ht
      rw [← hu2]; exact hk u hu1
    obtain ⟨β, r, d2, d, cs2, cs, hβ, k1, k2, k3, k4, k5, k6, k7⟩ := concat_blocks h1 h2 h i1 j1 i2 hk'
    rw [m1, m2, show mergeRefs [] [] = [] from rfl] at k2
    have k7 : erL (concatSim β [] (as.length + 1)).φ cs2 = erL (concatSim β [] (as.length + 1)).ψ cs := k7
    have hr := inlines_rel smart [] k7
    rw [parse_blocks j1 k3, parse_blocks k1 k4, k2, m2]
    simp only [processInlines, k5, k6, bind, Except.bind, inlines_append, inlines_mark, f1, Except.map]
    cases g1 : processInlinesList smart [] cs2 with
    | error x =>
      rw [g1] at hr
      cases g2 : processInlinesList smart [] cs with
      | error y => rw [g2] at hr; cases hr; exact .inl ⟨x, rfl, rfl⟩
      | ok => rw [g2] at hr; cases hr
    | ok x =>
      rw [g1] at hr
      cases g2 : processInlinesList smart [] cs with
      | error y => rw [g2] at hr; cases hr
      | ok y =>
        rw [g2] at hr
        simp only [Except.map, Except.ok.injEq] at hr
        exact .inr ⟨β, d2, d, x, y, rfl, rfl, k5, k6, hr.symm⟩

/-! ### Positions -/

/-- Closed nodes have a last line. -/
def HasEnd (d : NodeData) (_ : List NodeData) : Prop := ∀ x, d.sourcepos = some x → 1 ≤ x.2.1

theorem parse_hasEnd {smart : Bool} {s : Str} {d : NodeData} {cs : List Tree} (h : parse smart s = .ok (.node d cs)) : EveryNodeList HasEnd cs := by
  have h3 := (parse_doc h).2.2.2
  have : EveryNode HasEnd (.node d cs) := by
    refine EveryNode.mono ?_ h3
    intro d ks hn x hx
    cases hn with
    | block hb => have := hb.data.start.1; have := hb.span; simp only [firstLine, lastLine, hx, Option.map_some, Option.getD_some] at *; omega
    | leaf hb _ _ => have := hb.data.start.1; have := hb.span; simp only [firstLine, lastLine, hx, Option.map_some, Option.getD_some] at *; omega
    | inline hi => cases hi <;> cases hx
  exact this.2

mutual
theorem moved_tree {β : NodeData} {A : List Tree} {N : Nat} : ∀ {t t' : Tree}, EveryNode HasEnd t →
    erT (concatSim β A N).φ t = erT (concatSim β A N).ψ t' → noColsT t' = noColsT (movedT N t)
  | .node d cs, .node d' cs', h, he => by
    simp only [erT, Tree.node.injEq] at he
    have h : HasEnd d (cs.map Tree.data) ∧ EveryNodeList HasEnd cs := h
    have ih := moved_list h.2 he.2
    have hh := h.1
    have h1 := he.1
    rw [movedT, noColsT, noColsT, ih]
    congr 1
    simp only [HasEnd] at hh
    have h2 : { er (concatSim β A N).ψ d' with sourcepos := none } = { er (concatSim β A N).φ d with sourcepos := none } := by rw [h1]
    have h3 := congrArg NodeData.sourcepos h1
    obtain ⟨t, sp, a1, a2, a3, a4, a5, a6, a7, a8, a9, a10, a11, a12, a13, a14, a15, a16, a17⟩ := d
    obtain ⟨t', sp', b1, b2, b3, b4, b5, b6, b7, b8, b9, b10, b11, b12, b13, b14, b15, b16, b17⟩ := d'
    simp only [er, NodeData.mk.injEq, true_and] at h2
    simp only [er] at h3 hh
    simp only [noCols, moved, NodeData.mk.injEq, h2, true_and, and_true]
    cases sp with
    | none => cases sp' with
      | none => rfl
      | some => cases h3
    | some x => cases sp' with
      | none => cases h3
      | some y =>
        have := hh x rfl
        simp only [Option.map_some, concatSim, Option.some.injEq, Prod.mk.injEq, and_true] at h3 ⊢
        rw [if_neg (by omega)] at h3
        by_cases hy : y.2.1 ≤ N
        · rw [if_pos hy] at h3; omega
        · rw [if_neg hy] at h3; exact ⟨h3.1.symm, h3.2.symm⟩
theorem moved_list {β : NodeData} {A : List Tree} {N : Nat} : ∀ {ts ts' : List Tree}, EveryNodeList HasEnd ts →
    erL (concatSim β A N).φ ts = erL (concatSim β A N).ψ ts' → noColsL ts' = noColsL (movedL N ts)
  | [], [], _, _ => rfl
  | [], _ :: _, _, h => by rw [erL, erL] at h; cases h
  | _ :: _, [], _, h => by rw [erL, erL] at h; cases h
  | t :: ts, t' :: ts', hh, h => by
    rw [erL, erL, List.cons.injEq] at h
    rw [movedL, noColsL, noColsL, moved_tree hh.1 h.1, moved_list hh.2 h.2]
end

theorem unblank_mark : ∀ cs : List Tree, (markLastChild cs).map unblank = cs.map unblank
  | [] => rfl
  | [.node d cs] => rfl
  | t :: u :: r => by rw [markLastChild, List.map_cons, unblank_mark (u :: r), ← List.map_cons]

/-! ### HTML -/

theorem concat_render {o : HtmlOpts} (ho : o.sourcepos = false) {d d1 d2 : NodeData} {x y z w : List Tree} (h : d.t = .document)
    (h1 : d1.t = .document) (h2 : d2.t = .document) (hx : bareL z = bareL x) (hy : bareL w = bareL y)
    (kx : ∀ c ∈ x, c.kind ∈ topLevelKinds) (ky : ∀ c ∈ y, c.kind ∈ topLevelKinds) :
    renderHtml o (.node d (z ++ w)) = (renderHtml o (.node d1 x)).bind fun a => (renderHtml o (.node d2 y)).map fun b => a ++ b := by
  have t0 : tightOf (some d) = .ok false := by simp [tightOf, h]
  have t1 : tightOf (some d1) = .ok false := by simp [tightOf, h1]
  have t2 : tightOf (some d2) = .ok false := by simp [tightOf, h2]
  have e0 := eventsList_same (p := some d) (p' := some d1) (g := none) (g' := none) rfl (t0.trans t1.symm) rfl
    (ts := z ++ w) (ts' := x ++ y) (by rw [bareL_append, bareL_append, hx, hy])
  have e2 := eventsList_same (p := some d1) (p' := some d2) (g := none) (g' := none) rfl (t1.trans t2.symm) rfl
    (ts := y) (ts' := y) rfl
  unfold renderHtml
  rw [renderWith_document o d _ h, renderWith_document o d1 _ h1, renderWith_document o d2 _ h2, runEvents_same ho e0, ← runEvents_same ho e2,
    runEvents_blocks _ kx, runEvents_blocks _ ky, runEvents_blocks _ (fun c hc => (List.mem_append.1 hc).elim (kx c) (ky c))]
  rw [List.mapM_append]
  generalize (List.mapM (m := Except PyErr) _ x) = xs
  generalize (List.mapM (m := Except PyErr) _ y) = ys
  cases xs with
  | error => rfl
  | ok x =>
    cases ys with
    | error => rfl
    | ok y => simp [Except.map, Except.bind, bind, pure, Except.pure]

end CM
