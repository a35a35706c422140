import Verif.Proofs.SmartEmph
/-
C60: the inline parser with and without the option `smart`.
-/
namespace CM
open Spec

/-- Both succeed with related results, or both fail alike. -/
def Both {α β : Type} (R : α → β → Prop) (x : Except PyErr α) (y : Except PyErr β) : Prop :=
  (∃ a b, x = .ok a ∧ y = .ok b ∧ R a b) ∨ ∃ e, x = .error e ∧ y = .error e

theorem Both.ok {α β : Type} {R : α → β → Prop} {a : α} {b : β} (h : R a b) : Both R (.ok a) (.ok b) :=
  Or.inl ⟨a, b, rfl, rfl, h⟩

theorem Both.bind {α β γ δ : Type} {R : α → β → Prop} {S : γ → δ → Prop} {x : Except PyErr α} {y : Except PyErr β}
    {f : α → Except PyErr γ} {g : β → Except PyErr δ} (h : Both R x y) (hf : ∀ a b, R a b → Both S (f a) (g b)) :
    Both S (x >>= f) (y >>= g) := by
  rcases h with ⟨a, b, rfl, rfl, h⟩ | ⟨e, rfl, rfl⟩
  · exact hf a b h
  · exact Or.inr ⟨e, rfl, rfl⟩

theorem Both.mono {α β : Type} {R S : α → β → Prop} {x : Except PyErr α} {y : Except PyErr β} (h : Both R x y)
    (hs : ∀ a b, R a b → S a b) : Both S x y := by
  rcases h with ⟨a, b, h1, h2, h⟩ | h
  · exact Or.inl ⟨a, b, h1, h2, hs a b h⟩
  · exact Or.inr h

/-! ### Text -/

theorem ellipses_smart : ∀ n : Nat, ∀ s : Str, s.length ≤ n → (∀ c ∈ s, isMain c = true) →
    Smartened s (ellipses s)
  | 0, s, h, _ => by
    have : s = [] := List.length_eq_zero_iff.1 (by omega)
    subst this; exact .nil
  | n + 1, s, h, hm => by
    unfold ellipses
    split
    · rename_i t
      have := ellipses_smart n t (by simp only [List.length_cons] at h; omega) fun c hc => hm c (by simp [hc])
      exact .step .dots this
    · rename_i c t _
      have := ellipses_smart n t (by simp only [List.length_cons] at h; omega) fun c hc => hm c (by simp [hc])
      exact .step (.same c) this
    · exact .nil

theorem dashRun_smart (n : Nat) : Smartened (List.replicate n '-') (dashRun n) := by
  unfold dashRun
  split
  · exact Smartened.refl _
  · rename_i h
    refine Smartened.piece ?_
    have e : smartDashes (List.replicate n '-') = List.replicate (smartCounts n).1 '—' ++ List.replicate (smartCounts n).2 '–' := by
      simp [smartDashes, emDash, enDash]
    rw [e]
    refine .dashes n _ _ (by omega) ?_
    simp only [smartCounts, DashRule]
    split
    · simp_all; omega
    · split
      · simp_all; omega
      · split
        · simp_all
          refine ⟨by omega, by omega, by omega, fun a b hab => by omega⟩
        · simp_all
          refine ⟨by omega, by omega, by omega, fun _ _ a b hab => by omega⟩

/-- Dashes after ellipses: both are pieces of the original text. -/
theorem dashes_smart {x y : Str} (h : Smartened x y) (hq : ∀ c ∈ x, isMain c = true) : ∀ k : Nat,
    Smartened (List.replicate k '-' ++ x) (mapRuns '-' dashRun k y) := by
  induction h with
  | nil => intro k; simp only [List.append_nil, mapRuns]; exact dashRun_smart k
  | @step p q x y hp _ ih =>
    have ih := ih fun c hc => hq c (by simp [hc])
    intro k
    have hother : ∀ (p : Str) (c : Char), SmartPiece p [c] → c ≠ '-' →
        Smartened (List.replicate k '-' ++ (p ++ x)) (mapRuns '-' dashRun k ([c] ++ y)) := by
      intro p c hp hc
      rw [List.singleton_append, mapRuns, if_neg hc]
      have := (dashRun_smart k).append (Smartened.step hp (ih 0))
      simpa using this
    cases hp with
    | same c =>
      by_cases hc : c = '-'
      · subst hc
        have := ih (k + 1)
        rw [List.replicate_succ', List.append_assoc] at this
        rw [List.singleton_append, List.singleton_append, mapRuns, if_pos rfl]
        exact this
      · exact hother _ c (.same c) hc
    | dots => exact hother _ '…' .dots (by decide)
    | dashes n a b hn hd =>
      have hskip : ∀ (m : Nat) (c : Char), c ≠ '-' → ∀ k z,
          mapRuns '-' dashRun k (List.replicate m c ++ z) =
            if m = 0 then mapRuns '-' dashRun k z else dashRun k ++ (List.replicate m c ++ mapRuns '-' dashRun 0 z) := by
        intro m c hc
        induction m with
        | zero => intro k z; rfl
        | succ m ihm =>
          intro k z
          rw [List.replicate_succ, List.cons_append, mapRuns, if_neg hc, ihm]
          by_cases h0 : m = 0
          · subst h0; simp
          · rw [if_neg h0, if_neg (by omega)]
            have : dashRun 0 = [] := rfl
            rw [this]; rfl
      have h0 : dashRun 0 = [] := rfl
      have e : mapRuns '-' dashRun k ((List.replicate a '—' ++ List.replicate b '–') ++ y) =
          dashRun k ++ ((List.replicate a '—' ++ List.replicate b '–') ++ mapRuns '-' dashRun 0 y) := by
        rw [List.append_assoc, hskip a _ (by decide)]
        split
        · rename_i ha
          rw [hskip b _ (by decide), if_neg (by have := hd.1; omega), ha]; rfl
        · rw [hskip b _ (by decide)]
          split
          · rename_i hb; rw [hb]; simp
          · rw [h0]; simp
      rw [e]
      exact (dashRun_smart k).append (Smartened.step (.dashes n a b hn hd) (ih 0))
    | single c hc =>
      exact absurd (hq '\'' (by simp)) (by decide)
    | double c hc =>
      exact absurd (hq '"' (by simp)) (by decide)

theorem smartString {m : Str} (hm : ∀ c ∈ m, isMain c = true) :
    Smartened m (reDash.sub smartDashes (reEllipses.sub (fun _ => [ellipsis]) m)) := by
  rw [reEllipses_sub _ m (Nat.le_refl _), reDash_sub _ _ (Nat.le_refl _)]
  exact dashes_smart (ellipses_smart _ m (Nat.le_refl _) hm) hm 0

/-! ### Final spaces -/

theorem _root_.Spec.SmartPiece.ne_nil {p q : Str} (h : SmartPiece p q) : p ≠ [] ∧ q ≠ [] := by
  cases h with
  | dashes n a b hn hd =>
    have := hd.1
    constructor
    · intro h; have := congrArg List.length h; simp at this; omega
    · intro h; have := congrArg List.length h; simp at this; omega
  | _ => simp

theorem _root_.Spec.Smartened.nil_iff {x y : Str} (h : Smartened x y) : x = [] ↔ y = [] := by
  cases h with
  | nil => simp
  | step hp _ => have := hp.ne_nil; simp [this.1, this.2]

theorem _root_.Spec.SmartPiece.last {p q : Str} (h : SmartPiece p q) : p = [' '] ∧ q = [' '] ∨
    (p.getLast? ≠ some ' ' ∧ q.getLast? ≠ some ' ') := by
  cases h with
  | same c =>
    by_cases e : c = ' '
    · left; simp [e]
    · right; simp [e]
  | dots => right; decide
  | dashes n a b hn hd =>
    right
    have hr : ∀ (n : Nat) (c : Char), c ≠ ' ' → (List.replicate n c).getLast? ≠ some ' ' := by
      intro n c hc h
      have := List.mem_of_getLast? h
      rw [List.mem_replicate] at this
      exact hc this.2.symm
    refine ⟨hr n _ (by decide), ?_⟩
    intro h
    have := List.mem_of_getLast? h
    simp [List.mem_append, List.mem_replicate] at this
  | single c hc => right; rcases hc with rfl | rfl <;> decide
  | double c hc => right; rcases hc with rfl | rfl <;> decide

theorem getLast_append_ne {a b : Str} (hb : b ≠ []) : (a ++ b).getLast? = b.getLast? := by
  rw [List.getLast?_append]
  cases h : b.getLast? with
  | none => exact absurd (List.getLast?_eq_none_iff.1 h) hb
  | some c => rfl

theorem _root_.Spec.Smartened.spaces {x y : Str} (h : Smartened x y) : ∃ x0 y0 k, x = x0 ++ List.replicate k ' ' ∧
    y = y0 ++ List.replicate k ' ' ∧ Smartened x0 y0 ∧ x0.getLast? ≠ some ' ' ∧ y0.getLast? ≠ some ' ' := by
  induction h with
  | nil => exact ⟨[], [], 0, rfl, rfl, .nil, by decide, by decide⟩
  | @step p q x y hp hr ih =>
    obtain ⟨x0, y0, k, rfl, rfl, h1, h2, h3⟩ := ih
    by_cases hx : x0 = []
    · have hy := h1.nil_iff.1 hx
      subst hx hy
      rcases hp.last with ⟨rfl, rfl⟩ | ⟨h4, h5⟩
      · exact ⟨[], [], k + 1, rfl, rfl, .nil, by decide, by decide⟩
      · exact ⟨p, q, k, rfl, rfl, Smartened.piece hp, h4, h5⟩
    · have hy : y0 ≠ [] := fun h => hx (h1.nil_iff.2 h)
      refine ⟨p ++ x0, q ++ y0, k, by simp, by simp, .step hp h1, ?_, ?_⟩
      · rw [getLast_append_ne hx]; exact h2
      · rw [getLast_append_ne hy]; exact h3

/-! ### States -/

section
variable {ρ : Nat → Nat} {κ : Nat → Option Char} {D : Char → Nat → Bool → Bool → Prop}

/-- The bracket stacks. -/
inductive BRel (ρ : Nat → Nat) : List Delim → List Bracket → List Bracket → Prop
  | nil {ds : List Delim} : BRel ρ ds [] []
  | cons {ds a below : List Delim} {b b' : Bracket} {bs bs' : List Bracket} : ds = a ++ below →
      ρ b.node ≠ 0 → b'.node = ρ b.node → b'.index = b.index → b'.image = b.image → b'.active = b.active →
      b.prevDelim = below.head?.map (·.node) → b'.prevDelim = (plainOf ρ below).head?.map (·.node) →
      BRel ρ below bs bs' → BRel ρ ds (b :: bs) (b' :: bs')

structure OSim (ρ : Nat → Nat) (κ : Nat → Option Char) (D : Char → Nat → Bool → Bool → Prop) (S N : IState) : Prop where
  maps : Maps ρ κ
  pos : N.pos = S.pos
  items : IRs ρ κ S.children N.children
  ids : ∀ a ∈ S.children, a.id < S.nextId
  free : ∀ i, S.nextId ≤ i → ρ i = 0 ∧ κ i = none
  small : ∀ i, ρ i < N.nextId
  first : 1 ≤ S.nextId
  delims : N.delims = plainOf ρ S.delims
  ok : ∀ d ∈ S.delims, DOk ρ κ D d
  dsmall : ∀ d ∈ S.delims, d.node < S.nextId
  pair : S.delims.Pairwise fun d e => d.node ≠ e.node
  brackets : BRel ρ S.delims S.brackets N.brackets

theorem OSim.setPos {S N : IState} (h : OSim ρ κ D S N) (p : Nat) : OSim ρ κ D { S with pos := p } { N with pos := p } :=
  ⟨h.maps, rfl, h.items, h.ids, h.free, h.small, h.first, h.delims, h.ok, h.dsmall, h.pair, h.brackets⟩

theorem OSim.push {S N : IState} (h : OSim ρ κ D S N) {t u : Tree} (ht : SmartTree t u) : OSim ρ κ D (S.push u) (N.push t) := by
  refine ⟨h.maps, h.pos, List.rel_append h.items (.cons (IR.plain h.maps ht) .nil), ?_, h.free, h.small, h.first, h.delims,
    h.ok, h.dsmall, h.pair, h.brackets⟩
  intro a ha
  simp only [IState.push, List.mem_append, List.mem_singleton] at ha
  rcases ha with ha | rfl
  · exact h.ids a ha
  · exact h.first

theorem OSim.push_same {S N : IState} (h : OSim ρ κ D S N) (t : Tree) : OSim ρ κ D (S.push t) (N.push t) :=
  h.push (SmartTree.refl t)

/-- A new name. -/
def renum (ρ : Nat → Nat) (i v : Nat) : Nat → Nat := fun j => if j = i then v else ρ j
def quoted (κ : Nat → Option Char) (i : Nat) (q : Char) : Nat → Option Char := fun j => if j = i then some q else κ j

theorem plainOf_congr {ρ ρ' : Nat → Nat} {ds : List Delim} (h : ∀ d ∈ ds, ρ' d.node = ρ d.node) : plainOf ρ' ds = plainOf ρ ds := by
  unfold plainOf
  apply List.map_congr_left
  intro d hd
  rw [List.mem_filter] at hd
  simp [Delim.via, h d hd.1]

theorem BRel.congr {ρ ρ' : Nat → Nat} {ds : List Delim} {bs bs' : List Bracket} (h : BRel ρ ds bs bs')
    (hd : ∀ d ∈ ds, ρ' d.node = ρ d.node) (hb : ∀ i, ρ i ≠ 0 → ρ' i = ρ i) : BRel ρ' ds bs bs' := by
  induction h with
  | nil => exact .nil
  | cons e h1 h2 h3 h4 h5 h6 h7 _ ih =>
    subst e
    have hd' := fun d h => hd d (List.mem_append_right _ h)
    refine .cons rfl (by rw [hb _ h1]; exact h1) (by rw [hb _ h1]; exact h2) h3 h4 h5 h6 ?_ (ih hd')
    rw [plainOf_congr hd']; exact h7

theorem IRs.congr {ρ ρ' : Nat → Nat} {κ κ' : Nat → Option Char} {xs ys : List Item} (h : IRs ρ κ xs ys)
    (he : ∀ a ∈ xs, ρ' a.id = ρ a.id ∧ κ' a.id = κ a.id) : IRs ρ' κ' xs ys := by
  induction h with
  | nil => exact .nil
  | cons hab _ ih =>
    obtain ⟨e1, e2⟩ := he _ (List.mem_cons_self ..)
    refine .cons ⟨by rw [e1]; exact hab.id, hab.tree, by rw [e1]; exact hab.same, by rw [e2]; exact hab.quote⟩
      (ih fun a ha => he a (List.mem_cons_of_mem _ ha))

theorem DOk.congr {ρ ρ' : Nat → Nat} {κ κ' : Nat → Option Char} {d : Delim} (h : DOk ρ κ D d) (e1 : ρ' d.node = ρ d.node)
    (e2 : κ' d.node = κ d.node) : DOk ρ' κ' D d :=
  ⟨by rw [e1]; exact h.mark, by rw [e2]; exact h.quote, h.sort⟩

/-- The maps after a node that both runs name. -/
theorem OSim.renumMaps {S N : IState} (h : OSim ρ κ D S N) : Maps (renum ρ S.nextId N.nextId) κ := by
  have hN : 0 < N.nextId := by have := h.small 0; omega
  refine ⟨?_, ?_, ?_⟩
  · have := h.first
    simp only [CM.renum]
    rw [if_neg (by omega)]; exact h.maps.zero
  · intro i j hi e
    simp only [CM.renum] at hi e
    split at e
    · rename_i ei
      split at e
      · rename_i ej; rw [ei, ej]
      · exact absurd e (by have := h.small j; omega)
    · split at e
      · exact absurd e (by have := h.small i; omega)
      · rename_i ei _
        rw [if_neg ei] at hi
        exact h.maps.inj i j hi e
  · intro i q hq
    obtain ⟨h1, h2⟩ := h.maps.quote i q hq
    refine ⟨?_, h2⟩
    simp only [CM.renum]
    split
    · rename_i ei
      rw [ei, (h.free S.nextId (Nat.le_refl _)).2] at hq
      cases hq
    · exact h1

theorem renum_lt {i n v : Nat} (h : i < n) : renum ρ n v i = ρ i := by
  simp only [CM.renum]; rw [if_neg (by omega)]

theorem OSim.renum_ne {S N : IState} (h : OSim ρ κ D S N) {v : Nat} (i : Nat) (hi : ρ i ≠ 0) :
    renum ρ S.nextId v i = ρ i := by
  apply renum_lt
  apply Classical.byContradiction
  intro hlt
  exact hi (h.free i (by omega)).1

theorem OSim.addBracket {S N : IState} (h : OSim ρ κ D S N) (s : Str) (i : Nat) (im : Bool) :
    OSim (CM.renum ρ S.nextId N.nextId) κ D (addBracket S s i im) (addBracket N s i im) := by
  have hN : 0 < N.nextId := by have := h.small 0; omega
  have hself : CM.renum ρ S.nextId N.nextId S.nextId = N.nextId := by simp [CM.renum]
  have hds : ∀ d ∈ S.delims, CM.renum ρ S.nextId N.nextId d.node = ρ d.node := fun d hd => renum_lt (h.dsmall d hd)
  refine ⟨h.renumMaps, h.pos, ?_, ?_, ?_, ?_, Nat.le_succ_of_le h.first, ?_, ?_, ?_, h.pair, ?_⟩
  · refine List.rel_append (IRs.congr h.items fun a ha => ⟨renum_lt (h.ids a ha), rfl⟩) (.cons ?_ .nil)
    refine ⟨hself.symm, SmartTree.refl _, fun _ => rfl, ?_⟩
    intro q hq
    rw [(h.free S.nextId (Nat.le_refl _)).2] at hq; cases hq
  · intro a ha
    simp only [CM.addBracket, List.mem_append, List.mem_singleton] at ha ⊢
    rcases ha with ha | rfl
    · have := h.ids a ha; omega
    · exact Nat.lt_succ_self _
  · intro j hj
    have hj' : S.nextId + 1 ≤ j := hj
    refine ⟨?_, (h.free j (by omega)).2⟩
    simp only [CM.renum]
    rw [if_neg (by omega)]; exact (h.free j (by omega)).1
  · intro j
    show CM.renum ρ S.nextId N.nextId j < N.nextId + 1
    simp only [CM.renum]
    split
    · omega
    · have := h.small j; omega
  · show N.delims = plainOf _ S.delims
    rw [plainOf_congr hds]; exact h.delims
  · intro d hd; exact (h.ok d hd).congr (hds d hd) rfl
  · intro d hd; exact Nat.lt_succ_of_lt (h.dsmall d hd)
  · refine .cons (a := []) (below := S.delims) rfl (by rw [hself]; omega) hself.symm rfl rfl rfl rfl ?_ (h.brackets.congr hds fun i hi => h.renum_ne i hi)
    show N.delims.head?.map (·.node) = _
    rw [plainOf_congr hds, h.delims]

/-- The plain run goes on to a related state from any state that is related up to the position. -/
theorem OSim.markDelim {S N : IState} (h : OSim ρ κ D S N) {cc : Char} (hc : cc = '*' ∨ cc = '_') {n : Nat} {o c : Bool}
    (hD : D cc n o c) (p : Nat) (t : Tree) :
    OSim (CM.renum ρ S.nextId N.nextId) κ D
      { S with pos := p, children := S.children ++ [⟨S.nextId, t⟩], delims := ⟨cc, n, n, S.nextId, o, c⟩ :: S.delims, nextId := S.nextId + 1 }
      { N with pos := p, children := N.children ++ [⟨N.nextId, t⟩], delims := ⟨cc, n, n, N.nextId, o, c⟩ :: N.delims, nextId := N.nextId + 1 } := by
  have hN : 0 < N.nextId := by have := h.small 0; omega
  have hself : CM.renum ρ S.nextId N.nextId S.nextId = N.nextId := by simp [CM.renum]
  have hds : ∀ d ∈ S.delims, CM.renum ρ S.nextId N.nextId d.node = ρ d.node := fun d hd => renum_lt (h.dsmall d hd)
  have hq : isQuote cc = false := by rcases hc with rfl | rfl <;> rfl
  refine ⟨h.renumMaps, rfl, ?_, ?_, ?_, ?_, Nat.le_succ_of_le h.first, ?_, ?_, ?_, ?_, ?_⟩
  · refine List.rel_append (IRs.congr h.items fun a ha => ⟨renum_lt (h.ids a ha), rfl⟩) (.cons ?_ .nil)
    refine ⟨hself.symm, SmartTree.refl _, fun _ => rfl, ?_⟩
    intro q hq
    rw [(h.free S.nextId (Nat.le_refl _)).2] at hq; cases hq
  · intro a ha
    simp only [List.mem_append, List.mem_singleton] at ha ⊢
    rcases ha with ha | rfl
    · have := h.ids a ha; omega
    · exact Nat.lt_succ_self _
  · intro j hj
    have hj' : S.nextId + 1 ≤ j := hj
    refine ⟨?_, (h.free j (by omega)).2⟩
    simp only [CM.renum]
    rw [if_neg (by omega)]; exact (h.free j (by omega)).1
  · intro j
    show CM.renum ρ S.nextId N.nextId j < N.nextId + 1
    simp only [CM.renum]
    split
    · omega
    · have := h.small j; omega
  · dsimp only
    rw [plainOf_mark (by exact hq), plainOf_congr hds, h.delims]
    simp [Delim.via, hself]
  · intro d hd
    simp only [List.mem_cons] at hd
    rcases hd with rfl | hd
    · refine ⟨fun _ => ⟨by dsimp only; rw [hself]; omega, hc⟩, fun e => ?_, hD⟩
      dsimp only at e; rw [hq] at e; cases e
    · exact (h.ok d hd).congr (hds d hd) rfl
  · intro d hd
    simp only [List.mem_cons] at hd
    rcases hd with rfl | hd
    · exact Nat.lt_succ_self _
    · exact Nat.lt_succ_of_lt (h.dsmall d hd)
  · refine List.pairwise_cons.2 ⟨?_, h.pair⟩
    intro e he
    have := h.dsmall e he
    dsimp only; omega
  · have hb := h.brackets.congr hds fun i hi => h.renum_ne (v := N.nextId) i hi
    dsimp only
    have : ∀ {ds : List Delim} {bs bs' : List Bracket} (x : Delim), BRel (CM.renum ρ S.nextId N.nextId) ds bs bs' →
        BRel (CM.renum ρ S.nextId N.nextId) (x :: ds) bs bs' := by
      intro ds bs bs' x hb
      cases hb with
      | nil => exact .nil
      | cons e h1 h2 h3 h4 h5 h6 h7 h8 => subst e; exact .cons (a := x :: _) rfl h1 h2 h3 h4 h5 h6 h7 h8
    exact this _ hb

/-- A quotation mark: the smart run puts it on the stack. -/
theorem OSim.quoteDelim {S N : IState} (h : OSim ρ κ D S N) {cc : Char} (hc : cc = '\'' ∨ cc = '"') {n : Nat} {o c : Bool}
    (hD : D cc n o c) (p : Nat) {y : Char} (hy : SmartPiece [cc] [y]) :
    OSim ρ (quoted κ S.nextId cc) D
      { S with pos := p, children := S.children ++ [⟨S.nextId, textNode [y]⟩], delims := ⟨cc, n, n, S.nextId, o, c⟩ :: S.delims, nextId := S.nextId + 1 }
      { N with pos := p, children := N.children ++ [⟨0, textNode [cc]⟩] } := by
  have hself : quoted κ S.nextId cc S.nextId = some cc := by simp [quoted]
  have hne : ∀ i, i < S.nextId → quoted κ S.nextId cc i = κ i := by
    intro i hi; simp only [quoted]; rw [if_neg (by omega)]
  have hq : isQuote cc = true := by rcases hc with rfl | rfl <;> rfl
  have h0 : ρ S.nextId = 0 := (h.free S.nextId (Nat.le_refl _)).1
  refine ⟨?_, rfl, ?_, ?_, ?_, h.small, Nat.le_succ_of_le h.first, ?_, ?_, ?_, ?_, ?_⟩
  · refine ⟨h.maps.zero, h.maps.inj, ?_⟩
    intro i q hq'
    simp only [quoted] at hq'
    split at hq'
    · rename_i e
      injection hq' with hq'
      subst hq'
      rw [e]
      exact ⟨h0, by have := h.first; omega, hc⟩
    · exact h.maps.quote i q hq'
  · refine List.rel_append (IRs.congr h.items fun a ha => ⟨rfl, hne _ (h.ids a ha)⟩) (.cons ?_ .nil)
    refine ⟨h0.symm, SmartTree.text (Smartened.piece hy), fun e => absurd h0 e, ?_⟩
    intro q hq'
    dsimp only at hq'
    rw [hself] at hq'
    injection hq' with hq'
    subst hq'
    exact ⟨rfl, _, rfl⟩
  · intro a ha
    simp only [List.mem_append, List.mem_singleton] at ha ⊢
    rcases ha with ha | rfl
    · have := h.ids a ha; omega
    · exact Nat.lt_succ_self _
  · intro j hj
    have hj' : S.nextId + 1 ≤ j := hj
    refine ⟨(h.free j (by omega)).1, ?_⟩
    simp only [quoted]
    rw [if_neg (by omega)]; exact (h.free j (by omega)).2
  · dsimp only
    rw [plainOf_quote (by exact hq)]; exact h.delims
  · intro d hd
    simp only [List.mem_cons] at hd
    rcases hd with rfl | hd
    · refine ⟨fun e => ?_, fun _ => hself, hD⟩
      dsimp only at e; rw [hq] at e; cases e
    · exact (h.ok d hd).congr rfl (hne _ (h.dsmall d hd))
  · intro d hd
    simp only [List.mem_cons] at hd
    rcases hd with rfl | hd
    · exact Nat.lt_succ_self _
    · exact Nat.lt_succ_of_lt (h.dsmall d hd)
  · refine List.pairwise_cons.2 ⟨?_, h.pair⟩
    intro e he
    have := h.dsmall e he
    dsimp only; omega
  · have hb := h.brackets
    dsimp only
    cases hbr : S.brackets with
    | nil =>
      rw [hbr] at hb
      cases hb' : N.brackets with
      | nil => exact .nil
      | cons => rw [hb'] at hb; cases hb
    | cons b bs =>
      rw [hbr] at hb
      generalize N.brackets = nb at hb ⊢
      generalize S.delims = sd at hb ⊢
      cases hb with
      | cons e h1 h2 h3 h4 h5 h6 h7 h8 => subst e; exact .cons (a := _ :: _) rfl h1 h2 h3 h4 h5 h6 h7 h8

/-! ### Links -/

theorem splitDelims_at {a below : List Delim} (hp : (a ++ below).Pairwise fun d e => d.node ≠ e.node) :
    splitDelims (below.head?.map (·.node)) (a ++ below) = (a.reverse, below) := by
  have htw : (a ++ below).takeWhile (fun d => some d.node != below.head?.map (·.node)) = a := by
    have hal : ∀ d ∈ a, (some d.node != below.head?.map (·.node)) = true := by
      intro d hd
      cases below with
      | nil => simp
      | cons x xs =>
        have := (List.pairwise_append.1 hp).2.2 d hd x (by simp)
        simpa using this
    rw [List.takeWhile_append_of_pos hal]
    cases below with
    | nil => simp
    | cons x xs => simp
  unfold splitDelims
  simp only [htw, List.drop_left]

theorem BRel.deactivate {ds : List Delim} {bs bs' : List Bracket} (h : BRel ρ ds bs bs') :
    BRel ρ ds (deactivate bs) (deactivate bs') := by
  induction h with
  | nil => exact .nil
  | @cons ds a below b b' bs bs' e h1 h2 h3 h4 h5 h6 h7 h8 ih =>
    simp only [CM.deactivate, List.map_cons]
    cases hb : b.image with
    | true =>
      rw [hb] at h4
      simp only [h4, if_true]
      exact .cons e h1 h2 h3 (by rw [h4, hb]) h5 h6 h7 ih
    | false =>
      rw [hb] at h4
      simp only [h4, Bool.false_eq_true, if_false]
      exact .cons e h1 h2 h3 rfl rfl h6 h7 ih

theorem plainOf_append (a b : List Delim) : plainOf ρ (a ++ b) = plainOf ρ a ++ plainOf ρ b := by
  simp [plainOf]

theorem plainOf_reverse (a : List Delim) : plainOf ρ a.reverse = (plainOf ρ a).reverse := by
  simp [plainOf]

/-- The children before and after the opener. -/
def around (id : Nat) (its : List Item) : List Item × List Item :=
  match splitAtId id its with
  | some (a, _, b) => (a, b)
  | none => (its, [])

theorem closeLink_eq (b : Bracket) (bs : List Bracket) (dest title : Str) (st : IState) {pre post inner : List Item}
    {above below : List Delim} (h1 : around b.node st.children = (pre, post)) (h2 : splitDelims b.prevDelim st.delims = (above, below))
    (h3 : processEmphasis above post = .ok inner) :
    closeLink b bs dest title st = .ok { st with
      children := pre ++ [⟨0, linkNode (if b.image then .image else .link) dest title (inner.map (·.node))⟩]
      delims := below
      brackets := if b.image then bs else deactivate bs } := by
  have e : closeLink b bs dest title st = (processEmphasis (splitDelims b.prevDelim st.delims).1 (around b.node st.children).2 >>=
      fun inner => Except.ok { st with
        children := (around b.node st.children).1 ++ [⟨0, linkNode (if b.image then .image else .link) dest title (inner.map (·.node))⟩]
        delims := (splitDelims b.prevDelim st.delims).2
        brackets := if b.image then bs else deactivate bs }) := by
    unfold closeLink around
    cases splitAtId b.node st.children with
    | none => rfl
    | some p => rfl
  rw [e, h1, h2]
  dsimp only
  rw [h3]
  rfl

theorem OSim.closeLink (hE : EmphSim D) {S N : IState} (h : OSim ρ κ D S N) {b b' : Bracket} {bs bs' : List Bracket}
    (hS : S.brackets = b :: bs) (hN : N.brackets = b' :: bs') (dest title : Str) :
    ∃ S' N', closeLink b bs dest title S = .ok S' ∧ closeLink b' bs' dest title N = .ok N' ∧ OSim ρ κ D S' N' := by
  have hb := h.brackets
  rw [hS, hN] at hb
  cases hb with
  | @cons _ a below _ _ _ _ e h1 h2 h3 h4 h5 h6 h7 h8 =>
    have hp := h.pair
    have hok := h.ok
    have hdN := h.delims
    rw [e] at hp hok hdN
    rw [plainOf_append] at hdN
    have hsS : splitDelims b.prevDelim S.delims = (a.reverse, below) := by rw [h6, e]; exact splitDelims_at hp
    have hpN : (plainOf ρ a ++ plainOf ρ below).Pairwise fun d e => d.node ≠ e.node := by
      rw [← plainOf_append]; exact plainOf_pairwise h.maps hok hp
    have hsN : splitDelims b'.prevDelim N.delims = ((plainOf ρ a).reverse, plainOf ρ below) := by
      rw [h7, hdN]; exact splitDelims_at hpN
    -- the children
    have hch : ∃ pre post pre' post', around b.node S.children = (pre, post) ∧
        around b'.node N.children = (pre', post') ∧
        IRs ρ κ pre pre' ∧ IRs ρ κ post post' ∧ (∀ x ∈ pre, x ∈ S.children) := by
      rw [h2]
      unfold around
      rcases splitAtId_rel h.maps h.items h1 with ⟨g1, g2⟩ | ⟨u, x, v, u', x', v', g1, g2, g3, g4, g5⟩
      · rw [g1, g2]; exact ⟨_, _, _, _, rfl, rfl, h.items, .nil, fun x hx => hx⟩
      · rw [g1, g2]
        refine ⟨_, _, _, _, rfl, rfl, g3, g5, ?_⟩
        have : ∀ (xs : List Item) (u : List Item) x v, splitAtId b.node xs = some (u, x, v) → ∀ y ∈ u, y ∈ xs := by
          intro xs
          induction xs with
          | nil => intro u x v h; cases h
          | cons z xs ih =>
            intro u x v h
            unfold splitAtId at h
            split at h
            · cases h; intro y hy; cases hy
            · rw [Option.map_eq_some_iff] at h
              obtain ⟨⟨u2, x2, v2⟩, h, h'⟩ := h
              simp only [Prod.mk.injEq] at h'
              obtain ⟨rfl, _, _⟩ := h'
              intro y hy
              simp only [List.mem_cons] at hy ⊢
              rcases hy with rfl | hy
              · exact Or.inl rfl
              · exact Or.inr (ih _ _ _ h y hy)
        exact this _ _ _ _ g1
    obtain ⟨pre, post, pre', post', c1, c2, c3, c4, c5⟩ := hch
    obtain ⟨us, vs, e1, e2, e3⟩ := hE ρ κ a.reverse post post' h.maps
      (fun d hd => hok d (by simp only [List.mem_reverse] at hd; simp [hd]))
      (by
        rw [List.pairwise_reverse]
        exact (List.pairwise_append.1 hp).1.imp fun h => Ne.symm h) c4
    rw [plainOf_reverse] at e2
    have htree : SmartTree (linkNode (if b'.image then .image else .link) dest title (vs.map (·.node)))
        (linkNode (if b.image then .image else .link) dest title (us.map (·.node))) := by
      rw [h4]
      exact .node (Or.inl rfl) (nodes_rel e3)
    refine ⟨{ S with
        children := pre ++ [⟨0, linkNode (if b.image then .image else .link) dest title (us.map (·.node))⟩]
        delims := below
        brackets := if b.image then bs else CM.deactivate bs },
      { N with
        children := pre' ++ [⟨0, linkNode (if b'.image then .image else .link) dest title (vs.map (·.node))⟩]
        delims := plainOf ρ below
        brackets := if b'.image then bs' else CM.deactivate bs' }, ?_, ?_, ?_⟩
    · exact closeLink_eq b bs dest title S c1 hsS e1
    · exact closeLink_eq b' bs' dest title N c2 hsN e2
    · have hsub : ∀ d ∈ below, d ∈ S.delims := fun d hd => by rw [e]; exact List.mem_append_right _ hd
      refine ⟨h.maps, h.pos, List.rel_append c3 (.cons (IR.plain h.maps htree) .nil), ?_, h.free, h.small, h.first, rfl,
        fun d hd => h.ok d (hsub d hd), fun d hd => h.dsmall d (hsub d hd), (List.pairwise_append.1 hp).2.1, ?_⟩
      · intro x hx
        simp only [List.mem_append, List.mem_singleton] at hx
        rcases hx with hx | rfl
        · exact h.ids x (c5 x hx)
        · exact h.first
      · dsimp only
        rw [h4]
        split
        · exact h8
        · exact h8.deactivate

end

end CM
