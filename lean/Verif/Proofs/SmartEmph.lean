import Mathlib.Data.List.Forall2
import Verif.Proofs.InlineRun
import Verif.Proofs.Smart
import Verif.Spec.SmartText
/-
C60: the emphasis algorithm with and without the quotation marks on the stack.
-/
namespace Spec
open CM

theorem Smartened.refl : ∀ x : Str, Smartened x x
  | [] => .nil
  | c :: x => .step (.same c) (Smartened.refl x)

mutual
theorem SmartTree.refl : ∀ t : Tree, SmartTree t t
  | .node d cs => .node (Or.inl rfl) (SmartTrees.refl cs)
theorem SmartTrees.refl : ∀ ts : List Tree, SmartTrees ts ts
  | [] => .nil
  | t :: ts => .cons (SmartTree.refl t) (SmartTrees.refl ts)
end

end Spec

namespace CM
open Spec

/-! ### Texts and trees -/

theorem _root_.Spec.Smartened.append {x y u v : Str} (h : Smartened x y) (g : Smartened u v) : Smartened (x ++ u) (y ++ v) := by
  induction h with
  | nil => exact g
  | step hp _ ih => rw [List.append_assoc, List.append_assoc]; exact .step hp ih

theorem _root_.Spec.Smartened.piece {p q : Str} (h : SmartPiece p q) : Smartened p q := by
  have := Smartened.step h .nil
  simpa using this

theorem _root_.Spec.SmartData.refl (d : NodeData) : SmartData d d := Or.inl rfl


theorem _root_.Spec.SmartTrees.append {a b c d : List Tree} (h : SmartTrees a b) (g : SmartTrees c d) : SmartTrees (a ++ c) (b ++ d) := by
  induction a generalizing b with
  | nil => cases h; exact g
  | cons x a ih => cases h with | cons h1 h2 => exact .cons h1 (ih h2)

theorem _root_.Spec.SmartTree.text {x y : Str} (h : Smartened x y) : SmartTree (textNode x) (textNode y) :=
  .node (Or.inr ⟨rfl, x, y, rfl, h, rfl⟩) .nil

/-! ### Related items

`ρ` maps the identities of the smart run to those of the plain one (0: no identity there), `κ` says which
identities of the smart run are quotation marks. -/

structure Maps (ρ : Nat → Nat) (κ : Nat → Option Char) : Prop where
  zero : ρ 0 = 0
  inj : ∀ i j, ρ i ≠ 0 → ρ i = ρ j → i = j
  quote : ∀ i q, κ i = some q → ρ i = 0 ∧ i ≠ 0 ∧ (q = '\'' ∨ q = '"')

/-- `a` is an item of the smart run, `b` of the plain one. -/
structure IR (ρ : Nat → Nat) (κ : Nat → Option Char) (a b : Item) : Prop where
  id : b.id = ρ a.id
  tree : SmartTree b.node a.node
  same : ρ a.id ≠ 0 → b.node = a.node
  quote : ∀ q, κ a.id = some q → b.node = textNode [q] ∧ ∃ x, a.node = textNode x

abbrev IRs (ρ : Nat → Nat) (κ : Nat → Option Char) := List.Forall₂ (IR ρ κ)

/-- Apply `f` to the literal. -/
def onLiteral (f : Str → Str) : Tree → Tree
  | .node d cs => .node { d with literal := d.literal.map f } cs

theorem setLiteral_eq (id : Nat) (f : Str → Str) (its : List Item) :
    setLiteral id f its = its.map fun it => if it.id = id then ⟨it.id, onLiteral f it.node⟩ else it := by
  unfold setLiteral
  congr 1
  funext it
  by_cases h : it.id = id
  · simp only [h, beq_self_eq_true, if_true]
    rcases it with ⟨i, ⟨d, cs⟩⟩
    rfl
  · simp [h]

section
variable {ρ : Nat → Nat} {κ : Nat → Option Char}

theorem IR.plain (hm : Maps ρ κ) {t u : Tree} (h : SmartTree t u) : IR ρ κ ⟨0, u⟩ ⟨0, t⟩ :=
  ⟨hm.zero.symm, h, fun h => absurd hm.zero h, fun q hq => absurd rfl (hm.quote _ _ hq).2.1⟩

theorem setLiteral_rel (hm : Maps ρ κ) {xs ys : List Item} (h : IRs ρ κ xs ys) {id : Nat} (hid : ρ id ≠ 0)
    (f : Str → Str) : IRs ρ κ (setLiteral id f xs) (setLiteral (ρ id) f ys) := by
  rw [setLiteral_eq, setLiteral_eq]
  induction h with
  | nil => exact .nil
  | @cons a b xs ys hab _ ih =>
    refine .cons ?_ ih
    dsimp only
    by_cases e : a.id = id
    · have e2 : b.id = ρ id := by rw [hab.id, e]
      rw [if_pos e, if_pos e2]
      have hs := hab.same (by rw [e]; exact hid)
      refine ⟨by rw [hab.id], ?_, fun _ => by dsimp only; rw [hs], ?_⟩
      · dsimp only; rw [hs]; exact SmartTree.refl _
      · intro q hq
        have := (hm.quote _ _ hq).1
        dsimp only at this
        rw [e] at this; exact absurd this hid
    · have e2 : b.id ≠ ρ id := by
        rw [hab.id]; intro h'; exact e (hm.inj _ _ (h' ▸ hid) h')
      rw [if_neg e, if_neg e2]; exact hab

theorem setLiteral_quote (hm : Maps ρ κ) {xs ys : List Item} (h : IRs ρ κ xs ys) {id : Nat} {q y : Char}
    (hid : κ id = some q) (hp : SmartPiece [q] [y]) : IRs ρ κ (setLiteral id (fun _ => [y]) xs) ys := by
  rw [setLiteral_eq]
  induction h with
  | nil => exact .nil
  | @cons a b xs ys hab _ ih =>
    refine .cons ?_ ih
    dsimp only
    by_cases e : a.id = id
    · rw [if_pos e]
      obtain ⟨h1, x, h2⟩ := hab.quote q (by rw [e]; exact hid)
      have h3 : onLiteral (fun _ => [y]) a.node = textNode [y] := by rw [h2]; rfl
      refine ⟨hab.id, ?_, ?_, ?_⟩
      · dsimp only; rw [h1, h3]; exact SmartTree.text (Smartened.piece hp)
      · intro h'; exact absurd (by dsimp only; rw [e]; exact (hm.quote _ _ hid).1) h'
      · intro q' hq'
        dsimp only at hq' ⊢
        rw [e, hid] at hq'
        injection hq' with hq'
        subst hq'
        exact ⟨h1, _, h3⟩
    · rw [if_neg e]; exact hab

theorem splitAtId_rel (hm : Maps ρ κ) {xs ys : List Item} (h : IRs ρ κ xs ys) {id : Nat} (hid : ρ id ≠ 0) :
    (splitAtId id xs = none ∧ splitAtId (ρ id) ys = none) ∨
    ∃ a x b a' x' b', splitAtId id xs = some (a, x, b) ∧ splitAtId (ρ id) ys = some (a', x', b') ∧
      IRs ρ κ a a' ∧ IR ρ κ x x' ∧ IRs ρ κ b b' := by
  induction h with
  | nil => exact Or.inl ⟨rfl, rfl⟩
  | @cons a b xs ys hab hr ih =>
    by_cases e : a.id = id
    · have e2 : b.id = ρ id := by rw [hab.id, e]
      right
      exact ⟨[], a, xs, [], b, ys, by simp [splitAtId, e], by simp [splitAtId, e2], .nil, hab, hr⟩
    · have e2 : b.id ≠ ρ id := by
        rw [hab.id]; intro h'; exact e (hm.inj _ _ (h' ▸ hid) h')
      rcases ih with ⟨h1, h2⟩ | ⟨u, x, v, u', x', v', h1, h2, h3, h4, h5⟩
      · left; exact ⟨by simp [splitAtId, e, h1], by simp [splitAtId, e2, h2]⟩
      · right
        exact ⟨a :: u, x, v, b :: u', x', v', by simp [splitAtId, e, h1], by simp [splitAtId, e2, h2], .cons hab h3, h4, h5⟩

theorem spanToId_rel (hm : Maps ρ κ) {xs ys : List Item} (h : IRs ρ κ xs ys) {id : Nat} (hid : ρ id ≠ 0) :
    IRs ρ κ (spanToId id xs).1 (spanToId (ρ id) ys).1 ∧ IRs ρ κ (spanToId id xs).2 (spanToId (ρ id) ys).2 := by
  induction h with
  | nil => exact ⟨.nil, .nil⟩
  | @cons a b xs ys hab hr ih =>
    by_cases e : a.id = id
    · have e2 : b.id = ρ id := by rw [hab.id, e]
      simp only [spanToId, e, e2, beq_self_eq_true, if_true]
      exact ⟨.nil, .cons hab hr⟩
    · have e2 : b.id ≠ ρ id := by
        rw [hab.id]; intro h'; exact e (hm.inj _ _ (h' ▸ hid) h')
      simp only [spanToId, beq_iff_eq, e, e2, if_false]
      exact ⟨.cons hab ih.1, ih.2⟩

theorem removeId_rel (hm : Maps ρ κ) {xs ys : List Item} (h : IRs ρ κ xs ys) {id : Nat} (hid : ρ id ≠ 0) :
    IRs ρ κ (removeId id xs) (removeId (ρ id) ys) := by
  unfold removeId
  induction h with
  | nil => exact .nil
  | @cons a b xs ys hab hr ih =>
    by_cases e : a.id = id
    · have e2 : b.id = ρ id := by rw [hab.id, e]
      simpa [e, e2] using ih
    · have e2 : b.id ≠ ρ id := by
        rw [hab.id]; intro h'; exact e (hm.inj _ _ (h' ▸ hid) h')
      rw [List.filter_cons_of_pos (by simpa using e), List.filter_cons_of_pos (by simpa using e2)]
      exact .cons hab ih

theorem nodes_rel {xs ys : List Item} (h : IRs ρ κ xs ys) : SmartTrees (ys.map (·.node)) (xs.map (·.node)) := by
  induction h with
  | nil => exact .nil
  | cons hab _ ih => exact .cons hab.tree ih

theorem wrapBetween_rel (hm : Maps ρ κ) {xs ys : List Item} (h : IRs ρ κ xs ys) (k : Kind) {i j : Nat}
    (hi : ρ i ≠ 0) (hj : ρ j ≠ 0) : IRs ρ κ (wrapBetween k i j xs) (wrapBetween k (ρ i) (ρ j) ys) := by
  unfold wrapBetween
  rcases splitAtId_rel hm h hi with ⟨h1, h2⟩ | ⟨a, x, b, a', x', b', h1, h2, h3, h4, h5⟩
  · rw [h1, h2]; exact h
  · rw [h1, h2]
    obtain ⟨g1, g2⟩ := spanToId_rel hm h5 hj
    dsimp only
    refine List.rel_append (List.rel_append h3 (.cons h4 (.cons ?_ .nil))) g2
    exact IR.plain hm (.node (Or.inl rfl) (nodes_rel g1))

/-! ### Delimiters -/

def isQuote (c : Char) : Bool := c == '\'' || c == '"'

/-- What a delimiter of the smart run is called in the plain one. -/
def Delim.via (ρ : Nat → Nat) (d : Delim) : Delim := { d with node := ρ d.node }

/-- The stack of the plain run. -/
def plainOf (ρ : Nat → Nat) (ds : List Delim) : List Delim :=
  (ds.filter fun d => !isQuote d.cc).map (Delim.via ρ)

/-- A delimiter of the smart run. -/
structure DOk (ρ : Nat → Nat) (κ : Nat → Option Char) (D : Char → Nat → Bool → Bool → Prop) (d : Delim) : Prop where
  mark : isQuote d.cc = false → ρ d.node ≠ 0 ∧ (d.cc = '*' ∨ d.cc = '_')
  quote : isQuote d.cc = true → κ d.node = some d.cc
  sort : D d.cc d.origdelims d.canOpen d.canClose

/-- The result of a match. -/
def matched (st : EmphState) (cl : Delim) (rest : List Delim) (op : Delim) (below : List Delim) (odd : Bool) : EmphState :=
  let use := if cl.numdelims ≥ 2 && op.numdelims ≥ 2 then 2 else 1
  let op' := { op with numdelims := op.numdelims - use }
  let cl' := { cl with numdelims := cl.numdelims - use }
  let items := setLiteral op.node (dropEnd use) st.items
  let items := setLiteral cl.node (dropEnd use) items
  let items := wrapBetween (if use == 1 then .emph else .strong) op.node cl.node items
  let items := if op'.numdelims == 0 then removeId op.node items else items
  let items := if cl'.numdelims == 0 then removeId cl.node items else items
  { st with
    before := if op'.numdelims == 0 then below else op' :: below
    after := if cl'.numdelims == 0 then rest else cl' :: rest
    items := items
    oddMatch := odd }

/-- The result when there is no opener. -/
def unmatched (st : EmphState) (cl : Delim) (rest : List Delim) (odd : Bool) (items : List Item) : EmphState :=
  if odd then
    { st with before := cl :: st.before, after := rest, items := items, oddMatch := odd }
  else
    { before := if cl.canOpen then cl :: st.before else st.before
      after := rest
      items := items
      openersBottom := fun ch => if ch == cl.cc then st.before.head?.map (·.node) else st.openersBottom ch
      oddMatch := odd }

theorem step_move {st : EmphState} {cl : Delim} {rest : List Delim} (h : cl.canClose = false) :
    emphStep st cl rest = { st with before := cl :: st.before, after := rest } := by
  simp [emphStep, h]

theorem step_mark {st : EmphState} {cl : Delim} {rest : List Delim} (h : cl.canClose = true)
    (hc : cl.cc = '*' ∨ cl.cc = '_') {r : Option (Delim × List Delim) × Bool}
    (hr : findOpener cl (st.openersBottom cl.cc) st.before st.oddMatch = r) :
    emphStep st cl rest =
      match r.1 with
      | none => unmatched st cl rest r.2 st.items
      | some (op, below) => matched st cl rest op below r.2 := by
  have hc' : (cl.cc == '*' || cl.cc == '_') = true := by rcases hc with h | h <;> simp [h]
  rcases r with ⟨f, odd⟩
  unfold emphStep
  rw [if_neg (by simp [h])]
  simp only [hr]
  rw [if_pos hc']
  cases f with
  | none => rfl
  | some p => obtain ⟨op, below⟩ := p; rfl

theorem step_quotes {st : EmphState} {cl : Delim} {rest : List Delim} (h : cl.canClose = true)
    (hc : isQuote cl.cc = true) {r : Option (Delim × List Delim) × Bool}
    (hr : findOpener cl (st.openersBottom cl.cc) st.before st.oddMatch = r) :
    emphStep st cl rest =
      let y := if cl.cc = '\'' then rsquo else rdquo
      let z := if cl.cc = '\'' then lsquo else ldquo
      let items := setLiteral cl.node (fun _ => [y]) st.items
      match r.1 with
      | none => unmatched st cl rest r.2 items
      | some (op, _) => { st with before := cl :: st.before, after := rest, oddMatch := r.2,
                                  items := setLiteral op.node (fun _ => [z]) items } := by
  have hc2 : cl.cc = '\'' ∨ cl.cc = '"' := by simpa [isQuote] using hc
  have hc' : (cl.cc == '*' || cl.cc == '_') = false := by rcases hc2 with h | h <;> simp [h]
  rcases r with ⟨f, odd⟩
  unfold emphStep
  simp only [h, hr, hc', Bool.not_true, Bool.false_eq_true, if_false]
  rcases hc2 with e | e
  · have e1 : (cl.cc == '\'') = true := by simp [e]
    simp only [e1, if_pos e, if_true]
    cases f with
    | none => rfl
    | some p => obtain ⟨op, below⟩ := p; rfl
  · have e1 : (cl.cc == '\'') = false := by simp [e]
    have e2 : ¬ cl.cc = '\'' := by simp [e]
    simp only [e1, if_neg e2, Bool.false_eq_true, if_false]
    cases f with
    | none => rfl
    | some p => obtain ⟨op, below⟩ := p; rfl

theorem emphMeasure_cons (d : Delim) (ds : List Delim) : emphMeasure (d :: ds) = d.numdelims + 1 + emphMeasure ds := by
  simp [emphMeasure]

theorem step_measure (st : EmphState) (cl : Delim) (rest : List Delim) :
    emphMeasure (emphStep st cl rest).after < emphMeasure (cl :: rest) := by
  have hm : emphMeasure rest < emphMeasure (cl :: rest) := by rw [emphMeasure_cons]; omega
  have hu : ∀ odd its, emphMeasure (unmatched st cl rest odd its).after < emphMeasure (cl :: rest) := by
    intro odd its; unfold unmatched; split <;> exact hm
  cases hcc : cl.canClose with
  | false => rw [step_move hcc]; exact hm
  | true =>
    by_cases hs : cl.cc = '*' ∨ cl.cc = '_'
    · rw [step_mark hcc hs rfl]
      split
      · exact hu _ _
      · simp only [matched]
        generalize hu : (if (decide (cl.numdelims ≥ 2) && _) = true then 2 else 1) = use
        have hu1 : 1 ≤ use := by rw [← hu]; split <;> omega
        split
        · exact hm
        · rename_i h0
          have : cl.numdelims - use ≠ 0 := by simpa using h0
          simp only [emphMeasure_cons]
          omega
    · have hs2 : (cl.cc == '*' || cl.cc == '_') = false := by simpa using hs
      unfold emphStep
      simp only [hcc, hs2, Bool.not_true, Bool.false_eq_true, if_false]
      split
      · split
        · exact hu _ _
        · exact hm
      · split
        · exact hu _ _
        · exact hm

/-! ### Without the rule of three -/

/-- The nearest delimiter that opens with the character `cc`. -/
def firstOpener (cc : Char) : List Delim → Option (Delim × List Delim)
  | [] => none
  | o :: os => if o.cc == cc && o.canOpen then some (o, os) else firstOpener cc os

variable {D : Char → Nat → Bool → Bool → Prop}

/-- The rule of three never keeps two delimiters apart. -/
def Free (D : Char → Nat → Bool → Bool → Prop) : Prop :=
  ∀ o cl : Delim, D o.cc o.origdelims o.canOpen o.canClose → D cl.cc cl.origdelims cl.canOpen cl.canClose →
    o.cc = cl.cc → o.canOpen = true → cl.canClose = true → isOddMatch o cl = false

/-- What holds of each of the two runs. -/
structure EOk (D : Char → Nat → Bool → Bool → Prop) (st : EmphState) : Prop where
  cross : ∀ d ∈ st.before, ∀ e ∈ st.after, d.node ≠ e.node
  pair : st.after.Pairwise fun d e => d.node ≠ e.node
  sort : ∀ d ∈ st.before ++ st.after, D d.cc d.origdelims d.canOpen d.canClose
  fresh : ∀ ch b, st.openersBottom ch = some b → ∀ d ∈ st.after, d.node ≠ b
  bottom : ∀ ch b, st.openersBottom ch = some b → ∀ pre o suf, st.before = pre ++ o :: suf → o.node = b →
    ∀ d ∈ o :: suf, ¬ (d.cc = ch ∧ d.canOpen = true)

theorem firstOpener_none {cc : Char} : ∀ {ds : List Delim}, (∀ d ∈ ds, ¬ (d.cc = cc ∧ d.canOpen = true)) →
    firstOpener cc ds = none
  | [], _ => rfl
  | d :: ds, h => by
    rw [firstOpener, if_neg (by simpa using h d (by simp))]
    exact firstOpener_none fun d hd => h d (by simp [hd])

theorem firstOpener_of_none {cc : Char} : ∀ {ds : List Delim}, firstOpener cc ds = none →
    ∀ d ∈ ds, ¬ (d.cc = cc ∧ d.canOpen = true)
  | [], _, d, hd => by simp at hd
  | x :: ds, h, d, hd => by
    rw [firstOpener] at h
    split at h
    · cases h
    · rename_i hx
      simp only [List.mem_cons] at hd
      rcases hd with rfl | hd
      · simpa using hx
      · exact firstOpener_of_none h d hd

theorem firstOpener_some {cc : Char} : ∀ {ds : List Delim} {o : Delim} {below : List Delim},
    firstOpener cc ds = some (o, below) → (∃ a, ds = a ++ o :: below) ∧ o.cc = cc ∧ o.canOpen = true
  | [], _, _, h => by simp [firstOpener] at h
  | x :: ds, o, below, h => by
    rw [firstOpener] at h
    split at h
    · rename_i hx
      simp only [Option.some.injEq, Prod.mk.injEq] at h
      obtain ⟨rfl, rfl⟩ := h
      exact ⟨⟨[], rfl⟩, by simpa using hx⟩
    · obtain ⟨⟨a, rfl⟩, h2⟩ := firstOpener_some h
      exact ⟨⟨x :: a, rfl⟩, h2⟩

theorem findOpener_first (hF : Free D) {cl : Delim} (hcl : D cl.cc cl.origdelims cl.canOpen cl.canClose)
    (hc : cl.canClose = true) {bot : Option Nat} : ∀ (ds : List Delim) (odd : Bool),
    (∀ d ∈ ds, D d.cc d.origdelims d.canOpen d.canClose) →
    (∀ b, bot = some b → ∀ pre o suf, ds = pre ++ o :: suf → o.node = b →
      ∀ d ∈ o :: suf, ¬ (d.cc = cl.cc ∧ d.canOpen = true)) →
    (findOpener cl bot ds odd).1 = firstOpener cl.cc ds := by
  intro ds
  induction ds with
  | nil => intro odd _ _; rfl
  | cons o os ih =>
    intro odd hd hb
    unfold findOpener
    by_cases e : some o.node = bot
    · rw [if_pos (by simpa using e)]
      exact (firstOpener_none (hb o.node e.symm [] o os rfl rfl)).symm
    · rw [if_neg (by simpa using e)]
      by_cases h : o.cc = cl.cc ∧ o.canOpen = true
      · have := hF o cl (hd o (by simp)) hcl h.1 h.2 hc
        simp [firstOpener, h.1, h.2, this]
      · have h1 : (o.cc == cl.cc && o.canOpen) = false := by
          cases hh : (o.cc == cl.cc && o.canOpen) with
          | false => rfl
          | true => exact absurd (by simpa using hh) h
        simp only [firstOpener, h1, Bool.false_and, Bool.false_eq_true, if_false]
        exact ih _ (fun d hd' => hd d (by simp [hd'])) fun b hb' pre o' suf e' => hb b hb' (o :: pre) o' suf (by rw [e']; rfl)

theorem EOk.found (hF : Free D) {st : EmphState} (h : EOk D st) {cl : Delim} {rest : List Delim} (ha : st.after = cl :: rest)
    (hc : cl.canClose = true) :
    (findOpener cl (st.openersBottom cl.cc) st.before st.oddMatch).1 = firstOpener cl.cc st.before :=
  findOpener_first hF (h.sort cl (by simp [ha])) hc _ _ (fun d hd => h.sort d (by simp [hd]))
    fun b hb pre o suf e e2 => h.bottom _ b hb pre o suf e e2

theorem EOk.moved {st st' : EmphState} (h : EOk D st) {cl : Delim} {rest : List Delim} (ha : st.after = cl :: rest)
    (h1 : st'.before = cl :: st.before) (h2 : st'.after = rest) (h3 : st'.openersBottom = st.openersBottom) : EOk D st' := by
  have hp := h.pair
  rw [ha, List.pairwise_cons] at hp
  refine ⟨?_, ?_, ?_, ?_, ?_⟩
  · intro d hd e he
    rw [h1] at hd; rw [h2] at he
    simp only [List.mem_cons] at hd
    rcases hd with rfl | hd
    · exact hp.1 e he
    · exact h.cross d hd e (by simp [ha, he])
  · rw [h2]; exact hp.2
  · intro d hd
    rw [h1, h2] at hd
    apply h.sort
    rw [ha]
    simp only [List.cons_append, List.mem_cons, List.mem_append] at hd ⊢
    rcases hd with h | h | h <;> simp [h]
  · intro ch b hb d hd
    rw [h3] at hb; rw [h2] at hd
    exact h.fresh ch b hb d (by simp [ha, hd])
  · intro ch b hb pre o suf e e2
    rw [h3] at hb; rw [h1] at e
    cases pre with
    | nil =>
      simp only [List.nil_append, List.cons.injEq] at e
      exact absurd e2 (h.fresh ch b hb o (by simp [ha, e.1]))
    | cons x pre =>
      simp only [List.cons_append, List.cons.injEq] at e
      exact h.bottom ch b hb pre o suf e.2 e2

theorem EOk.unmatched {st : EmphState} (h : EOk D st) {cl : Delim} {rest : List Delim} (ha : st.after = cl :: rest)
    (hn : firstOpener cl.cc st.before = none) (odd : Bool) (its : List Item) : EOk D (unmatched st cl rest odd its) := by
  unfold CM.unmatched
  split
  · exact h.moved ha rfl rfl rfl
  · have hp := h.pair
    rw [ha, List.pairwise_cons] at hp
    have hsub : ∀ d, d ∈ (if cl.canOpen then cl :: st.before else st.before) → d = cl ∨ d ∈ st.before := by
      intro d hd
      split at hd
      · simpa using hd
      · exact Or.inr hd
    refine ⟨?_, hp.2, ?_, ?_, ?_⟩
    · intro d hd e he
      rcases hsub d hd with rfl | hd
      · exact hp.1 e he
      · exact h.cross d hd e (by rw [ha]; exact List.mem_cons_of_mem _ he)
    · intro d hd
      apply h.sort
      rw [ha]
      simp only [List.mem_append] at hd ⊢
      rcases hd with hd | hd
      · rcases hsub d hd with rfl | hd
        · simp
        · exact Or.inl hd
      · simp [hd]
    · intro ch b hb d hd
      dsimp only at hb hd
      have hd' : d ∈ st.after := by rw [ha]; exact List.mem_cons_of_mem _ hd
      split at hb
      · cases hbf : st.before with
        | nil => rw [hbf] at hb; cases hb
        | cons x xs =>
          rw [hbf] at hb
          simp only [List.head?_cons, Option.map_some, Option.some.injEq] at hb
          subst hb
          exact fun e => h.cross x (by simp [hbf]) d hd' e.symm
      · exact h.fresh ch b hb d hd'
    · intro ch b hb pre o suf e e2
      dsimp only at hb e
      -- where the decomposition lies
      have hcase : (o = cl ∧ cl.node = b) ∨ ∃ pre', st.before = pre' ++ o :: suf := by
        split at e
        · cases pre with
          | nil =>
            simp only [List.nil_append, List.cons.injEq] at e
            exact Or.inl ⟨e.1.symm, by rw [e.1]; exact e2⟩
          | cons x pre =>
            simp only [List.cons_append, List.cons.injEq] at e
            exact Or.inr ⟨pre, e.2⟩
        · exact Or.inr ⟨pre, e⟩
      split at hb
      · rename_i hch
        have hch : ch = cl.cc := by simpa using hch
        rcases hcase with ⟨rfl, hnode⟩ | ⟨pre', e'⟩
        · cases hbf : st.before with
          | nil => rw [hbf] at hb; cases hb
          | cons x xs =>
            rw [hbf] at hb
            simp only [List.head?_cons, Option.map_some, Option.some.injEq] at hb
            exact absurd (hb.trans hnode.symm) (h.cross x (by simp [hbf]) o (by simp [ha]))
        · intro d hd
          subst hch
          exact firstOpener_of_none hn d (by rw [e']; exact List.mem_append_right _ hd)
      · rcases hcase with ⟨rfl, hnode⟩ | ⟨pre', e'⟩
        · exact absurd hnode (h.fresh ch b hb o (by simp [ha]))
        · exact h.bottom ch b hb pre' o suf e' e2

theorem EOk.matched {st : EmphState} (h : EOk D st) {cl : Delim} {rest : List Delim} (ha : st.after = cl :: rest)
    {op : Delim} {below : List Delim} (hf : firstOpener cl.cc st.before = some (op, below)) (odd : Bool) :
    EOk D (matched st cl rest op below odd) := by
  obtain ⟨⟨a, hb⟩, hcc, hop⟩ := firstOpener_some hf
  have hp := h.pair
  rw [ha, List.pairwise_cons] at hp
  simp only [CM.matched]
  generalize (if (decide (cl.numdelims ≥ 2) && _) = true then 2 else 1) = use
  have hbm : ∀ d, d ∈ (if (op.numdelims - use == 0) = true then below else { op with numdelims := op.numdelims - use } :: below) →
      ∃ d' ∈ st.before, d'.node = d.node ∧ d'.cc = d.cc ∧ d'.origdelims = d.origdelims ∧ d'.canOpen = d.canOpen ∧ d'.canClose = d.canClose := by
    intro d hd
    have : d = { op with numdelims := op.numdelims - use } ∨ d ∈ below := by
      split at hd
      · exact Or.inr hd
      · simpa using hd
    rcases this with rfl | hd
    · exact ⟨op, by simp [hb], rfl, rfl, rfl, rfl, rfl⟩
    · exact ⟨d, by simp [hb, hd], rfl, rfl, rfl, rfl, rfl⟩
  have ham : ∀ d, d ∈ (if (cl.numdelims - use == 0) = true then rest else { cl with numdelims := cl.numdelims - use } :: rest) →
      ∃ d' ∈ st.after, d'.node = d.node ∧ d'.cc = d.cc ∧ d'.origdelims = d.origdelims ∧ d'.canOpen = d.canOpen ∧ d'.canClose = d.canClose := by
    intro d hd
    have : d = { cl with numdelims := cl.numdelims - use } ∨ d ∈ rest := by
      split at hd
      · exact Or.inr hd
      · simpa using hd
    rcases this with rfl | hd
    · exact ⟨cl, by simp [ha], rfl, rfl, rfl, rfl, rfl⟩
    · exact ⟨d, by simp [ha, hd], rfl, rfl, rfl, rfl, rfl⟩
  refine ⟨?_, ?_, ?_, ?_, ?_⟩
  · intro d hd e he
    obtain ⟨d', h1, h2, _⟩ := hbm d hd
    obtain ⟨e', h3, h4, _⟩ := ham e he
    rw [← h2, ← h4]; exact h.cross d' h1 e' h3
  · dsimp only
    split
    · exact hp.2
    · exact List.pairwise_cons.2 ⟨hp.1, hp.2⟩
  · intro d hd
    dsimp only at hd
    rw [List.mem_append] at hd
    rcases hd with hd | hd
    · obtain ⟨d', h1, _, h2, h3, h4, h5⟩ := hbm d hd
      rw [← h2, ← h3, ← h4, ← h5]; exact h.sort d' (by simp [h1])
    · obtain ⟨d', h1, _, h2, h3, h4, h5⟩ := ham d hd
      rw [← h2, ← h3, ← h4, ← h5]; exact h.sort d' (by simp [h1])
  · intro ch b hb' d hd
    obtain ⟨d', h1, h2, _⟩ := ham d hd
    rw [← h2]; exact h.fresh ch b hb' d' h1
  · intro ch b hb' pre o suf e e2
    dsimp only at hb' e
    have hcase : (o = { op with numdelims := op.numdelims - use } ∧ suf = below) ∨ ∃ pre', below = pre' ++ o :: suf := by
      split at e
      · exact Or.inr ⟨pre, e⟩
      · cases pre with
        | nil =>
          simp only [List.nil_append, List.cons.injEq] at e
          exact Or.inl ⟨e.1.symm, e.2.symm⟩
        | cons x pre =>
          simp only [List.cons_append, List.cons.injEq] at e
          exact Or.inr ⟨pre, e.2⟩
    rcases hcase with ⟨rfl, rfl⟩ | ⟨pre', e'⟩
    · have := h.bottom ch b hb' a op suf hb e2
      intro d hd
      simp only [List.mem_cons] at hd
      rcases hd with rfl | hd
      · exact this op (by simp)
      · exact this d (by simp [hd])
    · exact h.bottom ch b hb' (a ++ op :: pre') o suf (by rw [hb, e']; simp) e2

theorem EOk.step (hF : Free D) {st : EmphState} (h : EOk D st) {cl : Delim} {rest : List Delim} (ha : st.after = cl :: rest)
    (hc : isQuote cl.cc = false → cl.cc = '*' ∨ cl.cc = '_') : EOk D (emphStep st cl rest) := by
  cases hcc : cl.canClose with
  | false => rw [step_move hcc]; exact h.moved ha rfl rfl rfl
  | true =>
    have hf := h.found hF ha hcc
    cases hq : isQuote cl.cc with
    | false =>
      rw [step_mark hcc (hc hq) rfl, hf]
      cases e : firstOpener cl.cc st.before with
      | none => exact h.unmatched ha e _ _
      | some p => exact h.matched ha e _
    | true =>
      rw [step_quotes hcc hq rfl]
      dsimp only
      rw [hf]
      cases e : firstOpener cl.cc st.before with
      | none => exact h.unmatched ha e _ _
      | some p => exact h.moved ha rfl rfl rfl

/-! ### The two runs -/

/-- The delimiters that can open. -/
def opens (ds : List Delim) : List Delim := ds.filter (·.canOpen)

theorem firstOpener_opens (cc : Char) : ∀ ds : List Delim,
    firstOpener cc (opens ds) = (firstOpener cc ds).map fun p => (p.1, opens p.2)
  | [] => rfl
  | d :: ds => by
    cases h : d.canOpen with
    | false =>
      have : opens (d :: ds) = opens ds := by simp [opens, h]
      rw [this, firstOpener_opens cc ds, firstOpener]
      simp [h]
    | true =>
      have : opens (d :: ds) = d :: opens ds := by simp [opens, h]
      rw [this, firstOpener, firstOpener]
      split
      · rfl
      · exact firstOpener_opens cc ds

theorem firstOpener_plain (ρ : Nat → Nat) {cc : Char} (hc : isQuote cc = false) : ∀ ds : List Delim,
    firstOpener cc (plainOf ρ ds) = (firstOpener cc ds).map fun p => (p.1.via ρ, plainOf ρ p.2)
  | [] => rfl
  | d :: ds => by
    cases h : isQuote d.cc with
    | true =>
      have h1 : plainOf ρ (d :: ds) = plainOf ρ ds := by simp [plainOf, h]
      have h2 : d.cc ≠ cc := by rintro rfl; rw [h] at hc; cases hc
      rw [h1, firstOpener_plain ρ hc ds, firstOpener]
      simp [h2]
    | false =>
      have h1 : plainOf ρ (d :: ds) = d.via ρ :: plainOf ρ ds := by simp [plainOf, h]
      rw [h1, firstOpener, firstOpener]
      show (if (d.cc == cc && d.canOpen) = true then _ else _) = _
      split
      · rfl
      · exact firstOpener_plain ρ hc ds

structure ESim (ρ : Nat → Nat) (κ : Nat → Option Char) (D : Char → Nat → Bool → Bool → Prop) (S N : EmphState) : Prop where
  before : opens N.before = plainOf ρ (opens S.before)
  after : N.after = plainOf ρ S.after
  items : IRs ρ κ S.items N.items
  ok : ∀ d ∈ S.before ++ S.after, DOk ρ κ D d
  left : EOk D S
  right : EOk D N

theorem opens_cons (d : Delim) (ds : List Delim) : opens (d :: ds) = if d.canOpen then d :: opens ds else opens ds := by
  cases h : d.canOpen <;> simp [opens, h]

theorem plainOf_quote {d : Delim} {ds : List Delim} (h : isQuote d.cc = true) : plainOf ρ (d :: ds) = plainOf ρ ds := by
  simp [plainOf, h]

theorem plainOf_mark {d : Delim} {ds : List Delim} (h : isQuote d.cc = false) :
    plainOf ρ (d :: ds) = d.via ρ :: plainOf ρ ds := by
  simp [plainOf, h]

theorem unmatched_before (st : EmphState) (cl : Delim) (rest : List Delim) (odd : Bool) (its : List Item) :
    opens (unmatched st cl rest odd its).before = opens (cl :: st.before) := by
  unfold unmatched
  split
  · rfl
  · dsimp only
    split
    · rfl
    · rename_i h
      rw [opens_cons, if_neg h]

theorem unmatched_items (st : EmphState) (cl : Delim) (rest : List Delim) (odd : Bool) (its : List Item) :
    (unmatched st cl rest odd its).items = its := by
  unfold unmatched; split <;> rfl

theorem unmatched_after (st : EmphState) (cl : Delim) (rest : List Delim) (odd : Bool) (its : List Item) :
    (unmatched st cl rest odd its).after = rest := by
  unfold unmatched; split <;> rfl

theorem unmatched_mem {st : EmphState} {cl : Delim} {rest : List Delim} {odd : Bool} {its : List Item} {d : Delim}
    (h : d ∈ (unmatched st cl rest odd its).before) : d = cl ∨ d ∈ st.before := by
  unfold unmatched at h
  split at h
  · simpa using h
  · dsimp only at h
    split at h
    · simpa using h
    · exact Or.inr h

theorem ESim.quote (hm : Maps ρ κ) (hF : Free D) {S N : EmphState} (h : ESim ρ κ D S N) {cl : Delim} {rest : List Delim}
    (ha : S.after = cl :: rest) (hq : isQuote cl.cc = true) : ESim ρ κ D (emphStep S cl rest) N := by
  have hok := h.ok
  rw [ha] at hok
  have hcl := (hok cl (by simp)).quote hq
  have hleft := h.left.step hF ha fun h => by rw [hq] at h; cases h
  have hq2 : cl.cc = '\'' ∨ cl.cc = '"' := by simpa [isQuote] using hq
  have hpo : ∀ xs, plainOf ρ (opens (cl :: xs)) = plainOf ρ (opens xs) := by
    intro xs
    rw [opens_cons]
    split
    · exact plainOf_quote hq
    · rfl
  have haft : N.after = plainOf ρ rest := by rw [h.after, ha, plainOf_quote hq]
  have hokm : ∀ d ∈ (cl :: S.before) ++ rest, DOk ρ κ D d := by
    intro d hd
    apply hok
    simp only [List.cons_append, List.mem_cons, List.mem_append] at hd ⊢
    rcases hd with h | h | h <;> simp [h]
  cases hcc : cl.canClose with
  | false =>
    rw [step_move hcc] at hleft ⊢
    exact ⟨by rw [h.before]; exact (hpo _).symm, haft, h.items, hokm, hleft, h.right⟩
  | true =>
    have hy : SmartPiece [cl.cc] [if cl.cc = '\'' then rsquo else rdquo] := by
      rcases hq2 with e | e
      · rw [if_pos e, e]; exact .single _ (Or.inr (by decide))
      · rw [if_neg (by rw [e]; decide), e]; exact .double _ (Or.inr (by decide))
    have hz : SmartPiece [cl.cc] [if cl.cc = '\'' then lsquo else ldquo] := by
      rcases hq2 with e | e
      · rw [if_pos e, e]; exact .single _ (Or.inl (by decide))
      · rw [if_neg (by rw [e]; decide), e]; exact .double _ (Or.inl (by decide))
    have hf := h.left.found hF ha hcc
    have e := step_quotes (st := S) (rest := rest) hcc hq rfl
    rw [e] at hleft ⊢
    dsimp only at hleft ⊢
    rw [hf] at hleft ⊢
    have hi := setLiteral_quote hm h.items hcl hy
    cases hfo : firstOpener cl.cc S.before with
    | none =>
      rw [hfo] at hleft
      refine ⟨?_, ?_, ?_, ?_, hleft, h.right⟩
      · rw [unmatched_before, h.before]; exact (hpo _).symm
      · rw [unmatched_after]; exact haft
      · rw [unmatched_items]; exact hi
      · rw [unmatched_after]
        intro d hd
        apply hokm
        rw [List.mem_append] at hd
        rcases hd with hd | hd
        · rcases unmatched_mem hd with rfl | hd <;> simp_all
        · simp [hd]
    | some p =>
      rw [hfo] at hleft
      obtain ⟨op, below⟩ := p
      obtain ⟨⟨a, hb⟩, hocc, _⟩ := firstOpener_some hfo
      have hop := (hok op (by simp [hb])).quote (by rw [hocc]; exact hq)
      refine ⟨by rw [h.before]; exact (hpo _).symm, haft, ?_, hokm, hleft, h.right⟩
      exact setLiteral_quote hm hi (by rw [hop, hocc]) hz

theorem ESim.mark (hm : Maps ρ κ) (hF : Free D) {S N : EmphState} (h : ESim ρ κ D S N) {cl : Delim} {rest : List Delim}
    (ha : S.after = cl :: rest) (hq : isQuote cl.cc = false) :
    N.after = cl.via ρ :: plainOf ρ rest ∧
    ESim ρ κ D (emphStep S cl rest) (emphStep N (cl.via ρ) (plainOf ρ rest)) := by
  have hok := h.ok
  rw [ha] at hok
  obtain ⟨hcl, hmark⟩ := (hok cl (by simp)).mark hq
  have haN : N.after = cl.via ρ :: plainOf ρ rest := by rw [h.after, ha, plainOf_mark hq]
  refine ⟨haN, ?_⟩
  have hleft := h.left.step hF ha fun _ => hmark
  have hright := h.right.step hF haN fun _ => hmark
  have hpo : ∀ xs ys, opens ys = plainOf ρ (opens xs) → opens (cl.via ρ :: ys) = plainOf ρ (opens (cl :: xs)) := by
    intro xs ys e
    rw [opens_cons, opens_cons]
    show (if cl.canOpen = true then _ else _) = _
    split
    · rw [plainOf_mark hq, e]
    · exact e
  have hokm : ∀ d ∈ (cl :: S.before) ++ rest, DOk ρ κ D d := by
    intro d hd
    apply hok
    simp only [List.cons_append, List.mem_cons, List.mem_append] at hd ⊢
    rcases hd with h | h | h <;> simp [h]
  cases hcc : cl.canClose with
  | false =>
    have hccN : (cl.via ρ).canClose = false := hcc
    rw [step_move hcc] at hleft ⊢
    rw [step_move hccN] at hright ⊢
    exact ⟨hpo _ _ h.before, rfl, h.items, hokm, hleft, hright⟩
  | true =>
    have hccN : (cl.via ρ).canClose = true := hcc
    have hf := h.left.found hF ha hcc
    have hfN := h.right.found hF haN hccN
    have e := step_mark (st := S) (rest := rest) hcc hmark rfl
    have eN := step_mark (st := N) (cl := cl.via ρ) (rest := plainOf ρ rest) hccN hmark rfl
    rw [e, hf] at hleft ⊢
    rw [eN, hfN] at hright ⊢
    have hlink : (firstOpener cl.cc N.before).map (fun p => (p.1, opens p.2)) =
        (firstOpener cl.cc S.before).map fun p => (p.1.via ρ, plainOf ρ (opens p.2)) := by
      rw [← firstOpener_opens, h.before, firstOpener_plain ρ hq, firstOpener_opens]
      cases firstOpener cl.cc S.before <;> rfl
    have hviacc : (cl.via ρ).cc = cl.cc := rfl
    rw [hviacc] at hright ⊢
    cases hfo : firstOpener cl.cc S.before with
    | none =>
      have hfoN : firstOpener cl.cc N.before = none := by
        rw [hfo] at hlink
        cases hh : firstOpener cl.cc N.before with
        | none => rfl
        | some p => rw [hh] at hlink; cases hlink
      rw [hfo] at hleft
      rw [hfoN] at hright ⊢
      refine ⟨?_, ?_, ?_, ?_, hleft, hright⟩
      · rw [unmatched_before, unmatched_before]; exact hpo _ _ h.before
      · rw [unmatched_after, unmatched_after]
      · rw [unmatched_items, unmatched_items]; exact h.items
      · rw [unmatched_after]
        intro d hd
        apply hokm
        rw [List.mem_append] at hd
        rcases hd with hd | hd
        · rcases unmatched_mem hd with rfl | hd <;> simp_all
        · simp [hd]
    | some p =>
      obtain ⟨op, below⟩ := p
      cases hh : firstOpener cl.cc N.before with
      | none => rw [hh, hfo] at hlink; cases hlink
      | some p =>
        obtain ⟨opN, belowN⟩ := p
        rw [hh, hfo] at hlink
        simp only [Option.map_some, Option.some.injEq, Prod.mk.injEq] at hlink
        obtain ⟨rfl, hbel⟩ := hlink
        rw [hfo] at hleft
        rw [hh] at hright
        obtain ⟨⟨a, hb⟩, hocc, hoo⟩ := firstOpener_some hfo
        have hopd := hok op (by simp [hb])
        have hopq : isQuote op.cc = false := by rw [hocc]; exact hq
        have hop := (hopd.mark hopq).1
        refine ⟨?_, ?_, ?_, ?_, hleft, hright⟩
        · simp only [matched]
          generalize hu : (if (decide (cl.numdelims ≥ 2) && decide (op.numdelims ≥ 2)) = true then 2 else 1) = use
          have hu' : (if (decide ((cl.via ρ).numdelims ≥ 2) && decide ((op.via ρ).numdelims ≥ 2)) = true then 2 else 1) = use := hu
          rw [hu']
          show opens (if (op.numdelims - use == 0) = true then _ else _) = _
          split
          · exact hbel
          · rw [opens_cons, opens_cons]
            show (if op.canOpen = true then _ else _) = plainOf ρ (if op.canOpen = true then _ else _)
            rw [if_pos hoo, if_pos hoo, plainOf_mark (by exact hopq), hbel]
            rfl
        · simp only [matched]
          generalize hu : (if (decide (cl.numdelims ≥ 2) && decide (op.numdelims ≥ 2)) = true then 2 else 1) = use
          have hu' : (if (decide ((cl.via ρ).numdelims ≥ 2) && decide ((op.via ρ).numdelims ≥ 2)) = true then 2 else 1) = use := hu
          rw [hu']
          show (if (cl.numdelims - use == 0) = true then _ else _) = _
          split
          · rfl
          · rw [plainOf_mark (by exact hq)]; rfl
        · simp only [matched]
          generalize hu : (if (decide (cl.numdelims ≥ 2) && decide (op.numdelims ≥ 2)) = true then 2 else 1) = use
          have hu' : (if (decide ((cl.via ρ).numdelims ≥ 2) && decide ((op.via ρ).numdelims ≥ 2)) = true then 2 else 1) = use := hu
          rw [hu']
          have i1 := setLiteral_rel hm h.items hop (dropEnd use)
          have i2 := setLiteral_rel hm i1 hcl (dropEnd use)
          have i3 := wrapBetween_rel hm i2 (if use == 1 then .emph else .strong) hop hcl
          have hrem : ∀ {xs ys : List Item} (b : Bool) {i : Nat}, ρ i ≠ 0 → IRs ρ κ xs ys →
              IRs ρ κ (if b then removeId i xs else xs) (if b then removeId (ρ i) ys else ys) := by
            intro xs ys b i hi hxy
            cases b
            · exact hxy
            · exact removeId_rel hm hxy hi
          exact hrem _ hcl (hrem _ hop i3)
        · intro d hd
          rw [List.mem_append] at hd
          simp only [matched] at hd
          generalize (if (decide (cl.numdelims ≥ 2) && _) = true then 2 else 1) = use at hd
          rcases hd with hd | hd
          · have : d = { op with numdelims := op.numdelims - use } ∨ d ∈ below := by
              split at hd
              · exact Or.inr hd
              · simpa using hd
            rcases this with rfl | hd
            · exact ⟨hopd.mark, hopd.quote, hopd.sort⟩
            · exact hok d (by simp [hb, hd])
          · have : d = { cl with numdelims := cl.numdelims - use } ∨ d ∈ rest := by
              split at hd
              · exact Or.inr hd
              · simpa using hd
            rcases this with rfl | hd
            · have := hok cl (by simp)
              exact ⟨this.mark, this.quote, this.sort⟩
            · exact hok d (by simp [hd])

theorem ESim.loop (hm : Maps ρ κ) (hF : Free D) : ∀ (fS fN : Nat) (S N : EmphState), ESim ρ κ D S N →
    emphMeasure S.after < fS → emphMeasure N.after < fN →
    ∃ xs ys, emphLoop fS S = .ok xs ∧ emphLoop fN N = .ok ys ∧ IRs ρ κ xs ys := by
  intro fS
  induction fS with
  | zero => intro _ _ _ _ h; omega
  | succ fS ih =>
    intro fN S N h hS hN
    cases ha : S.after with
    | nil =>
      have haN : N.after = [] := by rw [h.after, ha]; rfl
      cases fN with
      | zero => omega
      | succ fN =>
        exact ⟨S.items, N.items, by simp [emphLoop, ha], by simp [emphLoop, haN], h.items⟩
    | cons cl rest =>
      have e : emphLoop (fS + 1) S = emphLoop fS (emphStep S cl rest) := by simp [emphLoop, ha]
      have hmS := step_measure S cl rest
      rw [ha] at hS
      rw [e]
      cases hq : isQuote cl.cc with
      | true =>
        exact ih fN _ _ (h.quote hm hF ha hq) (by omega) hN
      | false =>
        obtain ⟨haN, h'⟩ := h.mark hm hF ha hq
        cases fN with
        | zero => omega
        | succ fN =>
          have eN : emphLoop (fN + 1) N = emphLoop fN (emphStep N (cl.via ρ) (plainOf ρ rest)) := by simp [emphLoop, haN]
          have hmN := step_measure N (cl.via ρ) (plainOf ρ rest)
          rw [haN] at hN
          rw [eN]
          exact ih fN _ _ h' (by omega) (by omega)

end

/-- The emphasis algorithm gives related results on related stacks and items. -/
def EmphSim (D : Char → Nat → Bool → Bool → Prop) : Prop :=
  ∀ (ρ : Nat → Nat) (κ : Nat → Option Char) (ds : List Delim) (xs ys : List Item), Maps ρ κ →
    (∀ d ∈ ds, DOk ρ κ D d) → (ds.Pairwise fun d e => d.node ≠ e.node) → IRs ρ κ xs ys →
    ∃ us vs, processEmphasis ds xs = .ok us ∧ processEmphasis (plainOf ρ ds) ys = .ok vs ∧ IRs ρ κ us vs

theorem plainOf_pairwise {ρ : Nat → Nat} {κ : Nat → Option Char} {D : Char → Nat → Bool → Bool → Prop} (hm : Maps ρ κ)
    {ds : List Delim} (hd : ∀ d ∈ ds, DOk ρ κ D d) (hp : ds.Pairwise fun d e => d.node ≠ e.node) :
    (plainOf ρ ds).Pairwise fun d e => d.node ≠ e.node := by
  induction ds with
  | nil => exact List.Pairwise.nil
  | cons d ds ih =>
    rw [List.pairwise_cons] at hp
    have ih := ih (fun d h => hd d (by simp [h])) hp.2
    cases hq : isQuote d.cc with
    | true => rw [plainOf_quote hq]; exact ih
    | false =>
      rw [plainOf_mark hq, List.pairwise_cons]
      refine ⟨?_, ih⟩
      intro e he
      simp only [plainOf, List.mem_map, List.mem_filter] at he
      obtain ⟨x, ⟨hx, _⟩, rfl⟩ := he
      intro h
      exact hp.1 x hx (hm.inj _ _ ((hd d (by simp)).mark hq).1 h)

theorem emphSim_free {D : Char → Nat → Bool → Bool → Prop} (hF : Free D) : EmphSim D := by
  intro ρ κ ds xs ys hm hd hp hi
  unfold processEmphasis
  refine ESim.loop hm hF _ _ _ _ ⟨rfl, rfl, hi, by simpa using hd, ?_, ?_⟩ (by simp [emphMeasure, emphFuel]) (by simp [emphMeasure, emphFuel])
  · refine ⟨by simp, hp, ?_, by simp, by simp⟩
    intro d h; exact (hd d (by simpa using h)).sort
  · refine ⟨by simp, plainOf_pairwise hm hd hp, ?_, by simp, by simp⟩
    intro d h
    simp only [plainOf, List.nil_append, List.mem_map, List.mem_filter] at h
    obtain ⟨x, ⟨hx, _⟩, rfl⟩ := h
    exact (hd x hx).sort

/-! ### Without quotation marks the runs are the same up to the names of the nodes -/

section
variable {ρ : Nat → Nat} {κ : Nat → Option Char} {D : Char → Nat → Bool → Bool → Prop}

def EmphState.via (ρ : Nat → Nat) (S : EmphState) (its : List Item) : EmphState :=
  ⟨S.before.map (Delim.via ρ), S.after.map (Delim.via ρ), its, fun ch => (S.openersBottom ch).map ρ, S.oddMatch⟩

theorem findOpener_via (hm : Maps ρ κ) (cl : Delim) (bot : Option Nat) : ∀ (ds : List Delim) (odd : Bool),
    (∀ d ∈ ds, ρ d.node ≠ 0) →
    findOpener (cl.via ρ) (bot.map ρ) (ds.map (Delim.via ρ)) odd =
      ((findOpener cl bot ds odd).1.map (fun p => (p.1.via ρ, p.2.map (Delim.via ρ))), (findOpener cl bot ds odd).2)
  | [], odd, _ => rfl
  | o :: os, odd, h => by
    have ih := findOpener_via hm cl bot os (isOddMatch o cl) fun d hd => h d (by simp [hd])
    have ho := h o (by simp)
    have e : (some (o.via ρ).node == bot.map ρ) = (some o.node == bot) := by
      cases bot with
      | none => rfl
      | some b =>
        show (some (ρ o.node) == some (ρ b)) = _
        by_cases hb : o.node = b
        · subst hb; simp
        · have : ρ o.node ≠ ρ b := fun e => hb (hm.inj _ _ ho e)
          simp [hb, this]
    rw [List.map_cons]
    unfold findOpener
    rw [e]
    split
    · rfl
    · show (if (o.cc == cl.cc && o.canOpen && !isOddMatch o cl) = true then _ else _) = _
      dsimp only
      split
      · rfl
      · exact ih

theorem step_via (hm : Maps ρ κ) {S : EmphState} {its : List Item} {cl : Delim} {rest : List Delim}
    (ha : S.after = cl :: rest) (hi : IRs ρ κ S.items its)
    (hd : ∀ d ∈ S.before ++ S.after, ρ d.node ≠ 0 ∧ (d.cc = '*' ∨ d.cc = '_')) :
    ∃ its', emphStep (S.via ρ its) (cl.via ρ) (rest.map (Delim.via ρ)) = (emphStep S cl rest).via ρ its' ∧
      IRs ρ κ (emphStep S cl rest).items its' ∧
      ∀ d ∈ (emphStep S cl rest).before ++ (emphStep S cl rest).after, ρ d.node ≠ 0 ∧ (d.cc = '*' ∨ d.cc = '_') := by
  rw [ha] at hd
  obtain ⟨hcl, hmark⟩ := hd cl (by simp)
  have hdm : ∀ d ∈ (cl :: S.before) ++ rest, ρ d.node ≠ 0 ∧ (d.cc = '*' ∨ d.cc = '_') := by
    intro d h
    apply hd
    simp only [List.cons_append, List.mem_cons, List.mem_append] at h ⊢
    rcases h with h | h | h <;> simp [h]
  cases hcc : cl.canClose with
  | false =>
    have hccN : (cl.via ρ).canClose = false := hcc
    rw [step_move hcc, step_move hccN]
    exact ⟨its, rfl, hi, hdm⟩
  | true =>
    have hccN : (cl.via ρ).canClose = true := hcc
    have hfv := findOpener_via hm cl (S.openersBottom cl.cc) S.before S.oddMatch fun d h => (hd d (by simp [h])).1
    rw [step_mark hcc hmark rfl, step_mark (st := S.via ρ its) (cl := cl.via ρ) hccN hmark hfv]
    cases hf : findOpener cl (S.openersBottom cl.cc) S.before S.oddMatch with
    | mk f odd =>
      cases f with
      | none =>
        dsimp only [Option.map_none]
        refine ⟨its, ?_, ?_, ?_⟩
        · cases odd with
          | true => rfl
          | false =>
            cases ho : cl.canOpen with
            | true =>
              simp only [unmatched, EmphState.via, Delim.via, ho, Bool.false_eq_true, if_false, if_true, List.map_cons, EmphState.mk.injEq, true_and, and_true]
              funext ch
              split
              · cases S.before <;> rfl
              · rfl
            | false =>
              simp only [unmatched, EmphState.via, Delim.via, ho, Bool.false_eq_true, if_false, EmphState.mk.injEq, true_and, and_true]
              funext ch
              split
              · cases S.before <;> rfl
              · rfl
        · rw [unmatched_items]; exact hi
        · rw [unmatched_after]
          intro d h
          apply hdm
          rw [List.mem_append] at h
          rcases h with h | h
          · rcases unmatched_mem h with rfl | h <;> simp_all
          · simp [h]
      | some p =>
        obtain ⟨op, below⟩ := p
        dsimp only [Option.map_some]
        have hsub : op ∈ S.before ∧ ∀ d ∈ below, d ∈ S.before := by
          have : ∀ (ds : List Delim) (b : Option Nat) (o : Bool), (findOpener cl b ds o).1 = some (op, below) →
              op ∈ ds ∧ ∀ d ∈ below, d ∈ ds := by
            intro ds b
            induction ds with
            | nil => intro o h; cases h
            | cons x ds ih =>
              intro o h
              unfold findOpener at h
              split at h
              · cases h
              · dsimp only at h
                split at h
                · simp only [Option.some.injEq, Prod.mk.injEq] at h
                  obtain ⟨rfl, rfl⟩ := h
                  exact ⟨by simp, fun d hd => by simp [hd]⟩
                · have := ih _ h
                  exact ⟨by simp [this.1], fun d hd => by simp [this.2 d hd]⟩
          exact this S.before _ _ (by rw [hf])
        have hop := (hd op (by simp [hsub.1])).1
        simp only [matched]
        generalize hu : (if (decide (cl.numdelims ≥ 2) && decide (op.numdelims ≥ 2)) = true then 2 else 1) = use
        have hu' : (if (decide ((cl.via ρ).numdelims ≥ 2) && decide ((op.via ρ).numdelims ≥ 2)) = true then 2 else 1) = use := hu
        rw [hu']
        have i1 := setLiteral_rel hm hi hop (dropEnd use)
        have i2 := setLiteral_rel hm i1 hcl (dropEnd use)
        have i3 := wrapBetween_rel hm i2 (if use == 1 then .emph else .strong) hop hcl
        have hrem : ∀ {xs ys : List Item} (b : Bool) {i : Nat}, ρ i ≠ 0 → IRs ρ κ xs ys →
            IRs ρ κ (if b then removeId i xs else xs) (if b then removeId (ρ i) ys else ys) := by
          intro xs ys b i hi hxy
          cases b
          · exact hxy
          · exact removeId_rel hm hxy hi
        refine ⟨_, ?_, hrem _ hcl (hrem _ hop i3), ?_⟩
        · simp only [EmphState.via, EmphState.mk.injEq, and_true]
          refine ⟨?_, ?_, rfl⟩
          · show (if (op.numdelims - use == 0) = true then _ else _) = _
            split <;> rfl
          · show (if (cl.numdelims - use == 0) = true then _ else _) = _
            split <;> rfl
        · intro d h
          rw [List.mem_append] at h
          rcases h with h | h
          · have : d = { op with numdelims := op.numdelims - use } ∨ d ∈ below := by
              split at h
              · exact Or.inr h
              · simpa using h
            rcases this with rfl | h
            · exact hd op (by simp [hsub.1])
            · exact hd d (by simp [hsub.2 d h])
          · have : d = { cl with numdelims := cl.numdelims - use } ∨ d ∈ rest := by
              split at h
              · exact Or.inr h
              · simpa using h
            rcases this with rfl | h
            · exact hd cl (by simp)
            · exact hd d (by simp [h])

theorem loop_via (hm : Maps ρ κ) : ∀ (f : Nat) (S : EmphState) (its : List Item), IRs ρ κ S.items its →
    (∀ d ∈ S.before ++ S.after, ρ d.node ≠ 0 ∧ (d.cc = '*' ∨ d.cc = '_')) → emphMeasure S.after < f →
    ∃ xs ys, emphLoop f S = .ok xs ∧ emphLoop f (S.via ρ its) = .ok ys ∧ IRs ρ κ xs ys := by
  intro f
  induction f with
  | zero => intro _ _ _ _ h; omega
  | succ f ih =>
    intro S its hi hd hf
    cases ha : S.after with
    | nil => exact ⟨S.items, its, by simp [emphLoop, ha], by simp [emphLoop, EmphState.via, ha], hi⟩
    | cons cl rest =>
      obtain ⟨its', h1, h2, h3⟩ := step_via hm ha hi hd
      have e : emphLoop (f + 1) S = emphLoop f (emphStep S cl rest) := by simp [emphLoop, ha]
      have e2 : emphLoop (f + 1) (S.via ρ its) = emphLoop f (emphStep (S.via ρ its) (cl.via ρ) (rest.map (Delim.via ρ))) := by
        have : (S.via ρ its).after = cl.via ρ :: rest.map (Delim.via ρ) := by simp [EmphState.via, ha]
        simp [emphLoop, this]
      rw [e, e2, h1]
      have hms := step_measure S cl rest
      rw [ha] at hf
      exact ih _ _ h2 h3 (by omega)

end

theorem emphSim_noQuote {D : Char → Nat → Bool → Bool → Prop} (hQ : ∀ cc n o c, D cc n o c → isQuote cc = false) :
    EmphSim D := by
  intro ρ κ ds xs ys hm hd hp hi
  have hq : ∀ d ∈ ds, isQuote d.cc = false := fun d h => hQ _ _ _ _ (hd d h).sort
  have he : plainOf ρ ds = ds.map (Delim.via ρ) := by
    unfold plainOf
    rw [List.filter_eq_self.2 (by intro d h; simp [hq d h])]
  rw [he]
  have hf : emphFuel (ds.map (Delim.via ρ)) = emphFuel ds := by
    unfold emphFuel
    rw [List.map_map]
    rfl
  unfold processEmphasis
  rw [hf]
  have := loop_via hm (emphFuel ds) ⟨[], ds, xs, fun _ => none, false⟩ ys hi
    (by simpa using fun d h => (hd d h).mark (hq d h)) (by simp [emphMeasure, emphFuel])
  exact this

end CM
