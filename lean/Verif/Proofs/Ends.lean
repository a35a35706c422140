import Verif.Proofs.ItemDoc
/-
Which lists are loose (C57): blocks followed by a blank line.
-/
namespace CM
open Spec

variable {φ ψ : Pos → Pos}

mutual
/-- A block ends with a blank line: itself, or the last block in it. -/
def rawEnds : Tree → Bool
  | .node d cs => d.lastLineBlank || ((d.t == .list || d.t == .item) && rawEndsLast cs)
def rawEndsLast : List Tree → Bool
  | [] => false
  | [t] => rawEnds t
  | _ :: u :: r => rawEndsLast (u :: r)
end

mutual
theorem ends_raw : ∀ t : Tree, (endsWithBlankLine t).1 = true → rawEnds t = true
  | .node d cs => by
    have ih := ends_rawL cs
    simp only [endsWithBlankLine, rawEnds]
    by_cases h1 : d.lastLineBlank = true
    · simp [h1]
    · rw [if_neg h1]
      by_cases h2 : (!d.lastLineChecked && (d.t == .list || d.t == .item)) = true
      · rw [if_pos h2]
        intro h
        rw [ih h]
        rw [Bool.and_eq_true] at h2
        rw [h2.2]
        simp
      · rw [if_neg h2]
        intro h; cases h
theorem ends_rawL : ∀ cs : List Tree, (endsWithBlankLast cs).1 = true → rawEndsLast cs = true
  | [] => by simp [endsWithBlankLast]
  | [t] => by simpa only [endsWithBlankLast, rawEndsLast] using ends_raw t
  | t :: u :: r => by
    have ih := ends_rawL (u :: r)
    simpa only [endsWithBlankLast, rawEndsLast] using ih
end

mutual
theorem raw_er : ∀ t : Tree, rawEnds (erT φ t) = rawEnds t
  | .node d cs => by rw [erT, rawEnds, rawEnds, raw_erL cs]; rfl
theorem raw_erL : ∀ cs : List Tree, rawEndsLast (erL φ cs) = rawEndsLast cs
  | [] => rfl
  | [t] => by simp only [erL, rawEndsLast, raw_er t]
  | t :: u :: r => by
    have ih := raw_erL (u :: r)
    simpa only [erL, rawEndsLast] using ih
end

mutual
theorem raw_ends : ∀ t : Tree, rawEnds (endsWithBlankLine t).2 = rawEnds t
  | .node d cs => by
    have ih := raw_endsL cs
    simp only [endsWithBlankLine]
    by_cases h1 : d.lastLineBlank = true
    · rw [if_pos h1]
    · rw [if_neg h1]
      by_cases h2 : (!d.lastLineChecked && (d.t == .list || d.t == .item)) = true
      · rw [if_pos h2]; simp only [rawEnds, ih]
      · rw [if_neg h2]; simp only [rawEnds]
theorem raw_endsL : ∀ cs : List Tree, rawEndsLast (endsWithBlankLast cs).2 = rawEndsLast cs
  | [] => by simp [endsWithBlankLast]
  | [t] => by simpa only [endsWithBlankLast, rawEndsLast] using raw_ends t
  | t :: u :: r => by
    have ih := raw_endsL (u :: r)
    simp only [endsWithBlankLast, rawEndsLast]
    cases h : (endsWithBlankLast (u :: r)).2 with
    | nil => rw [h] at ih; rw [← ih]; cases r <;> simp [endsWithBlankLast] at h
    | cons v w => rw [h] at ih; simpa only [rawEndsLast] using ih
end

/-- The tightness check says `f` of the block, and would say so without what it remembers. -/
structure EndsIn (t : Tree) (f : Bool) : Prop where
  ends : (endsWithBlankLine t).1 = f
  raw : rawEnds t = f

theorem ends_false {t : Tree} (h : rawEnds t = false) : EndsIn t false := by
  refine ⟨?_, h⟩
  cases he : (endsWithBlankLine t).1 with
  | false => rfl
  | true => rw [ends_raw t he] at h; cases h

theorem ends_flag {t : Tree} (h : t.data.lastLineBlank = true) : EndsIn t true := by
  obtain ⟨d, cs⟩ := t
  have h : d.lastLineBlank = true := h
  exact ⟨by simp [endsWithBlankLine, h], by simp [rawEnds, h]⟩

theorem ends_er {t t' : Tree} {f : Bool} (h : erT φ t = erT ψ t') (he : EndsIn t f) : EndsIn t' f := by
  refine ⟨?_, ?_⟩
  · have h1 := ends_noCols (φ := φ) t
    have h2 := ends_noCols (φ := ψ) t'
    rw [h, h2] at h1
    exact (congrArg Prod.fst h1).trans he.ends
  · rw [← raw_er (φ := ψ), ← h, raw_er]; exact he.raw

/-- The blocks are followed by blank lines or not. -/
def Marks (cs : List Tree) (fs : List Bool) : Prop := List.Forall₂ EndsIn cs fs

theorem marks_er {cs cs' : List Tree} {fs : List Bool} (h : erL φ cs = erL ψ cs') (hm : Marks cs fs) : Marks cs' fs := by
  induction hm generalizing cs' with
  | nil =>
    cases cs' with
    | nil => exact .nil
    | cons => simp [erL] at h
  | cons h1 _ ih =>
    cases cs' with
    | nil => simp [erL] at h
    | cons t ts =>
      simp only [erL, List.cons.injEq] at h
      exact .cons (ends_er h.1 h1) (ih h.2)

theorem marks_raw : ∀ {cs : List Tree} {fs : List Bool} {f : Bool}, List.Forall₂ EndsIn cs fs → fs.getLast? = some f → rawEndsLast cs = f
  | _, _, _, .nil, h => by cases h
  | _, _, _, .cons h1 .nil, h => by
    simp only [List.getLast?_singleton, Option.some.injEq] at h
    rw [← h]; exact h1.raw
  | _, _, _, .cons _ (.cons h2 h3), h => by
    rw [List.getLast?_cons_cons] at h
    rw [rawEndsLast]
    exact marks_raw (.cons h2 h3) h

theorem subitems_marks {b : Bool} : ∀ {cs : List Tree} {fs : List Bool}, Marks cs fs →
    (checkSubitems b cs).1 = if b then fs.any id else fs.dropLast.any id := by
  intro cs fs h
  induction h with
  | nil => simp [checkSubitems]
  | @cons t f ts fs h1 h2 ih =>
    have he : ts.isEmpty = fs.isEmpty := by cases h2 <;> rfl
    simp only [checkSubitems, h1.ends, he]
    cases hf : fs with
    | nil =>
      rw [hf] at h2
      cases h2
      cases b <;> cases f <;> simp [checkSubitems]
    | cons g gs =>
      rw [hf] at ih
      cases b <;> cases f <;> simp_all

/-- Marks stay when the tightness check has looked at the last block, which was not followed by a blank line. -/
theorem marks_last : ∀ {cs : List Tree} {fs : List Bool}, List.Forall₂ EndsIn cs fs → fs.getLast? = some false → Marks (endsWithBlankLast cs).2 fs
  | _, _, .nil, h => by cases h
  | _, _, .cons (a := t) h1 .nil, h => by
    simp only [List.getLast?_singleton, Option.some.injEq] at h
    subst h
    simp only [endsWithBlankLast]
    exact .cons (ends_false (by rw [raw_ends]; exact h1.raw)) .nil
  | _, _, .cons h1 (.cons h2 h3), h => by
    rw [List.getLast?_cons_cons] at h
    simp only [endsWithBlankLast]
    exact .cons h1 (marks_last (.cons h2 h3) h)

/-- An item that is followed by a blank line iff `x.1`, with blank lines between its blocks iff `x.2`. -/
def ItemMarks (t : Tree) (x : Bool × Bool) : Prop :=
  t.data.t = .item ∧ t.data.lastLineBlank = x.1 ∧ ∃ fs, Marks t.children fs ∧ fs.getLast? = some x.1 ∧ fs.dropLast.any id = x.2

/-- Whether a list of these items is loose. -/
def looseOf : List (Bool × Bool) → Bool
  | [] => false
  | [x] => x.2
  | x :: y :: r => x.1 || x.2 || looseOf (y :: r)

theorem itemMarks_ends {t : Tree} {x : Bool × Bool} (h : ItemMarks t x) : EndsIn t x.1 := by
  obtain ⟨h1, h2, fs, h3, h4, _⟩ := h
  by_cases hx : x.1 = true
  · rw [hx]; exact ends_flag (h2.trans hx)
  · have hx : x.1 = false := by simpa using hx
    rw [hx]
    apply ends_false
    obtain ⟨d, cs⟩ := t
    have h2 : d.lastLineBlank = false := h2.trans hx
    simp only [rawEnds, h2]
    have h3 : Marks cs fs := h3
    rw [marks_raw h3 h4, hx]; simp

/-- After the check. -/
theorem itemMarks_checked {t : Tree} {x : Bool × Bool} (h : ItemMarks t x) :
    ∃ d cs, (endsWithBlankLine t).2 = .node d cs ∧ ∃ fs, Marks cs fs ∧ fs.getLast? = some x.1 ∧ fs.dropLast.any id = x.2 := by
  obtain ⟨h1, h2, fs, h3, h4, h5⟩ := h
  obtain ⟨d, cs⟩ := t
  have h1 : d.t = .item := h1
  have h2 : d.lastLineBlank = x.1 := h2
  have h3 : Marks cs fs := h3
  simp only [endsWithBlankLine]
  by_cases g1 : d.lastLineBlank = true
  · rw [if_pos g1]; exact ⟨_, _, rfl, fs, h3, h4, h5⟩
  · rw [if_neg g1]
    by_cases g2 : (!d.lastLineChecked && (d.t == .list || d.t == .item)) = true
    · rw [if_pos g2]
      refine ⟨_, _, rfl, fs, marks_last h3 ?_, h4, h5⟩
      rw [h4, ← h2]; simpa using g1
    · rw [if_neg g2]; exact ⟨_, _, rfl, fs, h3, h4, h5⟩

theorem any_last {fs : List Bool} {f : Bool} (h : fs.getLast? = some f) : fs.any id = (fs.dropLast.any id || f) := by
  obtain ⟨as, rfl⟩ : ∃ as, fs = as ++ [f] := by
    rw [List.getLast?_eq_some_iff] at h; exact h
  simp

/-- Whether the list is loose. -/
theorem items_loose {ts : List Tree} {xs : List (Bool × Bool)} (h : List.Forall₂ ItemMarks ts xs) :
    (checkItems ts).1 = looseOf xs := by
  induction h with
  | nil => rfl
  | @cons t x ts xs h1 h2 ih =>
    obtain ⟨d, cs, e, fs, g1, g2, g3⟩ := itemMarks_checked h1
    have he := (itemMarks_ends h1).ends
    have hs := fun b => subitems_marks (b := b) g1
    simp only [checkItems, he, e, hs]
    cases h2 with
    | nil => simp [looseOf, checkItems, g3]
    | @cons u y us ys h3 h4 =>
      simp only [looseOf, List.isEmpty_cons, Bool.not_false, Bool.and_true, ← ih]
      by_cases hx : x.1 = true
      · rw [if_pos hx, hx]; simp
      · rw [if_neg hx]
        simp only [if_true, any_last g2, g3]
        have hx : x.1 = false := by simpa using hx
        simp [hx]

theorem items_raw {ts : List Tree} : rawEndsLast (checkItems ts).2 = rawEndsLast ts := by
  have sub : ∀ (b : Bool) (cs : List Tree), rawEndsLast (checkSubitems b cs).2 = rawEndsLast cs ∧ ((checkSubitems b cs).2 = [] ↔ cs = []) := by
    intro b cs
    induction cs with
    | nil => simp [checkSubitems]
    | cons t ts ih =>
      simp only [checkSubitems]
      by_cases h : ((endsWithBlankLine t).1 && (b || !ts.isEmpty)) = true
      · rw [if_pos h]
        refine ⟨?_, by simp⟩
        cases ts with
        | nil => simpa only [rawEndsLast] using raw_ends t
        | cons => simp only [rawEndsLast]
      · rw [if_neg h]
        refine ⟨?_, by simp⟩
        cases ts with
        | nil => simpa only [rawEndsLast, checkSubitems] using raw_ends t
        | cons u r =>
          simp only
          cases hc : (checkSubitems b (u :: r)).2 with
          | nil => exact absurd (ih.2.1 hc) (by simp)
          | cons v w => rw [hc] at ih; simp only [rawEndsLast] at ih ⊢; exact ih.1
  have raw_node : ∀ (d : NodeData) (a b : List Tree), rawEndsLast a = rawEndsLast b → rawEnds (.node d a) = rawEnds (.node d b) := by
    intro d a b h; rw [rawEnds, rawEnds, h]
  have ne : ∀ ts : List Tree, (checkItems ts).2 = [] ↔ ts = [] := by
    intro ts
    cases ts with
    | nil => simp [checkItems]
    | cons t ts =>
      simp only [checkItems]
      repeat' split
      all_goals simp
  induction ts with
  | nil => rfl
  | cons t ts ih =>
    have hr := raw_ends t
    simp only [checkItems]
    by_cases h : ((endsWithBlankLine t).1 && !ts.isEmpty) = true
    · rw [if_pos h]
      cases ts with
      | nil => simp at h
      | cons => simp only [rawEndsLast]
    · rw [if_neg h]
      cases he : (endsWithBlankLine t).2 with
      | node d cs =>
        simp only
        cases ts with
        | nil =>
          simp only [checkItems, rawEndsLast]
          rw [raw_node _ _ _ (sub _ cs).1, ← he, hr]
        | cons u r =>
          cases hc : (checkItems (u :: r)).2 with
          | nil => exact absurd ((ne _).1 hc) (by simp)
          | cons v w => rw [hc] at ih; simp only [rawEndsLast] at ih ⊢; exact ih

end CM
