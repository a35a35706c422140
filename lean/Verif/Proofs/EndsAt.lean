import Verif.Spec.Ends
import Verif.Proofs.Closed
import Verif.Proofs.Origin
/-
First and last positions of the blocks of a document.
-/
namespace CM
open Spec

mutual
theorem everyNode_and {P Q : NodeData → List NodeData → Prop} : ∀ (t : Tree), EveryNode P t → EveryNode Q t →
    EveryNode (fun d ks => P d ks ∧ Q d ks) t
  | .node d cs, h1, h2 => ⟨⟨h1.1, h2.1⟩, everyNodeList_and cs h1.2 h2.2⟩
theorem everyNodeList_and {P Q : NodeData → List NodeData → Prop} : ∀ (ts : List Tree), EveryNodeList P ts →
    EveryNodeList Q ts → EveryNodeList (fun d ks => P d ks ∧ Q d ks) ts
  | [], _, _ => trivial
  | t :: ts, h1, h2 => ⟨everyNode_and t h1.1 h2.1, everyNodeList_and ts h1.2 h2.2⟩
end

/-- What finalising a block does not change. -/
def placeOf (d : NodeData) : Kind × Option ((Nat × Nat) × Nat × Nat) × Bool × Nat := (d.t, d.sourcepos, d.isFenced, d.htmlBlockType)

theorem place_norm (d : NodeData) : placeOf (normData d) = placeOf d := rfl

theorem finalize_placeOf {d : NodeData} {cs : List Tree} {m m' : RefMap} {t : Tree}
    (h : finalizeBlock d cs m = .ok (some t, m')) : placeOf t.data = placeOf d := by
  simp only [finalizeBlock] at h
  split at h
  · simp only [Except.ok.injEq, Prod.mk.injEq, Option.some.injEq] at h
    obtain ⟨rfl, _⟩ := h
    have hn := norm_finalizeList d cs
    generalize finalizeList d cs = t at *
    obtain ⟨e, ks⟩ := t
    simp only [normTree, Tree.node.injEq] at hn
    show placeOf e = _
    rw [← place_norm, hn.1, place_norm]
  · cases e : finalizeCode d with
    | error _ => rw [e] at h; cases h
    | ok v =>
      rw [e] at h
      simp only [bind, Except.bind, pure, Except.pure, Except.ok.injEq, Prod.mk.injEq, Option.some.injEq] at h
      obtain ⟨rfl, _⟩ := h
      simp only [finalizeCode] at e
      split at e
      · cases e
      · split at e
        · split at e
          · cases e
          · cases e; rfl
        · cases e; rfl
  · cases e : finalizeHtml d with
    | error _ => rw [e] at h; cases h
    | ok v =>
      rw [e] at h
      simp only [bind, Except.bind, pure, Except.pure, Except.ok.injEq, Prod.mk.injEq, Option.some.injEq] at h
      obtain ⟨rfl, _⟩ := h
      simp only [finalizeHtml] at e
      split at e
      · cases e
      · cases e; rfl
  · cases e : finalizeParagraph d m with
    | error _ => rw [e] at h; cases h
    | ok v =>
      rw [e] at h
      simp only [bind, Except.bind, pure, Except.pure, Except.ok.injEq, Prod.mk.injEq, Option.map_eq_some_iff] at h
      obtain ⟨⟨d', hv, rfl⟩, _⟩ := h
      simp only [finalizeParagraph] at e
      split at e
      · cases e
      · rename_i x _
        cases hr : refLoop (x.length + 1) x m false with
        | error _ => rw [hr] at e; cases e
        | ok r =>
          rw [hr] at e
          simp only [bind, Except.bind] at e
          split at e
          · cases e; cases hv
          · cases e; cases hv; rfl
  · simp only [Except.ok.injEq, Prod.mk.injEq, Option.some.injEq] at h
    obtain ⟨rfl, _⟩ := h
    rfl

/-- The last position is the end of the last line, or has the length of the line before. -/
def EndPos (ls : List Str) (d : NodeData) : Prop := d.t ∉ inlineKinds →
  lastColumn d = lengthOfLine ls (lastLine d) ∨ HasEndMark d ∧ lastColumn d = lengthOfLine ls (lastLine d - 1)

theorem endPos_closed (ls : List Str) : WhenClosed (EndPos ls) (fun l len => len = lengthOfLine ls l) where
  flags d := Iff.rfl
  close := by
    intro l len d cs m t m' hw h _
    have hp := finalize_placeOf h
    simp only [placeOf, Prod.mk.injEq] at hp
    obtain ⟨h1, h2, h3, h4⟩ := hp
    have hl : lastLine t.data = lastLine (closeData l len d) := by simp only [lastLine, h2]
    have hc : lastColumn t.data = lastColumn (closeData l len d) := by simp only [lastColumn, h2]
    rw [hl, hc]
    cases hsp : d.sourcepos with
    | none => left; simp [lastLine, lastColumn, closeData, hsp, lengthOfLine]
    | some sp =>
      have e1 : lastLine (closeData l len d) = l := by simp [lastLine, closeData, hsp]
      have e2 : lastColumn (closeData l len d) = len := by simp [lastColumn, closeData, hsp]
      rw [e1, e2]
      rcases hw with hw | ⟨k, rfl, hw, he⟩
      · exact Or.inl hw
      · right
        refine ⟨?_, hw⟩
        simp only [HasEndMark, h1, h3, h4]
        exact he

theorem parse_ends {smart : Bool} {s : Str} {ls : List Str} {t : Tree} (hs : TextLines s ls)
    (h : parse smart s = .ok t) : All (EndPos ls) t := by
  have hl := inputLines_of hs
  refine parse_closed (endPos_closed ls) rfl ?_ (fun d hd hn => absurd hd hn) ?_ h
  · intro len d hd hw _
    left
    cases hsp : d.sourcepos with
    | none => simp [lastLine, lastColumn, closeData, hsp, lengthOfLine]
    | some sp =>
      have e1 : lastLine (closeData (inputLines s).length len d) = (inputLines s).length := by
        simp [lastLine, closeData, hsp]
      have e2 : lastColumn (closeData (inputLines s).length len d) = len := by simp [lastColumn, closeData, hsp]
      rw [e1, e2]; exact hw
  · intro i ln hi
    rw [hl] at hi
    simp [lengthOfLine, hi]

/-- The first position is a character of the text. -/
def StartPos (ls : List Str) (d : NodeData) : Prop := d.t ∉ inlineKinds → d.t ≠ .document → sourceText ls d ≠ []

theorem drop_ne {x : Str} {n : Nat} (h : n < x.length) : x.drop n ≠ [] := by
  intro e
  have := congrArg List.length e
  simp at this
  omega

theorem sound_start (ls : List Str) : Sound (StartPos ls) (LineOf ls) where
  congr := by
    intro d d' hs h
    obtain ⟨e1, e2⟩ := sourceText_sig (ls := ls) hs
    have ht : d.t = d'.t := by have := congrArg NodeData.t hs; exact this
    unfold StartPos at h ⊢
    rw [← e1, ← ht]
    exact h
  doc := by intro _ h; exact absurd rfl h
  new := by
    intro c d hw h _ _
    cases h <;> rw [sourceText_atLine hw rfl] <;> exact drop_ne (by assumption)
  para := by
    intro c off ch hw h1 _ _ _ _
    rw [sourceText_atLine hw rfl]
    exact drop_ne (List.getElem?_eq_some_iff.1 h1).1
  list := by
    intro c col l k hw hm _ _ _
    rw [sourceText_atLine hw rfl]
    exact drop_ne hm.inside
  setext := by
    intro c d x col m hw hd hp _ _ _ _
    refine hd ?_ ?_
    · rw [hp]; decide
    · rw [hp]; decide

theorem parse_starts {smart : Bool} {s : Str} {ls : List Str} {t : Tree} (hs : TextLines s ls)
    (h : parse smart s = .ok t) : All (StartPos (ls.map noNul)) t :=
  parse_all (sound_start _) (fun _ hd hn => absurd hd hn) (lineOf_input hs) h

end CM
