import Mathlib.Tactic.Tauto
import Verif.Proofs.InlineSteps
import Verif.Proofs.BlockTree
import Verif.Spec.ParaText
/-
Link labels, and texts that do not begin with one and a colon.
-/
set_option linter.unusedVariables false
set_option linter.unusedSimpArgs false
namespace CM
open Spec

theorem iter_pieces {P : Str → Prop} {Q : Str → Str → Prop} (hQ : ∀ m t, Q m t → P m) {T : Str → Prop} (h0 : T [])
    (hs : ∀ p s, P p → T s → T (p ++ s)) {k : Nat} {m t : Str} (h : Iter Q k m t) : T m := by
  induction h with
  | nil => exact h0
  | cons h _ ih => exact hs _ _ (hQ _ _ h) ih

theorem label_of_den' {n : Nat} {m t : Str} (h : Den n reLinkLabel m t) : ∃ x, m = '[' :: (x ++ [']']) ∧ LabelText x := by
  simp only [reLinkLabel, Re.seqs] at h
  obtain ⟨a, b, rfl, h1, x, d, rfl, ⟨k, _, h2⟩, h3⟩ := h
  rw [den_lit1.1 h1, den_lit1.1 h3]
  refine ⟨x, rfl, ?_⟩
  refine iter_pieces (P := fun p => (∃ c, c ∉ "\\[]".toList ∧ p = [c]) ∨ ∃ c, c ≠ '\n' ∧ p = ['\\', c])
    ?_ .nil ?_ h2
  · rintro m t (⟨c, hc, rfl⟩ | h)
    · simp only [Bool.not_eq_true', Bool.or_eq_false_iff, beq_eq_false_iff_ne] at hc
      refine Or.inl ⟨c, ?_, rfl⟩
      rw [show "\\[]".toList = ['\\', '[', ']'] from rfl]
      simp only [List.mem_cons, List.not_mem_nil, or_false, not_or]
      tauto
    · obtain ⟨a, b, rfl, h1, c, hc, rfl⟩ := h
      rw [den_lit1.1 h1]
      exact Or.inr ⟨c, by simpa [isDot] using hc, rfl⟩
  · rintro p s (⟨c, hc, rfl⟩ | ⟨c, h1, rfl⟩) hs
    · exact .plain hc hs
    · exact .escape h1 hs

/-- What `match_` finds. -/
theorem match_den {c : Ctx} {r : Re} {pos : Nat} {m : Str} {p : Nat} (h : c.match_ r pos = some (m, p)) :
    p = pos + m.length ∧ c.rest pos = m ++ c.rest p ∧ Den (c.rest pos).length r m (c.rest p) := by
  simp only [Ctx.match_, Option.map_eq_some_iff, Prod.mk.injEq] at h
  obtain ⟨m', h1, rfl, rfl⟩ := h
  obtain ⟨t, h2, h3⟩ := Re.matchPrefix_den h1
  have := rest_add h2
  rw [this]
  exact ⟨rfl, h2, h3⟩

/-- Without a link label and a colon there is no definition. -/
theorem parseReference_no {x : Str} (h : ¬ DefinitionStart x) (m : RefMap) : parseReference x m = (0, m) := by
  unfold parseReference parseLinkLabel
  simp only
  cases hm : (⟨x, [], false⟩ : Ctx).match_ reLinkLabel 0 with
  | none => rfl
  | some mp =>
    obtain ⟨l, p⟩ := mp
    obtain ⟨h1, h2, h3⟩ := match_den hm
    obtain ⟨y, hy, hyt⟩ := label_of_den' h3
    simp only
    by_cases hlen : l.length > 1001
    · simp [hlen]
    · simp only [hlen, if_false]
      split
      · rfl
      · have hp : ((⟨x, [], false⟩ : Ctx).peek p != some ':') = true := by
          rw [bne_iff_ne]
          intro hpk
          have hr : (⟨x, [], false⟩ : Ctx).rest 0 = x := rfl
          rw [hr] at h2
          have : (⟨x, [], false⟩ : Ctx).peek p = ((⟨x, [], false⟩ : Ctx).rest p).head? := by simp [Ctx.peek, Ctx.rest]
          rw [this] at hpk
          cases hrp : (⟨x, [], false⟩ : Ctx).rest p with
          | nil => rw [hrp] at hpk; cases hpk
          | cons c r =>
            rw [hrp] at hpk h2
            cases hpk
            refine h ⟨l, r, h2, y, hy, hyt, ?_⟩
            rw [hy] at hlen; simp at hlen; omega
        simp [hp]

theorem refLoop_no {x : Str} (h : ¬ DefinitionStart x) (m : RefMap) (n : Nat) (b : Bool) : refLoop (n + 1) x m b = .ok (x, m, b) := by
  unfold refLoop
  rw [parseReference_no h]
  simp

theorem definitionStart_head {x : Str} (h : DefinitionStart x) : x.head? = some '[' := by
  obtain ⟨l, r, rfl, y, rfl, _⟩ := h; rfl

/-- A first line that does not begin with `[`. -/
theorem noDef_head {l0 : Str} (h : l0.head? ≠ some '[') (y : Str) : ¬ DefinitionStart (l0 ++ '\n' :: y) := by
  intro hd
  have := definitionStart_head hd
  cases l0 with
  | nil => cases this
  | cons c l0 => exact h this

end CM
