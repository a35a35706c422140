import Verif.Model.Regex
/-
Declarative semantics of the pattern fragment, against which the backtracking matcher of the model
is proved correct.
-/
namespace Spec
open CM

/-- `Iter P k m t`: `m` is a concatenation of `k` strings, each of which satisfies `P` together with
the text that follows it; after `m` comes `t`. -/
inductive Iter (P : Str → Str → Prop) : Nat → Str → Str → Prop
  | nil {t : Str} : Iter P 0 [] t
  | cons {k : Nat} {m1 m2 t : Str} : P m1 (m2 ++ t) → Iter P k m2 t → Iter P (k + 1) (m1 ++ m2) t

/-- `Den n r m t`: in a subject of length `n`, the pattern `r` can match the text `m` when the rest of
the subject after it is `t`. -/
def Den (n : Nat) : Re → Str → Str → Prop
  | .eps, m, _ => m = []
  | .chr p, m, _ => ∃ c, p c = true ∧ m = [c]
  | .seq a b, m, t => ∃ m1 m2, m = m1 ++ m2 ∧ Den n a m1 (m2 ++ t) ∧ Den n b m2 t
  | .alt a b, m, t => Den n a m t ∨ Den n b m t
  | .star a, m, t => ∃ k, Iter (fun m t => Den n a m t) k m t
  | .lazyStar a, m, t => ∃ k, Iter (fun m t => Den n a m t) k m t
  | .upTo j a, m, t => ∃ k, k ≤ j ∧ Iter (fun m t => Den n a m t) k m t
  | .bos, m, t => m = [] ∧ t.length = n
  | .eos, m, t => m = [] ∧ (t = [] ∨ t = ['\n'])
  | .look a, m, t => m = [] ∧ ∃ m' t', t = m' ++ t' ∧ Den n a m' t'
  | .nlook a, m, t => m = [] ∧ ¬ ∃ m' t', t = m' ++ t' ∧ Den n a m' t'

end Spec
