import Verif.Proofs.RunLeaf2
import Verif.Proofs.IndentedRun
/-
Runs over indented code (C57).
-/
set_option linter.unusedVariables false
namespace CM
open Spec

theorem finalize_ind {l n k : Nat} {x : Str} {b : Bool} :
    finalizeBlock (closeData n k (indNode l x b)) [] [] = .ok (some (.node (indDone l n k (reTrailNl.sub (fun _ => ['\n']) x) b) []), []) := by
  simp [finalizeBlock, finalizeCode, closeData, indNode, indDone, bind, Except.bind, pure, Except.pure]

theorem blanks_codeLines (n : Nat) : (List.replicate n ([] : Str)).flatMap (fun ln => noNul ln ++ ['\n']) = List.replicate n '\n' := by
  induction n with
  | zero => rfl
  | succ n ih => rw [List.replicate_succ, List.flatMap_cons, ih]; rfl

theorem indented_blanks (n : Nat) : List.Forall₂ IndentedAs (List.replicate n ([] : Str)) (List.replicate n []) := by
  induction n with
  | zero => exact .nil
  | succ n ih => rw [List.replicate_succ]; exact .cons (.inr ⟨rfl, 0, by omega, rfl⟩) ih

theorem runs_indented {sm : Reading} {o : HtmlOpts} (ho : o.sourcepos = false) {first : Str} {ls xs : List Str}
    (h1 : NotBlank first) (h2 : List.Forall₂ IndentedAs ls xs) (h3 : ∀ x ∈ (first :: xs).getLast?, NotBlank x)
    (hone : ∀ l ∈ ("    ".toList ++ first) :: ls, OneLine l) :
    Runs sm o (("    ".toList ++ first) :: ls) [⟨.indented, "<pre><code>".toList ++ escapeXml (codeLines (first :: xs)) ++ "</code></pre>\n".toList⟩] false := by
  have hf1 : OneLine first := fun c hc => hone ("    ".toList ++ first) List.mem_cons_self c (List.mem_append_right _ hc)
  refine ⟨hone, ⟨_, _, rfl, ?_⟩, ?_⟩
  · intro p0 p1 hp1
    obtain ⟨k0, a0⟩ := atDoc_new p0
    obtain ⟨p1', e1, a1⟩ := ind_open a0 h1 hf1
    rw [hp1] at e1
    cases e1
    rw [a1.spine]
    exact .more rfl (.inr fun h => by cases h)
  · intro p0 n
    obtain ⟨k0, a0⟩ := atDoc_new p0
    obtain ⟨p1, e1, a1⟩ := ind_open a0 h1 hf1
    have h2' : List.Forall₂ IndentedAs (ls ++ List.replicate n []) (xs ++ List.replicate n []) := List.rel_append h2 (indented_blanks n)
    obtain ⟨p2, k2, b2, d2, e2, a2, f1, f2, f3, f4⟩ := ind_lines h2' a1 (by
      intro l hl
      rcases List.mem_append.1 hl with hl | hl
      · exact hone l (by simp [hl])
      · rw [(List.mem_replicate.1 hl).2]; intro c hc; cases hc)
    have hxs : ∀ y ∈ first :: xs, OneLine y := by
      intro y hy
      rcases List.mem_cons.1 hy with rfl | hy
      · exact hf1
      · obtain ⟨i, hi, rfl⟩ := List.mem_iff_getElem.1 hy
        have hlen := h2.length_eq
        have := List.forall₂_iff_get.1 h2
        have h := this.2 i (by omega) hi
        have hl := hone ls[i] (by simp)
        rcases h with h | ⟨h, _⟩
        · intro c hc
          refine hl c ?_
          have : ls[i] = "    ".toList ++ xs[i] := h
          rw [this]
          exact List.mem_append_right _ hc
        · have : xs[i] = [] := h
          rw [this]
          intro c hc
          cases hc
    have hb : b2 = decide (0 < n) := by
      cases n with
      | zero =>
        simp only [List.replicate_zero, List.append_nil] at f2 f4
        cases hx : xs.getLast? with
        | none =>
          rw [List.getLast?_eq_none_iff] at hx
          subst hx
          cases h2
          exact f4 rfl
        | some y =>
          refine f2 y hx (h3 y ?_)
          cases xs with
          | nil => cases hx
          | cons a r => rw [List.getLast?_cons_cons]; exact hx
      | succ n =>
        refine f3 ?_
        rw [List.getLast?_append, List.getLast?_replicate]; rfl
    have hcons : (noNul first ++ ['\n'] ++ (xs ++ List.replicate n []).flatMap fun ln => noNul ln ++ ['\n']) =
        ((first :: xs).flatMap fun ln => noNul ln ++ ['\n']) ++ List.replicate n '\n' := by
      rw [List.flatMap_append, blanks_codeLines]; simp
    have htext : reTrailNl.sub (fun _ => ['\n']) (noNul first ++ ['\n'] ++ (xs ++ List.replicate n []).flatMap fun ln => noNul ln ++ ['\n']) =
        codeLines (first :: xs) := by
      rw [hcons, codeLines]
      have hne : first :: xs ≠ [] := by simp
      generalize first :: xs = ys at *
      rcases List.eq_nil_or_concat ys with rfl | ⟨zs, z, rfl⟩
      · exact absurd rfl hne
      · rw [List.concat_eq_append] at *
        rw [List.flatMap_append]
        simp only [List.flatMap_cons, List.flatMap_nil, List.append_nil, ← List.append_assoc]
        rw [List.append_assoc _ ['\n']]
        have : ['\n'] ++ List.replicate n '\n' = List.replicate (n + 1) '\n' := by rw [List.replicate_succ]; rfl
        rw [this]
        apply trail_sub_more _ (fun _ => rfl)
        right
        have hz : NotBlank z := h3 z (by simp)
        exact notBlank_split (noNul_notBlank hz) (oneLine_nl (hxs z (by simp))) _
    refine ⟨p2, ?_, ?_, ?_⟩
    · rw [List.cons_append, List.foldlM_cons, e1]; exact e2
    · rw [a2.line]; simp; omega
    · rw [← hb]
      have hfin := finalize_ind (l := 0 + 1) (n := 0 + 1 + (ls ++ List.replicate n []).length) (k := k2) (b := b2)
        (x := noNul first ++ ['\n'] ++ (xs ++ List.replicate n []).flatMap fun ln => noNul ln ++ ['\n'])
      rw [htext] at hfin
      refine at_leaf (b := ⟨.indented, _⟩) a2 (f1 rfl) rfl hfin (shows_code ho rfl rfl rfl rfl) ?_ ⟨_, rfl, rfl, rfl⟩ (by intro _ h; cases h)
      cases b2 with
      | false => exact ends_false rfl
      | true => exact ends_flag rfl

end CM
