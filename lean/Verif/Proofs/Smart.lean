import Verif.Model.Inlines
import Verif.Proofs.Regex
import Verif.Spec.Inline
/-
Lemmas for C36,C37.
-/
namespace CM
open Spec

theorem rest_lit1 (c d : Char) (s : Str) : (Re.lit1 c).rest (d :: s) = if d == c then some s else none := rfl

theorem reDash_rest (s : Str) : reDash.rest s =
    match s with
    | '-' :: '-' :: t => some (t.dropWhile (· == '-'))
    | _ => none := by
  have hc : ∀ s : Str, (Re.plus (Re.lit1 '-')).run 0 s some =
      match s with
      | '-' :: t => some (t.dropWhile (· == '-'))
      | _ => none := by
    intro s
    match s with
    | [] => rfl
    | c :: t =>
      simp only [Re.plus, Re.run_seq, Re.run_lit1]
      by_cases h : c = '-'
      · subst h; simp only [beq_self_eq_true, if_true]; exact Re.run_star_chr_some _ _ _
      · simp only [beq_iff_eq, h, if_false]
        split
        · rename_i hh; simp at hh; exact absurd hh.1 h
        · rfl
  rw [← Re.run_rest (n := 0) (by decide)]
  match s with
  | [] => rfl
  | c :: t =>
    simp only [reDash, Re.run_seq, Re.run_lit1, hc]
    by_cases h : c = '-'
    · subst h
      match t with
      | [] => rfl
      | d :: t =>
        by_cases h : d = '-'
        · subst h; rfl
        · simp only [beq_self_eq_true, if_true]
          split
          · rename_i hh; simp at hh; exact absurd hh.1 h
          · split
            · rename_i hh; simp at hh; exact absurd hh.1 h
            · rfl
    · simp only [beq_iff_eq, h, if_false]
      split
      · rename_i hh; simp at hh; exact absurd hh.1 h
      · rfl

/-- What a maximal run of `n` hyphens becomes. -/
def dashRun (n : Nat) : Str := if n ≤ 1 then List.replicate n '-' else smartDashes (List.replicate n '-')

theorem mapRuns_replicate (f : Nat → Str) (k n : Nat) (s : Str) :
    mapRuns '-' f k (List.replicate n '-' ++ s) = mapRuns '-' f (k + n) s := by
  induction n generalizing k with
  | zero => rfl
  | succ n ih => rw [List.replicate_succ, List.cons_append, mapRuns, if_pos rfl, ih]; congr 1; omega

theorem reDash_sub (n : Nat) : ∀ s : Str, s.length ≤ n →
    reDash.sub smartDashes s = mapRuns '-' dashRun 0 s := by
  induction n with
  | zero => intro s hs; cases s <;> simp_all [Re.sub_nil, mapRuns, dashRun]
  | succ n ih =>
    intro s hs
    match s with
    | [] => simp [Re.sub_nil, mapRuns, dashRun]
    | c :: s =>
      simp only [List.length_cons] at hs
      by_cases hc : c = '-'
      · subst hc
        match s with
        | [] => rw [Re.sub_none (by decide) _ (by rw [reDash_rest]; rfl), Re.sub_nil]; rfl
        | d :: s =>
          by_cases hd : d = '-'
          · subst hd
            -- a run of length at least two
            have hsplit : s = List.replicate (s.takeWhile (· == '-')).length '-' ++ s.dropWhile (· == '-') := by
              conv => lhs; rw [← List.takeWhile_append_dropWhile (p := (· == '-')) (l := s)]
              congr 1
              apply List.eq_replicate_of_mem
              intro x hx
              have := List.all_takeWhile (p := (· == '-')) (l := s)
              simp only [List.all_eq_true] at this
              simpa using this x hx
            generalize hk : (s.takeWhile (· == '-')).length = k at hsplit
            generalize hu : s.dropWhile (· == '-') = u at hsplit
            have hr : reDash.rest ('-' :: '-' :: s) = some u := by rw [reDash_rest]; simp only [hu]
            have e : '-' :: '-' :: s = List.replicate (k + 2) '-' ++ u := by
              rw [hsplit, List.replicate_succ, List.replicate_succ]; rfl
            rw [e] at hr ⊢
            rw [Re.sub_match (by decide) _ (by simp) hr, mapRuns_replicate]
            have hlen : u.length ≤ n := by
              have := congrArg List.length e
              simp at this; simp at hs; omega
            have hun : ∀ v, u ≠ '-' :: v := by
              intro v hv
              have := List.head?_dropWhile_not (p := (· == '-')) s
              rw [hu, hv] at this; simp at this
            rw [ih u hlen]
            match u, hun with
            | [], _ => simp [mapRuns, dashRun]
            | x :: u, hun =>
              have hx : x ≠ '-' := fun h => hun u (by rw [h])
              simp only [mapRuns, if_neg hx, dashRun]
              simp
          · have hr : reDash.rest ('-' :: d :: s) = none := by
              rw [reDash_rest]; split
              · rename_i hh; simp at hh; exact absurd hh.1 hd
              · rfl
            rw [Re.sub_none (by decide) _ hr, ih _ (by simpa using hs)]
            simp only [mapRuns, if_neg hd, if_true, dashRun]
            simp
      · have hr : reDash.rest (c :: s) = none := by
          rw [reDash_rest]; split
          · rename_i hh; simp at hh; exact absurd hh.1 hc
          · rfl
        rw [Re.sub_none (by decide) _ hr, ih _ (by omega)]
        simp only [mapRuns, if_neg hc, dashRun]
        simp

theorem reEllipses_rest (s : Str) : reEllipses.rest s =
    match s with
    | '.' :: '.' :: '.' :: t => some t
    | _ => none := by
  rw [← Re.run_rest (n := 0) (by decide)]
  have e : reEllipses = .seq (.lit1 '.') (.seq (.lit1 '.') (.lit1 '.')) := rfl
  simp only [e, Re.run_seq, Re.run_lit1]
  match s with
  | [] => rfl
  | [a] => simp
  | [a, b] => simp
  | a :: b :: c :: t =>
    simp only [beq_iff_eq]
    by_cases h1 : a = '.'
    · by_cases h2 : b = '.'
      · by_cases h3 : c = '.'
        · subst h1 h2 h3; rfl
        · simp [h1, h2, h3]
      · simp [h1, h2]
    · simp [h1]

theorem reEllipses_sub (n : Nat) : ∀ s : Str, s.length ≤ n →
    reEllipses.sub (fun _ => [ellipsis]) s = ellipses s := by
  induction n with
  | zero => intro s hs; cases s <;> simp_all [Re.sub_nil, ellipses]
  | succ n ih =>
    intro s hs
    match s with
    | [] => simp [Re.sub_nil, ellipses]
    | c :: s =>
      simp only [List.length_cons] at hs
      rw [ellipses.eq_def]
      split
      · rename_i t he
        simp only [List.cons.injEq] at he
        obtain ⟨rfl, rfl⟩ := he
        have : reEllipses.rest (['.', '.', '.'] ++ t) = some t := by rw [reEllipses_rest]; rfl
        have h := Re.sub_match (by decide) (fun _ => [ellipsis]) (by simp) this
        rw [List.cons_append, List.cons_append, List.cons_append, List.nil_append] at h
        rw [h, ih t (by simp at hs; omega)]
        rfl
      · rename_i c' s' hne he
        simp only [List.cons.injEq] at he
        obtain ⟨rfl, rfl⟩ := he
        have hr : reEllipses.rest (c :: s) = none := by
          rw [reEllipses_rest]; split
          · rename_i hh; simp at hh; exact absurd hh.2 (by rintro rfl; exact hne _ hh.1 rfl)
          · rfl
        rw [Re.sub_none (by decide) _ hr, ih s (by omega)]
      · rename_i he; simp at he

theorem matchPrefix_reMain (m t : Str) (hm : ∀ c ∈ m, isMain c = true) (hne : m ≠ [])
    (ht : ∀ c, t.head? = some c → isMain c = false) : reMain.matchPrefix (m ++ t) = some m := by
  apply Re.matchPrefix_of_rest
  rw [← Re.run_rest (n := 0) (by decide)]
  cases m with
  | nil => exact absurd rfl hne
  | cons c m =>
    simp only [reMain, Re.plus, List.cons_append, Re.run_seq, Re.run_chr_cons, hm c (by simp), if_true]
    rw [Re.run_star_chr_some]
    congr 1
    have : ∀ m : Str, (∀ c ∈ m, isMain c = true) → (m ++ t).dropWhile isMain = t := by
      intro m hm
      induction m with
      | nil =>
        cases t with
        | nil => rfl
        | cons d t => simp [List.dropWhile_cons, ht d rfl]
      | cons d m ih => simp [List.dropWhile_cons, hm d (by simp)]; exact ih (fun c hc => hm c (by simp [hc]))
    exact this m (fun d hd => hm d (by simp [hd]))

/-! ### C37 -/

theorem countDelims_eq (pre post : Str) (refmap : RefMap) (smart : Bool) (c : Char) (n : Nat)
    (hq : c = '*' ∨ c = '_') (hp : post.head? ≠ some c) :
    countDelims ⟨pre ++ (List.replicate n c ++ post), refmap, smart⟩ c pre.length = n := by
  have : (List.replicate n c ++ post).takeWhile (· == c) = List.replicate n c := by
    induction n with
    | zero =>
      cases post with
      | nil => rfl
      | cons d post => simp at hp; simp [List.takeWhile_cons, hp]
    | succ n ih => simp [List.replicate_succ, List.takeWhile_cons, ih]
  unfold countDelims
  rw [if_neg]
  · simp [Ctx.rest, this]
  · rcases hq with rfl | rfl <;> decide

end CM
