import Verif.Proofs.InlineSteps
import Verif.Spec.Reads
/-
Code spans: what the search for a closing backtick run finds.
-/
set_option linter.unusedVariables false
namespace CM
open Spec

theorem getLast?_append_ticks {a b : Str} (h : b ≠ []) : (a ++ b).getLast? = b.getLast? := by
  rw [List.getLast?_append]
  cases hb : b.getLast? with
  | none => rw [List.getLast?_eq_none_iff] at hb; exact absurd hb h
  | some x => rfl

theorem reTicks_noBos : reTicks.noBos = true := by decide

/-- A maximal run matches as a whole. -/
theorem reTicks_rest {n : Nat} {t : Str} (hn : 1 ≤ n) (ht : t.head? ≠ some '`') :
    reTicks.rest (List.replicate n '`' ++ t) = some t := by
  obtain ⟨k, rfl⟩ : ∃ k, n = k + 1 := ⟨n - 1, by omega⟩
  rw [Re.rest, reTicks, Re.plus, Re.run]
  simp only [List.replicate_succ, List.cons_append, Re.lit1, Re.run_chr_cons, beq_self_eq_true, if_true]
  rw [Re.run_star_chr_some]
  rw [List.dropWhile_append_of_pos (by simp)]
  cases t with
  | nil => rfl
  | cons x xs =>
    rw [List.dropWhile_cons]
    have : (x == '`') = false := by simpa using ht
    rw [this]; rfl

theorem reTicks_none {t : Str} (ht : t.head? ≠ some '`') : reTicks.rest t = none := by
  rw [Re.rest, reTicks, Re.plus, Re.run]
  cases t with
  | nil => rfl
  | cons x xs =>
    have : (x == '`') = false := by simpa using ht
    simp only [Re.lit1, Re.run_chr_cons, this, Bool.false_eq_true, if_false]

theorem searchFrom_ticks {n k : Nat} {b : Str} (hn : 1 ≤ n) (hb : b.head? ≠ some '`') : ∀ (a acc : Str), '`' ∉ a →
    reTicks.searchFrom k acc (a ++ (List.replicate n '`' ++ b)) = some (acc.reverse ++ a, b)
  | [], acc, _ => by
    obtain ⟨j, rfl⟩ : ∃ j, n = j + 1 := ⟨n - 1, by omega⟩
    have := reTicks_rest hn hb
    rw [List.nil_append]
    rw [List.replicate_succ, List.cons_append] at this ⊢
    rw [Re.searchFrom, Re.run_rest reTicks_noBos, this]; simp
  | c :: a, acc, h => by
    have hc : (c :: (a ++ (List.replicate n '`' ++ b))).head? ≠ some '`' := by
      simp only [List.head?_cons, ne_eq, Option.some.injEq]
      rintro rfl; exact h (by simp)
    rw [List.cons_append, Re.searchFrom, Re.run_rest reTicks_noBos, reTicks_none hc]
    simp only
    rw [searchFrom_ticks hn hb a (c :: acc) (fun hh => h (by simp [hh]))]
    simp

theorem searchFrom_noTicks {k : Nat} : ∀ (a acc : Str), '`' ∉ a → reTicks.searchFrom k acc a = none
  | [], acc, _ => by
    rw [Re.searchFrom, Re.run_rest reTicks_noBos, reTicks_none (by simp)]; rfl
  | c :: a, acc, h => by
    have hc : (c :: a).head? ≠ some '`' := by
      simp only [List.head?_cons, ne_eq, Option.some.injEq]
      rintro rfl; exact h (by simp)
    rw [Re.searchFrom, Re.run_rest reTicks_noBos, reTicks_none hc]
    exact searchFrom_noTicks a (c :: acc) (fun hh => h (by simp [hh]))

theorem search_ticks {c : Ctx} {pos n : Nat} {a b : Str} (h : c.rest pos = a ++ (List.replicate n '`' ++ b)) (hn : 1 ≤ n)
    (ha : '`' ∉ a) (hb : b.head? ≠ some '`') :
    c.search_ reTicks pos = some (List.replicate n '`', pos + (a.length + n)) := by
  rw [Ctx.search_, h, Re.search, searchFrom_ticks hn hb a [] ha]
  simp only [List.reverse_nil, List.nil_append, Option.map_some, List.length_append, List.length_replicate]
  have : a.length + (n + b.length) - b.length = a.length + n := by omega
  rw [this]
  simp only [slice, Option.some.injEq, Prod.mk.injEq, and_true]
  rw [List.take_append, List.take_of_length_le (l := a) (by omega), Nat.add_sub_cancel_left, List.take_left' (by simp),
    List.drop_left]

theorem search_noTicks {c : Ctx} {pos : Nat} (h : '`' ∉ c.rest pos) : c.search_ reTicks pos = none := by
  rw [Ctx.search_, Re.search, searchFrom_noTicks _ _ h]; rfl

/-- The first run of backticks. -/
theorem first_run : ∀ {s : Str}, '`' ∈ s →
    ∃ a n b, s = a ++ (List.replicate n '`' ++ b) ∧ 1 ≤ n ∧ '`' ∉ a ∧ b.head? ≠ some '`' := by
  intro s hs
  have h1 := List.takeWhile_append_dropWhile (p := fun c => c != '`') (l := s)
  have h2 := List.takeWhile_append_dropWhile (p := fun c => c == '`') (l := s.dropWhile fun c => c != '`')
  refine ⟨s.takeWhile fun c => c != '`', ((s.dropWhile fun c => c != '`').takeWhile fun c => c == '`').length,
    (s.dropWhile fun c => c != '`').dropWhile fun c => c == '`', ?_, ?_, ?_, ?_⟩
  · rw [← eq_replicate_of_all (c := '`'), h2, h1]
    intro x hx; exact List.mem_takeWhile_imp (p := fun c => c == '`') hx
  · cases hd : s.dropWhile fun c => c != '`' with
    | nil =>
      rw [hd, List.append_nil] at h1
      rw [← h1] at hs
      have := List.mem_takeWhile_imp hs
      simp at this
    | cons x xs =>
      have hx := List.head_dropWhile_not (fun c => c != '`') (l := s) (by rw [hd]; simp)
      simp only [hd, List.head_cons] at hx
      rw [List.takeWhile_cons]
      have : (x == '`') = true := by simpa using hx
      rw [if_pos this]; simp
  · intro hm
    have := List.mem_takeWhile_imp hm
    simp at this
  · intro hh
    have := List.head?_dropWhile_not (fun c => c == '`') (s.dropWhile fun c => c != '`')
    rw [hh] at this
    simp at this

theorem noTicks_suffix {n : Nat} {p b : Str} (hn : 1 ≤ n) (h : NoTicks n (p ++ b)) (hb : b.head? ≠ some '`') :
    NoTicks n b := by
  rintro ⟨a', b', rfl, h1, h2⟩
  refine h ⟨p ++ a', b', by simp, ?_, h2⟩
  cases a' with
  | nil =>
    exfalso; apply hb
    obtain ⟨k, rfl⟩ : ∃ k, n = k + 1 := ⟨n - 1, by omega⟩
    simp [List.replicate_succ]
  | cons x xs =>
    rw [getLast?_append_ticks (by simp)]; exact h1

theorem noTicks_run {n k : Nat} {a b : Str} (h : NoTicks n (a ++ (List.replicate k '`' ++ b))) (ha : '`' ∉ a)
    (hb : b.head? ≠ some '`') : k ≠ n := by
  rintro rfl
  exact h ⟨a, b, rfl, fun hl => ha (List.mem_of_getLast? hl), hb⟩

theorem replicate_beq {k n : Nat} (h : k ≠ n) : ((List.replicate k '`' : Str) == List.replicate n '`') = false := by
  rw [beq_eq_false_iff_ne]
  intro e
  have := congrArg List.length e
  simp at this
  exact h this

/-- No closing run. -/
theorem backtick_none {c : Ctx} {n : Nat} (hn : 1 ≤ n) : ∀ (fuel pos : Nat), (c.rest pos).length < fuel →
    NoTicks n (c.rest pos) → backtickLoop c (List.replicate n '`') fuel pos = .ok none
  | 0, pos, h, _ => by omega
  | fuel + 1, pos, h, hx => by
    rw [backtickLoop]
    by_cases hm : '`' ∈ c.rest pos
    · obtain ⟨a, k, b, h1, h2, h3, h4⟩ := first_run hm
      rw [search_ticks h1 h2 h3 h4]
      rw [h1] at hx
      have hk := noTicks_run hx h3 h4
      simp only [replicate_beq hk, Bool.false_eq_true, if_false]
      have hr : c.rest (pos + (a.length + k)) = b := by
        have := rest_add (m := a ++ List.replicate k '`') (t := b) (by rw [h1]; simp)
        simpa using this
      refine backtick_none hn fuel _ ?_ ?_
      · rw [hr]; rw [h1] at h; simp at h; omega
      · rw [hr]
        exact noTicks_suffix (p := a ++ List.replicate k '`') hn (by simpa using hx) h4
    · rw [search_noTicks hm]

/-- The closing run. -/
theorem backtick_some {c : Ctx} {n : Nat} (hn : 1 ≤ n) {t : Str} (ht : t.head? ≠ some '`') : ∀ (fuel pos : Nat) (x : Str),
    c.rest pos = x ++ (List.replicate n '`' ++ t) → x.length < fuel → x.getLast? ≠ some '`' → NoTicks n x →
    backtickLoop c (List.replicate n '`') fuel pos = .ok (some (pos + (x.length + n)))
  | 0, pos, x, _, h, _, _ => by omega
  | fuel + 1, pos, x, hr, h, hl, hx => by
    rw [backtickLoop]
    by_cases hm : '`' ∈ x
    · obtain ⟨a, k, b, rfl, h2, h3, h4⟩ := first_run hm
      have hbne : b ≠ [] := by
        rintro rfl
        apply hl
        rw [List.append_nil, getLast?_append_ticks (by simp; omega), List.getLast?_replicate]
        simp; omega
      have hb : (b ++ (List.replicate n '`' ++ t)).head? ≠ some '`' := by
        cases b with
        | nil => exact absurd rfl hbne
        | cons y ys => simpa using h4
      rw [search_ticks (a := a) (n := k) (b := b ++ (List.replicate n '`' ++ t)) (by rw [hr]; simp) h2 h3 hb]
      have hk := noTicks_run hx h3 h4
      simp only [replicate_beq hk, Bool.false_eq_true, if_false]
      have hr' : c.rest (pos + (a.length + k)) = b ++ (List.replicate n '`' ++ t) := by
        have := rest_add (m := a ++ List.replicate k '`') (t := b ++ (List.replicate n '`' ++ t)) (by rw [hr]; simp)
        simpa using this
      rw [backtick_some hn ht fuel _ b hr' (by simp at h; omega) ?_ ?_]
      · simp only [List.length_append, List.length_replicate]
        congr 2; omega
      · rw [← List.append_assoc, getLast?_append_ticks hbne] at hl; exact hl
      · exact noTicks_suffix (p := a ++ List.replicate k '`') hn (by simpa using hx) h4
    · rw [search_ticks hr hn hm ht]
      simp

/-! ### The text of a code span -/

theorem flatLines_eq (x : Str) : replaceChar '\n' ' ' x = flatLines x := by
  unfold replaceChar flatLines
  refine List.map_congr_left fun c _ => ?_
  by_cases h : c = '\n' <;> simp [h]

theorem codeText_eq {x y : Str} (h : CodeText x y) : codeLiteral x = y := by
  unfold codeLiteral
  rw [flatLines_eq]
  have key : ∀ z : Str, (∃ y, z = ' ' :: (y ++ [' ']) ∧ ∃ c ∈ y, c ≠ ' ') ↔
      (!(lstripBy (· == ' ') z).isEmpty && z.head? == some ' ' && z.getLast? == some ' ') = true := by
    intro z
    simp only [Bool.and_eq_true, Bool.not_eq_true', beq_iff_eq, lstripBy, List.isEmpty_eq_false_iff, ne_eq,
      List.dropWhile_eq_nil_iff, not_forall, exists_prop]
    constructor
    · rintro ⟨y, rfl, c, hc, hne⟩
      refine ⟨⟨⟨c, by simp [hc], hne⟩, rfl⟩, by rw [← List.cons_append, List.getLast?_concat]⟩
    · rintro ⟨⟨⟨c, hc, hne⟩, h1⟩, h2⟩
      cases z with
      | nil => simp at hc
      | cons a z =>
        simp only [List.head?_cons, Option.some.injEq] at h1
        subst h1
        rcases List.eq_nil_or_concat z with rfl | ⟨w, l, rfl⟩
        · simp at hc; exact absurd hc hne
        · have : l = ' ' := by
            rw [List.concat_eq_append, ← List.cons_append, List.getLast?_concat] at h2; simpa using h2
          subst this
          refine ⟨w, by simp, c, ?_, hne⟩
          simp only [List.concat_eq_append, List.mem_cons, List.mem_append, List.not_mem_nil, or_false] at hc
          rcases hc with rfl | hc | rfl
          · exact absurd rfl hne
          · exact hc
          · exact absurd rfl hne
  rcases h with ⟨h1, h2⟩ | ⟨h1, h2⟩
  · have := (key (flatLines x)).1 ⟨y, h1, h2⟩
    simp only []
    rw [if_pos this, h1]
    simp [chop]
  · have hn : ¬ (!(lstripBy (· == ' ') (flatLines x)).isEmpty && (flatLines x).head? == some ' ' &&
        (flatLines x).getLast? == some ' ') = true := fun hh => h2 ((key _).2 hh)
    simp only [hn]
    simpa using h1

theorem codeText_exists (x : Str) : ∃ y, CodeText x y := by
  by_cases h : ∃ z, flatLines x = ' ' :: (z ++ [' ']) ∧ ∃ c ∈ z, c ≠ ' '
  · obtain ⟨z, h1, h2⟩ := h; exact ⟨z, Or.inl ⟨h1, h2⟩⟩
  · exact ⟨_, Or.inr ⟨rfl, h⟩⟩

/-! ### Steps -/

/-- A code span. -/
theorem step_code {c : Ctx} {st : IState} {n : Nat} {x y t : Str}
    (h : c.rest st.pos = List.replicate n '`' ++ (x ++ List.replicate n '`') ++ t) (hn : 1 ≤ n) (hx : x ≠ [])
    (hh : x.head? ≠ some '`') (hl : x.getLast? ≠ some '`') (hnt : NoTicks n x) (ht : t.head? ≠ some '`')
    (hy : CodeText x y) :
    parseInline c st = .ok (some (st.add (n + (x.length + n)) (codeNode y))) := by
  have h' : c.rest st.pos = List.replicate n '`' ++ (x ++ (List.replicate n '`' ++ t)) := by rw [h]; simp
  have hxt : (x ++ (List.replicate n '`' ++ t)).head? ≠ some '`' := by
    cases x with
    | nil => exact absurd rfl hx
    | cons y ys => simpa using hh
  have hm := match_of_rest h' (reTicks_rest hn hxt)
  have hr := rest_add h'
  rw [List.length_replicate] at hm hr
  have hlen : x.length < c.subject.length + 1 := by
    have := congrArg List.length hr
    simp [Ctx.rest] at this
    omega
  have hloop := backtick_some hn ht (c.subject.length + 1) (st.pos + n) x hr hlen hl hnt
  have hp : c.peek st.pos = some '`' := by
    obtain ⟨k, rfl⟩ : ∃ k, n = k + 1 := ⟨n - 1, by omega⟩
    rw [List.replicate_succ] at h
    exact rest_peek (by rw [h]; rfl)
  have hsl : slice c.subject (st.pos + n) (st.pos + n + (x.length + n) - n) = x := by
    have e : st.pos + n + (x.length + n) - n = st.pos + n + x.length := by omega
    rw [e, slice, List.drop_take]
    have := hr
    unfold Ctx.rest at this
    rw [this, Nat.add_sub_cancel_left, List.take_left' rfl]
  rw [parseInline, hp]
  simp only [show ('`' == '\n') = false by decide, show ('`' == '\\') = false by decide, Bool.false_eq_true, if_false,
    beq_self_eq_true, if_true]
  rw [parseBackticks, hm]
  simp only [hloop, bind, Except.bind, pure, Except.pure, fallback, if_true, List.length_replicate, hsl,
    codeText_eq hy, Except.ok.injEq, Option.some.injEq]
  unfold IState.add
  congr 2
  omega

/-- Backticks without a closing run. -/
theorem step_ticks {c : Ctx} {st : IState} {n : Nat} {t : Str} (h : c.rest st.pos = List.replicate n '`' ++ t)
    (hn : 1 ≤ n) (ht : t.head? ≠ some '`') (hnt : NoTicks n t) :
    parseInline c st = .ok (some (st.add n (textNode (List.replicate n '`')))) := by
  have hm := match_of_rest h (reTicks_rest hn ht)
  have hr := rest_add h
  rw [List.length_replicate] at hm hr
  have hlen : (c.rest (st.pos + n)).length < c.subject.length + 1 := by
    simp [Ctx.rest]; omega
  have hloop := backtick_none hn (c.subject.length + 1) (st.pos + n) hlen (by rw [hr]; exact hnt)
  have hp : c.peek st.pos = some '`' := by
    obtain ⟨k, rfl⟩ : ∃ k, n = k + 1 := ⟨n - 1, by omega⟩
    rw [List.replicate_succ] at h
    exact rest_peek (by rw [h]; rfl)
  rw [parseInline, hp]
  simp only [show ('`' == '\n') = false by decide, show ('`' == '\\') = false by decide, Bool.false_eq_true, if_false,
    beq_self_eq_true, if_true]
  rw [parseBackticks, hm]
  simp only [hloop, bind, Except.bind, pure, Except.pure, fallback, if_true]
  rfl

end CM
