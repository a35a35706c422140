import Verif.Spec.Spelling
import Verif.Proofs.Tabs
import Verif.Proofs.RunLeaf2
/-
Headings: the marker and the title of a line (C69).
-/
set_option linter.unusedVariables false
namespace CM
open Spec

theorem upToK_hash (n : Nat) (k : Str → Option Str) {r t : Str} (hk : k r = some t) (hr : r.head? ≠ some '#') : ∀ (i j : Nat), i ≤ j →
    upToK ((Re.lit1 '#').run n) k j (List.replicate i '#' ++ r) = some t
  | 0, 0, _ => hk
  | 0, j + 1, _ => by
    cases r with
    | nil => simp [upToK, Re.lit1, Re.run, hk]
    | cons c r =>
      have : (c == '#') = false := by simpa using hr
      simp [upToK, Re.lit1, Re.run, this, hk]
  | i + 1, 0, h => by omega
  | i + 1, j + 1, h => by
    have ih := upToK_hash n k hk hr i j (by omega)
    simp only [List.replicate_succ, List.cons_append, upToK, Re.lit1, Re.run_chr_cons, beq_self_eq_true, if_true, List.length_cons, Nat.lt_succ_self]
    rw [show Re.chr (fun x => x == '#') = Re.lit1 '#' from rfl, ih]

/-- The marker takes the white space after it. -/
theorem atx_taken {n : Nat} {v r : Str} (h1 : 1 ≤ n) (h6 : n ≤ 6) (hv : OnlySpTab v) (hr : NoWs r) (h : v ≠ [] ∨ r = []) :
    reATXHeadingMarker.matchPrefix (List.replicate n '#' ++ (v ++ r)) = some (List.replicate n '#' ++ v) := by
  rw [← List.append_assoc]
  refine Re.matchPrefix_of_rest ?_
  rw [List.append_assoc]
  unfold Re.rest
  generalize (List.replicate n '#' ++ (v ++ r)).length = N
  obtain ⟨i, rfl⟩ : ∃ i, n = i + 1 := ⟨n - 1, by omega⟩
  have hk : (Re.alt reSpTab1 .eos).run N (v ++ r) some = some r := by
    cases v with
    | nil =>
      obtain rfl := h.resolve_left fun h => h rfl
      rfl
    | cons c v =>
      have hc : isSpTab c = true := isSpTab_iff.2 (hv c (by simp))
      have hs : reSpTab1.run N (c :: v ++ r) some = some r := by
        show (match (c :: (v ++ r)) with | [] => none | c :: cs => if isSpTab c then (Re.star (.chr isSpTab)).run N cs some else none) = _
        simp only [hc, if_true]
        rw [Re.run_star_chr_some, (takeWhile_ws (fun x hx => hv x (by simp [hx])) hr).2]
      simp only [Re.run, hs]
  have hh : (v ++ r).head? ≠ some '#' := by
    cases v with
    | nil =>
      obtain rfl := h.resolve_left fun h => h rfl
      simp
    | cons c v =>
      rcases hv c (by simp) with rfl | rfl <;> simp
  show ((Re.seq (.exactly 1 (.lit1 '#')) (.upTo 5 (.lit1 '#'))).run N (List.replicate (i + 1) '#' ++ (v ++ r)) _) = _
  have := upToK_hash N (fun s => (Re.alt reSpTab1 .eos).run N s some) hk hh i 5 (by omega)
  rw [List.replicate_succ]
  exact this

/-- What the closing sequence matches. -/
theorem trail_chars {n : Nat} {m t : Str} {r : Re} (hr : ∀ {a b}, Den n r a b → OnlySpTab a) (h : Den n (.seqs [r, .plus (.lit1 '#'), reSpTab0, .eos]) m t) :
    (∀ c ∈ m, c = ' ' ∨ c = '\t' ∨ c = '#') ∧ (t = [] ∨ t = ['\n']) := by
  obtain ⟨m1, m2, rfl, h0, m3, m4, rfl, h1, m5, m6, rfl, h2, h3⟩ := h
  obtain ⟨rfl, ht⟩ : m6 = [] ∧ (t = [] ∨ t = ['\n']) := ⟨h3.1, h3.2⟩
  have h1' := den_plus_chr.1 h1
  have h2' := spTab_iff.1 (den_star_chr.1 h2)
  have h0' := hr h0
  refine ⟨?_, ht⟩
  intro c hc
  simp only [List.append_nil, List.mem_append] at hc
  rcases hc with hc | hc | hc
  · rcases h0' c hc with h | h
    · exact .inl h
    · exact .inr (.inl h)
  · exact .inr (.inr (by simpa using h1'.2 c hc))
  · rcases h2' c hc with h | h
    · exact .inl h
    · exact .inr (.inl h)

theorem spTab1_den {n : Nat} {a b : Str} (h : Den n reSpTab1 a b) : OnlySpTab a := spTab_iff.1 (den_plus_chr.1 h).2
theorem spTab0_den {n : Nat} {a b : Str} (h : Den n reSpTab0 a b) : OnlySpTab a := spTab_iff.1 (den_star_chr.1 h)

/-- A pattern that matches nowhere in `x`. -/
theorem subLoop_skip {r : Re} {f : Str → Str} {n : Nat} (c : Str) : ∀ (x : Str) (k : Nat), x.length ≤ k →
    (∀ a z, x = a ++ z → z ≠ [] → r.run n (z ++ c) some = none) → r.subLoop f n k (x ++ c) = x ++ r.subLoop f n (k - x.length) c
  | [], k, _, _ => by simp
  | d :: x, 0, h, _ => by simp at h
  | d :: x, k + 1, h, hx => by
    have := subLoop_skip (f := f) c x k (by simpa using h) fun a z e hz => hx (d :: a) z (by rw [e]; rfl) hz
    rw [List.cons_append, Re.subLoop]
    have h0 := hx [] (d :: x) rfl (by simp)
    rw [List.cons_append] at h0
    rw [h0]
    simp only [List.cons_append, List.length_cons, Nat.add_sub_add_right]
    rw [this]

theorem run_none_of {r : Re} {n : Nat} {s : Str} (h : ∀ m t, s = m ++ t → Den n r m t → False) : r.run n s some = none := by
  cases hr : r.run n s some with
  | none => rfl
  | some y =>
    exfalso
    obtain ⟨m, h3, h4⟩ := (Re.mem_all_iff _ _ _ _).1 (Re.run_some_mem hr)
    exact h m y h3 h4

theorem run_some_of {r : Re} {n : Nat} {s m t : Str} (h : s = m ++ t) (hd : Den n r m t) : ∃ m t, s = m ++ t ∧ Den n r m t ∧ r.run n s some = some t := by
  have hm := (Re.mem_all_iff n r s t).2 ⟨m, h, hd⟩
  cases hr : r.run n s some with
  | none =>
    exfalso
    rw [Re.run_eq_all, List.findSome?_eq_none_iff] at hr
    exact absurd (hr t hm) (by simp)
  | some y =>
    obtain ⟨m', h3, h4⟩ := (Re.mem_all_iff _ _ _ _).1 (Re.run_some_mem hr)
    exact ⟨m', y, h3, h4, rfl⟩

theorem closing_den {n : Nat} {r : Re} {u w : Str} {k : Nat} (hu : Den n r u (List.replicate k '#' ++ w)) (hk : 1 ≤ k) (hw : OnlySpTab w) :
    Den n (.seqs [r, .plus (.lit1 '#'), reSpTab0, .eos]) (u ++ (List.replicate k '#' ++ w)) [] := by
  refine ⟨u, List.replicate k '#' ++ w, rfl, by simpa using hu, List.replicate k '#', w, rfl, ?_, w, [], by simp, ?_, ?_⟩
  · exact den_plus_chr.2 ⟨by intro e; rw [List.replicate_eq_nil_iff] at e; omega, fun c hc => by rw [(List.mem_replicate.1 hc).2]; rfl⟩
  · exact den_star_chr.2 (spTab_iff.2 hw)
  · exact ⟨rfl, .inl rfl⟩

/-- One replacement that takes the whole text. -/
theorem subLoop_whole {r : Re} {n k : Nat} {s m : Str} (hs : s ≠ []) (hk : 1 ≤ k) (hnl : '\n' ∉ s) (hd : Den n r s []) (hr : ∀ m t, Den n r m t → t = [] ∨ t = ['\n']) :
    r.subLoop (fun _ => []) n k s = [] := by
  obtain ⟨m', t, e, h1, h2⟩ := run_some_of (List.append_nil s).symm hd
  have ht : t = [] := noNl_eos hnl e (hr _ _ h1)
  subst ht
  cases s with
  | nil => exact absurd rfl hs
  | cons c s =>
    cases k with
    | zero => omega
    | succ k =>
      rw [Re.subLoop, h2]
      simp only [List.length_nil, List.length_cons, Nat.zero_lt_succ, if_true, List.nil_append]
      cases k <;> simp [Re.subLoop]

/-- The title without the closing sequence. -/
theorem atxContent_closed {x c : Str} {b : Char} (hb : x.getLast? = some b) (h1 : b ≠ ' ') (h2 : b ≠ '\t') (h3 : b ≠ '#') (hnl : '\n' ∉ x ++ c)
    (hc : c = [] ∨ ∃ u k w, c = u ++ (List.replicate k '#' ++ w) ∧ OnlySpTab u ∧ u ≠ [] ∧ 1 ≤ k ∧ OnlySpTab w) : atxContent (x ++ c) = x := by
  have hbx : ∀ z a, x = a ++ z → z ≠ [] → b ∈ z := by
    intro z a e hz
    rw [e, List.getLast?_append, List.getLast?_eq_some_getLast hz] at hb
    simp only [Option.some_or, Option.some.injEq] at hb
    exact hb ▸ List.getLast_mem hz
  have hbn : b ≠ '\n' := by
    rintro rfl
    exact hnl (List.mem_append_left _ (List.mem_of_getLast? hb))
  have bad : ∀ {m t z : Str}, z ++ c = m ++ t → b ∈ z → (∀ c ∈ m, c = ' ' ∨ c = '\t' ∨ c = '#') ∧ (t = [] ∨ t = ['\n']) → False := by
    intro m t z e hz ⟨g1, g2⟩
    have : b ∈ m ++ t := by rw [← e]; exact List.mem_append_left _ hz
    rcases List.mem_append.1 this with h | h
    · rcases g1 b h with h | h | h
      · exact h1 h
      · exact h2 h
      · exact h3 h
    · rcases g2 with rfl | rfl
      · cases h
      · exact hbn (by simpa using h)
  have hxne : x ≠ [] := by rintro rfl; cases hb
  have e1 : reAtxEmpty.sub (fun _ => []) (x ++ c) = x ++ c := by
    refine subLoop_id _ _ fun a z e hz => run_none_of fun m t e2 hd => ?_
    obtain ⟨m1, m2, rfl, h5, h6⟩ := hd
    obtain ⟨rfl, h7⟩ := h5
    have h7 : (m2 ++ t).length = (x ++ c).length := by simpa using h7
    have ha : a = [] := by
      rw [List.nil_append] at e2
      rw [e, ← e2] at h7
      simp at h7
      exact h7
    subst ha
    rw [List.nil_append] at e e2
    refine bad (z := x) (m := m2) (t := t) (by rw [e, e2]) (hbx x [] rfl hxne) (trail_chars spTab0_den h6)
  unfold atxContent
  rw [e1]
  show reAtxTrail.subLoop _ _ _ (x ++ c) = x
  rw [subLoop_skip (r := reAtxTrail) c x _ (by simp) fun a z e hz => run_none_of fun m t e2 hd => bad e2 (hbx z a e hz) (trail_chars spTab1_den hd)]
  rw [List.length_append, Nat.add_sub_cancel_left]
  rcases hc with rfl | ⟨u, k, w, rfl, g1, g2, g3, g4⟩
  · simp [Re.subLoop]
  · rw [subLoop_whole (m := []) (by simp [g2]) (by cases u with | nil => exact absurd rfl g2 | cons => simp) (fun h => hnl (List.mem_append_right _ h)) ?_ ?_, List.append_nil]
    · exact closing_den (r := reSpTab1) (den_plus_chr.2 ⟨g2, spTab_iff.2 g1⟩) g3 g4
    · intro m t hd
      exact (trail_chars spTab1_den hd).2

theorem atxContent_hashes {w : Str} {k : Nat} (hk : 1 ≤ k) (hw : OnlySpTab w) : atxContent (List.replicate k '#' ++ w) = [] := by
  have hnl : '\n' ∉ List.replicate k '#' ++ w := by
    intro h
    rcases List.mem_append.1 h with h | h
    · exact absurd (List.mem_replicate.1 h).2 (by decide)
    · rcases hw _ h with h | h <;> revert h <;> decide
  have hne : List.replicate k '#' ++ w ≠ [] := by
    intro e
    have := (List.append_eq_nil_iff.1 e).1
    rw [List.replicate_eq_nil_iff] at this; omega
  have e1 : reAtxEmpty.sub (fun _ => []) (List.replicate k '#' ++ w) = [] := by
    refine subLoop_whole (m := []) hne (by cases h : List.replicate k '#' ++ w with | nil => exact absurd h hne | cons => simp) hnl ?_ ?_
    · refine ⟨[], _, rfl, ⟨rfl, by simp⟩, ?_⟩
      exact closing_den (r := reSpTab0) (u := []) (den_star_chr.2 (by simp)) hk hw
    · rintro m t ⟨m1, m2, rfl, _, hd⟩
      exact (trail_chars spTab0_den hd).2
  unfold atxContent
  rw [e1]
  rfl

theorem atxContent_nil : atxContent [] = [] := rfl

/-- The parts of a heading. -/
theorem atx_parts {n : Nat} {x l : Str} (h1 : 1 ≤ n) (h6 : n ≤ 6) (hnl : '\n' ∉ l) (h : AtxHeading n x l) :
    ∃ v r, l = List.replicate n '#' ++ (v ++ r) ∧ OnlySpTab v ∧ reATXHeadingMarker.matchPrefix l = some (List.replicate n '#' ++ v) ∧ atxContent r = x := by
  have nw : ∀ {s t : Str} {a : Char}, s.head? = some a → a ≠ ' ' → a ≠ '\t' → NoWs (s ++ t) := by
    intro s t a hs g1 g2 c hc
    cases s with
    | nil => cases hs
    | cons d s =>
      cases hs; cases hc
      simp [isSpTab, g1, g2]
  cases h with
  | @empty v hv => exact ⟨v, [], by simp, hv, by simpa using atx_taken (r := []) h1 h6 hv (fun c hc => by cases hc) (.inr rfl), rfl⟩
  | @closedEmpty v w k g1 g2 g3 g4 =>
    refine ⟨v, _, rfl, g1, atx_taken h1 h6 g1 ?_ (.inl g2), atxContent_hashes g4 g3⟩
    cases k with
    | zero => omega
    | succ k => exact nw (a := '#') rfl (by decide) (by decide)
  | @plain v x a b g1 g2 g3 g4 g5 g6 g7 g8 g9 =>
    refine ⟨v, _, rfl, g1, atx_taken h1 h6 g1 (by simpa using nw (t := []) g3 g4 g5) (.inl g2), ?_⟩
    simpa using atxContent_closed (c := []) g6 g7 g8 g9 (fun h => hnl (by simp at h; simp [h])) (.inl rfl)
  | @closed v x u w a b k g1 g2 g3 g4 g5 g6 g7 g8 g9 g10 g11 g12 g13 =>
    refine ⟨v, _, rfl, g1, atx_taken h1 h6 g1 (nw g3 g4 g5) (.inl g2), ?_⟩
    exact atxContent_closed g6 g7 g8 g9 (fun h => hnl (List.mem_append_right _ (List.mem_append_right _ h))) (.inr ⟨u, k, w, rfl, g10, g11, g12, g13⟩)

end CM
