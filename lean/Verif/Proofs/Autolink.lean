import Mathlib.Tactic.Tauto
import Verif.Proofs.Ticks
/-
Autolinks: the two patterns match exactly one way, and one excludes the other.
-/
set_option linter.unusedVariables false
namespace CM
open Spec

theorem first_char {z : Char} : ∀ {a b t t' : Str}, z ∉ a → z ∉ b → a ++ z :: t = b ++ z :: t' → a = b ∧ t = t'
  | [], [], t, t', _, _, h => by simpa using h
  | [], y :: b, t, t', _, hb, h => by
    simp only [List.nil_append, List.cons_append, List.cons.injEq] at h
    exact absurd h.1 (by rintro rfl; exact hb (by simp))
  | x :: a, [], t, t', ha, _, h => by
    simp only [List.nil_append, List.cons_append, List.cons.injEq] at h
    exact absurd h.1 (by rintro rfl; exact ha (by simp))
  | x :: a, y :: b, t, t', ha, hb, h => by
    simp only [List.cons_append, List.cons.injEq] at h
    have := first_char (fun hh => ha (by simp [hh])) (fun hh => hb (by simp [hh])) h.2
    exact ⟨by rw [h.1, this.1], this.2⟩

theorem inRange_char {lo hi c : Char} : inRange lo hi c = true ↔ lo ≤ c ∧ c ≤ hi := by
  simp only [inRange, Bool.and_eq_true, decide_eq_true_eq, char_le_iff]

theorem den_opt {n : Nat} {a : Re} {m t : Str} : Den n (.opt a) m t ↔ m = [] ∨ Den n a m t := by
  simp only [Re.opt, Den]
  constructor
  · rintro ⟨k, hk, h⟩
    cases h with
    | nil => exact Or.inl rfl
    | cons h1 h2 =>
      have hk := Nat.le_of_succ_le_succ hk
      cases h2 with
      | nil => exact Or.inr (by simpa using h1)
      | cons _ _ => omega
  · rintro (rfl | h)
    · exact ⟨0, by omega, .nil⟩
    · refine ⟨1, le_refl _, ?_⟩
      have := Iter.cons (P := fun m t => Den n a m t) (m1 := m) (m2 := []) (t := t) (by simpa using h) .nil
      simpa using this

theorem isAlnum_iff {c : Char} : isAlnum c = true ↔ AsciiAlnum c := by
  simp only [isAlnum, isAlpha, isDig, AsciiAlnum, AsciiLetter, Bool.or_eq_true, inRange_char]

theorem alpha_alphaCI {c : Char} (h : AsciiLetter c) : isAlphaCI c = true := by
  have : isAlpha c = true := by
    simp only [isAlpha, Bool.or_eq_true, inRange_char]; unfold AsciiLetter at h; tauto
  simp [isAlphaCI, this]

theorem alnum_alnumCI {c : Char} (h : AsciiAlnum c) : isAlnumCI c = true := by
  rcases h with h | h
  · simp [isAlnumCI, alpha_alphaCI h]
  · simp [isAlnumCI, isDig, inRange_char, h]

theorem reAutolink_noBos : reAutolink.noBos = true := by decide
theorem reEmailAutolink_noBos : reEmailAutolink.noBos = true := by decide

/-- What a URI autolink looks like. -/
theorem autolink_den {n : Nat} {m t : Str} (h : Den n reAutolink m t) : ∃ v, m = '<' :: (v ++ ['>']) ∧ '>' ∉ v := by
  simp only [reAutolink, Re.seqs, Re.lit1] at h
  obtain ⟨m1, m2, rfl, ⟨c1, h1, rfl⟩, m3, m4, rfl, ⟨c2, h2, rfl⟩, m5, m6, rfl, h3, m7, m8, rfl, ⟨c3, h4, rfl⟩, m9, m10, rfl,
    h5, c4, h6, rfl⟩ := h
  replace h3 := (den_between_chr (n := n) (by decide)).1 h3
  replace h5 := (den_star_chr (n := n)).1 h5
  simp only [beq_iff_eq] at h1 h4 h6
  subst h1 h4 h6
  refine ⟨c2 :: (m5 ++ ':' :: m9), by simp, ?_⟩
  intro hm
  simp only [List.mem_cons, List.mem_append] at hm
  rcases hm with rfl | hm | hm | hm
  · revert h2; decide
  · have := h3.2.2 _ hm; revert this; decide
  · cases hm
  · have := h5 _ hm; revert this; decide

theorem autolink_den_of {n : Nat} {u t : Str} (h : AbsoluteUri u) : Den n reAutolink ('<' :: (u ++ ['>'])) t := by
  obtain ⟨a, s, r, rfl, h1, h2, h3, h4, h5⟩ := h
  simp only [reAutolink, Re.seqs, Re.lit1]
  refine ⟨['<'], _, rfl, ⟨'<', by decide, rfl⟩, [a], s ++ (':' :: (r ++ ['>'])), by simp, ⟨a, alpha_alphaCI h1, rfl⟩,
    s, _, rfl, (den_between_chr (by decide)).2 ⟨h2, h3, ?_⟩, [':'], _, rfl, ⟨':', by decide, rfl⟩, r, ['>'], rfl,
    den_star_chr.2 ?_, '>', by decide, rfl⟩
  · intro c hc
    rcases h4 c hc with h | rfl | rfl | rfl
    · simp [alnum_alnumCI h]
    · decide
    · decide
    · decide
  · intro c hc
    obtain ⟨h6, h7, h8⟩ := h5 c hc
    simp only [h7, h8, beq_iff_eq, Bool.not_eq_true', Bool.or_eq_false_iff, decide_eq_false_iff_not, beq_eq_false_iff_ne, ne_eq,
      not_false_eq_true, true_and]
    omega

theorem uri_no_gt {u : Str} (h : AbsoluteUri u) : '>' ∉ u := by
  obtain ⟨v, h1, h2⟩ := autolink_den (autolink_den_of (n := 0) (t := []) h)
  simp only [List.cons.injEq, true_and] at h1
  have := List.append_cancel_right h1
  rw [this]; exact h2

theorem autolink_rest {u t : Str} (h : AbsoluteUri u) : reAutolink.rest ('<' :: (u ++ ['>']) ++ t) = some t := by
  have h1 : (reAutolink.rest ('<' :: (u ++ ['>']) ++ t)).isSome = true :=
    Re.rest_isSome_iff.2 ⟨_, t, rfl, autolink_den_of h⟩
  obtain ⟨t', h2⟩ := Option.isSome_iff_exists.1 h1
  rw [h2]
  obtain ⟨m, h3, h4⟩ := (Re.mem_all_iff _ _ _ _).1 (Re.run_some_mem h2)
  obtain ⟨v, rfl, h5⟩ := autolink_den h4
  have h6 : u ++ '>' :: t = v ++ '>' :: t' := by simpa using h3
  rw [(first_char (uri_no_gt h) h5 h6).2]

/-! ### E-mail -/

/-- What an e-mail autolink looks like. -/
theorem email_den {n : Nat} {m t : Str} (h : Den n reEmailAutolink m t) : ∃ u d, m = '<' :: (u ++ '@' :: (d ++ ['>'])) ∧
    u ≠ [] ∧ (∀ c ∈ u, isEmailChar c = true) ∧ '>' ∉ d := by
  simp only [reEmailAutolink, Re.seqs, Re.lit1] at h
  obtain ⟨m1, m2, rfl, ⟨c1, h1, rfl⟩, m3, m4, rfl, h2, m5, m6, rfl, ⟨c3, h3, rfl⟩, m7, m8, rfl, h4, m9, m10, rfl, ⟨k, h5⟩,
    c4, h6, rfl⟩ := h
  simp only [beq_iff_eq] at h1 h3 h6
  subst h1 h3 h6
  obtain ⟨h7, h8⟩ := den_plus_chr.1 h2
  have label : ∀ {m t : Str}, Den n reEmailLabel m t → '>' ∉ m := by
    intro m t h
    simp only [reEmailLabel] at h
    obtain ⟨a, b, rfl, ⟨x, hx, rfl⟩, h⟩ := h
    rcases den_opt.1 h with h | h
    rotate_left
    · obtain ⟨c, d, rfl, hc, e, he, rfl⟩ := h
      replace hc := ((den_upTo_chr (n := n)).1 hc).2
      intro hm
      simp only [List.mem_cons, List.mem_append, List.not_mem_nil, or_false, false_or] at hm
      rcases hm with rfl | hm | rfl
      · revert hx; decide
      · have := hc _ hm; revert this; decide
      · revert he; decide
    · subst h
      intro hm
      simp only [List.append_nil, List.mem_singleton] at hm
      subst hm; revert hx; decide
  have more : ∀ {k : Nat} {m t : Str},
      Iter (fun m t => ∃ m1 m2, m = m1 ++ m2 ∧ (∃ c, (c == '.') = true ∧ m1 = [c]) ∧ Den n reEmailLabel m2 t) k m t →
      '>' ∉ m := by
    intro k m t h
    induction h with
    | nil => simp
    | cons h _ ih =>
      obtain ⟨a, b, rfl, ⟨c, hc, rfl⟩, hb⟩ := h
      have := label hb
      simp only [beq_iff_eq] at hc
      subst hc
      simp only [List.cons_append, List.nil_append, List.mem_cons, List.mem_append, not_or]
      exact ⟨by decide, this, ih⟩
  refine ⟨m3, m7 ++ m9, by simp, h7, h8, ?_⟩
  simp only [List.mem_append, not_or]
  exact ⟨label h4, more h5⟩

theorem label_den {n : Nat} {l t : Str} (h : DomainLabel l) : Den n reEmailLabel l t := by
  obtain ⟨h1, h2, ⟨c, h3, h4⟩, e, h5, h6⟩ := h
  cases l with
  | nil => cases h3
  | cons x l =>
    have : x = c := by simpa using h3
    subst this
    simp only [reEmailLabel]
    refine ⟨[x], l, rfl, ⟨x, isAlnum_iff.2 h4, rfl⟩, den_opt.2 ?_⟩
    rcases List.eq_nil_or_concat l with rfl | ⟨w, y, rfl⟩
    · exact Or.inl rfl
    · rw [List.concat_eq_append] at h1 h2 h5 ⊢
      rw [← List.cons_append, List.getLast?_concat] at h5
      have : y = e := by simpa using h5
      subst this
      refine Or.inr ⟨w, [y], rfl, den_upTo_chr.2 ⟨by simp at h1; omega, ?_⟩, y, isAlnum_iff.2 h6, rfl⟩
      intro c hc
      rcases h2 c (by simp [hc]) with h | rfl
      · simp [isAlnum_iff.2 h]
      · decide

theorem domain_den {n : Nat} {d : Str} (h : Domain d) : ∀ t, ∃ m1 m2, d = m1 ++ m2 ∧ Den n reEmailLabel m1 (m2 ++ t) ∧
    Den n (.star (.seq (.lit1 '.') reEmailLabel)) m2 t := by
  induction h with
  | one h => intro t; exact ⟨_, [], by simp, label_den h, 0, .nil⟩
  | @dot l d h _ ih =>
    intro t
    obtain ⟨m1, m2, rfl, h1, k, h2⟩ := ih t
    refine ⟨l, '.' :: (m1 ++ m2), rfl, label_den h, k + 1, ?_⟩
    exact .cons (m1 := '.' :: m1) ⟨['.'], m1, rfl, ⟨'.', by decide, rfl⟩, h1⟩ h2

theorem email_den_of {n : Nat} {u t : Str} (h : EmailAddress u) : Den n reEmailAutolink ('<' :: (u ++ ['>'])) t := by
  obtain ⟨a, d, rfl, h1, h2, h3⟩ := h
  obtain ⟨m1, m2, rfl, h4, h5⟩ := domain_den (n := n) h3 (['>'] ++ t)
  simp only [reEmailAutolink, Re.seqs]
  refine ⟨['<'], _, rfl, ⟨'<', by decide, rfl⟩, a, '@' :: (m1 ++ m2 ++ ['>']), by simp, den_plus_chr.2 ⟨h1, ?_⟩, ['@'], _, rfl,
    ⟨'@', by decide, rfl⟩, m1, m2 ++ ['>'], by simp, by simpa using h4, m2, ['>'], rfl, h5, '>', by decide, rfl⟩
  intro c hc
  unfold isEmailChar
  rcases h2 c hc with h | h
  · simp [isAlnum_iff.2 h]
  · have : (lit ".!#$%&'*+/=?^_`{|}~-").contains c = true := by simpa [lit] using h
    rw [this, Bool.or_true]

theorem email_no_gt {u : Str} (h : EmailAddress u) : '>' ∉ u := by
  obtain ⟨a, d, h1, h2, h3, h4⟩ := email_den (email_den_of (n := 0) (t := []) h)
  have e : u ++ ['>'] = (a ++ '@' :: d) ++ ['>'] := by simpa using h1
  rw [List.append_cancel_right e]
  simp only [List.mem_append, List.mem_cons, not_or]
  refine ⟨fun hm => ?_, by decide, h4⟩
  have := h3 _ hm; revert this; decide

theorem email_rest {u t : Str} (h : EmailAddress u) : reEmailAutolink.rest ('<' :: (u ++ ['>']) ++ t) = some t := by
  have h1 : (reEmailAutolink.rest ('<' :: (u ++ ['>']) ++ t)).isSome = true :=
    Re.rest_isSome_iff.2 ⟨_, t, rfl, email_den_of h⟩
  obtain ⟨t', h2⟩ := Option.isSome_iff_exists.1 h1
  rw [h2]
  obtain ⟨m, h3, h4⟩ := (Re.mem_all_iff _ _ _ _).1 (Re.run_some_mem h2)
  obtain ⟨a, d, rfl, h5, h6, h7⟩ := email_den h4
  have h8 : '>' ∉ a ++ '@' :: d := by
    simp only [List.mem_append, List.mem_cons, not_or]
    refine ⟨fun hm => ?_, by decide, h7⟩
    have := h6 _ hm; revert this; decide
  have h9 : u ++ '>' :: t = (a ++ '@' :: d) ++ '>' :: t' := by simpa using h3
  rw [(first_char (email_no_gt h) h8 h9).2]

/-- The first character that is not in a class. -/
theorem span_unique {p : Char → Bool} {x y : Char} : ∀ {a b t t' : Str}, (∀ c ∈ a, p c = true) → (∀ c ∈ b, p c = true) →
    p x = false → p y = false → a ++ x :: t = b ++ y :: t' → a = b ∧ x = y ∧ t = t'
  | [], [], t, t', _, _, _, _, h => by simpa using h
  | [], z :: b, t, t', _, hb, hx, _, h => by
    simp only [List.nil_append, List.cons_append, List.cons.injEq] at h
    have := hb z (by simp); rw [← h.1, hx] at this; cases this
  | w :: a, [], t, t', ha, _, _, hy, h => by
    simp only [List.nil_append, List.cons_append, List.cons.injEq] at h
    have := ha w (by simp); rw [h.1, hy] at this; cases this
  | w :: a, z :: b, t, t', ha, hb, hx, hy, h => by
    simp only [List.cons_append, List.cons.injEq] at h
    have := span_unique (fun c hc => ha c (by simp [hc])) (fun c hc => hb c (by simp [hc])) hx hy h.2
    exact ⟨by rw [h.1, this.1], this.2⟩

/-- A URI autolink is not an e-mail autolink. -/
theorem uri_not_email {u t : Str} (h : AbsoluteUri u) : reEmailAutolink.rest ('<' :: (u ++ ['>']) ++ t) = none := by
  cases hr : reEmailAutolink.rest ('<' :: (u ++ ['>']) ++ t) with
  | none => rfl
  | some t' =>
    exfalso
    obtain ⟨m, h3, h4⟩ := (Re.mem_all_iff _ _ _ _).1 (Re.run_some_mem hr)
    obtain ⟨b, d, rfl, h5, h6, h7⟩ := email_den h4
    obtain ⟨a, s, r, rfl, h8, h9, h10, h11, h12⟩ := h
    have e : (a :: s) ++ ':' :: (r ++ '>' :: t) = b ++ '@' :: (d ++ '>' :: t') := by simpa using h3
    have hs : ∀ c ∈ a :: s, isEmailChar c = true := by
      intro c hc
      unfold isEmailChar
      rcases List.mem_cons.1 hc with rfl | hc
      · simp [isAlnum_iff.2 (Or.inl h8)]
      · rcases h11 c hc with h | rfl | rfl | rfl
        · simp [isAlnum_iff.2 h]
        · decide
        · decide
        · decide
    have := (span_unique hs h6 (by decide) (by decide) e).2.1
    revert this; decide

/-! ### Steps -/

theorem chop_wrap (a b : Char) (u : Str) : chop (a :: (u ++ [b])) = u := by
  simp [chop]

theorem step_uri {c : Ctx} {st : IState} {u t : Str} (h : c.rest st.pos = '<' :: (u ++ ['>']) ++ t) (hu : AbsoluteUri u) :
    parseInline c st = .ok (some (st.add (u.length + 2) (linkNode .link (normalizeUri u) [] [textNode u]))) := by
  have h1 := match_none h (uri_not_email hu)
  have h2 := match_of_rest h (autolink_rest hu)
  have hp : c.peek st.pos = some '<' := rest_peek (by rw [h]; rfl)
  rw [parseInline, hp]
  simp only [show ('<' == '\n') = false by decide, show ('<' == '\\') = false by decide, show ('<' == '`') = false by decide,
    show ('<' == '*') = false by decide, show ('<' == '_') = false by decide, show ('<' == '\'') = false by decide,
    show ('<' == '"') = false by decide, show ('<' == '[') = false by decide, show ('<' == '!') = false by decide,
    show ('<' == ']') = false by decide, Bool.or_self, Bool.false_eq_true, if_false, beq_self_eq_true, if_true]
  rw [parseAutolink, h1]
  simp only [h2, fallback, if_true, chop_wrap, List.length_cons, List.length_append, List.length_nil]
  rfl

theorem step_email {c : Ctx} {st : IState} {u t : Str} (h : c.rest st.pos = '<' :: (u ++ ['>']) ++ t) (hu : EmailAddress u) :
    parseInline c st =
      .ok (some (st.add (u.length + 2) (linkNode .link (normalizeUri ("mailto:".toList ++ u)) [] [textNode u]))) := by
  have h2 := match_of_rest h (email_rest hu)
  have hp : c.peek st.pos = some '<' := rest_peek (by rw [h]; rfl)
  rw [parseInline, hp]
  simp only [show ('<' == '\n') = false by decide, show ('<' == '\\') = false by decide, show ('<' == '`') = false by decide,
    show ('<' == '*') = false by decide, show ('<' == '_') = false by decide, show ('<' == '\'') = false by decide,
    show ('<' == '"') = false by decide, show ('<' == '[') = false by decide, show ('<' == '!') = false by decide,
    show ('<' == ']') = false by decide, Bool.or_self, Bool.false_eq_true, if_false, beq_self_eq_true, if_true]
  rw [parseAutolink, h2]
  simp only [fallback, if_true, chop_wrap, List.length_cons, List.length_append, List.length_nil]
  rfl

/-- A less-than sign that starts nothing. -/
theorem step_less {c : Ctx} {st : IState} {t : Str} (h : c.rest st.pos = '<' :: t)
    (ht : ∀ x, t.head? = some x → x ∈ " \n<>\"(),:;@[\\]".toList) :
    parseInline c st = .ok (some (st.add 1 (textNode ['<']))) := by
  have key : reEmailAutolink.rest ('<' :: t) = none ∧ reAutolink.rest ('<' :: t) = none ∧
      reHtmlTag.rest ('<' :: t) = none := by
    cases t with
    | nil => exact ⟨rfl, rfl, rfl⟩
    | cons x t =>
      have hx := ht x rfl
      have hx : x = ' ' ∨ x = '\n' ∨ x = '<' ∨ x = '>' ∨ x = '"' ∨ x = '(' ∨ x = ')' ∨ x = ',' ∨ x = ':' ∨ x = ';' ∨
        x = '@' ∨ x = '[' ∨ x = '\\' ∨ x = ']' := by simpa using hx
      rcases hx with rfl | rfl | rfl | rfl | rfl | rfl | rfl | rfl | rfl | rfl | rfl | rfl | rfl | rfl <;>
        exact ⟨rfl, rfl, rfl⟩
  have h1 := match_none h key.1
  have h2 := match_none h key.2.1
  have h3 := match_none h key.2.2
  have hp : c.peek st.pos = some '<' := rest_peek h
  rw [parseInline, hp]
  simp only [show ('<' == '\n') = false by decide, show ('<' == '\\') = false by decide, show ('<' == '`') = false by decide,
    show ('<' == '*') = false by decide, show ('<' == '_') = false by decide, show ('<' == '\'') = false by decide,
    show ('<' == '"') = false by decide, show ('<' == '[') = false by decide, show ('<' == '!') = false by decide,
    show ('<' == ']') = false by decide, Bool.or_self, Bool.false_eq_true, if_false, beq_self_eq_true, if_true]
  rw [parseAutolink, h1]
  simp only [h2, parseHtmlTag, h3, fallback, Bool.false_eq_true, if_false]
  rfl

end CM
