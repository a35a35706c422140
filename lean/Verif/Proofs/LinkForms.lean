import Verif.Proofs.HtmlTag
import Verif.Proofs.LabelForm
/-
The pieces of autolinks, inline links and references have the forms of the specification.
-/
set_option linter.unusedVariables false
set_option linter.unusedSimpArgs false
namespace CM
open Spec

/-! ### Autolinks -/

theorem den_autolink {n : Nat} (m t : Str) : Den n reAutolink m t ↔ ∃ u, m = '<' :: (u ++ ['>']) ∧ AutoUri u := by
  simp only [reAutolink, Re.seqs]
  constructor
  · rintro ⟨m1, m2, rfl, h1, m3, m4, rfl, ⟨a, h2, rfl⟩, s, m6, rfl, h3, m7, m8, rfl, h4, r, m10, rfl, h5, h6⟩
    rw [den_lit1.1 h1, den_lit1.1 h4, den_lit1.1 h6]
    obtain ⟨g1, g2, g3⟩ := (den_between_chr (n := n) (by decide)).1 h3
    refine ⟨a :: s ++ ':' :: r, by simp, a, s, r, rfl, isAlphaCI_iff.1 h2, g1, g2, fun c hc => ?_, fun c hc => ?_⟩
    · have := g3 c hc
      simp only [Bool.or_eq_true, beq_iff_eq, isAlnumCI_iff] at this
      unfold Digit
      tauto
    · have := (den_star_chr (n := n)).1 h5 c hc
      simp only [Bool.not_eq_true', Bool.or_eq_false_iff, beq_eq_false_iff_ne, decide_eq_false_iff_not, Nat.not_le] at this
      tauto
  · rintro ⟨u, rfl, a, s, r, rfl, h1, h2, h3, h4, h5⟩
    refine ⟨['<'], _, rfl, den_lit1.2 rfl, [a], s ++ (':' :: (r ++ ['>'])), by simp, ⟨a, isAlphaCI_iff.2 h1, rfl⟩, s, _, rfl,
      (den_between_chr (by decide)).2 ⟨h2, h3, fun c hc => ?_⟩, [':'], _, rfl, den_lit1.2 rfl, r, ['>'], rfl,
      den_star_chr.2 fun c hc => ?_, den_lit1.2 rfl⟩
    · have := h4 c hc
      simp only [Bool.or_eq_true, beq_iff_eq, isAlnumCI_iff]
      unfold Digit at this
      tauto
    · have := h5 c hc
      simp only [Bool.not_eq_true', Bool.or_eq_false_iff, beq_eq_false_iff_ne, decide_eq_false_iff_not, Nat.not_le]
      tauto

theorem label_of_den {n : Nat} {l t : Str} (h : Den n reEmailLabel l t) : DomainLabel l := by
  simp only [reEmailLabel] at h
  obtain ⟨a, b, rfl, ⟨x, hx, rfl⟩, h⟩ := h
  have hx := isAlnum_iff.1 hx
  rcases den_opt.1 h with h | h
  · subst h
    refine ⟨by simp, ?_, ⟨x, rfl, hx⟩, x, rfl, hx⟩
    intro c hc
    simp only [List.append_nil, List.mem_singleton] at hc
    subst hc; exact Or.inl hx
  · obtain ⟨c, d, rfl, hc, e, he, rfl⟩ := h
    obtain ⟨hc1, hc2⟩ := (den_upTo_chr (n := n)).1 hc
    have he := isAlnum_iff.1 he
    refine ⟨by simp; omega, ?_, ⟨x, rfl, hx⟩, e, ?_, he⟩
    rotate_left
    · rw [List.cons_append, List.nil_append, ← List.cons_append, List.getLast?_concat]
    intro z hz
    simp only [List.mem_cons, List.mem_append, List.not_mem_nil, or_false, false_or] at hz
    rcases hz with rfl | hz | rfl
    · exact Or.inl hx
    · have := hc2 z hz
      simp only [Bool.or_eq_true, beq_iff_eq, isAlnum_iff] at this
      exact this
    · exact Or.inl he

theorem email_of_den {n : Nat} {m t : Str} (h : Den n reEmailAutolink m t) :
    ∃ u, m = '<' :: (u ++ ['>']) ∧ EmailAddress u := by
  simp only [reEmailAutolink, Re.seqs] at h
  obtain ⟨m1, m2, rfl, h1, u, m4, rfl, h2, m5, m6, rfl, h3, l, m8, rfl, h4, m9, m10, rfl, ⟨k, h5⟩, h6⟩ := h
  rw [den_lit1.1 h1, den_lit1.1 h3, den_lit1.1 h6]
  obtain ⟨h7, h8⟩ := den_plus_chr.1 h2
  have more : ∀ {k : Nat} {m t : Str}, Iter (fun m t => Den n (.seq (.lit1 '.') reEmailLabel) m t) k m t →
      ∀ l, DomainLabel l → Domain (l ++ m) := by
    intro k m t h
    induction h with
    | nil => intro l hl; rw [List.append_nil]; exact .one hl
    | cons h _ ih =>
      intro l hl
      obtain ⟨a, b, rfl, ha, hb⟩ := h
      rw [den_lit1.1 ha, List.append_assoc]
      exact .dot hl (ih b (label_of_den hb))
  refine ⟨u ++ '@' :: (l ++ m9), by simp, u, l ++ m9, rfl, h7, ?_, more h5 l (label_of_den h4)⟩
  intro c hc
  have := h8 c hc
  simp only [isEmailChar, Bool.or_eq_true, isAlnum_iff, lit, List.contains_iff_mem] at this
  exact this

/-! ### Titles, destinations and labels -/

theorem titleText_of_den {n : Nat} {p : Char → Bool} {qs : Str} (hp : ∀ c, p c = true → c ∉ qs ∧ c.toNat ≠ 0) {m t : Str}
    (h : Den n (.star (.alt reESCAPED_CHAR (.chr p))) m t) : TitleText qs m := by
  obtain ⟨k, h⟩ := h
  refine iter_pieces (P := fun p => (∃ c, c ∈ asciiPunctuation ∧ p = ['\\', c]) ∨ ∃ c, c ∉ qs ∧ c.toNat ≠ 0 ∧ p = [c])
    ?_ .nil ?_ h
  · rintro m t (h | ⟨c, hc, rfl⟩)
    · obtain ⟨a, b, rfl, h1, c, hc, rfl⟩ := h
      rw [den_lit1.1 h1]
      exact Or.inl ⟨c, (isEscapable_iff c).1 hc, rfl⟩
    · exact Or.inr ⟨c, (hp c hc).1, (hp c hc).2, rfl⟩
  · rintro p s (⟨c, hc, rfl⟩ | ⟨c, h1, h2, rfl⟩) hs
    · exact .escape hc hs
    · exact .plain h1 h2 hs

theorem title_of_den {n : Nat} {m t : Str} (h : Den n reLinkTitle m t) : Title m (chop m) := by
  simp only [reLinkTitle, Re.alts, Re.seqs] at h
  rcases h with h | h | h
  all_goals
    obtain ⟨a, b, rfl, h1, x, d, rfl, h2, h3⟩ := h
    rw [den_lit1.1 h1, den_lit1.1 h3, List.cons_append, List.nil_append, chop_wrap]
  · refine .double (titleText_of_den (fun c hc => ?_) h2)
    simp only [Bool.not_eq_true', Bool.or_eq_false_iff, beq_eq_false_iff_ne] at hc
    simpa using hc
  · refine .single (titleText_of_den (fun c hc => ?_) h2)
    simp only [Bool.not_eq_true', Bool.or_eq_false_iff, beq_eq_false_iff_ne] at hc
    simpa using hc
  · refine .paren (titleText_of_den (fun c hc => ?_) h2)
    simp only [Bool.not_eq_true', Bool.or_eq_false_iff, beq_eq_false_iff_ne] at hc
    simpa using hc

theorem angle_of_den {n : Nat} {m t : Str} (h : Den n reLinkDestinationBraces m t) :
    ∃ d, m = '<' :: (d ++ ['>']) ∧ InAngle d := by
  simp only [reLinkDestinationBraces, Re.seqs] at h
  obtain ⟨a, b, rfl, h1, x, d, rfl, ⟨k, h2⟩, h3⟩ := h
  rw [den_lit1.1 h1, den_lit1.1 h3]
  refine ⟨x, rfl, ?_⟩
  refine iter_pieces (P := fun p => (∃ c, c ∉ "<>\n\\".toList ∧ c.toNat ≠ 0 ∧ p = [c]) ∨ ∃ c, c ≠ '\n' ∧ p = ['\\', c])
    ?_ .nil ?_ h2
  · rintro m t (⟨c, hc, rfl⟩ | h)
    · simp only [Bool.not_eq_true', Bool.or_eq_false_iff, beq_eq_false_iff_ne] at hc
      refine Or.inl ⟨c, ?_, hc.2, rfl⟩
      rw [show "<>\n\\".toList = ['<', '>', '\n', '\\'] from rfl]
      simp only [List.mem_cons, List.not_mem_nil, or_false, not_or]
      tauto
    · obtain ⟨a, b, rfl, h1, c, hc, rfl⟩ := h
      rw [den_lit1.1 h1]
      exact Or.inr ⟨c, by simpa [isDot] using hc, rfl⟩
  · rintro p s (⟨c, hc, h0, rfl⟩ | ⟨c, h1, rfl⟩) hs
    · exact .plain hc h0 hs
    · exact .escape h1 hs

theorem match_none_rest {c : Ctx} {r : Re} {pos : Nat} (h : c.match_ r pos = none) : r.rest (c.rest pos) = none := by
  simp only [Ctx.match_, Option.map_eq_none_iff] at h
  have := Re.matchPrefix_isSome r (c.rest pos)
  rw [h] at this
  cases hr : r.rest (c.rest pos) with
  | none => rfl
  | some t => rw [hr] at this; cases this

theorem spnl_shape (c : Ctx) (pos : Nat) : ∃ s, Spnl s ∧ c.rest pos = s ++ c.rest (c.spnl pos) ∧ c.spnl pos = pos + s.length := by
  unfold Ctx.spnl
  split
  · rename_i m p h
    obtain ⟨h1, h2, h3⟩ := match_den h
    refine ⟨m, ?_, h2, h1⟩
    obtain ⟨a, b, rfl, ha, hb⟩ := h3
    have ha' := eq_replicate_of_all ((den_star_chr (n := (c.rest pos).length)).1 ha)
    refine ⟨a.length, ?_⟩
    rcases den_opt.1 hb with rfl | hb
    · left; rw [← ha']; simp
    · obtain ⟨x, y, rfl, hx, hy⟩ := hb
      have hy := eq_replicate_of_all ((den_star_chr (n := (c.rest pos).length)).1 hy)
      right
      refine ⟨y.length, ?_⟩
      rw [← hy, ← ha', den_lit1.1 hx]; rfl
  · exact ⟨[], ⟨0, Or.inl rfl⟩, rfl, rfl⟩

/-- The hand-written scan of a destination. -/
theorem scanDest_bare : ∀ (opens : Nat) (s : Str), ∃ d r l, s = d ++ r ∧ scanDest opens s = d.length ∧ Bare opens d l ∧
    (r.head? = some ')' → l = 0) ∧ (∀ c, r.head? = some c → c = ')' ∨ isWhitespaceChar c = true)
  | opens, [] => ⟨[], [], opens, rfl, rfl, .nil, by simp, by simp⟩
  | opens, '\\' :: x :: cs => by
    rw [scanDest]
    by_cases hx : isEscapable x = true
    · obtain ⟨d, r, l, h1, h2, h3, h4, h5⟩ := scanDest_bare opens cs
      rw [if_pos hx]
      exact ⟨'\\' :: x :: d, r, l, by rw [h1]; rfl, by rw [h2]; simp; omega, .escape ((isEscapable_iff x).1 hx) h3, h4, h5⟩
    · obtain ⟨d, r, l, h1, h2, h3, h4, h5⟩ := scanDest_bare opens (x :: cs)
      rw [if_neg hx]
      refine ⟨'\\' :: d, r, l, by rw [h1]; rfl, by rw [h2]; simp; omega, .backslash ?_ h3, h4, h5⟩
      intro c hc hm
      cases d with
      | nil => cases hc
      | cons y d =>
        simp only [List.cons_append, List.cons.injEq] at h1
        simp only [List.head?_cons, Option.some.injEq] at hc
        subst hc
        rw [← h1.1] at hm
        exact hx ((isEscapable_iff x).2 hm)
  | opens, ch :: cs => by
    by_cases hb : ch = '\\' ∧ cs ≠ []
    · obtain ⟨rfl, hcs⟩ := hb
      cases cs with
      | nil => exact absurd rfl hcs
      | cons x cs =>
        rw [scanDest]
        by_cases hx : isEscapable x = true
        · obtain ⟨d, r, l, h1, h2, h3, h4, h5⟩ := scanDest_bare opens cs
          rw [if_pos hx]
          exact ⟨'\\' :: x :: d, r, l, by rw [h1]; rfl, by rw [h2]; simp; omega, .escape ((isEscapable_iff x).1 hx) h3, h4, h5⟩
        · obtain ⟨d, r, l, h1, h2, h3, h4, h5⟩ := scanDest_bare opens (x :: cs)
          rw [if_neg hx]
          refine ⟨'\\' :: d, r, l, by rw [h1]; rfl, by rw [h2]; simp; omega, .backslash ?_ h3, h4, h5⟩
          intro c hc hm
          cases d with
          | nil => cases hc
          | cons y d =>
            simp only [List.cons_append, List.cons.injEq] at h1
            simp only [List.head?_cons, Option.some.injEq] at hc
            subst hc
            rw [← h1.1] at hm
            exact hx ((isEscapable_iff x).2 hm)
    · have e : scanDest opens (ch :: cs) = if ch == '(' then 1 + scanDest (opens + 1) cs
          else if ch == ')' then if opens < 1 then 0 else 1 + scanDest (opens - 1) cs
          else if isWhitespaceChar ch then 0 else 1 + scanDest opens cs := by
        rw [scanDest]
        rintro x xs rfl rfl
        exact hb ⟨rfl, by simp⟩
      rw [e]
      by_cases h1 : ch = '('
      · subst h1
        obtain ⟨d, r, l, h1, h2, h3, h4, h5⟩ := scanDest_bare (opens + 1) cs
        exact ⟨'(' :: d, r, l, by rw [h1]; rfl, by simp [h2]; omega, .openP h3, h4, h5⟩
      by_cases h2 : ch = ')'
      · subst h2
        rw [if_neg (by decide), if_pos (by decide)]
        cases opens with
        | zero => exact ⟨[], ')' :: cs, 0, rfl, rfl, .nil, fun _ => rfl, by intro c hc; simp at hc; exact Or.inl hc.symm⟩
        | succ k =>
          obtain ⟨d, r, l, h1, h2, h3, h4, h5⟩ := scanDest_bare k cs
          exact ⟨')' :: d, r, l, by rw [h1]; rfl, by simp [h2]; omega, .closeP h3, h4, h5⟩
      rw [if_neg (by simpa using h1), if_neg (by simpa using h2)]
      by_cases h3 : isWhitespaceChar ch = true
      · rw [if_pos h3]
        exact ⟨[], ch :: cs, opens, rfl, rfl, .nil, by intro h; simp at h; exact absurd h h2,
          by intro c hc; simp at hc; rw [← hc]; exact Or.inr h3⟩
      · rw [if_neg h3]
        obtain ⟨d, r, l, g1, g2, g3, g4, g5⟩ := scanDest_bare opens cs
        refine ⟨ch :: d, r, l, by rw [g1]; rfl, by simp [g2]; omega, ?_, g4, g5⟩
        by_cases h4 : ch = '\\'
        · subst h4
          have : cs = [] := Classical.byContradiction fun hcs => hb ⟨rfl, hcs⟩
          subst this
          obtain ⟨rfl, rfl⟩ := List.append_eq_nil_iff.1 g1.symm
          exact .backslash (by simp) g3
        · refine .plain ?_ ?_ ?_ g3
          · rw [show "\\()".toList = ['\\', '(', ')'] from rfl]
            simp [h1, h2, h4]
          · rintro rfl; exact h3 rfl
          · rintro ⟨a, b⟩
            apply h3
            simp [isWhitespaceChar, a, b]
termination_by _ s => s.length

/-- A destination does not end with white space. -/
theorem bare_last {k l : Nat} {d : Str} (h : Bare k d l) : ∀ c, d.getLast? = some c → isWhitespaceChar c = false := by
  have cons : ∀ {a c : Char} {s : Str}, isWhitespaceChar a = false →
      (∀ c, s.getLast? = some c → isWhitespaceChar c = false) → (a :: s).getLast? = some c → isWhitespaceChar c = false := by
    intro a c s ha ih h
    cases s with
    | nil => simp at h; rw [← h]; exact ha
    | cons b s => rw [List.getLast?_cons_cons] at h; exact ih c h
  induction h with
  | nil => intro c hc; cases hc
  | escape hc _ ih =>
    intro c h
    rw [List.getLast?_cons_cons] at h
    refine cons ?_ ih h
    have key : ∀ x ∈ asciiPunctuation, isWhitespaceChar x = false := by decide
    exact key _ hc
  | backslash _ _ ih => intro c h; exact cons (by decide) ih h
  | openP _ ih => intro c h; exact cons (by decide) ih h
  | closeP _ ih => intro c h; exact cons (by decide) ih h
  | plain h1 h2 h3 _ ih =>
    intro c h
    refine cons ?_ ih h
    simp only [isWhitespaceChar, Bool.or_eq_false_iff, beq_eq_false_iff_ne, Bool.and_eq_false_iff, decide_eq_false_iff_not]
    exact ⟨h2, by omega⟩

theorem parseLinkDestination_shape {c : Ctx} {pos : Nat} {dest : Str} {p : Nat} (h : parseLinkDestination c pos = some (dest, p)) :
    ∃ d raw, c.rest pos = d ++ c.rest p ∧ p = pos + d.length ∧ Destination d raw (c.rest p) ∧
      dest = normalizeUri (unescapeString raw) ∧ (∀ ch, d.getLast? = some ch → isWhitespaceChar ch = false) ∧
      (d = [] → (c.rest p).head? = some ')') := by
  unfold parseLinkDestination at h
  split at h
  · rename_i m p' hm
    simp only [Option.some.injEq, Prod.mk.injEq] at h
    obtain ⟨rfl, rfl⟩ := h
    obtain ⟨h1, h2, h3⟩ := match_den hm
    obtain ⟨d, rfl, hd⟩ := angle_of_den h3
    refine ⟨_, d, h2, h1, .angle hd, by rw [chop_wrap], ?_, by simp⟩
    intro ch hc
    have : '<' :: (d ++ ['>']) = ('<' :: d) ++ ['>'] := rfl
    rw [this, List.getLast?_concat] at hc
    obtain rfl := Option.some.inj hc
    decide
  · split at h
    · cases h
    · rename_i hlt
      obtain ⟨d, r, l, h1, h2, h3, h4, h5⟩ := scanDest_bare 0 (c.rest pos)
      simp only [h2] at h
      split at h
      · cases h
      · rename_i hz
        simp only [Option.some.injEq, Prod.mk.injEq] at h
        obtain ⟨rfl, rfl⟩ := h
        have hr := rest_add h1
        have hs : slice c.subject pos (pos + d.length) = d := by
          have : (c.subject.take (pos + d.length)).drop pos = (c.subject.drop pos).take d.length := by
            rw [List.drop_take]; congr 1; omega
          rw [slice, this]
          show (c.rest pos).take d.length = d
          rw [h1, List.take_left]
        have hpk : ∀ ch, c.peek pos = some ch ↔ (c.rest pos).head? = some ch := by
          intro ch; simp [Ctx.peek, Ctx.rest]
        have hd0 : d = [] → r.head? = some ')' := by
          rintro rfl
          have : c.peek pos = some ')' := by simpa using hz
          rw [hpk, h1] at this
          exact this
        rw [hs, hr]
        refine ⟨d, d, h1, rfl, .bare ?_ h3 hd0 h4, rfl, bare_last h3, hd0⟩
        intro hd
        cases d with
        | nil => cases hd
        | cons x d =>
          simp only [List.head?_cons, Option.some.injEq] at hd
          subst hd
          apply hlt
          rw [beq_iff_eq, hpk, h1]; rfl

theorem parseLinkTitle_shape {c : Ctx} {pos : Nat} {x : Str} {p : Nat} (h : parseLinkTitle c pos = some (x, p)) :
    ∃ tl d, c.rest pos = tl ++ c.rest p ∧ p = pos + tl.length ∧ Title tl d ∧ x = unescapeString d := by
  simp only [parseLinkTitle, Option.map_eq_some_iff, Prod.exists] at h
  obtain ⟨m, p', h1, h2⟩ := h
  simp only [Prod.mk.injEq] at h2
  obtain ⟨rfl, rfl⟩ := h2
  obtain ⟨h2, h3, h4⟩ := match_den h1
  exact ⟨m, chop m, h3, h2, title_of_den h4, rfl⟩

theorem title_head {tl d : Str} (h : Title tl d) : tl.head? ≠ some ')' ∧ tl ≠ [] := by
  cases h <;> exact ⟨by simp, by simp⟩

/-- What an attempt at an inline link finds. -/
theorem inlineLink_shape (c : Ctx) (pos : Nat) :
    (∃ dest title p w r, inlineLink c pos = (some (dest, title), p) ∧ c.rest pos = w ++ ')' :: r ∧ p = pos + w.length + 1 ∧
      LinkBody w (')' :: r) dest (title.getD [])) ∨
    (∃ p g, inlineLink c pos = (none, p) ∧ c.rest pos = g ++ c.rest p ∧ p = pos + g.length ∧
      (g = [] ∨ c.peek pos = some '(' ∧ (c.rest p).head? ≠ some ')' ∧ ∃ dest title, LinkBody g (c.rest p) dest title)) := by
  unfold inlineLink
  by_cases hp : c.peek pos = some '('
  swap
  · rw [if_neg (by simpa using hp)]
    exact Or.inr ⟨pos, [], rfl, rfl, rfl, Or.inl rfl⟩
  rw [if_pos (by simpa using hp)]
  have hrest : c.rest pos = '(' :: c.rest (pos + 1) := by
    cases h : c.rest pos with
    | nil => simp only [Ctx.rest, List.drop_eq_nil_iff] at h; simp [Ctx.peek, h] at hp
    | cons x t =>
      rw [rest_succ h]
      have := rest_peek h
      rw [hp] at this
      rw [Option.some.inj this]
  obtain ⟨s1, g1, g2, g3⟩ := spnl_shape c (pos + 1)
  generalize c.spnl (pos + 1) = q at g2 g3
  cases hd : parseLinkDestination c q with
  | none =>
    simp only [hd]
    exact Or.inr ⟨pos, [], rfl, rfl, rfl, Or.inl rfl⟩
  | some dp =>
    obtain ⟨dest, q1⟩ := dp
    obtain ⟨d, raw, d1, d2, d3, d4, d5, d6⟩ := parseLinkDestination_shape hd
    simp only [hd]
    obtain ⟨s2, e1, e2, e3⟩ := spnl_shape c q1
    generalize c.spnl q1 = q2 at e2 e3
    have finish : ∀ (title : Option Str) (q3 : Nat) (tl : Str), c.rest q2 = tl ++ c.rest q3 → q3 = q2 + tl.length →
        (tl = [] ∧ title.getD [] = [] ∨ ∃ x, s2 ≠ [] ∧ Title tl x ∧ title.getD [] = unescapeString x) →
        (∃ dest' title' p w r, (if c.peek (c.spnl q3) == some ')' then (some (dest, title), c.spnl q3 + 1)
            else (none, c.spnl q3)) = (some (dest', title'), p) ∧ c.rest pos = w ++ ')' :: r ∧ p = pos + w.length + 1 ∧
          LinkBody w (')' :: r) dest' (title'.getD [])) ∨
        (∃ p g, (if c.peek (c.spnl q3) == some ')' then (some (dest, title), c.spnl q3 + 1)
            else (none, c.spnl q3)) = (none, p) ∧ c.rest pos = g ++ c.rest p ∧ p = pos + g.length ∧
          (g = [] ∨ c.peek pos = some '(' ∧ (c.rest p).head? ≠ some ')' ∧ ∃ dest title, LinkBody g (c.rest p) dest title)) := by
      intro title q3 tl t2 t3 t4
      obtain ⟨s3, k1, k2, k3⟩ := spnl_shape c q3
      generalize c.spnl q3 = q4 at k2 k3
      have hw : c.rest pos = '(' :: (s1 ++ (d ++ (s2 ++ (tl ++ s3)))) ++ c.rest q4 := by
        rw [hrest, g2, d1, e2, t2, k2]; simp
      have hlen : q4 = pos + ('(' :: (s1 ++ (d ++ (s2 ++ (tl ++ s3))))).length := by
        simp only [List.length_cons, List.length_append]; omega
      have hb : LinkBody ('(' :: (s1 ++ (d ++ (s2 ++ (tl ++ s3))))) (c.rest q4) dest (title.getD []) := by
        refine ⟨s1, d, raw, s2, tl, s3, rfl, g1, e1, k1, ?_, d4, t4⟩
        rw [← k2, ← t2, ← e2]; exact d3
      by_cases hc : c.peek q4 = some ')'
      · rw [if_pos (by simpa using hc)]
        have h4 : c.rest q4 = ')' :: c.rest (q4 + 1) := by
          cases h : c.rest q4 with
          | nil => simp only [Ctx.rest, List.drop_eq_nil_iff] at h; simp [Ctx.peek, h] at hc
          | cons x t =>
            rw [rest_succ h]
            have := rest_peek h
            rw [hc] at this
            rw [Option.some.inj this]
        rw [h4] at hw hb
        exact Or.inl ⟨dest, title, q4 + 1, _, _, rfl, hw, by omega, hb⟩
      · rw [if_neg (by simpa using hc)]
        refine Or.inr ⟨q4, _, rfl, hw, hlen, Or.inr ⟨hp, ?_, dest, _, hb⟩⟩
        intro h
        apply hc
        simpa [Ctx.peek, Ctx.rest] using h
    have none' := finish none q2 [] rfl rfl (Or.inl ⟨rfl, rfl⟩)
    cases hch : c.subject[q2 - 1]? with
    | none => exact none'
    | some ch =>
      simp only
      by_cases hw : isWhitespaceChar ch = true
      · rw [if_pos hw]
        cases hx : parseLinkTitle c q2 with
        | none => exact none'
        | some tp =>
          obtain ⟨t, q3⟩ := tp
          obtain ⟨tl, x, f1, f2, f3, f4⟩ := parseLinkTitle_shape hx
          refine finish (some t) q3 tl f1 f2 (Or.inr ⟨x, ?_, f3, f4⟩)
          rintro rfl
          have hq : q2 = q1 := by simpa using e3
          subst hq
          cases hdl : d.getLast? with
          | none =>
            have hd0 : d = [] := List.getLast?_eq_none_iff.1 hdl
            have h6 := d6 hd0
            obtain ⟨th, tn⟩ := title_head f3
            rw [f1, List.head?_append] at h6
            cases tl with
            | nil => exact tn rfl
            | cons y tl => exact th h6
          | some e =>
            have h7 := d5 e hdl
            obtain ⟨d', rfl⟩ : ∃ d', d = d' ++ [e] := by
              refine ⟨d.dropLast, ?_⟩
              have hne : d ≠ [] := by rintro rfl; cases hdl
              have := List.getLast?_eq_some_getLast hne
              rw [hdl] at this
              rw [Option.some.inj this]
              exact (List.dropLast_append_getLast hne).symm
            have : c.subject[q2 - 1]? = some e := by
              have h8 : (c.rest q)[d'.length]? = some e := by rw [d1]; simp
              have h9 : q2 - 1 = q + d'.length := by rw [d2]; simp
              rw [h9, ← h8, Ctx.rest, List.getElem?_drop]
            rw [hch] at this
            obtain rfl := Option.some.inj this
            rw [hw] at h7
            cases h7
      · rw [if_neg hw]; exact none'

/-- A label that was found. -/
theorem parseLinkLabel_shape (c : Ctx) (pos : Nat) :
    (∃ p, parseLinkLabel c pos = (0, p)) ∨
    ∃ l, parseLinkLabel c pos = (l.length, pos + l.length) ∧ LinkLabel l ∧ c.rest pos = l ++ c.rest (pos + l.length) := by
  unfold parseLinkLabel
  split
  · exact Or.inl ⟨_, rfl⟩
  · rename_i m p h
    obtain ⟨h1, h2, h3⟩ := match_den h
    split
    · exact Or.inl ⟨_, rfl⟩
    · rename_i hl
      obtain ⟨x, rfl, hx⟩ := label_of_den' h3
      subst h1
      refine Or.inr ⟨_, rfl, ⟨x, rfl, hx, ?_⟩, h2⟩
      simp at hl; omega

/-- The definitions that a parser knows. -/
def Ctx.refs (c : Ctx) : Str → Option RefDef := fun l => c.refmap.get (normalizeReference l)

/-- What an attempt at a reference link finds. -/
theorem referenceLink_shape {c : Ctx} {op : Bracket} {strict : Bool} {j before : Nat} {g dest title : Str} {p : Nat}
    (hg : c.rest (j + 1) = g ++ c.rest before) (hb : before = j + 1 + g.length) (hs : Skipped strict g (c.rest before))
    (h : referenceLink c op (j + 1) before = (some (dest, title), p)) :
    LinkTail strict c.refs c.subject op.index j p dest title := by
  unfold referenceLink at h
  have hcase : ∀ {reflabel : Str} {p' : Nat}, (if reflabel.isEmpty = true then (none, p')
      else match c.refmap.get (normalizeReference reflabel) with
      | some d => (some (d.destination, d.title), p')
      | none => (none, p')) = (some (dest, title), p) → c.refs reflabel = some ⟨dest, title⟩ ∧ p = p' := by
    intro reflabel p' h
    split at h
    · cases h
    · unfold Ctx.refs
      cases hr : c.refmap.get (normalizeReference reflabel) with
      | none => rw [hr] at h; cases h
      | some d =>
        rw [hr] at h
        simp only [Prod.mk.injEq, Option.some.injEq] at h
        obtain ⟨⟨rfl, rfl⟩, rfl⟩ := h
        exact ⟨rfl, rfl⟩
  have hS : c.subject.drop (j + 1) = g ++ c.rest before := hg
  rcases parseLinkLabel_shape c before with ⟨q, hl⟩ | ⟨l, hl, hll, hr⟩
  · rw [hl] at h
    simp only [beq_self_eq_true, if_true, gt_iff_lt, Nat.not_lt_zero, if_false] at h
    obtain ⟨h1, rfl⟩ := hcase h
    exact .shortcut h1
  · rw [hl] at h
    have hl2 : 2 ≤ l.length := by obtain ⟨x, rfl, _⟩ := hll; simp
    have h0 : (l.length == 0) = false := by rw [beq_eq_false_iff_ne]; omega
    simp only [h0, Bool.false_eq_true, if_false] at h
    obtain ⟨h1, rfl⟩ := hcase h
    by_cases h3 : 2 < l.length
    · rw [if_pos h3] at h1
      have : slice c.subject before (before + l.length) = l := by
        have e : (c.subject.take (before + l.length)).drop before = (c.subject.drop before).take l.length := by
          rw [List.drop_take]; congr 1; omega
        rw [slice, e]
        show (c.rest before).take l.length = l
        rw [hr, List.take_left]
      rw [this] at h1
      rw [hb]
      refine .full (r := c.rest (before + l.length)) ?_ ?_ hll h3 h1
      · rw [hS, hr]
      · rw [← hr]; exact hs
    · rw [if_neg h3] at h1
      obtain ⟨x, rfl, hx, _⟩ := hll
      have : x = [] := by
        simp only [List.length_cons, List.length_append, List.length_nil] at h3
        exact List.length_eq_zero_iff.1 (by omega)
      subst this
      rw [hb]
      refine .collapsed (r := c.rest (before + 2)) ?_ ?_ h1
      · rw [hS, hr]; rfl
      · have e : c.rest before = '[' :: ']' :: c.rest (before + 2) := hr
        rw [← e]; exact hs

end CM
