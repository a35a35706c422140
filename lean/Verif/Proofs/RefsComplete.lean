import Verif.Proofs.Refs
import Verif.Proofs.ParaText
import Verif.Proofs.Closed
/-
Definitions that stand in a paragraph are found (C54).
-/
namespace CM
open Spec

/-! ### Labels and destinations are determined -/

theorem labelText_unique {x : Str} (h : LabelText x) : ∀ {y t u : Str}, LabelText y → x ++ ']' :: t = y ++ ']' :: u →
    x = y := by
  induction h with
  | nil =>
    intro y t u hy e
    cases hy with
    | nil => rfl
    | plain hc _ =>
      simp only [List.nil_append, List.cons_append, List.cons.injEq] at e
      rw [← e.1] at hc; exact absurd hc (by decide)
    | escape _ _ => simp at e
  | @plain c s hc _ ih =>
    intro y t u hy e
    cases hy with
    | nil =>
      simp only [List.nil_append, List.cons_append, List.cons.injEq] at e
      rw [e.1] at hc; exact absurd hc (by decide)
    | plain _ hy =>
      simp only [List.cons_append, List.cons.injEq] at e
      rw [e.1, ih hy e.2]
    | escape _ _ =>
      simp only [List.cons_append, List.cons.injEq] at e
      rw [e.1] at hc; exact absurd hc (by decide)
  | @escape c s hc _ ih =>
    intro y t u hy e
    cases hy with
    | nil => simp at e
    | plain hc' _ =>
      simp only [List.cons_append, List.cons.injEq] at e
      rw [← e.1] at hc'; exact absurd hc' (by decide)
    | escape _ hy =>
      simp only [List.cons_append, List.cons.injEq] at e
      rw [e.2.1, ih hy e.2.2]

theorem inAngle_unique {x : Str} (h : InAngle x) : ∀ {y t u : Str}, InAngle y → x ++ '>' :: t = y ++ '>' :: u →
    x = y := by
  induction h with
  | nil =>
    intro y t u hy e
    cases hy with
    | nil => rfl
    | plain hc _ =>
      simp only [List.nil_append, List.cons_append, List.cons.injEq] at e
      rw [← e.1] at hc; exact absurd hc (by decide)
    | escape _ _ => simp at e
  | @plain c s hc _ _ ih =>
    intro y t u hy e
    cases hy with
    | nil =>
      simp only [List.nil_append, List.cons_append, List.cons.injEq] at e
      rw [e.1] at hc; exact absurd hc (by decide)
    | plain _ _ hy =>
      simp only [List.cons_append, List.cons.injEq] at e
      rw [e.1, ih hy e.2]
    | escape _ _ =>
      simp only [List.cons_append, List.cons.injEq] at e
      rw [e.1] at hc; exact absurd hc (by decide)
  | @escape c s hc _ ih =>
    intro y t u hy e
    cases hy with
    | nil => simp at e
    | plain hc' _ =>
      simp only [List.cons_append, List.cons.injEq] at e
      rw [← e.1] at hc'; exact absurd hc' (by decide)
    | escape _ hy =>
      simp only [List.cons_append, List.cons.injEq] at e
      rw [e.2.1, ih hy e.2.2]

theorem isDot_iff {c : Char} : isDot c = true ↔ c ≠ '\n' := by simp [isDot]

theorem labelText_den {n : Nat} {x : Str} (h : LabelText x) (t : Str) :
    ∃ k, k ≤ x.length ∧ Iter (fun m t => Den n (.alt (.chr fun c => !(c == '\\' || c == '[' || c == ']'))
      (.seq (.lit1 '\\') (.chr isDot))) m t) k x t := by
  induction h with
  | nil => exact ⟨0, Nat.le_refl _, .nil⟩
  | @plain c s hc _ ih =>
    obtain ⟨k, hk, ih⟩ := ih
    refine ⟨k + 1, by simp; omega, .cons (m1 := [c]) (.inl ⟨c, ?_, rfl⟩) ih⟩
    rw [show "\\[]".toList = ['\\', '[', ']'] from rfl] at hc
    simp at hc
    simp [hc]
  | @escape c s hc _ ih =>
    obtain ⟨k, hk, ih⟩ := ih
    exact ⟨k + 1, by simp; omega,
      .cons (m1 := ['\\', c]) (.inr ⟨['\\'], [c], rfl, den_lit1.2 rfl, c, isDot_iff.2 hc, rfl⟩) ih⟩

theorem linkLabel_den {n : Nat} {l : Str} (h : LinkLabel l) (t : Str) : Den n reLinkLabel l t := by
  obtain ⟨x, rfl, hx, hl⟩ := h
  obtain ⟨k, hk, hi⟩ := labelText_den (n := n) hx (']' :: t)
  exact ⟨['['], x ++ [']'], rfl, den_lit1.2 rfl, x, [']'], rfl, ⟨k, by omega, hi⟩, den_lit1.2 rfl⟩

theorem angle_den {n : Nat} {x : Str} (h : InAngle x) (t : Str) : Den n reLinkDestinationBraces ('<' :: (x ++ ['>'])) t := by
  refine ⟨['<'], x ++ ['>'], rfl, den_lit1.2 rfl, x, ['>'], rfl, ?_, den_lit1.2 rfl⟩
  induction h with
  | nil => exact ⟨0, .nil⟩
  | @plain c s h1 h2 _ ih =>
    obtain ⟨k, ih⟩ := ih
    refine ⟨k + 1, .cons (m1 := [c]) (.inl ⟨c, ?_, rfl⟩) ih⟩
    rw [show "<>\n\\".toList = ['<', '>', '\n', '\\'] from rfl] at h1
    simp at h1
    simp [h1, h2]
  | @escape c s hc _ ih =>
    obtain ⟨k, ih⟩ := ih
    exact ⟨k + 1, .cons (m1 := ['\\', c]) (.inr ⟨['\\'], [c], rfl, den_lit1.2 rfl, c, isDot_iff.2 hc, rfl⟩) ih⟩

theorem match_some_of {c : Ctx} {r : Re} {pos : Nat} {m t : Str} (h : c.rest pos = m ++ t)
    (hd : Den (c.rest pos).length r m t) : ∃ m' p, c.match_ r pos = some (m', p) ∧ p = pos + m'.length ∧
      c.rest pos = m' ++ c.rest p ∧ Den (c.rest pos).length r m' (c.rest p) := by
  cases hm : c.match_ r pos with
  | none => exact absurd ⟨m, t, h, hd⟩ (match_none_iff.1 hm)
  | some mp =>
    obtain ⟨m', p⟩ := mp
    obtain ⟨h1, h2, h3⟩ := match_den hm
    exact ⟨m', p, rfl, h1, h2, h3⟩

theorem parseLinkLabel_of {c : Ctx} {pos : Nat} {l t : Str} (h : c.rest pos = l ++ t) (hl : LinkLabel l) :
    parseLinkLabel c pos = (l.length, pos + l.length) := by
  obtain ⟨m', p, h1, h2, h3, h4⟩ := match_some_of h (linkLabel_den hl t)
  obtain ⟨y, rfl, hy⟩ := label_of_den' h4
  obtain ⟨x, rfl, hx, hlen⟩ := hl
  rw [h] at h3
  have : x = y := by
    refine labelText_unique hx hy (t := t) (u := c.rest p) ?_
    simpa using h3
  subst this
  unfold parseLinkLabel
  rw [h1]
  simp only
  rw [if_neg (by simp; omega), h2]

theorem bare_head {k l : Nat} {d : Str} (h : Bare k d l) : ∀ c, d.head? = some c → isWhitespaceChar c = false := by
  intro ch hc
  cases h with
  | nil => cases hc
  | escape | backslash | openP | closeP => cases hc; decide
  | plain h1 h2 h3 =>
    cases hc
    simp only [isWhitespaceChar, Bool.or_eq_false_iff, beq_eq_false_iff_ne, Bool.and_eq_false_iff, decide_eq_false_iff_not]
    exact ⟨h2, by omega⟩

theorem scanDest_of {k l : Nat} {d : Str} (h : Bare k d l) : ∀ {t : Str}, (∀ c, t.head? = some c → isWhitespaceChar c = true) →
    scanDest k (d ++ t) = d.length := by
  induction h with
  | nil =>
    intro t ht
    cases t with
    | nil => rfl
    | cons c t =>
      have hw := ht c rfl
      have h1 : c ≠ '(' := by rintro rfl; exact absurd hw (by decide)
      have h2 : c ≠ ')' := by rintro rfl; exact absurd hw (by decide)
      have h3 : c ≠ '\\' := by rintro rfl; exact absurd hw (by decide)
      rw [List.nil_append, scanDest]
      · simp [h1, h2, hw]
      · rintro x xs rfl; exact absurd rfl h3
  | @escape k l c s hc _ ih =>
    intro t ht
    rw [List.cons_append, List.cons_append, scanDest, if_pos ((isEscapable_iff c).2 hc), ih ht]
    simp; omega
  | @backslash k l s hc hb ih =>
    intro t ht
    have key : ∀ u, u = s ++ t → scanDest k ('\\' :: u) = 1 + scanDest k u := by
      intro u hu
      cases u with
      | nil => rfl
      | cons x u =>
        rw [scanDest, if_neg]
        intro hx
        have hx' := (isEscapable_iff x).1 hx
        cases s with
        | nil =>
          have hw := ht x (by rw [List.nil_append] at hu; rw [← hu]; rfl)
          have key : ∀ y ∈ asciiPunctuation, isWhitespaceChar y = false := by decide
          rw [key x hx'] at hw; cases hw
        | cons y s =>
          simp only [List.cons_append, List.cons.injEq] at hu
          exact hc y rfl (hu.1 ▸ hx')
    rw [List.cons_append, key _ rfl, ih ht]
    simp; omega
  | @openP k l s _ ih =>
    intro t ht
    rw [List.cons_append, scanDest, if_pos (by decide), ih ht]
    · simp; omega
    · intro x xs h; cases h
  | @closeP k l s _ ih =>
    intro t ht
    rw [List.cons_append, scanDest, if_neg (by decide), if_pos (by decide), if_neg (by omega), Nat.add_sub_cancel, ih ht]
    · simp; omega
    · intro x xs h; cases h
  | @plain k l c s h1 h2 h3 _ ih =>
    intro t ht
    rw [show "\\()".toList = ['\\', '(', ')'] from rfl] at h1
    simp only [List.mem_cons, List.not_mem_nil, or_false, not_or] at h1
    have hw : isWhitespaceChar c = false := by
      simp only [isWhitespaceChar, Bool.or_eq_false_iff, beq_eq_false_iff_ne, Bool.and_eq_false_iff, decide_eq_false_iff_not]
      exact ⟨h2, by omega⟩
    rw [List.cons_append, scanDest]
    · simp only [beq_iff_eq, h1.2.1, h1.2.2, if_false, hw, Bool.false_eq_true, ih ht, List.length_cons]
      omega
    · rintro x xs rfl; exact absurd rfl h1.1

theorem parseLinkDestination_of {c : Ctx} {pos : Nat} {d raw t : Str} (h : c.rest pos = d ++ t) (hd : Destination d raw t)
    (ht : ∀ ch, t.head? = some ch → isWhitespaceChar ch = true) :
    parseLinkDestination c pos = some (normalizeUri (unescapeString raw), pos + d.length) := by
  cases hd with
  | angle hx =>
    obtain ⟨m', p, h1, h2, h3, h4⟩ := match_some_of h (angle_den hx t)
    obtain ⟨y, rfl, hy⟩ := angle_of_den h4
    rw [h] at h3
    have : raw = y := by
      refine inAngle_unique hx hy (t := t) (u := c.rest p) ?_
      simpa using h3
    subst this
    unfold parseLinkDestination
    rw [h1]
    simp [chop, h2]
  | bare h1 h2 h3 h4 =>
    have hlt : (d ++ t).head? ≠ some '<' := by
      cases d with
      | nil =>
        intro he
        have := ht '<' he
        exact absurd this (by decide)
      | cons => exact h1
    have hne : d ≠ [] := by
      intro he
      have := ht ')' (h3 he)
      exact absurd this (by decide)
    have hm : c.match_ reLinkDestinationBraces pos = none := by
      rw [match_none_iff]
      rintro ⟨m, u, e, hm⟩
      obtain ⟨y, rfl, _⟩ := angle_of_den hm
      rw [h] at e
      rw [e] at hlt
      exact hlt rfl
    have hpk : (c.peek pos == some '<') = false := by
      have : c.peek pos = (c.rest pos).head? := by simp [Ctx.peek, Ctx.rest]
      rw [this, h]
      simpa using hlt
    unfold parseLinkDestination
    rw [hm]
    simp only [hpk, Bool.false_eq_true, if_false]
    rw [h, scanDest_of h2 ht]
    have h0 : (d.length == 0) = false := by
      cases d with
      | nil => exact absurd rfl hne
      | cons => rfl
    have hs : slice c.subject pos (pos + d.length) = d := by
      have h' : c.subject.drop pos = d ++ t := h
      rw [slice, List.drop_take, h']
      simp
    simp [h0, hs]

/-! ### Titles -/

theorem run_titleText {n : Nat} {p : Char → Bool} {qs : Str} (hp : ∀ c, c ∉ qs → c.toNat ≠ 0 → p c = true)
    (hq : ∀ c ∈ qs, p c = false) {q : Char} (hqs : q ∈ qs) (hqb : q ≠ '\\') (hbq : '\\' ∉ qs) {t : Str} {k : Str → Option Str} {res : Str}
    (hk : k (q :: t) = some res) {x : Str} (h : ClearTitleText qs x) : ∀ f, (x ++ q :: t).length ≤ f →
    starK ((Re.alt reESCAPED_CHAR (.chr p)).run n) k f (x ++ q :: t) = some res := by
  have hbs : ∀ (c : Char) (s : Str) (k' : Str → Option Str), c ≠ '\\' → reESCAPED_CHAR.run n (c :: s) k' = none := by
    intro c s k' hc
    rw [reESCAPED_CHAR, Re.run_seq, Re.run_lit1]
    simp [hc]
  have esc : ∀ (c : Char) (s : Str) (k' : Str → Option Str), reESCAPED_CHAR.run n ('\\' :: c :: s) k' =
      if isEscapable c then k' s else none := by
    intro c s k'
    rw [reESCAPED_CHAR, Re.run_seq, Re.run_lit1]
    simp [Re.run]
  have plain : ∀ (c : Char) (s : Str) (f : Nat), p c = true → (∀ k', reESCAPED_CHAR.run n (c :: s) k' = none) →
      starK ((Re.alt reESCAPED_CHAR (.chr p)).run n) k f s = some res →
      starK ((Re.alt reESCAPED_CHAR (.chr p)).run n) k (f + 1) (c :: s) = some res := by
    intro c s f h1 h2 h3
    rw [starK, Re.run, h2]
    simp only [Re.run_chr_cons, h1, if_true, List.length_cons]
    rw [if_pos (Nat.lt_succ_self _), h3]
  induction h with
  | nil =>
    intro f hf
    cases f with
    | zero => simp at hf
    | succ f =>
      rw [List.nil_append, starK, Re.run, hbs _ _ _ hqb]
      simp [Re.run, hq q hqs, hk]
  | @plain c s h1 h2 h3 _ ih =>
    intro f hf
    cases f with
    | zero => simp at hf
    | succ f =>
      exact plain c _ f (hp c h1 h3) (fun k' => hbs _ _ _ h2) (ih f (by simpa using hf))
  | @escape c s hc _ ih =>
    intro f hf
    cases f with
    | zero => simp at hf
    | succ f =>
      rw [List.cons_append, List.cons_append, starK, Re.run, esc, if_pos ((isEscapable_iff c).2 hc),
        if_pos (by simp only [List.length_cons]; omega), ih f (by simp at hf ⊢; omega)]
  | @backslash c s hc _ ih =>
    intro f hf
    cases f with
    | zero => simp at hf
    | succ f =>
      refine plain '\\' _ f (hp _ hbq (by decide)) (fun k' => ?_) (ih f (by simpa using hf))
      show reESCAPED_CHAR.run n ('\\' :: c :: (s ++ q :: t)) k' = none
      rw [esc, if_neg]
      intro he
      exact hc ((isEscapable_iff c).1 he)

theorem title_rest {tl x t : Str} (h : ClearTitle tl x) : reLinkTitle.rest (tl ++ t) = some t := by
  have key : ∀ (n : Nat) (p : Char → Bool) (qs : Str) (o q : Char) (d : Str), (∀ c, c ∉ qs → c.toNat ≠ 0 → p c = true) →
      (∀ c ∈ qs, p c = false) → q ∈ qs → q ≠ '\\' → '\\' ∉ qs → ClearTitleText qs d →
      (Re.seqs [.lit1 o, .star (.alt reESCAPED_CHAR (.chr p)), .lit1 q]).run n (o :: (d ++ [q]) ++ t) some = some t := by
    intro n p qs o q d h1 h2 h3 h4 h5 h6
    simp only [Re.seqs, Re.run_seq, Re.run_lit1]
    simp only [List.cons_append, List.append_assoc, List.nil_append, beq_self_eq_true, if_true]
    rw [Re.run]
    refine run_titleText h1 h2 h3 h4 h5 (t := t) ?_ h6 _ (Nat.le_refl _)
    simp
  have other : ∀ (n : Nat) (p : Char → Bool) (o o' q : Char) (d : Str), o ≠ o' →
      (Re.seqs [.lit1 o, .star (.alt reESCAPED_CHAR (.chr p)), .lit1 q]).run n (o' :: d) some = none := by
    intro n p o o' q d h
    simp only [Re.seqs, Re.run_seq, Re.run_lit1]
    simp [Ne.symm h]
  unfold Re.rest reLinkTitle
  simp only [Re.alts]
  rw [Re.run, Re.run]
  cases h with
  | double h =>
    rw [key _ _ ['"'] '"' '"' x (by intro c; simp; intro a b; exact ⟨a, b⟩) (by simp) (by simp) (by decide) (by decide) h]
  | single h =>
    rw [List.cons_append, other _ _ _ _ _ _ (by decide), ← List.cons_append]
    rw [key _ _ ['\''] '\'' '\'' x (by intro c; simp; intro a b; exact ⟨a, b⟩) (by simp) (by simp) (by decide) (by decide) h]
  | paren h =>
    rw [List.cons_append, other _ _ _ _ _ _ (by decide), other _ _ _ _ _ _ (by decide), ← List.cons_append]
    rw [key _ _ ['(', ')'] '(' ')' x (by intro c; simp; intro a b d; exact ⟨⟨a, b⟩, d⟩) (by simp) (by simp) (by decide) (by decide) h]

theorem parseLinkTitle_of {c : Ctx} {pos : Nat} {tl x t : Str} (h : c.rest pos = tl ++ t) (ht : ClearTitle tl x) :
    parseLinkTitle c pos = some (unescapeString x, pos + tl.length) := by
  have := match_of_rest h (title_rest ht)
  unfold parseLinkTitle
  rw [this]
  cases ht <;> simp [chop]

theorem clearTitle_title {tl x : Str} (h : ClearTitle tl x) : Title tl x := by
  have key : ∀ {qs d : Str}, '\\' ∉ qs → ClearTitleText qs d → TitleText qs d := by
    intro qs d hq h
    induction h with
    | nil => exact .nil
    | plain h1 h2 h3 _ ih => exact .plain h1 h3 ih
    | escape h _ ih => exact .escape h ih
    | backslash h _ ih => exact .plain hq (by decide) ih
  cases h with
  | double h => exact .double (key (by decide) h)
  | single h => exact .single (key (by decide) h)
  | paren h => exact .paren (key (by decide) h)

/-! ### parseReference -/

theorem spnl_head {s : Str} (h : Spnl s) : ∀ ch, s.head? = some ch → isWhitespaceChar ch = true := by
  intro ch hc
  obtain ⟨a, rfl | ⟨b, rfl⟩⟩ := h
  · cases a with
    | zero => cases hc
    | succ a => cases hc; rfl
  · cases a with
    | zero => cases hc; rfl
    | succ a => cases hc; rfl

theorem lineRest_head {e r : Str} (h : LineRest e r) : ∀ ch, (e ++ r).head? = some ch → isWhitespaceChar ch = true := by
  intro ch hc
  obtain ⟨a, rfl | ⟨rfl, rfl⟩⟩ := h
  · cases a with
    | zero => cases hc; rfl
    | succ a => cases hc; rfl
  · cases a with
    | zero => cases hc
    | succ a => cases hc; rfl

theorem dest_head {d raw t : Str} (h : Destination d raw t) (ht : ∀ ch, t.head? = some ch → isWhitespaceChar ch = true)
    (u : Str) : (d ++ u).head? ≠ some ' ' ∧ (d ++ u).head? ≠ some '\n' := by
  cases h with
  | angle h => exact ⟨by simp, by simp⟩
  | bare h1 h2 h3 h4 =>
    have hb := bare_head h2
    cases d with
    | nil => exact absurd (ht _ (h3 rfl)) (by decide)
    | cons c d =>
      have := hb c rfl
      constructor
      · intro h; cases h; exact absurd this (by decide)
      · intro h; cases h; exact absurd this (by decide)

theorem parseReference_of {w r l dest title : Str} (h : ClearDefinition w r l dest title) (m : RefMap)
    (hn : normalizeReference l ≠ []) : parseReference (w ++ r) m = (w.length, addRef m l dest title) := by
  obtain ⟨s1, d, raw, u, e1, h1, h2, h3, h4, h5, h6⟩ : ∃ s1 d raw u, w ++ r = l ++ (':' :: (s1 ++ (d ++ u))) ∧
      LinkLabel l ∧ 2 < l.length ∧ Spnl s1 ∧ Destination d raw u ∧ (∀ ch, u.head? = some ch → isWhitespaceChar ch = true) ∧
      dest = normalizeUri (unescapeString raw) ∧
      ((∃ e, w = l ++ (':' :: (s1 ++ (d ++ e))) ∧ u = e ++ r ∧ LineRest e r ∧ title = [] ∧
        (¬ ∃ s2 tl x r', e ++ r = s2 ++ (tl ++ r') ∧ Spnl s2 ∧ s2 ≠ [] ∧ Title tl x)) ∨
       ∃ s2 tl x e, w = l ++ (':' :: (s1 ++ (d ++ (s2 ++ (tl ++ e))))) ∧ u = s2 ++ (tl ++ (e ++ r)) ∧ Spnl s2 ∧ s2 ≠ [] ∧
        ClearTitle tl x ∧ LineRest e r ∧ title = unescapeString x) := by
    cases h with
    | @untitled _ s1 d raw e _ a b c d' f g =>
      exact ⟨s1, d, raw, e ++ r, by simp, a, b, c, d', lineRest_head f, rfl, .inl ⟨e, rfl, rfl, f, rfl, g⟩⟩
    | @titled _ s1 d raw s2 tl x e _ a b c d' f g i j =>
      refine ⟨s1, d, raw, s2 ++ (tl ++ (e ++ r)), by simp, a, b, c, d', ?_, rfl, .inr ⟨s2, tl, x, e, rfl, rfl, f, g, i, j, rfl⟩⟩
      intro ch hc
      cases s2 with
      | nil => exact absurd rfl g
      | cons y s2 => exact spnl_head f ch hc
  obtain ⟨rfl, h6⟩ := h6
  generalize hc : (⟨w ++ r, [], false⟩ : Ctx) = c
  have hs : c.rest 0 = l ++ (':' :: (s1 ++ (d ++ u))) := by rw [← hc]; exact e1
  have hlab := parseLinkLabel_of hs h1
  have hr1 : c.rest l.length = ':' :: (s1 ++ (d ++ u)) := by have := rest_add hs; rwa [Nat.zero_add] at this
  have hr2 : c.rest (l.length + 1) = s1 ++ (d ++ u) := rest_succ hr1
  have hdh := dest_head h4 h5 u
  have hsp1 := spnl_of hr2 h3 hdh.1 hdh.2
  have hr3 : c.rest (l.length + 1 + s1.length) = d ++ u := rest_add hr2
  have hdest := parseLinkDestination_of hr3 h4 h5
  have hr4 : c.rest (l.length + 1 + s1.length + d.length) = u := rest_add hr3
  have htake : (w ++ r).take l.length = l := by rw [e1, List.take_left]
  unfold parseReference
  rw [hc]
  simp only [hlab, Nat.zero_add]
  have h2' : (l.length == 0 || l.length == 2) = false := by
    simp only [Bool.or_eq_false_iff, beq_eq_false_iff_ne]; omega
  have hpk : c.peek l.length = some ':' := rest_peek hr1
  simp only [h2', Bool.false_eq_true, if_false, hpk, bne_self_eq_false, htake, hsp1, hdest]
  generalize hq1 : l.length + 1 + s1.length + d.length = q1 at hr4
  have hnorm : (normalizeReference l).isEmpty = false := by
    cases hx : normalizeReference l with
    | nil => exact absurd hx hn
    | cons => rfl
  have fin : ∀ (title : Str) (e : Nat), refAdd m l (normalizeUri (unescapeString raw)) title e =
      (e, addRef m l (normalizeUri (unescapeString raw)) title) := by
    intro title e
    unfold refAdd addRef
    rw [hnorm]
    simp only [Bool.false_eq_true, if_false]
    split <;> rfl
  rcases h6 with ⟨e, rfl, rfl, g1, rfl, g2⟩ | ⟨s2, tl, x, e, rfl, rfl, g1, g2, g3, g4, rfl⟩
  · have hfound : (if (c.spnl q1 != q1) = true then parseLinkTitle c (c.spnl q1) else none) = none := by
      split
      · rename_i hne
        obtain ⟨s2, k1, k2, k3⟩ := spnl_shape c q1
        cases ht : parseLinkTitle c (c.spnl q1) with
        | none => rfl
        | some tp =>
          obtain ⟨x, q3⟩ := tp
          obtain ⟨tl, dx, f1, f2, f3, rfl⟩ := parseLinkTitle_shape ht
          refine absurd ⟨s2, tl, dx, c.rest q3, ?_, k1, ?_, f3⟩ g2
          · rw [← hr4, k2, f1]
          · rintro rfl; rw [k3] at hne; simp at hne
      · rfl
    rw [hfound]
    simp only
    have hm := lineRest_match hr4 g1
    rw [hm]
    refine (fin [] (q1 + e.length)).trans ?_
    simp only [List.length_append, List.length_cons, Prod.mk.injEq, and_true]
    omega
  · obtain ⟨a, v, hav, ha1, ha2⟩ := title_start (clearTitle_title g3)
    have hth : (tl ++ (e ++ r)).head? = some a := by rw [hav]; rfl
    have hsp2 := spnl_of hr4 g1 (by rw [hth]; simpa using ha1) (by rw [hth]; simpa using ha2)
    have hr5 : c.rest (q1 + s2.length) = tl ++ (e ++ r) := rest_add hr4
    have htitle := parseLinkTitle_of hr5 g3
    have hr6 : c.rest (q1 + s2.length + tl.length) = e ++ r := rest_add hr5
    have hne : (q1 + s2.length != q1) = true := by
      cases s2 with
      | nil => exact absurd rfl g2
      | cons => simp
    rw [hsp2, if_pos hne, htitle]
    simp only
    rw [lineRest_match hr6 g4]
    refine (fin (unescapeString x) (q1 + s2.length + tl.length + e.length)).trans ?_
    simp only [List.length_append, List.length_cons, Prod.mk.injEq, and_true]
    omega

/-! ### Definitions in a paragraph -/

theorem clearDefinition_ne {w r l dest title : Str} (h : ClearDefinition w r l dest title) : ∃ v, w = '[' :: v := by
  cases h with
  | untitled h => obtain ⟨x, rfl, _⟩ := h; exact ⟨_, rfl⟩
  | titled h => obtain ⟨x, rfl, _⟩ := h; exact ⟨_, rfl⟩

theorem refLoop_of {y r : Str} {ds : List (Str × Str × Str)} (h : Definitions y ds r) : ∀ (m : RefMap) (has : Bool) (fuel : Nat),
    y.length < fuel → refLoop fuel y m has = .ok (r, ds.foldl (fun m d => addRef m d.1 d.2.1 d.2.2) m, has || !ds.isEmpty) := by
  induction h with
  | @done r hr =>
    intro m has fuel hf
    cases fuel with
    | zero => simp at hf
    | succ fuel =>
      have : (peekAt r 0 == some '[') = false := by
        cases r with
        | nil => rfl
        | cons c r => simpa [peekAt] using hr
      simp [refLoop, this]
  | @next w y r l dest title ds hd hn _ ih =>
    intro m has fuel hf
    cases fuel with
    | zero => simp at hf
    | succ fuel =>
      obtain ⟨v, hv⟩ := clearDefinition_ne hd
      have h1 : (peekAt (w ++ y) 0 == some '[') = true := by rw [hv]; rfl
      have h2 : (w.length == 0) = false := by rw [hv]; rfl
      have h3 : 0 < w.length := by rw [hv]; simp
      simp only [refLoop, h1, if_true, parseReference_of hd m hn, h2, Bool.false_eq_true, if_false, List.drop_left]
      rw [ih _ true fuel (by rw [List.length_append] at hf; omega)]
      simp

theorem get_addRef (m : RefMap) (l dest title k : Str) : (addRef m l dest title).get k =
    (m.get k).or (if normalizeReference l == k then some ⟨dest, title⟩ else none) := by
  unfold addRef
  split
  · rename_i d hd
    by_cases hk : normalizeReference l = k
    · subst hk; rw [hd]; rfl
    · have : (normalizeReference l == k) = false := by simpa using hk
      rw [this]; simp
  · cases hk : m.get k with
    | none => rw [get_append_none hk]; rfl
    | some d => rw [get_append_some hk]; rfl

theorem get_foldl_addRef (k : Str) : ∀ (ds : List (Str × Str × Str)) (m : RefMap),
    (ds.foldl (fun m d => addRef m d.1 d.2.1 d.2.2) m).get k = (m.get k).or (firstDefinition ds k)
  | [], m => by simp [firstDefinition]
  | d :: ds, m => by
    rw [List.foldl_cons, get_foldl_addRef k ds, get_addRef]
    unfold firstDefinition
    rw [List.find?_cons, Option.or_assoc]
    cases normalizeReference d.1 == k <;> simp

theorem end_defs {p : PState} {d : NodeData} {cs : List Tree} {m : RefMap} {n k l : Nat} {x r : Str} {fuel : Nat}
    {ds : List (Str × Str × Str)} (h : AtPara p (paraNode l x) d cs m n k) (hx : Definitions x ds r) :
    ∃ p', finalizeAll n (fuel + 3) p = .ok p' ∧
      p'.doc = some (.node { d with isOpen := false, sourcepos := d.sourcepos.map fun sp => (sp.1, (n, k)) }
        (cs ++ if !ds.isEmpty && isBlank r then [] else [.node (paraDone l n k r) []])) ∧
      p'.refmap = ds.foldl (fun m d => addRef m d.1 d.2.1 d.2.2) m := by
  obtain ⟨sp, doc, ot, cl, lno, off, col, nn, nnc, ind, indd, bl, pct, ac, lm, rm, lll⟩ := p
  obtain ⟨h1, h0, h2, h3, h4, h5⟩ := h
  simp only at h1 h3 h4 h5
  subst h1 h3 h4 h5
  have hr := refLoop_of hx rm false (x.length + 1) (Nat.lt_succ_self _)
  rw [Bool.false_or] at hr
  have hf : finalizeBlock (paraDone l lno lll x) [] rm =
      .ok (if !ds.isEmpty && isBlank r then none else some (.node (paraDone l lno lll r) []),
        ds.foldl (fun m d => addRef m d.1 d.2.1 d.2.2) rm) := by
    show (finalizeParagraph _ _ >>= _) = _
    simp only [finalizeParagraph, paraDone, hr, bind, Except.bind]
    by_cases hb : (!ds.isEmpty && isBlank r) = true
    · rw [if_pos hb, if_pos hb]; rfl
    · rw [if_neg hb, if_neg hb]; rfl
  have hp : ∀ (a : Option Tree), (match a with | none => [] | some t => [t]) = a.toList := by intro a; cases a <;> rfl
  simp [finalizeAll, finalizeTip, bind, Except.bind, paraNode, pure, Except.pure]
  simp only [paraDone] at hf
  simp only [hf]
  simp [finalizeBlock, h2]
  split <;> simp [paraDone]

theorem textLines_ne {s : Str} {ls : List Str} (h : TextLines s ls) : ls ≠ [] := by cases h <;> simp

/-- The block phase of definitions. -/
theorem defs_blocks {s l0 : Str} {ls : List Str} {ds : List (Str × Str × Str)} {r : Str}
    (hs : TextLines s (l0 :: ls)) (h0 : StartsNoBlock false l0) (h1 : ∀ l ∈ ls, StartsNoBlock true l)
    (hd : Definitions (joinLines (l0 :: ls) ++ ['\n']) ds r) (hne : ds ≠ []) (hr : isBlank r = true) :
    ∃ (p : PState) (d : NodeData), blockPhase PState.init s = .ok p ∧ d.t = .document ∧ p.doc = some (.node d []) ∧
      ∀ key, p.refmap.get key = firstDefinition ds key := by
  have hone := textLines_oneLine hs
  obtain ⟨p1, e1, a1⟩ := first_line atDoc_reset (textLine_of h0 (hone _ (by simp)))
  obtain ⟨p2, k2, e2, a2⟩ := para_lines rfl ls a1 (fun l hl => textLine_of (h1 l hl) (hone l (by simp [hl])))
  have hx : l0 ++ ['\n'] ++ ls.flatMap (fun ln => ln ++ ['\n']) = joinLines (l0 :: ls) ++ ['\n'] := by
    rw [← lines_join]; simp
  rw [hx] at a2
  have hline : 0 + 1 + ls.length = ls.length + 1 := by omega
  rw [hline] at a2
  obtain ⟨p4, e4, b4, c4⟩ := end_defs (fuel := 0) a2 hd
  have hds : (!ds.isEmpty) = true := by
    cases ds with
    | nil => exact absurd rfl hne
    | cons => rfl
  rw [hds, hr] at b4
  refine ⟨p4, _, ?_, ?_, b4, ?_⟩
  · unfold blockPhase
    simp only [inputLines_of hs, List.foldlM_cons, e1, bind, Except.bind]
    have e2 : ls.foldlM incorporateLine p1 = .ok p2 := e2
    rw [e2]
    simp only [a2.spine]
    simpa using e4
  · rfl
  · intro key
    rw [c4, get_foldl_addRef]
    simp [RefMap.get]

/-- The block phase on a document of one paragraph of definitions. -/
theorem parse_defs {smart : Bool} {s l0 : Str} {ls : List Str} {ds : List (Str × Str × Str)} {r : Str}
    (hs : TextLines s (l0 :: ls)) (h0 : StartsNoBlock false l0) (h1 : ∀ l ∈ ls, StartsNoBlock true l)
    (hd : Definitions (joinLines (l0 :: ls) ++ ['\n']) ds r) :
    ∃ (d : NodeData) (k : Nat) (m : RefMap), d.t = .document ∧ (∀ key, m.get key = firstDefinition ds key) ∧
      parse smart s = processInlines smart m (.node d
        (if !ds.isEmpty && isBlank r then [] else [.node (paraDone 1 (ls.length + 1) k r) []])) := by
  have hone := textLines_oneLine hs
  obtain ⟨p1, e1, a1⟩ := first_line atDoc_reset (textLine_of h0 (hone _ (by simp)))
  obtain ⟨p2, k2, e2, a2⟩ := para_lines rfl ls a1 (fun l hl => textLine_of (h1 l hl) (hone l (by simp [hl])))
  have hx : l0 ++ ['\n'] ++ ls.flatMap (fun ln => ln ++ ['\n']) = joinLines (l0 :: ls) ++ ['\n'] := by
    rw [← lines_join]; simp
  rw [hx] at a2
  have hline : 0 + 1 + ls.length = ls.length + 1 := by omega
  rw [hline] at a2
  obtain ⟨p4, e4, b4, c4⟩ := end_defs (fuel := 0) a2 hd
  refine ⟨_, k2, p4.refmap, ?_, ?_, parse_run (p := p2) hs ?_ (by rw [a2.spine]) ?_ b4 rfl⟩
  · rfl
  · intro key
    rw [c4, get_foldl_addRef]
    simp [RefMap.get]
  · rw [List.foldlM_cons, e1]; exact e2
  · simpa using e4

/-! ### No definition is left in a paragraph -/

theorem refLoop_none : ∀ (fuel : Nat) (x : Str) (m : RefMap) (h : Bool) (x' : Str) (m' : RefMap) (h' : Bool),
    refLoop fuel x m h = .ok (x', m', h') → NoDefinition x' := by
  intro fuel
  induction fuel with
  | zero => intro x m h x' m' h' e; simp [refLoop] at e
  | succ fuel ih =>
    intro x m h x' m' h' e
    simp only [refLoop] at e
    by_cases hp : (peekAt x 0 == some '[') = true
    · rw [if_pos hp] at e
      by_cases hn : ((parseReference x m).1 == 0) = true
      · rw [if_pos hn] at e
        cases e
        rintro ⟨w, r, l, dest, title, rfl, h1, h2⟩
        rw [parseReference_of h1 m h2] at hn
        obtain ⟨v, rfl⟩ := clearDefinition_ne h1
        simp at hn
      · rw [if_neg hn] at e
        exact ih _ _ _ _ _ _ e
    · rw [if_neg hp] at e
      cases e
      rintro ⟨w, r, l, dest, title, rfl, h1, h2⟩
      obtain ⟨v, rfl⟩ := clearDefinition_ne h1
      exact hp rfl

theorem noDefinition_closed : WhenClosed (fun d => d.t = .paragraph → ∃ x, d.stringContent = some x ∧ NoDefinition x)
    (fun _ _ => True) where
  flags d := Iff.rfl
  close := by
    intro l len d cs m t m' _ h hk
    have hd : (closeData l len d).t = .paragraph := by
      have := (finalize_sig h).1
      have := congrArg NodeData.t this
      exact this.symm.trans hk
    simp only [finalizeBlock, hd, finalizeParagraph] at h
    cases hx : (closeData l len d).stringContent with
    | none => rw [hx] at h; cases h
    | some x =>
      rw [hx] at h
      simp only [bind, Except.bind] at h
      cases hr : refLoop (x.length + 1) x m false with
      | error e => rw [hr] at h; cases h
      | ok res =>
        obtain ⟨x', m1, b⟩ := res
        rw [hr] at h
        simp only at h
        by_cases hb : (b && isBlank x') = true
        · rw [if_pos hb] at h; cases h
        · rw [if_neg hb] at h
          cases h
          exact ⟨x', rfl, refLoop_none _ _ _ _ _ _ _ hr⟩

end CM
