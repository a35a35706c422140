import Verif.Spec.Source
import Verif.Proofs.HtmlStart
/-
The pattern for raw HTML describes the tags of `Spec.HtmlTag`.
-/
set_option linter.unusedVariables false
set_option linter.unusedSimpArgs false
namespace CM
open Spec

/-! ### Patterns whose matches do not depend on what follows -/

theorem den_word_iff {n : Nat} {m t : Str} : ∀ {w : Str}, Den n (.word w) m t ↔ m = w
  | [] => Iff.rfl
  | [a] => den_lit1
  | a :: b :: r => by
    refine ⟨den_word, ?_⟩
    rintro rfl
    exact ⟨[a], b :: r, rfl, den_lit1.2 rfl, den_word_iff.2 rfl⟩

theorem den_star_iff {n : Nat} {a : Re} {P : Str → Prop} (ha : ∀ m t, Den n a m t ↔ P m) {m t : Str} :
    Den n (.star a) m t ↔ ∃ ps : List Str, (∀ p ∈ ps, P p) ∧ m = ps.flatten := by
  simp only [Den]
  constructor
  · rintro ⟨k, h⟩
    induction h with
    | nil => exact ⟨[], by simp, rfl⟩
    | @cons k m1 m2 t h _ ih =>
      obtain ⟨ps, h1, rfl⟩ := ih
      refine ⟨m1 :: ps, ?_, rfl⟩
      intro p hp
      rcases List.mem_cons.1 hp with rfl | hp
      · exact (ha _ _).1 h
      · exact h1 p hp
  · rintro ⟨ps, h, rfl⟩
    refine ⟨ps.length, ?_⟩
    induction ps with
    | nil => exact .nil
    | cons p ps ih =>
      exact .cons ((ha _ _).2 (h p (by simp))) (ih fun q hq => h q (by simp [hq]))

theorem den_seq_iff {n : Nat} {a b : Re} {P Q : Str → Prop} (ha : ∀ m t, Den n a m t ↔ P m) (hb : ∀ m t, Den n b m t ↔ Q m)
    {m t : Str} : Den n (.seq a b) m t ↔ ∃ x y, m = x ++ y ∧ P x ∧ Q y := by
  simp only [Den, ha, hb]

theorem den_ws {n : Nat} (m t : Str) : Den n reWs0 m t ↔ Blank m := den_star_chr

theorem den_ws1 {n : Nat} (m t : Str) : Den n (.plus (.chr isPySpace)) m t ↔ m ≠ [] ∧ Blank m := den_plus_chr

theorem den_tagName {n : Nat} (m t : Str) : Den n reTAGNAME m t ↔ TagName m := by
  unfold reTAGNAME TagName
  constructor
  · rintro ⟨x, y, rfl, ⟨a, ha, rfl⟩, h⟩
    refine ⟨a, y, rfl, isAlphaCI_iff.1 ha, fun c hc => ?_⟩
    have := (den_star_chr (n := n)).1 h c hc
    simp only [Bool.or_eq_true, beq_iff_eq, isAlnumCI_iff] at this
    unfold Digit
    tauto
  · rintro ⟨a, r, rfl, ha, h⟩
    refine ⟨[a], r, rfl, ⟨a, isAlphaCI_iff.2 ha, rfl⟩, (den_star_chr (n := n)).2 fun c hc => ?_⟩
    have := h c hc
    simp only [Bool.or_eq_true, beq_iff_eq, isAlnumCI_iff]
    unfold Digit at this
    tauto

theorem den_attrName {n : Nat} (m t : Str) : Den n reATTRIBUTENAME m t ↔ AttributeName m := by
  unfold reATTRIBUTENAME AttributeName
  constructor
  · rintro ⟨x, y, rfl, ⟨a, ha, rfl⟩, h⟩
    simp only [Bool.or_eq_true, beq_iff_eq, isAlphaCI_iff] at ha
    refine ⟨a, y, rfl, by tauto, fun c hc => ?_⟩
    have := (den_star_chr (n := n)).1 h c hc
    simp only [Bool.or_eq_true, beq_iff_eq, isAlnumCI_iff] at this
    unfold Digit
    tauto
  · rintro ⟨a, r, rfl, ha, h⟩
    refine ⟨[a], r, rfl, ⟨a, ?_, rfl⟩, (den_star_chr (n := n)).2 fun c hc => ?_⟩
    · simp only [Bool.or_eq_true, beq_iff_eq, isAlphaCI_iff]; tauto
    · have := h c hc
      simp only [Bool.or_eq_true, beq_iff_eq, isAlnumCI_iff]
      unfold Digit at this
      tauto

theorem den_attrValue {n : Nat} (m t : Str) : Den n reATTRIBUTEVALUE m t ↔ AttributeValue m := by
  have hu : ∀ c : Char, (!(c == '"' || c == '\'' || c == '=' || c == '<' || c == '>' || c == '`' ||
    decide (c.toNat ≤ 0x20))) = true ↔ 0x20 < c.toNat ∧ c ∉ "\"'=<>`".toList := by
    intro c
    have e : "\"'=<>`".toList = ['"', '\'', '=', '<', '>', '`'] := rfl
    rw [e]
    simp only [Bool.not_eq_true', Bool.or_eq_false_iff, beq_eq_false_iff_ne, decide_eq_false_iff_not, List.mem_cons,
      List.not_mem_nil, not_or, not_false_eq_true, and_true, Nat.not_le]
    tauto
  unfold reATTRIBUTEVALUE
  simp only [Re.alts]
  constructor
  · rintro (h | h | h)
    · obtain ⟨h1, h2⟩ := den_plus_chr.1 h
      exact .unquoted h1 fun c hc => (hu c).1 (h2 c hc)
    · obtain ⟨x, y, rfl, h1, v, w, rfl, h2, h3⟩ := h
      rw [den_lit1.1 h1, den_lit1.1 h3]
      refine .single fun hm => ?_
      have := (den_star_chr (n := n)).1 h2 _ hm
      revert this; decide
    · obtain ⟨x, y, rfl, h1, v, w, rfl, h2, h3⟩ := h
      rw [den_lit1.1 h1, den_lit1.1 h3]
      refine .double fun hm => ?_
      have := (den_star_chr (n := n)).1 h2 _ hm
      revert this; decide
  · intro h
    cases h with
    | unquoted h1 h2 => exact Or.inl (den_plus_chr.2 ⟨h1, fun c hc => (hu c).2 (h2 c hc)⟩)
    | @single v h =>
      refine Or.inr (Or.inl ⟨['\''], v ++ ['\''], rfl, den_lit1.2 rfl, v, ['\''], rfl, den_star_chr.2 fun c hc => ?_,
        den_lit1.2 rfl⟩)
      rw [bne_iff_ne]; rintro rfl; exact h hc
    | @double v h =>
      refine Or.inr (Or.inr ⟨['"'], v ++ ['"'], rfl, den_lit1.2 rfl, v, ['"'], rfl, den_star_chr.2 fun c hc => ?_,
        den_lit1.2 rfl⟩)
      rw [bne_iff_ne]; rintro rfl; exact h hc

theorem den_attribute {n : Nat} (m t : Str) : Den n reATTRIBUTE m t ↔ Attribute m := by
  unfold reATTRIBUTE
  simp only [Re.seqs]
  constructor
  · rintro ⟨w, y, rfl, h1, nm, z, rfl, h2, h3⟩
    obtain ⟨w0, wb⟩ := (den_ws1 _ _).1 h1
    replace h2 := (den_attrName _ _).1 h2
    rcases den_opt.1 h3 with rfl | h
    · rw [List.append_nil]; exact .name w0 wb h2
    · obtain ⟨w1, y, rfl, h4, e, z, rfl, h5, w2, v, rfl, h6, h7⟩ := h
      rw [den_lit1.1 h5]
      exact Attribute.value (w1 := w1) (w2 := w2) (v := v) w0 wb h2 ((den_ws _ _).1 h4) ((den_ws _ _).1 h6) ((den_attrValue v t).1 h7)
  · intro h
    cases h with
    | @name w nm w0 wb hn =>
      exact ⟨w, nm, rfl, (den_ws1 _ _).2 ⟨w0, wb⟩, nm, [], by simp, (den_attrName _ _).2 hn, den_opt.2 (Or.inl rfl)⟩
    | @value w nm w1 w2 v w0 wb hn h1 h2 hv =>
      refine ⟨w, _, rfl, (den_ws1 _ _).2 ⟨w0, wb⟩, nm, _, rfl, (den_attrName _ _).2 hn, den_opt.2 (Or.inr ?_)⟩
      exact ⟨w1, _, rfl, (den_ws _ _).2 h1, ['='], _, rfl, den_lit1.2 rfl, w2, v, rfl, (den_ws _ _).2 h2,
        (den_attrValue _ _).2 hv⟩

theorem den_attributes {n : Nat} (m t : Str) : Den n (.star reATTRIBUTE) m t ↔ Attributes m := by
  rw [den_star_iff den_attribute]
  constructor
  · rintro ⟨ps, h, rfl⟩
    induction ps with
    | nil => exact .nil
    | cons p ps ih => exact .cons (h p (by simp)) (ih fun q hq => h q (by simp [hq]))
  · intro h
    induction h with
    | nil => exact ⟨[], by simp, rfl⟩
    | cons ha _ ih =>
      obtain ⟨ps, h, rfl⟩ := ih
      refine ⟨_ :: ps, ?_, rfl⟩
      intro p hp
      rcases List.mem_cons.1 hp with rfl | hp
      · exact ha
      · exact h p hp

theorem den_openTag {n : Nat} (m t : Str) : Den n reOPENTAG m t ↔
    ∃ nm as w sl, TagName nm ∧ Attributes as ∧ Blank w ∧ (sl = [] ∨ sl = ['/']) ∧
      m = '<' :: (nm ++ (as ++ (w ++ (sl ++ ['>'])))) := by
  unfold reOPENTAG
  simp only [Re.seqs]
  constructor
  · rintro ⟨x, y, rfl, h1, nm, z, rfl, h2, as, u, rfl, h3, w, v, rfl, h4, sl, q, rfl, h5, h6⟩
    rw [den_lit1.1 h1, den_lit1.1 h6]
    refine ⟨nm, as, w, sl, (den_tagName _ _).1 h2, (den_attributes _ _).1 h3, (den_ws _ _).1 h4, ?_, rfl⟩
    rcases den_opt.1 h5 with h | h
    · exact Or.inl h
    · exact Or.inr (den_lit1.1 h)
  · rintro ⟨nm, as, w, sl, h2, h3, h4, h5, rfl⟩
    refine ⟨['<'], _, rfl, den_lit1.2 rfl, nm, _, rfl, (den_tagName _ _).2 h2, as, _, rfl, (den_attributes _ _).2 h3, w, _,
      rfl, (den_ws _ _).2 h4, sl, ['>'], rfl, den_opt.2 ?_, den_lit1.2 rfl⟩
    rcases h5 with h | h
    · exact Or.inl h
    · exact Or.inr (den_lit1.2 h)

theorem den_closeTag {n : Nat} (m t : Str) : Den n reCLOSETAG m t ↔
    ∃ nm w, TagName nm ∧ Blank w ∧ m = '<' :: '/' :: (nm ++ (w ++ ['>'])) := by
  unfold reCLOSETAG
  simp only [Re.seqs]
  constructor
  · rintro ⟨x, y, rfl, h1, nm, z, rfl, h2, w, v, rfl, h4, h6⟩
    rw [den_word_iff.1 h1, den_lit1.1 h6]
    exact ⟨nm, w, (den_tagName _ _).1 h2, (den_ws _ _).1 h4, rfl⟩
  · rintro ⟨nm, w, h2, h4, rfl⟩
    exact ⟨['<', '/'], _, rfl, den_word_iff.2 rfl, nm, _, rfl, (den_tagName _ _).2 h2, w, _,
      rfl, (den_ws _ _).2 h4, den_lit1.2 rfl⟩

/-! ### Comments -/

theorem den_dash {n : Nat} {p : Char → Bool} (m t : Str) : Den n (.seq (.opt (.lit1 '-')) (.chr p)) m t ↔
    ∃ c, p c = true ∧ (m = [c] ∨ m = ['-', c]) := by
  constructor
  · rintro ⟨x, y, rfl, h, c, hc, rfl⟩
    rcases den_opt.1 h with rfl | h
    · exact ⟨c, hc, Or.inl rfl⟩
    · rw [den_lit1.1 h]; exact ⟨c, hc, Or.inr rfl⟩
  · rintro ⟨c, hc, rfl | rfl⟩
    · exact ⟨[], [c], rfl, den_opt.2 (Or.inl rfl), c, hc, rfl⟩
    · exact ⟨['-'], [c], rfl, den_opt.2 (Or.inr (den_lit1.2 rfl)), c, hc, rfl⟩

theorem infix_dash_cons {c : Char} (hc : c ≠ '-') {x : Str} : ['-', '-'] <:+: c :: x ↔ ['-', '-'] <:+: x := by
  rw [List.infix_cons_iff]
  constructor
  · rintro (h | h)
    · obtain ⟨r, hr⟩ := h
      simp only [List.cons_append, List.cons.injEq] at hr
      exact absurd hr.1.symm hc
    · exact h
  · exact Or.inr

theorem infix_dash_dash {c : Char} (hc : c ≠ '-') {x : Str} : ['-', '-'] <:+: '-' :: c :: x ↔ ['-', '-'] <:+: x := by
  rw [List.infix_cons_iff, infix_dash_cons hc]
  constructor
  · rintro (h | h)
    · obtain ⟨r, hr⟩ := h
      simp only [List.cons_append, List.cons.injEq] at hr
      exact absurd hr.2.1.symm hc
    · exact h
  · exact Or.inr

theorem getLast?_cons_ne {c : Char} (hc : c ≠ '-') {x : Str} : (c :: x).getLast? ≠ some '-' ↔ x.getLast? ≠ some '-' := by
  cases x with
  | nil => simp [hc]
  | cons d x => rw [List.getLast?_cons_cons]

theorem dash_pieces : ∀ (x : Str), (∃ ps : List Str, (∀ p ∈ ps, ∃ c, (c != '-') = true ∧ (p = [c] ∨ p = ['-', c])) ∧
    x = ps.flatten) ↔ ¬ ['-', '-'] <:+: x ∧ x.getLast? ≠ some '-' := by
  intro x
  constructor
  · rintro ⟨ps, h, rfl⟩
    induction ps with
    | nil => exact ⟨by simp, by simp⟩
    | cons p ps ih =>
      obtain ⟨i1, i2⟩ := ih fun q hq => h q (by simp [hq])
      obtain ⟨c, hc, rfl | rfl⟩ := h p (by simp)
      · have hc : c ≠ '-' := by simpa using hc
        rw [List.flatten_cons, List.cons_append, List.nil_append, infix_dash_cons hc, getLast?_cons_ne hc]
        exact ⟨i1, i2⟩
      · have hc : c ≠ '-' := by simpa using hc
        rw [List.flatten_cons, List.cons_append, List.cons_append, List.nil_append, infix_dash_dash hc, List.getLast?_cons_cons,
          getLast?_cons_ne hc]
        exact ⟨i1, i2⟩
  · have key : ∀ n (x : Str), x.length ≤ n → ¬ ['-', '-'] <:+: x ∧ x.getLast? ≠ some '-' →
        ∃ ps : List Str, (∀ p ∈ ps, ∃ c, (c != '-') = true ∧ (p = [c] ∨ p = ['-', c])) ∧ x = ps.flatten := by
      intro n
      induction n with
      | zero =>
        intro x hx _
        obtain rfl : x = [] := by simpa using hx
        exact ⟨[], by simp, rfl⟩
      | succ n ih =>
        intro x hx ⟨h1, h2⟩
        cases x with
        | nil => exact ⟨[], by simp, rfl⟩
        | cons c x =>
          simp only [List.length_cons] at hx
          by_cases hc : c = '-'
          · subst hc
            cases x with
            | nil => exact absurd rfl h2
            | cons d x =>
              have hd : d ≠ '-' := by
                rintro rfl
                exact h1 ⟨[], x, rfl⟩
              rw [infix_dash_dash hd] at h1
              rw [List.getLast?_cons_cons, getLast?_cons_ne hd] at h2
              simp only [List.length_cons] at hx
              obtain ⟨ps, h3, rfl⟩ := ih x (by omega) ⟨h1, h2⟩
              refine ⟨['-', d] :: ps, ?_, rfl⟩
              intro p hp
              rcases List.mem_cons.1 hp with rfl | hp
              · exact ⟨d, by simpa using hd, Or.inr rfl⟩
              · exact h3 p hp
          · rw [infix_dash_cons hc] at h1
            rw [getLast?_cons_ne hc] at h2
            obtain ⟨ps, h3, rfl⟩ := ih x (by omega) ⟨h1, h2⟩
            refine ⟨[c] :: ps, ?_, rfl⟩
            intro p hp
            rcases List.mem_cons.1 hp with rfl | hp
            · exact ⟨c, by simpa using hc, Or.inl rfl⟩
            · exact h3 p hp
    exact key x.length x (Nat.le_refl _)

theorem den_comment {n : Nat} (m t : Str) : Den n reHTMLCOMMENT m t ↔
    ∃ x : Str, x.head? ≠ some '>' ∧ ¬ ['-', '>'] <+: x ∧ x.getLast? ≠ some '-' ∧ ¬ ['-', '-'] <:+: x ∧
      m = "<!--".toList ++ (x ++ "-->".toList) := by
  unfold reHTMLCOMMENT
  simp only [Re.seqs]
  constructor
  · rintro (h | ⟨a, b, rfl, h1, y, z, rfl, h2, u, v, rfl, h3, h4⟩)
    · exact ⟨[], by simp, by simp, by simp, by simp, den_word_iff.1 h⟩
    · rw [den_word_iff.1 h1, den_word_iff.1 h4]
      obtain ⟨c, hc, hy⟩ := (den_dash _ _).1 h2
      obtain ⟨g1, g2⟩ := (dash_pieces u).1 ((den_star_iff den_dash).1 h3)
      simp only [Bool.not_eq_true', Bool.or_eq_false_iff, beq_eq_false_iff_ne] at hc
      refine ⟨y ++ u, ?_, ?_, ?_, ?_, by simp [lit]⟩
      · rcases hy with rfl | rfl
        · simpa using hc.1
        · simp
      · rintro ⟨r, hr⟩
        rcases hy with rfl | rfl
        · simp only [List.cons_append, List.cons.injEq] at hr; exact hc.2 hr.1.symm
        · simp only [List.cons_append, List.cons.injEq] at hr; exact hc.1 hr.2.1.symm
      · rcases hy with rfl | rfl
        · rw [List.cons_append, List.nil_append, getLast?_cons_ne hc.2]; exact g2
        · rw [List.cons_append, List.cons_append, List.nil_append, List.getLast?_cons_cons, getLast?_cons_ne hc.2]; exact g2
      · rcases hy with rfl | rfl
        · rw [List.cons_append, List.nil_append, infix_dash_cons hc.2]; exact g1
        · rw [List.cons_append, List.cons_append, List.nil_append, infix_dash_dash hc.2]; exact g1
  · rintro ⟨x, h1, h2, h3, h4, rfl⟩
    cases x with
    | nil => exact Or.inl (den_word_iff.2 rfl)
    | cons c x =>
      right
      refine ⟨lit "<!--", _, rfl, den_word_iff.2 rfl, ?_⟩
      by_cases hc : c = '-'
      · subst hc
        cases x with
        | nil => exact absurd rfl h3
        | cons d x =>
          have hd : d ≠ '-' := by
            rintro rfl
            exact h4 ⟨[], x, rfl⟩
          have hd2 : d ≠ '>' := by
            rintro rfl
            exact h2 ⟨x, rfl⟩
          rw [infix_dash_dash hd] at h4
          rw [List.getLast?_cons_cons, getLast?_cons_ne hd] at h3
          refine ⟨['-', d], x ++ "-->".toList, rfl, (den_dash _ _).2 ⟨d, by simp [hd, hd2], Or.inr rfl⟩, x, "-->".toList, rfl,
            (den_star_iff den_dash).2 ((dash_pieces x).2 ⟨h4, h3⟩), den_word_iff.2 rfl⟩
      · have hc2 : c ≠ '>' := by rintro rfl; exact h1 rfl
        rw [infix_dash_cons hc] at h4
        rw [getLast?_cons_ne hc] at h3
        refine ⟨[c], x ++ "-->".toList, rfl, (den_dash _ _).2 ⟨c, by simp [hc, hc2], Or.inl rfl⟩, x, "-->".toList, rfl,
            (den_star_iff den_dash).2 ((dash_pieces x).2 ⟨h4, h3⟩), den_word_iff.2 rfl⟩

theorem den_declaration {n : Nat} (m t : Str) : Den n reDECLARATION m t ↔
    ∃ nm w x : Str, nm ≠ [] ∧ (∀ c ∈ nm, NameLetter c) ∧ w ≠ [] ∧ Blank w ∧ '>' ∉ x ∧
      m = '<' :: '!' :: (nm ++ (w ++ (x ++ ['>']))) := by
  unfold reDECLARATION
  simp only [Re.seqs]
  constructor
  · rintro ⟨a, b, rfl, h1, nm, z, rfl, h2, w, v, rfl, h3, x, y, rfl, h4, h5⟩
    rw [den_word_iff.1 h1, den_lit1.1 h5]
    obtain ⟨g1, g2⟩ := den_plus_chr.1 h2
    obtain ⟨g3, g4⟩ := (den_ws1 _ _).1 h3
    refine ⟨nm, w, x, g1, fun c hc => isAlphaCI_iff.1 (g2 c hc), g3, g4, fun hm => ?_, rfl⟩
    have := (den_star_chr (n := n)).1 h4 _ hm
    revert this; decide
  · rintro ⟨nm, w, x, h1, h2, h3, h4, h5, rfl⟩
    refine ⟨lit "<!", _, rfl, den_word_iff.2 rfl, nm, _, rfl, den_plus_chr.2 ⟨h1, fun c hc => isAlphaCI_iff.2 (h2 c hc)⟩, w,
      _, rfl, (den_ws1 _ _).2 ⟨h3, h4⟩, x, _, rfl, den_star_chr.2 fun c hc => ?_, den_lit1.2 rfl⟩
    rw [bne_iff_ne]; rintro rfl; exact h5 hc

/-! ### Up to the first end mark -/

/-- The remainders of `.*?w`. -/
def Re.lazyTo (p : Char → Bool) (w : Str) : Re := .seq (.lazyStar (.chr p)) (.word w)

theorem word_all {n : Nat} (w s : Str) : (Re.word w).all n s = if w <+: s then [s.drop w.length] else [] := by
  have key : ∀ t, t ∈ (Re.word w).all n s ↔ s = w ++ t := by
    intro t
    rw [Re.mem_all_iff]
    constructor
    · rintro ⟨m, h1, h2⟩; rw [h1, den_word_iff.1 h2]
    · intro h; exact ⟨w, h, den_word_iff.2 rfl⟩
  have one : ∀ w s, ((Re.word w).all n s).length ≤ 1 := by
    intro w
    induction w with
    | nil => intro s; simp [Re.word, Re.all]
    | cons c w ih =>
      intro s
      cases w with
      | nil =>
        cases s with
        | nil => simp [Re.word, Re.lit1, Re.all]
        | cons d s =>
          simp only [Re.word, Re.lit1, Re.all]
          split <;> simp
      | cons d w =>
        cases s with
        | nil => simp [Re.word, Re.lit1, Re.all]
        | cons e s =>
          rw [Re.word, Re.all, Re.lit1, Re.all]
          split
          · simp only [List.flatMap_cons, List.flatMap_nil, List.append_nil]
            exact ih s
          · simp
  split
  · rename_i h
    obtain ⟨t, rfl⟩ := h
    have h1 := (key t).2 rfl
    have h2 := one w (w ++ t)
    rw [List.drop_left]
    cases hl : (Re.word w).all n (w ++ t) with
    | nil => rw [hl] at h1; simp at h1
    | cons a l =>
      rw [hl] at h1 h2
      simp only [List.length_cons] at h2
      obtain rfl : l = [] := List.length_eq_zero_iff.1 (by omega)
      simp at h1
      rw [h1]
  · rename_i h
    cases hl : (Re.word w).all n s with
    | nil => rfl
    | cons a l =>
      have := (key a).1 (by rw [hl]; simp)
      exact absurd ⟨a, this.symm⟩ h

theorem lazyTo_first {n : Nat} {p : Char → Bool} {w : Str} : ∀ (k : Nat) (s t : Str),
    ((lazyAll ((Re.chr p).all n) k s).flatMap ((Re.word w).all n)).head? = some t →
    ∃ x, s = x ++ (w ++ t) ∧ (∀ c ∈ x, p c = true) ∧ ∀ y z, x = y ++ z → z ≠ [] → ¬ w <+: z ++ (w ++ t) := by
  intro k
  induction k with
  | zero =>
    intro s t h
    simp only [lazyAll, List.flatMap_cons, List.flatMap_nil, List.append_nil, word_all] at h
    split at h
    · rename_i hw
      obtain ⟨u, rfl⟩ := hw
      simp only [List.drop_left, List.head?_cons, Option.some.injEq] at h
      subst h
      refine ⟨[], rfl, by simp, ?_⟩
      intro y z e hz
      exact absurd (List.append_eq_nil_iff.1 e.symm).2 hz
    · simp at h
  | succ k ih =>
    intro s t h
    simp only [lazyAll, List.flatMap_cons, word_all] at h
    by_cases hw : w <+: s
    · rw [if_pos hw] at h
      obtain ⟨u, rfl⟩ := hw
      simp only [List.drop_left, List.cons_append, List.head?_cons, Option.some.injEq] at h
      subst h
      refine ⟨[], rfl, by simp, ?_⟩
      intro y z e hz
      exact absurd (List.append_eq_nil_iff.1 e.symm).2 hz
    · rw [if_neg hw, List.nil_append] at h
      cases s with
      | nil => simp [Re.all] at h
      | cons c s =>
        by_cases hc : p c = true
        · have e : (Re.chr p).all n (c :: s) = [s] := by simp [Re.all, hc]
          rw [e] at h
          simp only [List.flatMap_cons, List.flatMap_nil, List.append_nil, List.length_cons, Nat.lt_succ_self, if_true] at h
          have h' : ((lazyAll ((Re.chr p).all n) k s).flatMap ((Re.word w).all n)).head? = some t := h
          obtain ⟨x, rfl, h1, h2⟩ := ih s t h'
          refine ⟨c :: x, rfl, ?_, ?_⟩
          · intro d hd
            rcases List.mem_cons.1 hd with rfl | hd
            · exact hc
            · exact h1 d hd
          · intro y z e hz
            cases y with
            | nil => rw [List.nil_append] at e; rw [← e]; exact hw
            | cons d y =>
              simp only [List.cons_append, List.cons.injEq] at e
              exact h2 y z e.2 hz
        · simp [Re.all, hc] at h

/-- No end mark before the end. -/
theorem first_no_infix {w x t : Str} (hw : w ≠ []) (h : ∀ y z, x = y ++ z → z ≠ [] → ¬ w <+: z ++ (w ++ t)) :
    ¬ w <:+: x ++ w.dropLast := by
  rintro ⟨a, b, e⟩
  have hl : w.dropLast.length < w.length := by
    rw [List.length_dropLast]
    have := List.length_pos_iff.2 hw
    omega
  have ha : a.length < x.length := by
    have := congrArg List.length e
    simp only [List.length_append] at this
    omega
  have e' : a ++ (w ++ b) = x ++ w.dropLast := by rw [← e]; simp
  rcases List.append_eq_append_iff.1 e' with ⟨z, h1, h2⟩ | ⟨z, h1, h2⟩
  · subst h1
    have hz : z ≠ [] := by
      rintro rfl
      simp at ha
    refine h a z rfl hz ?_
    have h3 : w <+: z ++ w.dropLast := ⟨b, h2⟩
    refine h3.trans ?_
    have h4 : w.dropLast <+: w := List.dropLast_prefix w
    obtain ⟨v, hv⟩ := h4
    exact ⟨v ++ t, by rw [List.append_assoc, ← List.append_assoc w.dropLast, hv]⟩
  · have := congrArg List.length h1
    simp at this
    omega

theorem seq_word_head {n : Nat} {w s t : Str} {r : Re} (h : ((Re.seq (.word w) r).all n s).head? = some t) :
    ∃ s', s = w ++ s' ∧ (r.all n s').head? = some t := by
  rw [Re.all, word_all] at h
  split at h
  · rename_i hw
    obtain ⟨u, rfl⟩ := hw
    simp only [List.drop_left, List.flatMap_cons, List.flatMap_nil, List.append_nil] at h
    exact ⟨u, rfl, h⟩
  · simp at h

theorem pi_head {n : Nat} {s t : Str} (h : (rePROCESSINGINSTRUCTION.all n s).head? = some t) :
    ∃ m, s = m ++ t ∧ HtmlTag m := by
  obtain ⟨s', rfl, h'⟩ := seq_word_head (r := .seq (.lazyStar (.chr isDot)) (.word (lit "?>"))) h
  obtain ⟨x, rfl, h1, h2⟩ := lazyTo_first _ _ _ h'
  refine ⟨_, by rw [← List.append_assoc x, ← List.append_assoc], .instruction (x := x) ?_ ?_⟩
  · intro hm
    have := h1 _ hm
    revert this; decide
  · exact first_no_infix (w := lit "?>") (by decide) h2

theorem cdata_den {n : Nat} {m t : Str} : Den n (.ciWord (lit "<![CDATA[")) m t ↔ m.map Char.toLower = "<![cdata[".toList := by
  have key : ∀ w : Str, (∀ c ∈ w, c.toLower ≠ 'i' ∧ c.toLower ≠ 's' ∧ c.toLower ≠ 'k') → ∀ m t : Str,
      Den n (.ciWord w) m t ↔ m.map Char.toLower = w.map Char.toLower := by
    have one : ∀ c x : Char, (c.toLower ≠ 'i' ∧ c.toLower ≠ 's' ∧ c.toLower ≠ 'k') → (ciEq c x = true ↔ x.toLower = c.toLower) := by
      rintro c x ⟨h1, h2, h3⟩
      simp only [ciEq, Bool.or_eq_true, beq_iff_eq, Bool.and_eq_true, h1, h2, h3, false_and, or_false]
      constructor
      · rintro (rfl | h)
        · rfl
        · exact h
      · exact Or.inr
    intro w
    induction w with
    | nil =>
      intro _ m t
      simp [Re.ciWord, Den]
    | cons c w ih =>
      intro hw m t
      have hc := hw c (by simp)
      have hw' : ∀ d ∈ w, d.toLower ≠ 'i' ∧ d.toLower ≠ 's' ∧ d.toLower ≠ 'k' := fun d hd => hw d (by simp [hd])
      cases w with
      | nil =>
        simp only [Re.ciWord, Den]
        constructor
        · rintro ⟨x, hx, rfl⟩; simp [(one c x hc).1 hx]
        · intro h
          cases m with
          | nil => simp at h
          | cons x m =>
            simp only [List.map_cons, List.map_nil, List.cons.injEq, List.map_eq_nil_iff] at h
            obtain ⟨h, rfl⟩ := h
            exact ⟨x, (one c x hc).2 h, rfl⟩
      | cons d w =>
        rw [Re.ciWord]
        constructor
        · rintro ⟨m1, m2, rfl, ⟨x, hx, rfl⟩, h⟩
          have := (ih hw' _ _).1 h
          rw [List.map_append, this, List.map_cons, (one c x hc).1 hx]
          rfl
        · intro h
          cases m with
          | nil => simp at h
          | cons x m =>
            rw [List.map_cons, List.map_cons, List.cons.injEq] at h
            exact ⟨[x], m, rfl, ⟨x, (one c x hc).2 h.1, rfl⟩, (ih hw' _ _).2 h.2⟩
  rw [key (lit "<![CDATA[") (by decide)]
  rw [show (lit "<![CDATA[").map Char.toLower = "<![cdata[".toList by decide]

theorem cdata_head {n : Nat} {s t : Str} (h : (reCDATA.all n s).head? = some t) : ∃ m, s = m ++ t ∧ HtmlTag m := by
  have e : reCDATA = .seq (.ciWord (lit "<![CDATA[")) (.seq (.lazyStar (.chr fun _ => true)) (.word (lit "]]>"))) := rfl
  rw [e, Re.all] at h
  generalize hl : (Re.ciWord (lit "<![CDATA[")).all n s = l at h
  have hmem : ∀ u ∈ l, ∃ w, s = w ++ u ∧ w.map Char.toLower = "<![cdata[".toList := by
    intro u hu
    rw [← hl] at hu
    obtain ⟨w, h1, h2⟩ := (Re.mem_all_iff _ _ _ _).1 hu
    exact ⟨w, h1, cdata_den.1 h2⟩
  clear hl
  induction l with
  | nil => simp at h
  | cons u l ih =>
    rw [List.flatMap_cons, List.head?_append] at h
    cases hu : ((Re.seq (.lazyStar (.chr fun _ => true)) (.word (lit "]]>"))).all n u).head? with
    | none =>
      rw [hu] at h
      exact ih (by simpa using h) fun v hv => hmem v (by simp [hv])
    | some t' =>
      rw [hu] at h
      simp only [Option.some_or, Option.some.injEq] at h
      subst h
      obtain ⟨w, rfl, hw⟩ := hmem u (by simp)
      obtain ⟨x, rfl, _, h2⟩ := lazyTo_first _ _ _ hu
      exact ⟨w ++ (x ++ lit "]]>"), by simp, .cdata hw (first_no_infix (w := lit "]]>") (by decide) h2)⟩

/-! ### All tags -/

theorem head?_append_cases {α : Type} {a b : List α} {x : α} (h : (a ++ b).head? = some x) :
    a.head? = some x ∨ b.head? = some x := by
  rw [List.head?_append] at h
  cases ha : a.head? with
  | none => rw [ha] at h; exact Or.inr (by simpa using h)
  | some y => rw [ha] at h; exact Or.inl (by simpa using h)

theorem head_den {n : Nat} {r : Re} {s t : Str} (h : (r.all n s).head? = some t) : ∃ m, s = m ++ t ∧ Den n r m t :=
  (Re.mem_all_iff _ _ _ _).1 (List.mem_of_head? h)

/-- What the pattern matches is a tag. -/
theorem htmlTag_match {s t : Str} (h : reHtmlTag.rest s = some t) : ∃ m, s = m ++ t ∧ HtmlTag m := by
  rw [Re.rest_eq_head] at h
  simp only [reHtmlTag, Re.alts] at h
  rw [Re.all, Re.all, Re.all, Re.all, Re.all] at h
  rcases head?_append_cases h with h | h
  · obtain ⟨m, h1, h2⟩ := head_den h
    obtain ⟨nm, as, w, sl, g1, g2, g3, g4, rfl⟩ := (den_openTag _ _).1 h2
    exact ⟨_, h1, .opening g1 g2 g3 g4⟩
  rcases head?_append_cases h with h | h
  · obtain ⟨m, h1, h2⟩ := head_den h
    obtain ⟨nm, w, g1, g2, rfl⟩ := (den_closeTag _ _).1 h2
    exact ⟨_, h1, .closing g1 g2⟩
  rcases head?_append_cases h with h | h
  · obtain ⟨m, h1, h2⟩ := head_den h
    obtain ⟨x, g1, g2, g3, g4, rfl⟩ := (den_comment _ _).1 h2
    exact ⟨_, h1, .comment g1 g2 g3 g4⟩
  rcases head?_append_cases h with h | h
  · exact pi_head h
  rcases head?_append_cases h with h | h
  · obtain ⟨m, h1, h2⟩ := head_den h
    obtain ⟨nm, w, x, g1, g2, g3, g4, g5, rfl⟩ := (den_declaration _ _).1 h2
    exact ⟨_, h1, .declaration g1 g2 g3 g4 g5⟩
  · exact cdata_head h

/-- The pattern can match every tag. -/
theorem htmlTag_den {n : Nat} {m : Str} (h : HtmlTag m) (t : Str) : Den n reHtmlTag m t := by
  simp only [reHtmlTag, Re.alts]
  cases h with
  | opening h1 h2 h3 h4 => exact Or.inl ((den_openTag _ _).2 ⟨_, _, _, _, h1, h2, h3, h4, rfl⟩)
  | closing h1 h2 => exact Or.inr (Or.inl ((den_closeTag _ _).2 ⟨_, _, h1, h2, rfl⟩))
  | comment h1 h2 h3 h4 => exact Or.inr (Or.inr (Or.inl ((den_comment _ _).2 ⟨_, h1, h2, h3, h4, rfl⟩)))
  | @instruction x h1 h2 =>
    refine Or.inr (Or.inr (Or.inr (Or.inl ⟨lit "<?", x ++ lit "?>", rfl, den_word_iff.2 rfl, x, _, rfl, ?_, den_word_iff.2 rfl⟩)))
    refine (den_star_chr (n := n) (p := isDot)).2 fun c hc => ?_
    rw [isDot, bne_iff_ne]; rintro rfl; exact h1 hc
  | declaration h1 h2 h3 h4 h5 =>
    exact Or.inr (Or.inr (Or.inr (Or.inr (Or.inl ((den_declaration _ _).2 ⟨_, _, _, h1, h2, h3, h4, h5, rfl⟩)))))
  | @cdata w x h1 h2 =>
    refine Or.inr (Or.inr (Or.inr (Or.inr (Or.inr ⟨w, x ++ lit "]]>", rfl, cdata_den.2 h1, x, _, rfl, ?_, den_word_iff.2 rfl⟩))))
    exact (den_star_chr (n := n) (p := fun _ => true)).2 fun c hc => rfl

theorem htmlTag_none {s : Str} (h : reHtmlTag.rest s = none) : ¬ ∃ m r, s = m ++ r ∧ HtmlTag m := by
  rintro ⟨m, r, rfl, hm⟩
  have := Re.rest_isSome_iff (r := reHtmlTag) (s := m ++ r).2 ⟨m, r, rfl, htmlTag_den hm r⟩
  rw [h] at this
  cases this

/-- A tag begins with `<` and ends with `>`. -/
theorem htmlTag_ends {m : Str} (h : HtmlTag m) : m.head? = some '<' ∧ m.getLast? = some '>' := by
  have e : ∀ x y : Str, y ≠ [] → (x ++ y).getLast? = y.getLast? := by
    intro x y hy
    rw [List.getLast?_append]
    cases h : y.getLast? with
    | none => exact absurd (List.getLast?_eq_none_iff.1 h) hy
    | some c => rfl
  cases h with
  | @opening nm as w sl h1 h2 h3 h4 =>
    refine ⟨rfl, ?_⟩
    have : '<' :: (nm ++ (as ++ (w ++ (sl ++ ['>'])))) = ('<' :: (nm ++ (as ++ (w ++ sl)))) ++ ['>'] := by simp
    rw [this, e _ _ (by simp)]; rfl
  | @closing nm w h1 h2 =>
    refine ⟨rfl, ?_⟩
    have : '<' :: '/' :: (nm ++ (w ++ ['>'])) = ('<' :: '/' :: (nm ++ w)) ++ ['>'] := by simp
    rw [this, e _ _ (by simp)]; rfl
  | comment h1 h2 h3 h4 => exact ⟨rfl, by rw [e _ _ (by simp), e _ _ (by simp)]; rfl⟩
  | instruction h1 h2 => exact ⟨rfl, by rw [e _ _ (by simp), e _ _ (by simp)]; rfl⟩
  | @declaration nm w x h1 h2 h3 h4 h5 =>
    refine ⟨rfl, ?_⟩
    have : '<' :: '!' :: (nm ++ (w ++ (x ++ ['>']))) = ('<' :: '!' :: (nm ++ (w ++ x))) ++ ['>'] := by simp
    rw [this, e _ _ (by simp)]; rfl
  | @cdata w x h1 h2 =>
    refine ⟨?_, by simp⟩
    cases w with
    | nil => simp at h1
    | cons c w =>
      have hc : c.toLower = '<' := by
        have := congrArg List.head? h1
        simpa using this
      have : c = '<' := by
        by_cases hs : c.toNat < 128
        · have key : ∀ n, n < 128 → (Char.ofNat n).toLower = '<' → Char.ofNat n = '<' := by decide
          have := key c.toNat hs
          rw [Char.ofNat_toNat] at this
          exact this hc
        · have : c.toLower = c := by
            unfold Char.toLower
            rw [dif_neg]
            rintro ⟨_, h2⟩
            have h3 : c.val.toNat ≤ 90 := UInt32.le_iff_toNat_le.1 h2
            exact hs (Nat.lt_of_le_of_lt h3 (by decide))
          rw [← this]; exact hc
      rw [this]; rfl

end CM
