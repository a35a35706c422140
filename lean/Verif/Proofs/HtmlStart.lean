import Verif.Spec.Source
import Verif.Proofs.Reads
import Verif.Proofs.CodeHtml
import Mathlib.Tactic.Tauto
/-
Lines that start no HTML block.
-/
set_option linter.unusedVariables false
namespace CM
open Spec

/-- A line that starts no HTML block: it does not begin with `<`, or with `<` alone, or with `<`, possibly letters,
digits and hyphens, and then a punctuation character with which no tag continues. -/
def NoHtmlStart (l : Str) : Prop :=
  l.head? ≠ some '<' ∨ l = ['<'] ∨ (∃ r, l = '<' :: ' ' :: r) ∨
  ∃ nm x r, l = '<' :: (nm ++ x :: r) ∧ (∀ c ∈ nm, AsciiAlnum c ∨ c = '-') ∧ x ∈ asciiPunctuation ∧
    x ≠ '-' ∧ x ≠ '/' ∧ x ≠ '>' ∧ (nm = [] → x ≠ '!' ∧ x ≠ '?')

/-! ### HTML block starts -/

theorem den_alts {n : Nat} {m t : Str} : ∀ {rs : List Re}, Den n (.alts rs) m t → ∃ r ∈ rs, Den n r m t
  | [], h => by
    obtain ⟨_, h⟩ := h
    exact absurd ⟨[], t, rfl, rfl⟩ h
  | [a], h => ⟨a, by simp, h⟩
  | a :: b :: r, h => by
    rcases h with h | h
    · exact ⟨a, by simp, h⟩
    · obtain ⟨x, hx, h⟩ := den_alts h
      exact ⟨x, List.mem_cons_of_mem _ hx, h⟩

theorem den_word {n : Nat} {m t : Str} : ∀ {w : Str}, Den n (.word w) m t → m = w
  | [], h => h
  | [a], h => den_lit1.1 h
  | a :: b :: r, h => by
    obtain ⟨m1, m2, rfl, h1, h2⟩ := h
    rw [den_lit1.1 h1, den_word h2]; rfl

theorem den_ciWord {n : Nat} {m t : Str} : ∀ {w : Str}, Den n (.ciWord w) m t → List.Forall₂ (fun a x => ciEq a x = true) w m
  | [], h => by
    obtain rfl : m = [] := h
    exact .nil
  | [a], h => by
    obtain ⟨c, h1, rfl⟩ := h
    exact .cons h1 .nil
  | a :: b :: r, h => by
    obtain ⟨m1, m2, rfl, ⟨c, h1, rfl⟩, h2⟩ := h
    exact .cons h1 (den_ciWord h2)

/-- A character of a tag name. -/
def isTagChar (c : Char) : Bool := isAlnumCI c || c == '-'

theorem toLower_alnum {a x : Char} (ha : isAlnumCI a = true) (h : x.toLower = a.toLower) : isAlnumCI x = true := by
  have low : ∀ c : Char, isAlnumCI c = true ↔ isAlnumCI c.toLower = true := by
    intro c
    by_cases hc : c.toNat < 128
    · have key : ∀ k < 128, (isAlnumCI (Char.ofNat k) = true ↔ isAlnumCI (Char.ofNat k).toLower = true) := by decide +kernel
      have := key c.toNat hc
      rwa [Char.ofNat_toNat] at this
    · have : c.toLower = c := by
        unfold Char.toLower
        rw [dif_neg]
        rintro ⟨_, h2⟩
        have h3 : c.val.toNat ≤ 90 := UInt32.le_iff_toNat_le.1 h2
        exact hc (Nat.lt_of_le_of_lt h3 (by decide))
      rw [this]
  rw [low, h, ← low]; exact ha

theorem ciEq_alnum {a x : Char} (ha : isAlnumCI a = true) (h : ciEq a x = true) : isAlnumCI x = true := by
  simp only [ciEq, Bool.or_eq_true, beq_iff_eq, Bool.and_eq_true] at h
  rcases h with ((((rfl | h) | ⟨_, h | h⟩) | ⟨_, h⟩) | ⟨_, h⟩)
  · exact ha
  · exact toLower_alnum ha h
  all_goals simp [isAlnumCI, isAlphaCI, isCiExtra, h]

theorem ciWord_tagChars {n : Nat} {w m t : Str} (hw : ∀ c ∈ w, isAlnumCI c = true) (h : Den n (.ciWord w) m t) :
    ∀ c ∈ m, isTagChar c = true := by
  have := den_ciWord h
  clear h
  induction this with
  | nil => simp
  | cons h1 _ ih =>
    intro c hc
    rcases List.mem_cons.1 hc with rfl | hc
    · simp [isTagChar, ciEq_alnum (hw _ (by simp)) h1]
    · exact ih (fun c hc => hw c (by simp [hc])) c hc

/-- What follows a name in an HTML block start. -/
def TagEnd (u : Str) : Prop := u = [] ∨ ∃ y r, u = y :: r ∧ (isPySpace y = true ∨ y = '/' ∨ y = '>')

theorem tagName_excludes {nm x r T u : Str} {c : Char} (h : T ++ u = nm ++ c :: r) (hT : ∀ c ∈ T, isTagChar c = true)
    (hnm : ∀ c ∈ nm, isTagChar c = true) (hc : isTagChar c = false) (hu : TagEnd u)
    (hc' : ¬ (isPySpace c = true ∨ c = '/' ∨ c = '>')) : False := by
  rcases hu with rfl | ⟨y, q, rfl, hy⟩
  · rw [List.append_nil] at h
    have : c ∈ T := by rw [h]; simp
    rw [hT c this] at hc; cases hc
  · have hyT : isTagChar y = false := by
      rcases hy with hy | rfl | rfl
      · cases hh : isTagChar y with
        | false => rfl
        | true =>
          exfalso
          simp only [isTagChar, Bool.or_eq_true, beq_iff_eq] at hh
          rcases hh with hh | rfl
          · simp only [isAlnumCI, isAlphaCI, isAlpha, isDig, isCiExtra, inRange, Bool.or_eq_true, Bool.and_eq_true,
              decide_eq_true_eq, beq_iff_eq, char_le_iff] at hh
            simp only [isPySpace, Bool.or_eq_true, Bool.and_eq_true, decide_eq_true_eq, beq_iff_eq] at hy
            have e1 : 'a'.toNat = 97 := rfl
            have e2 : 'z'.toNat = 122 := rfl
            have e3 : 'A'.toNat = 65 := rfl
            have e4 : 'Z'.toNat = 90 := rfl
            have e5 : '0'.toNat = 48 := rfl
            have e6 : '9'.toNat = 57 := rfl
            rw [e1, e2, e3, e4, e5, e6] at hh
            omega
          · revert hy; decide
      · decide
      · decide
    have := (span_unique hT hnm hyT hc h).2.1
    exact hc' (this ▸ hy)

/-- The text after `<` cannot continue as a tag. -/
structure NoTag (tl : Str) : Prop where
  bang : ∀ r, tl ≠ '!' :: r
  quest : ∀ r, tl ≠ '?' :: r
  slash : ∀ r, tl ≠ '/' :: r
  name : ∀ T u, tl = T ++ u → T ≠ [] → (∀ c ∈ T, isTagChar c = true) → ¬ TagEnd u

theorem alnum_tagChar {c : Char} (h : AsciiAlnum c ∨ c = '-') : isTagChar c = true := by
  rcases h with h | rfl
  · simp only [isTagChar, alnum_alnumCI h, Bool.true_or]
  · decide

theorem noTag_of {l : Str} (h : NoHtmlStart l) (hh : l.head? = some '<') : ∃ tl, l = '<' :: tl ∧ NoTag tl := by
  rcases h with h | rfl | ⟨r, rfl⟩ | ⟨nm, x, r, rfl, hnm, hx, h1, h2, h3, h4⟩
  · exact absurd hh h
  · refine ⟨[], rfl, ⟨by simp, by simp, by simp, ?_⟩⟩
    intro T u h hT
    cases T with
    | nil => exact absurd rfl hT
    | cons a T => cases h
  · refine ⟨_, rfl, ⟨by simp, by simp, by simp, ?_⟩⟩
    intro T u h hT hc
    cases T with
    | nil => exact absurd rfl hT
    | cons a T =>
      simp only [List.cons_append, List.cons.injEq] at h
      have := hc a (by simp)
      rw [← h.1] at this
      exact absurd this (by decide)
  · have key : ∀ x ∈ asciiPunctuation, x ≠ '-' → isTagChar x = false ∧ isPySpace x = false := by decide +kernel
    obtain ⟨k1, k2⟩ := key x hx h1
    refine ⟨_, rfl, ?_⟩
    have hd : ∀ y : Char, (AsciiAlnum y ∨ y = '-') ∨ (nm = [] ∧ y = x) → y ≠ '!' ∧ y ≠ '?' ∧ y ≠ '/' := by
      rintro y (hy | ⟨hn, rfl⟩)
      · have := alnum_tagChar hy
        refine ⟨?_, ?_, ?_⟩ <;> (rintro rfl; exact absurd this (by decide))
      · exact ⟨(h4 hn).1, (h4 hn).2, h2⟩
    have hf : ∃ y q, nm ++ x :: r = y :: q ∧ ((AsciiAlnum y ∨ y = '-') ∨ (nm = [] ∧ y = x)) := by
      cases nm with
      | nil => exact ⟨x, r, rfl, Or.inr ⟨rfl, rfl⟩⟩
      | cons y nm => exact ⟨y, _, rfl, Or.inl (hnm y (by simp))⟩
    obtain ⟨y, q, e, hy⟩ := hf
    obtain ⟨d1, d2, d3⟩ := hd y hy
    refine ⟨?_, ?_, ?_, ?_⟩
    · intro r h; rw [e] at h; exact d1 (List.cons.inj h).1
    · intro r h; rw [e] at h; exact d2 (List.cons.inj h).1
    · intro r h; rw [e] at h; exact d3 (List.cons.inj h).1
    · intro T u hT _ hc hu
      exact tagName_excludes (x := []) hT.symm hc (fun c hc => alnum_tagChar (hnm c hc)) k1 hu (by simp [k2, h2, h3])

theorem iter_attr {n k : Nat} {m t : Str} (h : Iter (fun m t => Den n reATTRIBUTE m t) k m t) :
    m = [] ∨ ∃ y r, m = y :: r ∧ isPySpace y = true := by
  cases h with
  | nil => exact Or.inl rfl
  | cons h _ =>
    obtain ⟨m1, m2, rfl, h1, _⟩ := h
    obtain ⟨h1, h2⟩ := den_plus_chr.1 h1
    cases m1 with
    | nil => exact absurd rfl h1
    | cons y r => exact Or.inr ⟨y, _, rfl, h2 y (by simp)⟩

theorem no_html_start {k : Kind} {l : Str} (h : NoHtmlStart l) (hh : l.head? = some '<') :
    htmlBlockType k l = none := by
  obtain ⟨tl, rfl, hq⟩ := noTag_of h hh
  clear h; rename' hq => h
  have sps : ∀ w ∈ ["script", "pre", "style"], (∀ c ∈ w.toList, isAlnumCI c = true) ∧ w.toList ≠ [] := by decide +kernel
  have bts : ∀ w ∈ blockTags, (∀ c ∈ w.toList, isAlnumCI c = true) ∧ w.toList ≠ [] := by decide +kernel
  have ne : ∀ {w m : Str}, List.Forall₂ (fun a x => ciEq a x = true) w m → w ≠ [] → m ≠ [] := by
    intro w m h hw; cases h <;> simp_all
  have c1 : ((reHtmlBlockOpen 1).matchPrefix ('<' :: tl)).isSome = false := by
    rw [← Bool.not_eq_true, matchPrefix_iff]
    rintro ⟨m, t, e, a, b, rfl, ha, c, d, rfl, hc, hd⟩
    obtain rfl := den_lit1.1 ha
    obtain ⟨w, hw, hc'⟩ : ∃ w ∈ ["script", "pre", "style"], Den _ (.ciWord w.toList) c (d ++ t) := by
      obtain ⟨r, hr, hc⟩ := den_alts hc
      simp only [List.mem_cons, List.not_mem_nil, or_false] at hr
      rcases hr with rfl | rfl | rfl
      · exact ⟨"script", by simp, hc⟩
      · exact ⟨"pre", by simp, hc⟩
      · exact ⟨"style", by simp, hc⟩
    simp only [List.singleton_append, List.cons_append, List.cons.injEq, true_and, List.append_assoc] at e
    refine h.name c (d ++ t) e (ne (den_ciWord hc') (sps w hw).2) (ciWord_tagChars (sps w hw).1 hc') ?_
    rcases hd with ⟨y, hy, rfl⟩ | hd | ⟨rfl, rfl | rfl⟩
    · exact Or.inr ⟨y, t, rfl, Or.inl hy⟩
    · rw [den_lit1.1 hd]; exact Or.inr ⟨_, t, rfl, by simp⟩
    · exact Or.inl rfl
    · exact Or.inr ⟨'\n', [], rfl, Or.inl (by decide)⟩
  have c2 : ((reHtmlBlockOpen 2).matchPrefix ('<' :: tl)).isSome = false := by
    rw [← Bool.not_eq_true, matchPrefix_iff]
    rintro ⟨m, t, e, hm⟩
    rw [den_word hm] at e
    exact h.bang _ (List.cons.inj e).2
  have c3 : ((reHtmlBlockOpen 3).matchPrefix ('<' :: tl)).isSome = false := by
    rw [← Bool.not_eq_true, matchPrefix_iff]
    rintro ⟨m, t, e, hm⟩
    rw [den_word hm] at e
    exact h.quest _ (List.cons.inj e).2
  have c4 : ((reHtmlBlockOpen 4).matchPrefix ('<' :: tl)).isSome = false := by
    rw [← Bool.not_eq_true, matchPrefix_iff]
    rintro ⟨m, t, e, a, b, rfl, ha, _⟩
    rw [den_word ha] at e
    exact h.bang _ (List.cons.inj e).2
  have c5 : ((reHtmlBlockOpen 5).matchPrefix ('<' :: tl)).isSome = false := by
    rw [← Bool.not_eq_true, matchPrefix_iff]
    rintro ⟨m, t, e, hm⟩
    rw [den_word hm] at e
    exact h.bang _ (List.cons.inj e).2
  have c6 : ((reHtmlBlockOpen 6).matchPrefix ('<' :: tl)).isSome = false := by
    rw [← Bool.not_eq_true, matchPrefix_iff]
    rintro ⟨m, t, e, a, b, rfl, ha, s, b, rfl, hs, c, d, rfl, hc, hd⟩
    obtain rfl := den_lit1.1 ha
    simp only [List.singleton_append, List.cons_append, List.cons.injEq, true_and, List.append_assoc] at e
    rcases den_opt.1 hs with rfl | hs
    · obtain ⟨r, hr, hc⟩ := den_alts hc
      obtain ⟨w, hw, rfl⟩ := List.mem_map.1 hr
      refine h.name c (d ++ t) e (ne (den_ciWord hc) (bts w hw).2) (ciWord_tagChars (bts w hw).1 hc) ?_
      rcases hd with ⟨y, hy, rfl⟩ | ⟨d1, d2, rfl, hd1, hd2⟩ | ⟨rfl, rfl | rfl⟩
      · exact Or.inr ⟨y, t, rfl, Or.inl hy⟩
      · rw [den_lit1.1 hd2]
        rcases den_opt.1 hd1 with rfl | hd1
        · exact Or.inr ⟨_, t, rfl, by simp⟩
        · rw [den_lit1.1 hd1]; exact Or.inr ⟨_, _, rfl, by simp⟩
      · exact Or.inl rfl
      · exact Or.inr ⟨'\n', [], rfl, Or.inl (by decide)⟩
    · rw [den_lit1.1 hs] at e
      exact h.slash _ e
  have c7 : ((reHtmlBlockOpen 7).matchPrefix ('<' :: tl)).isSome = false := by
    rw [← Bool.not_eq_true, matchPrefix_iff]
    rintro ⟨m, t, e, a, b, rfl, ha | ha, _⟩
    · obtain ⟨a, b', rfl, h1, nm, b', rfl, h2, at', b', rfl, ⟨k, h3⟩, ws, b', rfl, h4, sl, gt, rfl, h5, h6⟩ := ha
      obtain rfl := den_lit1.1 h1
      obtain rfl := den_lit1.1 h6
      obtain ⟨n1, n2, rfl, ⟨y, hy, rfl⟩, hn2⟩ := h2
      simp only [List.singleton_append, List.cons_append, List.cons.injEq, true_and, List.append_assoc] at e
      refine h.name (y :: n2) (at' ++ (ws ++ (sl ++ ('>' :: (b ++ t))))) (by rw [e]; simp) (by simp) ?_ ?_
      · intro c hc
        rcases List.mem_cons.1 hc with rfl | hc
        · simp [isTagChar, isAlnumCI, hy]
        · exact den_star_chr.1 hn2 c hc
      · right
        rcases iter_attr h3 with rfl | ⟨z, q, rfl, hz⟩
        · have h4 := den_star_chr.1 h4
          cases ws with
          | cons z ws => exact ⟨z, _, rfl, Or.inl (h4 z (by simp))⟩
          | nil =>
            rcases den_opt.1 h5 with rfl | h5
            · exact ⟨_, _, rfl, by simp⟩
            · rw [den_lit1.1 h5]; exact ⟨_, _, rfl, by simp⟩
        · exact ⟨z, _, rfl, Or.inl hz⟩
    · obtain ⟨a, b', rfl, h1, _⟩ := ha
      rw [den_word h1] at e
      exact h.slash _ (List.cons.inj e).2
  simp [htmlBlockType, List.find?, c1, c2, c3, c4, c5, c6, c7]

end CM
