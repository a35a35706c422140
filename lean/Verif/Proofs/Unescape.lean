import Verif.Proofs.Parsed
import Verif.Proofs.EntityTab
import Verif.Spec.Escapes
/-
Lemmas about `unescape_string` and character references.
-/
set_option linter.unusedVariables false
namespace CM
open Spec

theorem reEOE_noBos : reEntityOrEscapedChar.noBos = true := by decide
theorem reENTITY_noBos : reENTITY.noBos = true := by decide

/-- Neither alternative starts with another character. -/
theorem eoe_none {c : Char} (h1 : c ≠ '\\') (h2 : c ≠ '&') (cs : Str) :
    reEntityOrEscapedChar.rest (c :: cs) = none := by
  simp [Re.rest, reEntityOrEscapedChar, Re.run, Re.lit1, reENTITY, Re.seqs, h1, h2]

theorem eoe_escaped {c : Char} (h : isEscapable c = true) (cs : Str) :
    reEntityOrEscapedChar.rest ('\\' :: c :: cs) = some cs := by
  simp [Re.rest, reEntityOrEscapedChar, Re.run, Re.lit1, h]

theorem eoe_unescapable {c : Char} (h : isEscapable c = false) (cs : Str) :
    reEntityOrEscapedChar.rest ('\\' :: c :: cs) = none := by
  simp [Re.rest, reEntityOrEscapedChar, Re.run, Re.lit1, h, reENTITY, Re.seqs]

theorem eoe_backslash_end : reEntityOrEscapedChar.rest ['\\'] = none := by
  simp [Re.rest, reEntityOrEscapedChar, Re.run, Re.lit1, reENTITY, Re.seqs]

theorem eoe_amp (cs : Str) : reEntityOrEscapedChar.rest ('&' :: cs) = reENTITY.rest ('&' :: cs) := by
  simp [Re.rest, reEntityOrEscapedChar, Re.run, Re.lit1]

theorem sub_eoe_plain {s : Str} (h1 : '\\' ∉ s) (h2 : '&' ∉ s) : reEntityOrEscapedChar.sub unescapeChar s = s := by
  induction s with
  | nil => exact Re.sub_nil _ _
  | cons c cs ih =>
    simp only [List.mem_cons, not_or] at h1 h2
    rw [Re.sub_none reEOE_noBos _ (eoe_none (Ne.symm h1.1) (Ne.symm h2.1) cs), ih h1.2 h2.2]

theorem unescapeString_eq (s : Str) : unescapeString s = reEntityOrEscapedChar.sub unescapeChar s := by
  unfold unescapeString
  split
  · rfl
  · rename_i h
    simp only [List.any_eq_true, not_exists, not_and, Bool.or_eq_true, beq_iff_eq, not_or] at h
    exact (sub_eoe_plain (fun hm => (h _ hm).1 rfl) (fun hm => (h _ hm).2 rfl)).symm

theorem unescapeString_nil : unescapeString [] = [] := rfl

theorem unescapeString_cons {c : Char} (h1 : c ≠ '\\') (h2 : c ≠ '&') (cs : Str) :
    unescapeString (c :: cs) = c :: unescapeString cs := by
  rw [unescapeString_eq, unescapeString_eq, Re.sub_none reEOE_noBos _ (eoe_none h1 h2 cs)]

theorem unescapeString_escaped {c : Char} (h : isEscapable c = true) (cs : Str) :
    unescapeString ('\\' :: c :: cs) = c :: unescapeString cs := by
  rw [unescapeString_eq, unescapeString_eq]
  have := Re.sub_match (m := ['\\', c]) (t := cs) reEOE_noBos unescapeChar (by simp) (eoe_escaped h cs)
  exact this

theorem unescapeString_unescapable {c : Char} (h : isEscapable c = false) (cs : Str) :
    unescapeString ('\\' :: c :: cs) = '\\' :: unescapeString (c :: cs) := by
  rw [unescapeString_eq, unescapeString_eq, Re.sub_none reEOE_noBos _ (eoe_unescapable h cs)]

theorem isEscapable_iff (c : Char) : isEscapable c = true ↔ c ∈ asciiPunctuation := by
  unfold isEscapable
  rw [List.contains_iff_mem]
  have h1 : ∀ x ∈ lit "!\"#$%&'()*+,./:;<=>?@[\\]^_`{|}~-", x ∈ asciiPunctuation := by decide
  have h2 : ∀ x ∈ asciiPunctuation, x ∈ lit "!\"#$%&'()*+,./:;<=>?@[\\]^_`{|}~-" := by decide
  exact ⟨h1 c, h2 c⟩

theorem unescape_backslashed {s t : Str} (h : BackslashedAs s t) : unescapeString t = s := by
  induction h with
  | nil => rfl
  | keep h1 h2 _ ih => rw [unescapeString_cons h1 h2, ih]
  | escape h1 _ ih => rw [unescapeString_escaped ((isEscapable_iff _).2 h1), ih]

/-! ### References -/

theorem alnumCI_semi : isAlnumCI ';' = false := by decide
theorem alphaCI_semi : isAlphaCI ';' = false := by decide

/-- The text of a reference is `&`, something without semicolon, and a semicolon. -/
theorem entity_semi {n : Nat} {m t : Str} (h : Den n reENTITY m t) : ∃ a, m = a ++ [';'] ∧ ';' ∉ a := by
  have no : ∀ {p : Char → Bool} {ds : Str}, p ';' = false → (∀ c ∈ ds, p c = true) → ';' ∉ ds := by
    intro p ds hp hd hm
    have := hd _ hm; rw [hp] at this; cases this
  rcases entity_shape h with ⟨x, ds, rfl, h1, h2, h2', h3⟩ | ⟨ds, rfl, h2, h2', h3⟩ | ⟨x, ds, rfl, h1, h2, h2', h3⟩
  · refine ⟨'&' :: '#' :: x :: ds, by simp, ?_⟩
    have := no semi_not_hex h3
    rcases h1 with rfl | rfl <;> simp [this]
  · exact ⟨'&' :: '#' :: ds, by simp, by simp [no semi_not_dig h3]⟩
  · refine ⟨'&' :: x :: ds, by simp, ?_⟩
    have := no alnumCI_semi h3
    simp only [List.mem_cons, not_or]
    refine ⟨by decide, ?_, this⟩
    rintro rfl; rw [alphaCI_semi] at h1; cases h1

theorem first_semi : ∀ {a b t t' : Str}, ';' ∉ a → ';' ∉ b → a ++ ';' :: t = b ++ ';' :: t' → a = b ∧ t = t'
  | [], [], t, t', _, _, h => by simpa using h
  | [], x :: b, t, t', _, hb, h => by
    simp at h hb; exact absurd h.1 hb.1
  | x :: a, [], t, t', ha, _, h => by
    simp at h ha; exact absurd h.1.symm ha.1
  | x :: a, y :: b, t, t', ha, hb, h => by
    simp only [List.cons_append, List.cons.injEq, List.mem_cons, not_or] at h ha hb
    obtain ⟨h1, h2⟩ := first_semi ha.2 hb.2 h.2
    exact ⟨by rw [h.1, h1], h2⟩

/-- A reference is matched up to its semicolon. -/
theorem entity_rest {k : Nat} {m t : Str} (h : Den k reENTITY m t) : reENTITY.rest (m ++ t) = some t := by
  have h' : t ∈ reENTITY.all (m ++ t).length (m ++ t) := by
    rw [Re.all_noBos _ k _ reENTITY_noBos]
    exact (Re.mem_all_iff _ _ _ _).2 ⟨m, rfl, h⟩
  rw [Re.rest_eq_head]
  cases hh : reENTITY.all (m ++ t).length (m ++ t) with
  | nil => rw [hh] at h'; cases h'
  | cons u us =>
    have hu : u ∈ reENTITY.all (m ++ t).length (m ++ t) := by rw [hh]; simp
    obtain ⟨m', he, hm'⟩ := (Re.mem_all_iff _ _ _ _).1 hu
    obtain ⟨a, rfl, ha⟩ := entity_semi h
    obtain ⟨b, rfl, hb⟩ := entity_semi hm'
    simp only [List.append_assoc, List.singleton_append] at he
    rw [(first_semi ha hb he).2]; rfl

theorem entity_amp {n : Nat} {m t : Str} (h : Den n reENTITY m t) : ∃ x, m = '&' :: x := by
  rcases entity_shape h with ⟨x, ds, rfl, _⟩ | ⟨ds, rfl, _⟩ | ⟨x, ds, rfl, _⟩ <;> exact ⟨_, rfl⟩

theorem unescapeString_entity {k : Nat} {m t : Str} (h : Den k reENTITY m t) :
    unescapeString (m ++ t) = htmlUnescape m ++ unescapeString t := by
  rw [unescapeString_eq, unescapeString_eq]
  obtain ⟨x, rfl⟩ := entity_amp h
  rw [Re.sub_match reEOE_noBos unescapeChar (by simp) ((eoe_amp _).trans (entity_rest h))]
  rfl

/-! The three shapes. -/

theorem den_entity_dec (n : Nat) {ds t : Str} (h1 : 1 ≤ ds.length) (h2 : ds.length ≤ 7) (h : ∀ c ∈ ds, isDig c = true) :
    Den n reENTITY ('&' :: '#' :: (ds ++ [';'])) t := by
  refine ⟨['&'], '#' :: (ds ++ [';']), rfl, ⟨'&', by decide, rfl⟩, '#' :: ds, [';'], by simp, ?_, ⟨';', by decide, rfl⟩⟩
  refine Or.inr (Or.inl ⟨['#'], ds, rfl, ⟨'#', by decide, rfl⟩, ?_⟩)
  exact (den_between_chr (by omega)).2 ⟨h1, h2, h⟩

theorem den_entity_hex (n : Nat) {x : Char} {ds t : Str} (hx : x = 'x' ∨ x = 'X') (h1 : 1 ≤ ds.length)
    (h2 : ds.length ≤ 6) (h : ∀ c ∈ ds, isHexCI c = true) :
    Den n reENTITY ('&' :: '#' :: x :: (ds ++ [';'])) t := by
  refine ⟨['&'], '#' :: x :: (ds ++ [';']), rfl, ⟨'&', by decide, rfl⟩, '#' :: x :: ds, [';'], by simp, ?_, ⟨';', by decide, rfl⟩⟩
  refine Or.inl ⟨['#'], x :: ds, rfl, ⟨'#', by decide, rfl⟩, [x], ds, rfl, ⟨x, ?_, rfl⟩, ?_⟩
  · rcases hx with rfl | rfl <;> decide
  · exact (den_between_chr (by omega)).2 ⟨h1, h2, h⟩

theorem den_entity_name (n : Nat) {x : Char} {ds t : Str} (hx : isAlphaCI x = true) (h1 : 1 ≤ ds.length)
    (h2 : ds.length ≤ 31) (h : ∀ c ∈ ds, isAlnumCI c = true) :
    Den n reENTITY ('&' :: x :: (ds ++ [';'])) t := by
  refine ⟨['&'], x :: (ds ++ [';']), rfl, ⟨'&', by decide, rfl⟩, x :: ds, [';'], by simp, ?_, ⟨';', by decide, rfl⟩⟩
  refine Or.inr (Or.inr ⟨[x], ds, rfl, ⟨x, hx, rfl⟩, ?_⟩)
  exact (den_between_chr (by omega)).2 ⟨h1, h2, h⟩

/-! ### Numeric references -/

theorem digit_isHex {c : Char} {d : Nat} (h : digit c = some d) : isHexCI c = true := by
  have e1 : '0'.toNat = 48 := rfl
  have e2 : '9'.toNat = 57 := rfl
  have e3 : 'a'.toNat = 97 := rfl
  have e4 : 'f'.toNat = 102 := rfl
  have e5 : 'A'.toNat = 65 := rfl
  have e6 : 'F'.toNat = 70 := rfl
  simp only [digit, char_le_iff] at h
  simp only [isHexCI, isDig, inRange, Bool.or_eq_true, Bool.and_eq_true, decide_eq_true_eq]
  split at h
  · simp_all
  · split at h
    · simp_all
    · split at h
      · simp_all
      · cases h

theorem digit_isDig {c : Char} {d : Nat} (h : digit c = some d) (hd : d < 10) : isDig c = true := by
  have e1 : '0'.toNat = 48 := rfl
  have e2 : '9'.toNat = 57 := rfl
  have e3 : 'a'.toNat = 97 := rfl
  have e4 : 'f'.toNat = 102 := rfl
  have e5 : 'A'.toNat = 65 := rfl
  have e6 : 'F'.toNat = 70 := rfl
  simp only [digit, char_le_iff, e1, e2, e3, e4, e5, e6] at h
  simp only [isDig, inRange, Bool.and_eq_true, decide_eq_true_eq]
  split at h
  · simp_all
  · split at h
    · simp only [Option.some.injEq] at h; omega
    · split at h
      · simp only [Option.some.injEq] at h; omega
      · cases h

theorem numeral_digits {base : Nat} : ∀ {ds : Str} {n : Nat}, numeral base ds = some n →
    ∀ c ∈ ds, ∃ d, digit c = some d ∧ d < base
  | [], _, _ => by simp
  | c :: cs, n, h => by
    simp only [numeral, bind, Option.bind] at h
    intro x hx
    cases hd : digit c with
    | none => rw [hd] at h; cases h
    | some d =>
      rw [hd] at h
      simp only at h
      cases hr : numeral base cs with
      | none => rw [hr] at h; cases h
      | some r =>
        rw [hr] at h
        simp only at h
        split at h
        · rcases List.mem_cons.1 hx with rfl | hx
          · exact ⟨d, hd, by assumption⟩
          · exact numeral_digits hr x hx
        · cases h

theorem numericRef_entity {m : Str} {n : Nat} (h : NumericRef m n) :
    (∀ k t, Den k reENTITY m t) ∧ htmlUnescape m = numCharref n := by
  rcases h with ⟨ds, rfl, h1, h2, h3⟩ | ⟨x, ds, rfl, hx, h1, h2, h3⟩
  · have hd : ∀ c ∈ ds, isDig c = true := fun c hc => by
      obtain ⟨d, a, b⟩ := numeral_digits h3 c hc; exact digit_isDig a b
    have he : intBase 10 ds = n := by
      have := numeral_intBase (base := 10) (ds := ds) fun c hc => digit_dec (hd c hc)
      rw [h3] at this; exact (Option.some.inj this).symm
    have e : "&#".toList ++ ds ++ [';'] = '&' :: '#' :: (ds ++ [';']) := rfl
    rw [e]
    exact ⟨fun k t => den_entity_dec k h1 h2 hd, by rw [unescape_dec h1 hd, he]⟩
  · have hd : ∀ c ∈ ds, isHexCI c = true := fun c hc => by
      obtain ⟨d, a, b⟩ := numeral_digits h3 c hc; exact digit_isHex a
    have he : intBase 16 ds = n := by
      have := numeral_intBase (base := 16) (ds := ds) fun c hc => digit_hex (hd c hc)
      rw [h3] at this; exact (Option.some.inj this).symm
    have e : "&#".toList ++ x :: ds ++ [';'] = '&' :: '#' :: x :: (ds ++ [';']) := rfl
    rw [e]
    exact ⟨fun k t => den_entity_hex k hx h1 h2 hd, by rw [unescape_hex hx h1 hd, he]⟩

/-- What `numCharref` computes. -/
theorem invalidCharref_spec {n v : Nat} (h : invalidCharref n = some v) :
    (n = 0 ∧ v = 0xFFFD) ∨ (n, v) ∈ windows1252 ∨ (v = n ∧ n ∈ [0xd, 0x81, 0x8d, 0x8f, 0x90, 0x9d]) := by
  simp only [invalidCharref, Option.map_eq_some_iff] at h
  obtain ⟨e, he, rfl⟩ := h
  have h1 := List.mem_of_find?_eq_some he
  have h2 := List.find?_some he
  simp only [beq_iff_eq] at h2
  have key : (invalidCharrefs.all fun e => (e.1 == 0 && e.2 == 0xFFFD) || windows1252.contains e ||
      (e.2 == e.1 && [0xd, 0x81, 0x8d, 0x8f, 0x90, 0x9d].contains e.1)) = true := by decide +kernel
  have := List.all_eq_true.1 key e h1
  simp only [Bool.or_eq_true, Bool.and_eq_true, beq_iff_eq, List.contains_iff_mem, h2] at this
  subst h2
  rcases this with (h | h) | h
  · exact Or.inl h
  · exact Or.inr (Or.inl h)
  · exact Or.inr (Or.inr h)

theorem invalidCharref_0 : invalidCharref 0 = some 0xFFFD := by decide +kernel

theorem invalidCharref_1252 : (windows1252.all fun e => invalidCharref e.1 == some e.2) = true := by decide +kernel

theorem invalidCharref_range : (invalidCharrefs.all fun e => e.1 < 0xD800) = true := by decide +kernel

theorem invalidCharref_lt {n v : Nat} (h : invalidCharref n = some v) : n < 0xD800 := by
  simp only [invalidCharref, Option.map_eq_some_iff] at h
  obtain ⟨e, he, rfl⟩ := h
  have h2 := List.find?_some he
  simp only [beq_iff_eq] at h2
  have := List.all_eq_true.1 invalidCharref_range e (List.mem_of_find?_eq_some he)
  simp only [decide_eq_true_eq] at this
  omega

theorem numCharref_noChar {n : Nat} (h : NoCharacter n) : numCharref n = [Char.ofNat 0xFFFD] := by
  rcases h with rfl | h
  · unfold numCharref; rw [invalidCharref_0]
  · unfold numCharref
    have hn : invalidCharref n = none := by
      cases hv : invalidCharref n with
      | none => rfl
      | some v => have := invalidCharref_lt hv; omega
    rw [hn]
    simp only
    rw [if_pos]
    simp only [Bool.or_eq_true, Bool.and_eq_true, decide_eq_true_eq]
    omega

theorem numCharref_1252 {n v : Nat} (h : (n, v) ∈ windows1252) : numCharref n = [Char.ofNat v] := by
  have := List.all_eq_true.1 invalidCharref_1252 _ h
  simp only [beq_iff_eq] at this
  unfold numCharref; rw [this]

theorem refused_mem {n : Nat} (h : Refused n) : n ∈ invalidCodepoints := by
  have key : (List.range 0x20).all (fun n => !((1 ≤ n && n ≤ 8) || n == 0xb || (0xe ≤ n && n ≤ 0x1f)) || invalidCodepoints.contains n) = true := by
    decide +kernel
  have key3 : (List.range 32).all (fun n => invalidCodepoints.contains (0xfdd0 + n)) = true := by decide +kernel
  have key4 : (List.range 17).all (fun k => invalidCodepoints.contains (0x10000 * k + 0xfffe) && invalidCodepoints.contains (0x10000 * k + 0xffff)) = true := by
    decide +kernel
  have k5 : invalidCodepoints.contains 0x7f = true := by decide +kernel
  rw [← List.contains_iff_mem]
  rw [List.all_eq_true] at key key3 key4
  unfold Refused at h
  by_cases hs : n < 0x20
  · have := key n (List.mem_range.2 hs)
    simp only [Bool.or_eq_true, Bool.not_eq_true', Bool.or_eq_false_iff, Bool.and_eq_false_iff, decide_eq_false_iff_not, beq_eq_false_iff_ne] at this
    rcases this with this | this
    · omega
    · exact this
  · by_cases h7 : n = 0x7f
    · rw [h7]; exact k5
    · by_cases hf : 0xfdd0 ≤ n ∧ n ≤ 0xfdef
      · have := key3 (n - 0xfdd0) (List.mem_range.2 (by omega))
        rwa [show 0xfdd0 + (n - 0xfdd0) = n by omega] at this
      · have := key4 (n / 0x10000) (List.mem_range.2 (by omega))
        simp only [Bool.and_eq_true] at this
        by_cases he : n % 0x10000 = 0xfffe
        · have e : 0x10000 * (n / 0x10000) + 0xfffe = n := by omega
          rw [e] at this; exact this.1
        · have e : 0x10000 * (n / 0x10000) + 0xffff = n := by omega
          rw [e] at this; exact this.2

theorem numCharref_of_refused {n : Nat} (h : Refused n) : numCharref n = [] := by
  unfold numCharref
  have hn : invalidCharref n = none := by
    cases hv : invalidCharref n with
    | none => rfl
    | some v =>
      have h2 : ∀ e ∈ windows1252, 0x80 ≤ e.1 ∧ e.1 ≤ 0x9f := by decide
      rcases invalidCharref_spec hv with ⟨rfl, _⟩ | h1 | ⟨_, h1⟩
      · unfold Refused at h; omega
      · have := h2 _ h1; unfold Refused at h; simp only at this; omega
      · simp only [List.mem_cons, List.not_mem_nil, or_false] at h1; unfold Refused at h; omega
  rw [hn]
  simp only
  rw [if_neg, if_pos]
  · exact List.contains_iff_mem.2 (refused_mem h)
  · simp only [Bool.or_eq_true, Bool.and_eq_true, decide_eq_true_eq]
    unfold Refused at h; omega

theorem numCharref_plain {n : Nat} (h0 : ¬ NoCharacter n) (h1 : ¬ Refused n)
    (h2 : ∀ v, (n, v) ∉ windows1252) : numCharref n = [Char.ofNat n] := by
  unfold numCharref
  cases hv : invalidCharref n with
  | some v =>
    rcases invalidCharref_spec hv with ⟨rfl, _⟩ | h | ⟨rfl, h⟩
    · exact absurd (Or.inl rfl) h0
    · exact absurd h (h2 v)
    · rfl
  | none =>
    simp only
    have hc : invalidCodepoints.contains n = false := by
      rw [← Bool.not_eq_true]
      intro hc
      refine h1 (numCharref_refused ?_)
      unfold numCharref
      rw [hv]
      simp only
      rw [if_neg, if_pos hc]
      unfold NoCharacter at h0
      simp only [Bool.or_eq_true, Bool.and_eq_true, decide_eq_true_eq]
      omega
    rw [if_neg, hc]
    · rfl
    · unfold NoCharacter at h0
      simp only [Bool.or_eq_true, Bool.and_eq_true, decide_eq_true_eq]
      omega

/-! ### Named references -/

theorem sortedKeys_head : ∀ {l : List (String × List Nat)} {a : String × List Nat}, sortedKeys (a :: l) = true →
    ∀ e ∈ l, ltKey a.1 e.1 = true
  | [], _, _, _, he => by cases he
  | b :: l, a, h, e, he => by
    simp only [sortedKeys, Bool.and_eq_true] at h
    rcases List.mem_cons.1 he with rfl | he
    · exact h.1
    · exact ltKey_trans h.1 (sortedKeys_head h.2 e he)

theorem sortedKeys_find : ∀ {l : List (String × List Nat)}, sortedKeys l = true → ∀ e ∈ l,
    l.find? (fun x => x.1 == e.1) = some e
  | [], _, _, he => by cases he
  | a :: l, h, e, he => by
    rcases List.mem_cons.1 he with rfl | he'
    · simp
    · have hlt := sortedKeys_head h e he'
      have hne : ¬ (a.1 == e.1) = true := by
        rw [beq_iff_eq]; intro heq; rw [heq, ltKey_irrefl] at hlt; cases hlt
      rw [List.find?_cons, Bool.eq_false_iff.2 hne]
      simp only
      refine sortedKeys_find ?_ e he'
      cases l with
      | nil => rfl
      | cons b r => simp only [sortedKeys, Bool.and_eq_true] at h; exact h.2

theorem html5Get_mem {e : String × List Nat} (h : e ∈ html5Tab) :
    html5Get e.1.toList = some (e.2.map Char.ofNat) := by
  rw [html5Get, String.ofList_toList, sortedKeys_find html5_sorted e h]; rfl

theorem goodName_shape {s : Str} (h : goodName s = true) :
    ∃ x ds, s = x :: (ds ++ [';']) ∧ isAlphaCI x = true ∧ 1 ≤ ds.length ∧ ds.length ≤ 31 ∧ ∀ c ∈ ds, isAlnumCI c = true := by
  cases s with
  | nil => cases h
  | cons x r =>
    simp only [goodName, Bool.and_eq_true, beq_iff_eq, decide_eq_true_eq, List.all_eq_true] at h
    obtain ⟨⟨⟨⟨h1, h2⟩, h3⟩, h4⟩, h5⟩ := h
    refine ⟨x, r.dropLast, ?_, by simp [isAlphaCI, h1], h3, h4, ?_⟩
    · have hne : r ≠ [] := by rintro rfl; cases h2
      have := List.dropLast_concat_getLast hne
      rw [List.getLast?_eq_some_getLast hne] at h2
      rw [Option.some.inj h2] at this
      rw [this]
    · intro c hc
      have := h5 c hc
      simp only [isAlnum, Bool.or_eq_true] at this
      simp only [isAlnumCI, isAlphaCI, Bool.or_eq_true]
      rcases this with h | h
      · exact Or.inl (Or.inl h)
      · exact Or.inr h

theorem nameRef_unescape {x : Char} {ds : Str} (hx : isAlphaCI x = true) (h1 : 1 ≤ ds.length)
    (h2 : ds.length ≤ 31) (h : ∀ c ∈ ds, isAlnumCI c = true) :
    htmlUnescape ('&' :: x :: (ds ++ [';'])) = named (x :: (ds ++ [';'])) := by
  have hall : ∀ c ∈ x :: ds, isRefChar c = true := by
    intro c hc
    rcases List.mem_cons.1 hc with rfl | hc
    · exact alnumCI_refChar (by simp [isAlnumCI, hx])
    · exact alnumCI_refChar (h c hc)
  have := unescape_named (ds := x :: ds) (by simp) (by simpa using h2) hall
  rwa [List.cons_append] at this

theorem named_known {s v : Str} (h : html5Get s = some v) : named s = v := by
  unfold named; rw [h]

theorem html5Prefix_none {s : Str} : ∀ {n : Nat}, (∀ k, 2 ≤ k → k ≤ n → html5Get (s.take k) = none) →
    html5Prefix s n = none
  | 0, _ => rfl
  | 1, _ => rfl
  | n + 2, h => by
    rw [html5Prefix, h (n + 2) (by omega) (by omega)]
    exact html5Prefix_none fun k h1 h2 => h k h1 (by omega)

theorem html5Get_none {s : Str} (h : ∀ e ∈ html5Tab, e.1.toList ≠ s) : html5Get s = none := by
  rw [html5Get, Option.map_eq_none_iff, List.find?_eq_none]
  intro e he
  rw [beq_iff_eq]
  intro heq
  exact h e he (by rw [heq, String.toList_ofList])

end CM
