import Mathlib.Data.Nat.Digits.Defs
import Verif.Proofs.WritePara
import Verif.Proofs.RunDoc
/-
The lines of blocks (see `Spec.Write`) stand for them.
-/
namespace CM
open Spec

/-! ### Numbers -/

theorem numeral_snoc {c : Char} {d : Nat} (hc : digit c = some d) (hd : d < 10) : ∀ {xs : Str} {n : Nat}, numeral 10 xs = some n →
    numeral 10 (xs ++ [c]) = some (n * 10 + d)
  | [], n, h => by
    rw [numeral] at h
    cases h
    simp [numeral, hc, hd]
  | x :: xs, n, h => by
    rw [numeral] at h
    simp only [Option.bind_eq_bind, Option.bind_eq_some_iff] at h
    obtain ⟨e, he, r, hr, h⟩ := h
    split at h
    · rename_i hlt
      cases h
      have ih := numeral_snoc hc hd hr
      rw [List.cons_append, numeral, he, ih]
      simp only [Option.bind_eq_bind, Option.bind_some, if_pos hlt, List.length_append, List.length_singleton]
      congr 1
      rw [Nat.pow_succ, Nat.add_mul]
      ring
    · cases h

theorem digit_digitChar : ∀ n < 10, digit (Nat.digitChar n) = some n := by decide

theorem numeral_toDigits (n : Nat) : numeral 10 (Nat.toDigits 10 n) = some n := by
  induction n using Nat.strong_induction_on with
  | _ n ih =>
    by_cases h : n < 10
    · rw [Nat.toDigits_of_lt_base h]
      have := numeral_snoc (digit_digitChar n h) h (xs := []) (n := 0) rfl
      simpa using this
    · rw [Nat.toDigits_of_base_le (by decide) (by omega)]
      have := numeral_snoc (digit_digitChar (n % 10) (Nat.mod_lt _ (by decide))) (Nat.mod_lt _ (by decide)) (ih (n / 10) (by omega))
      rw [this]
      congr 1
      omega

theorem digits_mem {n : Nat} {c : Char} (h : c ∈ Nat.toDigits 10 n) : c ∈ "0123456789".toList :=
  toDigitsCore_mem _ _ _ (by simp) c h

/-! ### Lines -/

theorem ne_spaces {c : Char} (h : isPySpace c = false) : c ≠ ' ' ∧ c ≠ '\t' := by
  refine ⟨?_, ?_⟩ <;> rintro rfl <;> revert h <;> decide

/-- A line that can follow a list with the other bullet and delimiter. -/
def NextLine (alt : Bool) (l : Str) : Prop :=
  (∃ c r, l = c :: r ∧ isPySpace c = false ∧ c ≠ bulletChar (!alt)) ∧
    ∀ num r, l = num ++ delimiter (!alt) :: r → (∀ c ∈ num, isPyDigit c = true) → False

/-- Lines that begin with such a line. -/
def LinesOk (alt : Bool) (ls : List Str) : Prop := (∃ l more, ls = l :: more ∧ NextLine alt l) ∧ ∀ l ∈ ls, CodeLine l

theorem delimiter_or (alt : Bool) : delimiter alt = '.' ∨ delimiter alt = ')' := by cases alt <;> decide

theorem delimiter_digit (alt : Bool) : isPyDigit (delimiter alt) = false := by cases alt <;> decide +kernel

theorem next_char {alt : Bool} {c : Char} {r : Str} (h : c ∈ "#*>`<".toList) : NextLine alt (c :: r) := by
  refine ⟨⟨c, r, rfl, ?_, ?_⟩, ?_⟩
  · have : ∀ c ∈ "#*>`<".toList, isPySpace c = false := by decide +kernel
    exact this c h
  · rintro rfl; revert h; cases alt <;> decide
  · intro num r' he hn
    have hc : isPyDigit c = false := by
      have : ∀ c ∈ "#*>`<".toList, isPyDigit c = false := by decide +kernel
      exact this c h
    have := digits_end (a := []) he (by simp) hc hn (delimiter_digit _)
    subst this
    revert h; cases alt <;> decide

theorem codeLine_of {l : Str} {c : Char} (h : ∀ d ∈ l, LineChar d) (hc : c ∈ l) (hs : isPySpace c = false) : CodeLine l := by
  refine ⟨.inr ⟨c, hc, ?_, ?_⟩, fun d hd => ⟨(h d hd).1, ?_⟩⟩
  · rintro rfl; revert hs; decide
  · rintro rfl; revert hs; decide
  · refine ⟨?_, ?_, ?_⟩ <;> rintro rfl <;> rcases (h _ hd).2 with h | h <;> revert h <;> decide

theorem codeLine_words {xs : List Word} (h : WordsOk xs) (hne : xs ≠ []) : CodeLine (writeWords xs) := by
  obtain ⟨c, r, he, hs⟩ := words_head h hne
  exact codeLine_of (writeWords_chars xs h) (by rw [he]; simp) hs

theorem next_words {alt : Bool} {xs : List Word} (h : ParaOk xs) {e : Str} (hee : e = [] ∨ e = ['\\']) : NextLine alt (writeWords xs ++ e) := by
  obtain ⟨c, r, he, hs, h1, h2, _⟩ := words_first h
  refine ⟨⟨c, r ++ e, by rw [he]; rfl, hs, ?_⟩, ?_⟩
  · cases alt
    · exact h2
    · exact h1
  · intro num z hz hn
    rcases hee with rfl | rfl
    · rw [List.append_nil] at hz
      exact words_number h.2.1 hz hn (delimiter_or _)
    · rw [show num ++ delimiter (!alt) :: z = (num ++ [delimiter (!alt)]) ++ z by simp] at hz
      by_cases hz0 : z = []
      · subst hz0
        rw [List.append_nil] at hz
        have := (List.append_inj' hz rfl).2
        revert this; cases alt <;> decide
      · obtain ⟨z', rfl, e⟩ := snoc_split hz hz0
        exact words_number (r := z') h.2.1 (by rw [e]; simp) hn (delimiter_or (!alt))

theorem codeLine_line {xs : List Word} (h : ParaOk xs) {e : Str} (hee : e = [] ∨ e = ['\\']) : CodeLine (writeWords xs ++ e) := by
  rcases hee with rfl | rfl
  · rw [List.append_nil]; exact codeLine_words h.2.1 h.1
  · refine codeLine_of (c := '\\') ?_ (by simp) (by decide)
    intro d hd
    rcases List.mem_append.1 hd with hd | hd
    · exact writeWords_chars xs h.2.1 d hd
    · rw [List.mem_singleton] at hd; subst hd; exact lineChar_punct (by decide)

theorem codeLine_append {a l : Str} (ha : ∀ c ∈ a, LineChar c) (hl : CodeLine l) (h : (∃ c ∈ a, c ≠ ' ' ∧ c ≠ '\t') ∨ l ≠ []) : CodeLine (a ++ l) := by
  refine ⟨.inr ?_, ?_⟩
  · rcases h with ⟨c, h1, h2⟩ | h
    · exact ⟨c, by simp [h1], h2⟩
    · rcases hl.1 with h' | ⟨c, h1, h2⟩
      · exact absurd h' h
      · exact ⟨c, by simp [h1], h2⟩
  · intro c hc
    rcases List.mem_append.1 hc with hc | hc
    · refine ⟨(ha c hc).1, ?_, ?_, ?_⟩ <;> rintro rfl <;> rcases (ha _ hc).2 with h | h <;> revert h <;> decide
    · exact hl.2 c hc

/-! ### Items -/

def bulletOf (alt : Bool) (start : Option Nat) : Option Char := if start.isNone then some (bulletChar alt) else none
def delimOf (alt : Bool) (start : Option Nat) : Option Char := if start.isNone then none else some (delimiter alt)

theorem marker_mark {alt : Bool} {start : Option Nat} (h : StartOk start) :
    ListMark (marker alt start) (listType start) (bulletOf alt start) start (delimOf alt start) := by
  cases start with
  | none => exact .bullet (by cases alt <;> decide)
  | some n =>
    refine .ordered ?_ ?_ (numeral_toDigits n) (delimiter_or alt)
    · exact Nat.length_toDigits_pos
    · exact Nat.toDigits_length 10 n 9 (by decide) (by have := h n rfl; omega)

theorem marker_chars (alt : Bool) (start : Option Nat) : (∀ c ∈ marker alt start, LineChar c) ∧ ∃ c ∈ marker alt start, c ≠ ' ' ∧ c ≠ '\t' := by
  have k1 : LineChar (bulletChar alt) := by cases alt <;> exact lineChar_punct (by decide)
  have k2 : LineChar (delimiter alt) := by cases alt <;> exact lineChar_punct (by decide)
  cases start with
  | none =>
    refine ⟨?_, ⟨bulletChar alt, by simp [marker], by cases alt <;> decide⟩⟩
    intro c hc
    rw [marker, List.mem_singleton] at hc; subst hc; exact k1
  | some n =>
    refine ⟨?_, ⟨delimiter alt, by simp [marker], by cases alt <;> decide⟩⟩
    intro c hc
    rw [marker, List.mem_append, List.mem_singleton] at hc
    rcases hc with hc | rfl
    · have : ∀ c ∈ "0123456789".toList, c ≠ Char.ofNat 0 ∧ (c = ' ' ∨ isPySpace c = false) := by decide +kernel
      exact this c (digits_mem hc)
    · exact k2

theorem next_marker (alt : Bool) (start : Option Nat) (l : Str) : NextLine alt (marker alt start ++ ' ' :: l) := by
  cases start with
  | none =>
    refine ⟨⟨bulletChar alt, _, rfl, by cases alt <;> decide, by cases alt <;> decide⟩, ?_⟩
    intro num r he hn
    have := digits_end (a := []) he (by simp) (by cases alt <;> decide +kernel) hn (delimiter_digit _)
    revert this; cases alt <;> decide
  | some n =>
    constructor
    · cases hd : Nat.toDigits 10 n with
      | nil => exact absurd hd Nat.toDigits_ne_nil
      | cons c ds =>
        refine ⟨c, _, by rw [marker, hd]; rfl, ?_⟩
        have hc := digits_mem (n := n) (c := c) (by rw [hd]; simp)
        refine ⟨?_, ?_⟩
        · have : ∀ c ∈ "0123456789".toList, isPySpace c = false := by decide +kernel
          exact this c hc
        · rintro rfl; revert hc; cases alt <;> decide
    · intro num r he hn
      rw [marker, List.append_assoc] at he
      have : delimiter alt = delimiter (!alt) := by
        refine digits_end he ?_ (delimiter_digit _) hn (delimiter_digit _)
        intro c hc
        have : ∀ c ∈ "0123456789".toList, isPyDigit c = true := by decide +kernel
        exact this c (digits_mem hc)
      revert this; cases alt <;> decide

theorem marker_rule {alt : Bool} {start : Option Nat} {c : Char} {r : Str} (h1 : c ≠ ' ') (h2 : c ≠ '\t') (h3 : c ≠ '-') :
    ¬ ThematicBreak (marker alt start ++ List.replicate 1 ' ' ++ c :: r) := by
  rintro ⟨d, hd, hh, hall, _⟩
  cases start with
  | none =>
    have : bulletChar alt = d := by simpa [marker] using hh
    subst this
    cases alt with
    | false => revert hd; decide
    | true =>
      rcases hall c (by simp) with h | h | h
      · exact h3 h
      · exact h1 h
      · exact h2 h
  | some n =>
    cases hn : Nat.toDigits 10 n with
    | nil => exact absurd hn Nat.toDigits_ne_nil
    | cons e ds =>
      have : e = d := by simpa [marker, hn] using hh
      subst this
      have hc := digits_mem (n := n) (c := e) (by rw [hn]; simp)
      rcases hd with rfl | rfl | rfl <;> revert hc <;> decide

theorem indented_map {w : Nat} : ∀ {ls : List Str}, (∀ l ∈ ls, CodeLine l) →
    Indented w ls (ls.map fun x => if x = [] then [] else List.replicate w ' ' ++ x)
  | [], _ => .nil
  | l :: ls, h => by
    have ih := indented_map (w := w) (ls := ls) fun l hl => h l (by simp [hl])
    rw [List.map_cons]
    by_cases hl : l = []
    · rw [if_pos hl, hl]; exact .blank (k := 0) ih
    · rw [if_neg hl]
      refine .text ?_ (.inl ?_) ih
      · exact (h l (by simp)).1.resolve_left hl
      · intro ht; exact ((h l (by simp)).2 _ ht).2.1 rfl

/-- The item of a list with this text. -/
def itemOf (alt : Bool) (start : Option Nat) (blank : Nat) (text : List Str) (bs : List Blk) (gap : Bool) : Spec.Item where
  blank := blank
  indent := 0
  marker := marker alt start
  start := start
  spaces := 1
  text := text
  lines := itemLines (marker alt start) text
  blocks := bs
  gap := gap

/-- The lines begin with a character that can follow a marker. -/
def Opened (ls : List Str) : Prop := ∃ c r more, ls = (c :: r) :: more ∧ isPySpace c = false ∧ c ≠ '-'

theorem itemOf_ok {alt : Bool} {start : Option Nat} (h : StartOk start) {blank : Nat} {text : List Str} {bs : List Blk} {gap : Bool}
    (ho : Opened text) (hl : ∀ l ∈ text, CodeLine l) :
    (itemOf alt start blank text bs gap).Ok (listType start) (bulletOf alt start) (delimOf alt start) := by
  obtain ⟨c, r, more, rfl, h0, h3⟩ := ho
  obtain ⟨h1, h2⟩ := ne_spaces h0
  refine ⟨marker_mark h, ⟨c, r, more, more.map (fun x => if x = [] then [] else List.replicate ((marker alt start).length + 1) ' ' ++ x), rfl, ?_, h1, h2, .inl ?_, marker_rule h1 h2 h3, ?_⟩, Nat.zero_le 3, Nat.le_refl 1, (by decide : 1 ≤ 4)⟩
  · show itemLines (marker alt start) ((c :: r) :: more) = _
    rw [itemLines]
    show ((marker alt start ++ ' ' :: c :: r) :: _) = ((([] ++ marker alt start) ++ [' ']) ++ c :: r) :: _
    simp only [List.nil_append, List.append_assoc, List.singleton_append]
  · intro ht; exact ((hl _ (by simp)).2 _ ht).2.1 rfl
  · have := indented_map (w := (marker alt start).length + 1) (ls := more) fun l hl' => hl l (by simp [hl'])
    have e : (itemOf alt start blank ((c :: r) :: more) bs gap).width = (marker alt start).length + 1 := by
      simp [Spec.Item.width, itemOf]
    rw [e]; exact this

theorem itemLines_good {alt : Bool} {start : Option Nat} {text : List Str} (ho : Opened text) (hl : ∀ l ∈ text, CodeLine l) :
    LinesOk alt (itemLines (marker alt start) text) := by
  obtain ⟨c, r, more, rfl, h0, h3⟩ := ho
  obtain ⟨h1, h2⟩ := ne_spaces h0
  obtain ⟨k1, k2⟩ := marker_chars alt start
  constructor
  · exact ⟨_, _, rfl, next_marker alt start _⟩
  · intro l hl'
    rw [itemLines, List.mem_cons] at hl'
    rcases hl' with rfl | hl'
    · have e : marker alt start ++ ' ' :: c :: r = (marker alt start ++ [' ']) ++ c :: r := by simp
      rw [e]
      refine codeLine_append ?_ (hl _ (by simp)) (.inr (by simp))
      intro d hd
      rcases List.mem_append.1 hd with hd | hd
      · exact k1 d hd
      · rw [List.mem_singleton] at hd; subst hd; exact ⟨by decide, .inl rfl⟩
    · obtain ⟨x, hx, rfl⟩ := List.mem_map.1 hl'
      have hx' := hl x (by simp [hx])
      split
      · rename_i h; rw [h] at hx'; exact hx'
      · rename_i h
        exact codeLine_append (lineChar_replicate ⟨by decide, .inl rfl⟩) hx' (.inr h)

section
variable {safe : Bool} {I : Str → Str → Prop}

/-- Items of a list. -/
structure Items (safe : Bool) (I : Str → Str → Prop) (alt : Bool) (start : Option Nat) (blank : Nat) (its : List Spec.Item) : Prop where
  doc : ∀ it ∈ its, Doc safe I it.text it.blocks it.gap
  form : ∀ it ∈ its, ∃ text bs gap, it = itemOf alt start blank text bs gap ∧ Opened text ∧ ∀ l ∈ text, CodeLine l

theorem Items.left {alt : Bool} {start : Option Nat} {blank : Nat} : ∀ {a : Spec.Item} {its : List Spec.Item}, Items safe I alt start blank (a :: its) → MarkersLeft a its
  | a, [], _ => trivial
  | a, b :: its, h => by
    obtain ⟨t1, b1, g1, rfl, _⟩ := h.form a (by simp)
    obtain ⟨t2, b2, g2, rfl, _⟩ := h.form b (by simp)
    refine ⟨?_, ?_⟩
    · show 0 < 0 + (marker alt start).length + 1
      omega
    · exact Items.left ⟨fun it hit => h.doc it (by simp [List.mem_cons.1 hit]), fun it hit => h.form it (by simp [List.mem_cons.1 hit])⟩

theorem Items.list {alt : Bool} {start : Option Nat} {blank : Nat} {a : Spec.Item} {its : List Spec.Item} (hs : StartOk start)
    (h : Items safe I alt start blank (a :: its)) :
    Doc safe I (a.lines ++ moreLines its) [⟨.list (listType start) (bulletOf alt start) (delimOf alt start),
      listOf start ((a :: its).flatMap fun it => itemHtml (!loose a its) it.blocks)⟩] false := by
  have e : listHtml (listType start) a its = listOf start ((a :: its).flatMap fun it => itemHtml (!loose a its) it.blocks) := by
    obtain ⟨t1, b1, g1, rfl, _⟩ := h.form a (by simp)
    rfl
  rw [← e]
  refine .list h.doc ?_ h.left
  intro it hit
  obtain ⟨t1, b1, g1, rfl, h1, h2⟩ := h.form it hit
  exact itemOf_ok hs h1 h2

theorem Items.good {alt : Bool} {start : Option Nat} {blank : Nat} {a : Spec.Item} {its : List Spec.Item} (h : Items safe I alt start blank (a :: its)) :
    LinesOk alt (a.lines ++ moreLines its) := by
  have key : ∀ it ∈ a :: its, LinesOk alt it.lines := by
    intro it hit
    obtain ⟨t1, b1, g1, rfl, h1, h2⟩ := h.form it hit
    exact itemLines_good h1 h2
  obtain ⟨⟨l, more, h1, h2⟩, h3⟩ := key a (by simp)
  refine ⟨⟨l, more ++ moreLines its, by rw [h1]; rfl, h2⟩, ?_⟩
  intro x hx
  rcases List.mem_append.1 hx with hx | hx
  · exact h3 x hx
  · obtain ⟨it, hit, hx⟩ := List.mem_flatMap.1 hx
    rcases List.mem_append.1 hx with hx | hx
    · rw [List.eq_of_mem_replicate hx]
      exact ⟨.inl rfl, by simp⟩
    · exact (key it (by simp [hit])).2 x hx

/-- A list can be followed by lines that begin otherwise. -/
theorem list_follows {alt : Bool} {start : Option Nat} {l : Str} (h : NextLine (!alt) l) :
    Follows (.list (listType start) (bulletOf alt start) (delimOf alt start)) true l := by
  obtain ⟨⟨c, r, rfl, h0, h3⟩, h4⟩ := h
  obtain ⟨h1, h2⟩ := ne_spaces h0
  rw [Bool.not_not] at h3 h4
  refine ⟨⟨c, r, rfl, h1, h2⟩, ?_, .inl rfl⟩
  cases start with
  | none =>
    rintro ⟨d, q, hd, he, _⟩
    simp only [bulletOf, Option.isNone_none, if_true, Option.some.injEq] at hd
    exact h3 (by rw [hd]; exact (List.cons.inj he).1)
  | some n =>
    rintro ⟨num, d, q, hd, he, hn, _⟩
    simp only [delimOf, Option.isNone_some, Bool.false_eq_true, if_false, Option.some.injEq] at hd
    subst hd
    exact h4 num q he hn

/-! ### Tight lists -/

/-- The first line of a list interrupts a paragraph, if the number is 1. -/
theorem list_interrupts {alt : Bool} {start : Option Nat} (h : start = none ∨ start = some 1) {c : Char} {r : Str} (hc : isPySpace c = false) :
    Interrupts (marker alt start ++ ' ' :: c :: r) ∧ ¬ ∃ d, SetextUnderline d (marker alt start ++ ' ' :: c :: r) := by
  obtain ⟨h1, h2⟩ := ne_spaces hc
  have hsp : ¬ SpaceChar c := by
    rintro (h | h | h | h)
    · exact h1 h
    · exact h2 h
    · have : c = Char.ofNat 11 := by rw [← h]; exact (Char.ofNat_toNat c).symm
      rw [this] at hc; revert hc; decide
    · have : c = Char.ofNat 12 := by rw [← h]; exact (Char.ofNat_toNat c).symm
      rw [this] at hc; revert hc; decide
  rcases h with rfl | rfl
  · refine ⟨.bullet (c := bulletChar alt) (x := c) (k := 1) (r := r) (by cases alt <;> decide) le_rfl hsp, ?_⟩
    rintro ⟨d, hd, n, q, hn, he, hq⟩
    have hm : c ∈ List.replicate n d ++ q := by rw [← he]; simp
    have hd1 : bulletChar alt = d := by
      cases n with
      | zero => omega
      | succ n => rw [List.replicate_succ] at he; exact (List.cons.inj he).1
    cases n with
    | zero => omega
    | succ n =>
      cases n with
      | zero =>
        have e := (List.cons.inj he).2
        have := hq c (by rw [← show ' ' :: c :: r = q from e]; simp)
        rcases this with h | h
        · exact h1 h
        · exact h2 h
      | succ n =>
        rw [List.replicate_succ, List.replicate_succ] at he
        have e := (List.cons.inj (List.cons.inj he).2).1
        rw [← hd1] at e
        revert e; cases alt <;> decide
  · have e1 : Nat.toDigits 10 1 = ['1'] := by decide
    have e : marker alt (some 1) ++ ' ' :: c :: r = '1' :: delimiter alt :: (List.replicate 1 ' ' ++ c :: r) := by
      rw [marker, e1]; rfl
    rw [e]
    refine ⟨.one (delimiter_or alt) le_rfl hsp, ?_⟩
    rintro ⟨d, hd, n, q, hn, he, hq⟩
    cases n with
    | zero => omega
    | succ n =>
      rw [List.replicate_succ] at he
      have := (List.cons.inj he).1
      subst this
      revert hd; decide

end

variable {smart : Bool} {o : HtmlOpts} {refs : Str → Option RefDef}

theorem tight_not_loose {safe : Bool} {I : Str → Str → Prop} {alt : Bool} {start : Option Nat} {a : Spec.Item} {its : List Spec.Item}
    (h : Items safe I alt start 0 (a :: its)) (hg : ∀ it ∈ a :: its, it.gap = false) : loose a its = false := by
  have h1 : (a :: its).any (·.gap) = false := by
    rw [List.any_eq_false]
    intro it hit
    rw [hg it hit]; decide
  have h2 : its.any (fun it => decide (0 < it.blank)) = false := by
    rw [List.any_eq_false]
    intro it hit
    obtain ⟨t, b, g, rfl, _⟩ := h.form it (by simp [hit])
    exact (by decide : ¬ decide (0 < 0) = true)
  rw [loose, h1, h2]; rfl

theorem tight_lines {safe : Bool} {I : Str → Str → Prop} {alt : Bool} {start : Option Nat} : ∀ {its : List Spec.Item},
    Items safe I alt start 0 its → moreLines its = its.flatMap (·.lines)
  | [], _ => rfl
  | a :: its, h => by
    obtain ⟨t, b, g, e, _⟩ := h.form a (by simp)
    have ih := tight_lines (its := its) ⟨fun it hit => h.doc it (by simp [hit]), fun it hit => h.form it (by simp [hit])⟩
    rw [moreLines, List.flatMap_cons, List.flatMap_cons]
    rw [moreLines] at ih
    rw [ih, e]; rfl

mutual
theorem outline_item : ∀ (x : Outline), OutlineOk x → ∀ (alt : Bool) (start : Option Nat), ∃ text bs,
    Doc o.safe (PhraseWith smart o refs) text bs false ∧ Opened text ∧ (∀ l ∈ text, CodeLine l) ∧
    writeOutline alt (marker alt start) x = itemLines (marker alt start) text ∧ itemHtml true bs = outlineHtml o.safe x
  | .item xs st sub, h, alt, start => by
    rw [OutlineOk] at h
    obtain ⟨h1, h2, h3⟩ := h
    obtain ⟨its, k1, k2, k3, k4, k5⟩ := outlines_items sub h3 alt st
    obtain ⟨c, r, he, hs, _, hm, _⟩ := words_first h1
    have dp := doc_para (smart := smart) (o := o) (refs := refs) h1
    have hcl := codeLine_words h1.2.1 h1.1
    cases its with
    | nil =>
      have hsub : sub = [] := List.length_eq_zero_iff.1 k5.symm
      subst hsub
      refine ⟨_, _, dp, ⟨c, r, [], by rw [he], hs, hm⟩, by simpa using hcl, ?_, ?_⟩
      · rw [writeOutline, writeOutlines]
      · rw [outlineHtml]
        show "<li>".toList ++ (wordsHtml o.safe xs ++ []) ++ "</li>\n".toList = _
        rfl
    | cons a its =>
      have hst : StartOk st := by
        intro n hn
        rcases h2 with rfl | rfl
        · cases hn
        · cases hn; decide
      have dl := k1.list hst
      have hl := tight_lines k1
      rw [tight_not_loose k1 k2] at dl
      have hl2 : a.lines ++ moreLines its = writeOutlines alt (marker alt st) sub := by
        rw [tight_lines (its := its) ⟨fun it hit => k1.doc it (by simp [hit]), fun it hit => k1.form it (by simp [hit])⟩, ← k3]; rfl
      have hg := k1.good
      have hint : ∃ l more, a.lines ++ moreLines its = l :: more ∧ Interrupts l ∧ ¬ ∃ d, SetextUnderline d l := by
        obtain ⟨t, b, g, e, ho, _⟩ := k1.form a (by simp)
        obtain ⟨c', r', more, rfl, hc', _⟩ := ho
        exact ⟨_, _, by rw [e]; rfl, list_interrupts h2 hc'⟩
      rw [hl2] at dl hg hint
      obtain ⟨l, more, hlm, hi⟩ := hint
      rw [hlm] at dl
      have hn0 : Char.ofNat 0 ∉ l := fun h => ((hg.2 l (by rw [hlm]; simp)).2 _ h).1 rfl
      have dj := Doc.join (n := 0) dp dl (x := ⟨.para, wordsHtml o.safe xs⟩) rfl hn0 (.inr hi)
      refine ⟨_, _, dj, ⟨c, r, l :: more, by rw [he]; rfl, hs, hm⟩, ?_, ?_, ?_⟩
      · intro x hx
        have : x ∈ writeWords xs :: writeOutlines alt (marker alt st) sub := by rw [hlm]; exact hx
        rcases List.mem_cons.1 this with rfl | hx
        · exact hcl
        · exact hg.2 x hx
      · rw [writeOutline, hlm]; rfl
      · have hne : sub.isEmpty = false := by
          cases sub with
          | nil => cases k5
          | cons => rfl
        rw [outlineHtml, hne, ← k4]
        show "<li>".toList ++ (wordsHtml o.safe xs ++ (['\n'] ++ listOf st _ ++ [])) ++ "</li>\n".toList = _
        rw [List.append_nil]; rfl
theorem outlines_items : ∀ (xs : List Outline), OutlinesOk xs → ∀ (alt : Bool) (start : Option Nat), ∃ its,
    Items o.safe (PhraseWith smart o refs) alt start 0 its ∧ (∀ it ∈ its, it.gap = false) ∧ its.flatMap (·.lines) = writeOutlines alt (marker alt start) xs ∧
    its.flatMap (fun it => itemHtml true it.blocks) = outlinesHtml o.safe xs ∧ its.length = xs.length
  | [], _, alt, start => by
    refine ⟨[], ⟨by simp, by simp⟩, by simp, ?_, ?_, rfl⟩
    · rw [writeOutlines]; rfl
    · rw [outlinesHtml]; rfl
  | x :: xs, h, alt, start => by
    rw [OutlinesOk] at h
    obtain ⟨text, bs, h1, h2, h3, h4, h5⟩ := outline_item x h.1 alt start
    obtain ⟨its, k1, k2, k3, k4, k5⟩ := outlines_items xs h.2 alt start
    refine ⟨itemOf alt start 0 text bs false :: its, ⟨?_, ?_⟩, ?_, ?_, ?_, ?_⟩
    · intro it hit
      rcases List.mem_cons.1 hit with rfl | hit
      · exact h1
      · exact k1.doc it hit
    · intro it hit
      rcases List.mem_cons.1 hit with rfl | hit
      · exact ⟨text, bs, false, rfl, h2, h3⟩
      · exact k1.form it hit
    · intro it hit
      rcases List.mem_cons.1 hit with rfl | hit
      · rfl
      · exact k2 it hit
    · rw [writeOutlines, List.flatMap_cons, k3, h4]; rfl
    · rw [outlinesHtml, List.flatMap_cons, k4, ← h5]; rfl
    · rw [List.length_cons, List.length_cons, k5]
end

/-! ### Blocks -/

theorem fence_count (ls : List Str) {l : Str} (h : l ∈ ls) : l.count '`' ≤ ls.flatten.count '`' :=
  (List.sublist_flatten_of_mem h).count_le _

theorem code_tag {lang : Str} (h : LangOk lang) : CodeTag lang (codeTag lang) := by
  unfold codeTag
  split
  · rename_i h0; rw [h0]; exact .plain (k := 0)
  · rename_i h0
    have := CodeTag.lang (k := 0) (w := lang) (r := []) h0 (fun c hc => (h c hc).1) (by simp) (by
      intro c hc
      rw [List.append_nil] at hc
      obtain ⟨_, h2, h3⟩ := h c hc
      exact ⟨by rintro rfl; exact h2 (by decide), by rintro rfl; exact h2 (by decide), h3⟩)
    rw [List.replicate_zero, List.nil_append, List.append_nil] at this
    exact this

theorem doc_code {safe : Bool} {I : Str → Str → Prop} {lang : Str} {ls : List Str} (hlang : LangOk lang) (h : ∀ l ∈ ls, CodeLine l) :
    Doc safe I ((fence ls ++ lang) :: (ls ++ [fence ls])) [⟨.fenced, codeTag lang ++ escapeXml (ls.flatMap (· ++ ['\n'])) ++ "</code></pre>\n".toList⟩] false := by
  have hbt : '`' ∉ lang := fun hc => (hlang _ hc).2.1 (by decide)
  have e : ls.flatMap (· ++ ['\n']) = codeLines ls := by
    unfold codeLines
    clear * - h
    induction ls with
    | nil => rfl
    | cons l ls ih =>
      rw [List.flatMap_cons, List.flatMap_cons, ih fun l hl => h l (by simp [hl]),
        noNul_self fun h0 => ((h l (by simp)).2 _ h0).1 rfl]
  rw [e]
  refine .fenced (c := '`') (f := ls.flatten.count '`' + 3) (info := lang) ⟨by omega, rfl, fun h => hbt (List.mem_of_head? h), .inl ⟨rfl, hbt⟩⟩
    (code_tag hlang) ?_ ⟨0, ls.flatten.count '`' + 3, 0, by omega, le_rfl, by simp [fence]⟩
  rintro l hl ⟨k, m, r, _, hm, rfl⟩
  have := fence_count ls hl
  simp only [List.count_append, List.count_replicate] at this
  have : m ≤ ls.flatten.count '`' := by simpa using this
  omega

theorem codeLine_fence (ls : List Str) {lang : Str} (h : LangOk lang) : CodeLine (fence ls ++ lang) := by
  refine codeLine_of (c := '`') ?_ (by simp [fence]) (by decide)
  intro d hd
  rcases List.mem_append.1 hd with hd | hd
  · exact lineChar_replicate (lineChar_punct (by decide)) d hd
  · exact ⟨(h d hd).2.2, .inr (h d hd).1⟩

theorem quoted_map : ∀ {ls : List Str}, (∀ l ∈ ls, CodeLine l) → Quoted ls (ls.map ("> ".toList ++ ·))
  | [], _ => .nil
  | l :: ls, h => by
    rw [List.map_cons]
    refine .cons ⟨0, by decide, .inl rfl⟩ (.inl fun ht => ?_) (quoted_map fun l hl => h l (by simp [hl]))
    exact ((h l (by simp)).2 _ ht).2.1 rfl

theorem htmlOpen_cons {i : Nat} {l : Str} (h : HtmlOpen i l) : ∃ r, l = '<' :: r := by
  unfold HtmlOpen at h
  split at h
  · obtain ⟨n, r, rfl, _⟩ := h; exact ⟨_, rfl⟩
  · obtain ⟨r, rfl⟩ := h; exact ⟨_, rfl⟩
  · obtain ⟨r, rfl⟩ := h; exact ⟨_, rfl⟩
  · obtain ⟨c, r, rfl, _⟩ := h; exact ⟨_, rfl⟩
  · obtain ⟨r, rfl⟩ := h; exact ⟨_, rfl⟩
  · obtain ⟨sl, n, r, rfl, _⟩ := h; exact ⟨_, rfl⟩
  · obtain ⟨tag, w, rfl, _, ⟨n, as, v, sl, _, _, _, _, rfl⟩ | ⟨n, v, _, _, rfl⟩⟩ := h <;> exact ⟨_, rfl⟩
  · exact h.elim

theorem apart_cons {x : List Str} {xs : List (List Str)} : apart (x :: xs) = x ++ xs.flatMap ([] :: ·) := rfl

mutual
theorem block_doc : ∀ (b : Block), Spec.BlockOk b → ∀ (alt : Bool), ∃ blk, Doc o.safe (PhraseWith smart o refs) (writeBlock alt b) [blk] false ∧
    blk.out = blockHtml o.safe o.softbreak b ∧ LinesOk alt (writeBlock alt b) ∧ ∀ l, NextLine (!alt) l → Follows blk.kind true l
  | .para xs more, h, alt => by
    rw [Spec.BlockOk] at h
    rw [writeBlock, blockHtml]
    obtain ⟨l, ls, e, hl, _, _, k3, _⟩ := lines_noBlock more h.1 h.2
    refine ⟨_, doc_lines h.1 h.2, rfl, ?_, fun l _ => .inl rfl⟩
    rw [e]
    refine ⟨⟨_, _, rfl, ?_⟩, ?_⟩
    · rcases hl with rfl | rfl
      · have := next_words (alt := alt) h.1 (e := []) (.inl rfl)
        rwa [List.append_nil] at this
      · exact next_words h.1 (.inr rfl)
    · intro x hx
      obtain ⟨zs, e, h1, rfl, h2⟩ := k3 x hx
      exact codeLine_line h1 h2
  | .heading n xs, h, alt => by
    rw [Spec.BlockOk] at h
    obtain ⟨h1, h6, hne, hx⟩ := h
    rw [writeBlock, blockHtml]
    refine ⟨_, doc_heading h1 h6 hne hx, rfl, ⟨⟨_, _, rfl, ?_⟩, ?_⟩, fun l _ => trivial⟩
    · obtain ⟨k, rfl⟩ : ∃ k, n = k + 1 := ⟨n - 1, by omega⟩
      rw [List.replicate_succ]
      exact next_char (by decide)
    · intro l hl
      rw [List.mem_singleton] at hl
      subst hl
      have e : List.replicate n '#' ++ ' ' :: writeWords xs = (List.replicate n '#' ++ [' ']) ++ writeWords xs := by simp
      rw [e]
      refine codeLine_append ?_ (codeLine_words hx hne) (.inl ⟨'#', ?_, by decide⟩)
      · intro c hc
        rcases List.mem_append.1 hc with hc | hc
        · exact lineChar_replicate (lineChar_punct (by decide)) c hc
        · rw [List.mem_singleton] at hc; subst hc; exact ⟨by decide, .inl rfl⟩
      · rw [List.mem_append, List.mem_replicate]; exact .inl ⟨by omega, rfl⟩
  | .rule, h, alt => by
    rw [writeBlock, blockHtml]
    refine ⟨_, .rule ⟨'*', by decide, rfl, by decide, by decide⟩, rfl, ⟨⟨_, _, rfl, next_char (by decide)⟩, ?_⟩, fun l _ => trivial⟩
    intro l hl
    rw [List.mem_singleton] at hl
    subst hl
    exact codeLine_of (c := '*') (fun d hd => lineChar_punct (by revert hd; revert d; decide)) (by decide) (by decide)
  | .code lang ls, h, alt => by
    rw [Spec.BlockOk] at h
    rw [writeBlock, blockHtml]
    refine ⟨_, doc_code h.1 h.2, rfl, ⟨⟨_, _, rfl, ?_⟩, ?_⟩, fun l _ => trivial⟩
    · rw [fence, List.replicate_succ]; exact next_char (by decide)
    · intro l hl
      rcases List.mem_cons.1 hl with rfl | hl
      · exact codeLine_fence ls h.1
      rcases List.mem_append.1 hl with hl | hl
      · exact h.2 l hl
      · rw [List.mem_singleton] at hl; subst hl
        have := codeLine_fence ls (lang := []) (by simp [LangOk])
        rwa [List.append_nil] at this
  | .html ls, h, alt => by
    rw [Spec.BlockOk] at h
    obtain ⟨hc, h⟩ := h
    rw [writeBlock, blockHtml]
    have h0 : ∀ l ∈ ls, Char.ofNat 0 ∉ l := fun l hl hm => ((hc l hl).2 _ hm).1 rfl
    rcases h with ⟨i, first, more, rfl, hi, hs, hm⟩ | ⟨i, first, body, close, rfl, hf, hs, hb, he⟩
    · obtain ⟨r, rfl⟩ := htmlOpen_cons hs.1
      exact ⟨_, .tag hs hi hm h0, rfl, ⟨⟨_, _, rfl, next_char (by decide)⟩, hc⟩, fun l _ => rfl⟩
    · obtain ⟨r, rfl⟩ := htmlOpen_cons hs.1
      refine ⟨_, .html hf hs hb he h0, rfl, ⟨?_, hc⟩, fun l _ => trivial⟩
      cases hl : body ++ [close] with
      | nil => rw [hl] at hf; cases hf
      | cons x xs =>
        rw [hl] at hf
        cases hf
        exact ⟨_, _, rfl, next_char (by decide)⟩
  | .quote bs, h, alt => by
    rw [Spec.BlockOk] at h
    obtain ⟨xs, k1, k2, k3⟩ := blocks_doc bs h.2 h.1 true
    rw [writeBlock, blockHtml]
    refine ⟨_, .quote k1 (quoted_map k3.2), ?_, ⟨?_, ?_⟩, fun l _ => .inl rfl⟩
    · rw [← k2]; rfl
    · obtain ⟨⟨l, more, e, _⟩, _⟩ := k3
      rw [e, List.map_cons]
      exact ⟨_, _, rfl, next_char (c := '>') (by decide)⟩
    · intro l hl
      obtain ⟨x, hx, rfl⟩ := List.mem_map.1 hl
      exact codeLine_append (by
        have : ∀ c ∈ "> ".toList, c ≠ Char.ofNat 0 ∧ (c = ' ' ∨ isPySpace c = false) := by decide +kernel
        exact this) (k3.2 x hx) (.inl ⟨'>', by decide, by decide⟩)
  | .list start items, h, alt => by
    rw [Spec.BlockOk] at h
    obtain ⟨hs, hne, h2, hi⟩ := h
    obtain ⟨its, k1, k2, k3, k4⟩ := items_doc items hi alt start
    rw [writeBlock, blockHtml]
    cases its with
    | nil =>
      have : items = [] := List.length_eq_zero_iff.1 (by simpa using (congrArg List.length k4).symm)
      exact absurd this hne
    | cons a its =>
      have hl : loose a its = true := by
        rw [loose]
        rcases h2 with h2 | ⟨bs, hbs, h2⟩
        · have hlen : its.length + 1 = items.length := by
            have := congrArg List.length k4
            simpa using this
          cases its with
          | nil => simp only [List.length_nil] at hlen; omega
          | cons b its =>
            obtain ⟨t, bl, g, rfl, _⟩ := k1.form b (by simp)
            rw [Bool.or_eq_true]; right
            rw [List.any_eq_true]
            exact ⟨_, List.mem_cons_self, rfl⟩
        · rw [Bool.or_eq_true]; left
          rw [List.any_eq_true]
          have : true ∈ items.map fun bs => decide (2 ≤ bs.length) := List.mem_map.2 ⟨bs, hbs, by simpa using h2⟩
          rw [← k4] at this
          obtain ⟨it, h1, h2⟩ := List.mem_map.1 this
          exact ⟨it, h1, h2⟩
      have dl := k1.list hs
      have hg := k1.good
      have e : a.lines ++ moreLines its = apart (writeItems (marker alt start) items) := by
        rw [← k2, List.map_cons, apart_cons]
        congr 1
        have : ∀ it ∈ its, it.blank = 1 := by
          intro it hit
          obtain ⟨t, bl, g, rfl, _⟩ := k1.form it (by simp [hit])
          rfl
        clear * - this
        rw [moreLines, List.flatMap_map]
        refine List.flatMap_congr fun it hit => ?_
        rw [this it hit]; rfl
      rw [e] at dl hg
      refine ⟨_, dl, ?_, hg, fun l hl => list_follows hl⟩
      rw [hl]
      show listOf start _ = _
      rw [← k3]; rfl
  | .tight start items, h, alt => by
    rw [Spec.BlockOk] at h
    obtain ⟨hs, hne, hi⟩ := h
    obtain ⟨its, k1, k2, k3, k4, k5⟩ := outlines_items (o := o) (refs := refs) items hi alt start
    rw [writeBlock, blockHtml]
    cases its with
    | nil => exact absurd (List.length_eq_zero_iff.1 k5.symm) hne
    | cons a its =>
      have dl := k1.list hs
      have hg := k1.good
      rw [tight_not_loose k1 k2] at dl
      have e : a.lines ++ moreLines its = writeOutlines alt (marker alt start) items := by
        rw [tight_lines (its := its) ⟨fun it hit => k1.doc it (by simp [hit]), fun it hit => k1.form it (by simp [hit])⟩, ← k3]; rfl
      rw [e] at dl hg
      refine ⟨_, dl, ?_, hg, fun l hl => list_follows hl⟩
      show listOf start _ = _
      rw [← k4]; rfl
theorem blocks_doc : ∀ (bs : List Block), BlocksOk bs → bs ≠ [] → ∀ (alt : Bool), ∃ xs,
    Doc o.safe (PhraseWith smart o refs) (writeBlocks alt bs) xs (decide (2 ≤ bs.length)) ∧ docHtml xs = blocksHtml o.safe o.softbreak bs ∧
    LinesOk alt (writeBlocks alt bs)
  | [], _, h, _ => absurd rfl h
  | [b], h, _, alt => by
    rw [BlocksOk] at h
    obtain ⟨blk, h1, h2, h3, _⟩ := block_doc b h.1 alt
    have e : writeBlocks alt [b] = writeBlock alt b := by rw [writeBlocks]; simp
    rw [e]
    refine ⟨_, h1, ?_, h3⟩
    rw [blocksHtml, blocksHtml, docHtml, List.flatMap_singleton, List.append_nil, h2]
  | b :: b' :: bs, h, _, alt => by
    rw [BlocksOk] at h
    obtain ⟨blk, h1, h2, h3, h4⟩ := block_doc b h.1 alt
    obtain ⟨xs, k1, k2, k3⟩ := blocks_doc (b' :: bs) h.2 (by simp) (!alt)
    obtain ⟨⟨l, more, e, hn⟩, hall⟩ := k3
    have ew : writeBlocks alt (b :: b' :: bs) = writeBlock alt b ++ List.replicate 1 [] ++ l :: more := by
      rw [writeBlocks, e]; simp
    rw [e] at k1
    have hn0 : Char.ofNat 0 ∉ l := fun h => ((hall l (by rw [e]; simp)).2 _ h).1 rfl
    have dj := Doc.join (n := 1) h1 k1 (x := blk) rfl hn0 (h4 l hn)
    have eg : (false || decide (2 ≤ (b' :: bs).length) || decide (0 < 1)) = decide (2 ≤ (b :: b' :: bs).length) := by
      simp
    rw [eg, ← ew] at dj
    refine ⟨_, dj, ?_, ?_, ?_⟩
    · rw [blocksHtml, ← k2, ← h2]; rfl
    · obtain ⟨⟨l', more', e', hn'⟩, _⟩ := h3
      exact ⟨l', more' ++ List.replicate 1 [] ++ l :: more, by rw [ew, e']; simp, hn'⟩
    · intro x hx
      rw [ew] at hx
      rcases List.mem_append.1 hx with hx | hx
      · rcases List.mem_append.1 hx with hx | hx
        · exact h3.2 x hx
        · rw [List.eq_of_mem_replicate hx]; exact ⟨.inl rfl, by simp⟩
      · exact hall x (by rw [e]; exact hx)
theorem items_doc : ∀ (items : List (List Block)), Spec.ItemsOk items → ∀ (alt : Bool) (start : Option Nat), ∃ its,
    Items o.safe (PhraseWith smart o refs) alt start 1 its ∧ its.map (·.lines) = writeItems (marker alt start) items ∧
    its.flatMap (fun it => itemHtml false it.blocks) = itemsHtml o.safe o.softbreak items ∧ its.map (·.gap) = items.map fun bs => decide (2 ≤ bs.length)
  | [], _, alt, start => by
    refine ⟨[], ⟨by simp, by simp⟩, ?_, ?_, rfl⟩
    · rw [writeItems]; rfl
    · rw [itemsHtml]; rfl
  | bs :: r, h, alt, start => by
    rw [Spec.ItemsOk] at h
    obtain ⟨xs, h1, h2, h3⟩ := blocks_doc bs h.2.1 h.1 false
    obtain ⟨its, k1, k2, k3, k4⟩ := items_doc r h.2.2 alt start
    refine ⟨itemOf alt start 1 (writeBlocks false bs) xs (decide (2 ≤ bs.length)) :: its, ⟨?_, ?_⟩, ?_, ?_, ?_⟩
    · intro it hit
      rcases List.mem_cons.1 hit with rfl | hit
      · exact h1
      · exact k1.doc it hit
    · intro it hit
      rcases List.mem_cons.1 hit with rfl | hit
      · refine ⟨_, xs, _, rfl, ?_, h3.2⟩
        obtain ⟨⟨l, more, e, ⟨c, q, rfl, hc, hb⟩, _⟩, _⟩ := h3
        exact ⟨c, q, more, e, hc, hb⟩
      · exact k1.form it hit
    · rw [writeItems, List.map_cons, k2]; rfl
    · rw [itemsHtml, List.flatMap_cons, k3]
      congr 1
      show "<li>".toList ++ ('\n' :: docHtml xs) ++ "</li>\n".toList = _
      rw [h2]; rfl
    · rw [List.map_cons, List.map_cons, k4]; rfl
end

/-! ### Documents -/

theorem textLines_lf : ∀ {ls : List Str}, ls ≠ [] → (∀ l ∈ ls, CodeLine l) → TextLines (ls.flatMap (· ++ ['\n'])) ls
  | [], h, _ => absurd rfl h
  | [l], _, h => by
    rw [List.flatMap_singleton]
    exact .lastLf fun c hc => ⟨((h l (by simp)).2 c hc).2.2.1, ((h l (by simp)).2 c hc).2.2.2⟩
  | l :: l' :: ls, _, h => by
    rw [List.flatMap_cons, List.append_assoc]
    exact .lf (fun c hc => ⟨((h l (by simp)).2 c hc).2.2.1, ((h l (by simp)).2 c hc).2.2.2⟩) (by simp)
      (textLines_lf (by simp) fun l hl => h l (by simp [List.mem_cons.1 hl]))

end CM
