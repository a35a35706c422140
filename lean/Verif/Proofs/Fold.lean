import Mathlib.Data.List.Forall2
import Verif.Model.NormalizeReference
import Verif.Proofs.Regex
import Verif.Proofs.BlockTree
import Verif.Spec.Labels
/-
Case folding and reference labels.
-/
set_option linter.unusedVariables false
namespace CM
open Spec

abbrev FoldEntry := Nat × Nat × Nat × Int × List Nat

/-! ### Checks of the whole table -/

/-- The range of the results of an entry (first character of the result). -/
def foldImg (e : FoldEntry) : Nat × Nat × Nat :=
  (((e.1 : Int) + e.2.2.2.1).toNat, ((e.2.1 : Int) + e.2.2.2.1).toNat, e.2.2.1)

/-- No member of the range `a` belongs to the entry `f`. -/
def foldApart (a : Nat × Nat × Nat) (f : Nat × Nat × Nat) : Bool :=
  Nat.blt a.2.1 f.1 || Nat.blt f.2.1 a.1 ||
    (List.range ((a.2.1 - a.1) / a.2.2 + 1)).all fun i =>
      Nat.blt (a.1 + i * a.2.2) f.1 || Nat.blt f.2.1 (a.1 + i * a.2.2) ||
        !(Nat.beq ((a.1 + i * a.2.2 - f.1) % f.2.2) 0)

/-- White space as ranges. -/
def spaceRanges : List (Nat × Nat × Nat) :=
  [(9, 13, 1), (28, 32, 1), (0x85, 0x85, 1), (0xa0, 0xa0, 1), (0x1680, 0x1680, 1), (0x2000, 0x200a, 1), (0x2028, 0x2029, 1),
   (0x202f, 0x202f, 1), (0x205f, 0x205f, 1), (0x3000, 0x3000, 1)]

/-- What is checked of every entry. -/
def foldEntryOk (e : FoldEntry) : Bool :=
  Nat.blt 0 e.2.2.1 && decide (0 ≤ (e.1 : Int) + e.2.2.2.1) && Nat.ble e.1 e.2.1 &&
  Nat.beq ((e.2.1 - e.1) % e.2.2.1) 0 &&
  (Nat.blt (foldImg e).2.1 0xD800 || (Nat.blt 0xDFFF (foldImg e).1 && Nat.blt (foldImg e).2.1 0x110000)) &&
  (foldRanges.all fun f => foldApart (foldImg e) (f.1, f.2.1, f.2.2.1)) &&
  (spaceRanges.all fun f => foldApart (foldImg e) f) &&
  (spaceRanges.all fun f => foldApart (e.1, e.2.1, e.2.2.1) f) &&
  (e.2.2.2.2.all fun x => Nat.blt x 0xD800 && (foldRanges.all fun f => foldApart (x, x, 1) (f.1, f.2.1, f.2.2.1)) &&
    spaceRanges.all fun f => foldApart (x, x, 1) f)

/-- Decoding the raw table with the model of `_parse_table` gives the table of ranges. -/
theorem parseTable_raw : parseTable (foldRaw.flatMap String.toList) = foldRanges := by decide +kernel

theorem foldTable_ok : foldRanges.all foldEntryOk = true := by decide +kernel

def foldSorted : List FoldEntry → Bool
  | a :: b :: r => Nat.blt a.2.1 b.1 && foldSorted (b :: r)
  | _ => true

theorem foldTable_sorted : foldSorted foldRanges = true := by decide +kernel

/-! ### Meaning of the checks -/

/-- `n` belongs to the range `f`. -/
def InRange (f : Nat × Nat × Nat) (n : Nat) : Prop := f.1 ≤ n ∧ n ≤ f.2.1 ∧ (n - f.1) % f.2.2 = 0

theorem foldApart_spec {a f : Nat × Nat × Nat} (hp : 0 < a.2.2) (h : foldApart a f = true) {n : Nat} (hn : InRange a n) :
    ¬ InRange f n := by
  obtain ⟨h1, h2, h3⟩ := hn
  rintro ⟨g1, g2, g3⟩
  simp only [foldApart, Bool.or_eq_true, Nat.blt_eq] at h
  rcases h with (h | h) | h
  · omega
  · omega
  · rw [List.all_eq_true] at h
    have hd := Nat.div_add_mod (n - a.1) a.2.2
    rw [h3, Nat.add_zero, Nat.mul_comm] at hd
    have hn : a.1 + (n - a.1) / a.2.2 * a.2.2 = n := by omega
    have hi : (n - a.1) / a.2.2 ∈ List.range ((a.2.1 - a.1) / a.2.2 + 1) := by
      rw [List.mem_range]
      have : (n - a.1) / a.2.2 ≤ (a.2.1 - a.1) / a.2.2 := Nat.div_le_div_right (by omega)
      omega
    have := h _ hi
    rw [hn] at this
    simp only [Bool.or_eq_true, Nat.blt_eq, Bool.not_eq_true'] at this
    have hb : Nat.beq ((n - f.1) % f.2.2) 0 = true := by rw [g3]; rfl
    rw [hb] at this
    rcases this with (h | h) | h
    · omega
    · omega
    · cases h

theorem isPySpace_ranges {c : Char} (h : isPySpace c = true) : ∃ f ∈ spaceRanges, InRange f c.toNat := by
  simp only [isPySpace, Bool.or_eq_true, Bool.and_eq_true, decide_eq_true_eq, beq_iff_eq] at h
  simp only [spaceRanges, List.mem_cons, List.not_mem_nil, or_false, exists_eq_or_imp, exists_eq_left, InRange, Nat.mod_one,
    and_true]
  omega

theorem foldSorted_lt : ∀ {l : List FoldEntry} {a : FoldEntry}, foldSorted (a :: l) = true →
    (∀ e ∈ a :: l, e.1 ≤ e.2.1) → ∀ e ∈ l, a.2.1 < e.1
  | [], _, _, _ => by simp
  | b :: l, a, h, hle => by
    simp only [foldSorted, Bool.and_eq_true, Nat.blt_eq] at h
    intro e he
    rcases List.mem_cons.1 he with rfl | he
    · exact h.1
    · have h1 := foldSorted_lt h.2 (fun e he => hle e (List.mem_cons_of_mem _ he)) e he
      have h2 := hle b (by simp)
      omega

/-- In a sorted table at most one entry covers a number, so the first one is the only one. -/
theorem find_unique : ∀ {l : List FoldEntry} {n : Nat} {e : FoldEntry}, foldSorted l = true → (∀ e ∈ l, e.1 ≤ e.2.1) →
    e ∈ l → InRange (e.1, e.2.1, e.2.2.1) n →
    (l.find? fun e => e.1 ≤ n && n ≤ e.2.1 && (n - e.1) % e.2.2.1 == 0) = some e
  | [], _, _, _, _, h, _ => by cases h
  | a :: l, n, e, hs, hle, he, hr => by
    have hs' : foldSorted l = true := by
      cases l with
      | nil => rfl
      | cons b l => simp only [foldSorted, Bool.and_eq_true] at hs; exact hs.2
    obtain ⟨h1, h2, h3⟩ := hr
    dsimp only at h1 h2 h3
    rcases List.mem_cons.1 he with rfl | he
    · rw [List.find?_cons_of_pos]
      simp [h1, h2, h3]
    · have hlt := foldSorted_lt hs hle e he
      rw [List.find?_cons_of_neg]
      · exact find_unique hs' (fun e he => hle e (List.mem_cons_of_mem _ he)) he ⟨h1, h2, h3⟩
      · simp only [Bool.and_eq_true, decide_eq_true_eq, beq_iff_eq, not_and]
        intro _ h; omega

structure EntryOk (e : FoldEntry) : Prop where
  stride : 0 < e.2.2.1
  pos : 0 ≤ (e.1 : Int) + e.2.2.2.1
  le : e.1 ≤ e.2.1
  mod : (e.2.1 - e.1) % e.2.2.1 = 0
  valid : (foldImg e).2.1 < 0xD800 ∨ 0xDFFF < (foldImg e).1 ∧ (foldImg e).2.1 < 0x110000
  img : ∀ f ∈ foldRanges, foldApart (foldImg e) (f.1, f.2.1, f.2.2.1) = true
  imgSpace : ∀ f ∈ spaceRanges, foldApart (foldImg e) f = true
  space : ∀ f ∈ spaceRanges, foldApart (e.1, e.2.1, e.2.2.1) f = true
  sfx : ∀ x ∈ e.2.2.2.2, x < 0xD800 ∧ (∀ f ∈ foldRanges, foldApart (x, x, 1) (f.1, f.2.1, f.2.2.1) = true) ∧
    ∀ f ∈ spaceRanges, foldApart (x, x, 1) f = true

theorem entry_ok {e : FoldEntry} (h : e ∈ foldRanges) : EntryOk e := by
  have := List.all_eq_true.1 foldTable_ok e h
  simp only [foldEntryOk, Bool.and_eq_true, Bool.or_eq_true, Nat.blt_eq, Nat.beq_eq, Nat.ble_eq, decide_eq_true_eq,
    List.all_eq_true] at this
  obtain ⟨⟨⟨⟨⟨⟨⟨⟨a, b⟩, c⟩, m⟩, d⟩, f⟩, g⟩, i⟩, j⟩ := this
  exact ⟨a, b, c, m, d, f, g, i, fun x hx => ⟨(j x hx).1.1, (j x hx).1.2, (j x hx).2⟩⟩

theorem entry_le {e : FoldEntry} (h : e ∈ foldRanges) : e.1 ≤ e.2.1 := (entry_ok h).le

theorem xlat_find (c : Char) : xlatGet c = none ∧ (∀ e ∈ foldRanges, ¬ InRange (e.1, e.2.1, e.2.2.1) c.toNat) ∨
    ∃ e ∈ foldRanges, InRange (e.1, e.2.1, e.2.2.1) c.toNat ∧
      xlatGet c = some (Char.ofNat ((c.toNat : Int) + e.2.2.2.1).toNat :: e.2.2.2.2.map Char.ofNat) := by
  unfold xlatGet
  cases h : foldRanges.find? fun e => e.1 ≤ c.toNat && c.toNat ≤ e.2.1 && (c.toNat - e.1) % e.2.2.1 == 0 with
  | none =>
    left
    refine ⟨by simp [h], ?_⟩
    intro e he hr
    have := List.find?_eq_none.1 h e he
    obtain ⟨h1, h2, h3⟩ := hr
    dsimp only at h1 h2 h3
    simp [h1, h2, h3] at this
  | some e =>
    right
    have hp := List.find?_some h
    simp only [Bool.and_eq_true, decide_eq_true_eq, beq_iff_eq] at hp
    refine ⟨e, List.mem_of_find?_eq_some h, ⟨hp.1.1, hp.1.2, hp.2⟩, by simp [h]⟩

theorem ofNat_toNat_of {n : Nat} (h : n < 0xD800 ∨ 0xDFFF < n ∧ n < 0x110000) : (Char.ofNat n).toNat = n := by
  have hv : n.isValidChar := by
    rcases h with h | ⟨h1, h2⟩
    · exact Or.inl h
    · exact Or.inr ⟨h1, h2⟩
  rw [Char.ofNat, dif_pos hv]
  rfl

/-- The first character of a folding has the right code. -/
theorem img_code {e : FoldEntry} (he : e ∈ foldRanges) {n : Nat} (h : InRange (e.1, e.2.1, e.2.2.1) n) :
    (((Char.ofNat ((n : Int) + e.2.2.2.1).toNat).toNat : Nat) : Int) = n + e.2.2.2.1 ∧
    InRange (foldImg e) (Char.ofNat ((n : Int) + e.2.2.2.1).toNat).toNat := by
  obtain ⟨h1, h2, h3⟩ := h
  dsimp only at h1 h2 h3
  have hok := entry_ok he
  have hp := hok.pos
  have hv := hok.valid
  simp only [foldImg] at hv
  have hc : (Char.ofNat ((n : Int) + e.2.2.2.1).toNat).toNat = ((n : Int) + e.2.2.2.1).toNat := by
    apply ofNat_toNat_of
    omega
  rw [hc]
  refine ⟨by omega, ?_, ?_, ?_⟩
  · simp only [foldImg]; omega
  · simp only [foldImg]; omega
  · simp only [foldImg]
    rw [show ((n : Int) + e.2.2.2.1).toNat - ((e.1 : Int) + e.2.2.2.1).toNat = n - e.1 by omega]
    exact h3

theorem xlat_none_of {c : Char} (h : ∀ e ∈ foldRanges, ¬ InRange (e.1, e.2.1, e.2.2.1) c.toNat) : xlatGet c = none := by
  rcases xlat_find c with h1 | ⟨e, he, hr, _⟩
  · exact h1.1
  · exact absurd hr (h e he)

/-- Folded characters are not folded again and are no white space. -/
theorem folded_chars {c : Char} {s : Str} (h : xlatGet c = some s) :
    s ≠ [] ∧ ∀ x ∈ s, xlatGet x = none ∧ isPySpace x = false := by
  rcases xlat_find c with h1 | ⟨e, he, hr, hx⟩
  · rw [h1.1] at h; cases h
  · rw [hx] at h
    cases h
    have hok := entry_ok he
    refine ⟨by simp, ?_⟩
    intro x hxm
    have key : ∀ (a : Nat × Nat × Nat), 0 < a.2.2 → InRange a x.toNat →
        (∀ f ∈ foldRanges, foldApart a (f.1, f.2.1, f.2.2.1) = true) →
        (∀ f ∈ spaceRanges, foldApart a f = true) → xlatGet x = none ∧ isPySpace x = false := by
      intro a ha hin h1 h2
      refine ⟨xlat_none_of fun f hf => foldApart_spec ha (h1 f hf) hin, ?_⟩
      by_contra hsp
      obtain ⟨f, hf, hr⟩ := isPySpace_ranges (by simpa using hsp)
      exact foldApart_spec ha (h2 f hf) hin hr
    rcases List.mem_cons.1 hxm with rfl | hxm
    · exact key (foldImg e) hok.stride (img_code he hr).2 hok.img hok.imgSpace
    · obtain ⟨y, hy, rfl⟩ := List.mem_map.1 hxm
      obtain ⟨g1, g2, g3⟩ := hok.sfx y hy
      refine key (y, y, 1) (by simp) ?_ g2 g3
      rw [ofNat_toNat_of (Or.inl g1)]
      exact ⟨Nat.le_refl _, Nat.le_refl _, by simp [Nat.mod_one]⟩

theorem space_not_folded {c : Char} (h : isPySpace c = true) : xlatGet c = none := by
  apply xlat_none_of
  intro e he hr
  obtain ⟨f, hf, hf2⟩ := isPySpace_ranges h
  exact foldApart_spec (a := (e.1, e.2.1, e.2.2.1)) (entry_ok he).stride ((entry_ok he).space f hf) hr hf2

/-! ### Case folding -/

theorem foldChar_folds (c : Char) : Folds foldRanges c (foldChar c) := by
  unfold foldChar
  rcases xlat_find c with ⟨h1, h2⟩ | ⟨e, he, hr, hx⟩
  · rw [h1]
    right
    refine ⟨rfl, fun e he s' hf => h2 e he ⟨hf.1, hf.2.1, Nat.mod_eq_zero_of_dvd hf.2.2.1⟩⟩
  · rw [hx]
    left
    refine ⟨e, he, hr.1, hr.2.1, Nat.dvd_of_mod_eq_zero hr.2.2, _, (img_code he hr).1, ?_⟩
    simp only [Option.getD_some, List.map_cons, List.map_map, List.cons.injEq, true_and]
    refine (List.map_congr_left (g := id) ?_).trans (List.map_id _)
    intro x hx
    exact ofNat_toNat_of (Or.inl ((entry_ok he).sfx x hx).1)

theorem map_toNat_inj {a b : Str} (h : a.map Char.toNat = b.map Char.toNat) : a = b :=
  List.map_injective_iff.2 (fun x y hxy => Char.toNat_inj.1 hxy) h

theorem folds_unique {c : Char} {s t : Str} (h1 : Folds foldRanges c s) (h2 : Folds foldRanges c t) : s = t := by
  rcases h1 with ⟨e, he, hs⟩ | ⟨rfl, hs⟩
  · rcases h2 with ⟨e', he', ht⟩ | ⟨rfl, ht⟩
    · have u1 := find_unique (n := c.toNat) foldTable_sorted (fun e he => entry_le he) he
        ⟨hs.1, hs.2.1, Nat.mod_eq_zero_of_dvd hs.2.2.1⟩
      have u2 := find_unique (n := c.toNat) foldTable_sorted (fun e he => entry_le he) he'
        ⟨ht.1, ht.2.1, Nat.mod_eq_zero_of_dvd ht.2.2.1⟩
      rw [u1] at u2
      cases u2
      obtain ⟨_, _, _, x, hx, hsx⟩ := hs
      obtain ⟨_, _, _, y, hy, hsy⟩ := ht
      apply map_toNat_inj
      rw [hsx, hsy]
      have : x.toNat = y.toNat := by omega
      rw [this]
    · exact absurd hs (ht e he s)
  · rcases h2 with ⟨e', he', ht⟩ | ⟨rfl, ht⟩
    · exact absurd ht (hs e' he' t)
    · rfl

theorem caseFold_iff (s t : Str) : caseFold s = t ↔ FoldsText foldRanges s t := by
  constructor
  · rintro rfl
    induction s with
    | nil => exact .nil
    | cons c s ih => exact .cons (foldChar_folds c) ih
  · intro h
    induction h with
    | nil => rfl
    | cons h _ ih =>
      rw [← ih, ← folds_unique (foldChar_folds _) h]
      rfl

theorem foldChar_white {c : Char} (h : isPySpace c = true) : foldChar c = [c] := by
  rw [foldChar, space_not_folded h]; rfl

theorem foldChar_dark {c : Char} (h : isPySpace c = false) : foldChar c ≠ [] ∧ ∀ x ∈ foldChar c, isPySpace x = false := by
  unfold foldChar
  cases hx : xlatGet c with
  | none => simpa using h
  | some s => exact ⟨(folded_chars hx).1, fun x hm => ((folded_chars hx).2 x hm).2⟩

theorem foldChar_fixed {c x : Char} (h : x ∈ foldChar c) : foldChar x = [x] := by
  unfold foldChar at h
  cases hx : xlatGet c with
  | none =>
    rw [hx] at h
    have : x = c := by simpa using h
    rw [this, foldChar, hx]; rfl
  | some s =>
    rw [hx] at h
    rw [foldChar, ((folded_chars hx).2 x h).1]; rfl

theorem caseFold_idem (s : Str) : caseFold (caseFold s) = caseFold s := by
  have : ∀ x ∈ caseFold s, foldChar x = [x] := by
    intro x hx
    obtain ⟨c, _, hc⟩ := List.mem_flatMap.1 hx
    exact foldChar_fixed hc
  generalize caseFold s = t at this
  induction t with
  | nil => rfl
  | cons c t ih =>
    have h1 := this c (by simp)
    have h2 := ih (fun x hx => this x (by simp [hx]))
    unfold caseFold at h2 ⊢
    rw [List.flatMap_cons, h1, h2]; rfl

/-! ### White space -/

theorem strip_iff (s t : Str) : strip s = t ↔ Trimmed s t := by
  have key : ∀ {s t}, Trimmed s t → strip s = t := by
    rintro s t ⟨a, b, rfl, ha, hb, h1, h2⟩
    have h1' : ∀ c, t.head? = some c → isPySpace c = false := fun c hc => by simpa [IsSpace] using h1 c hc
    have h2' : ∀ c, t.getLast? = some c → isPySpace c = false := fun c hc => by simpa [IsSpace] using h2 c hc
    unfold strip
    rw [List.append_assoc, lstripBy, List.dropWhile_append_of_pos ha]
    cases ht : t with
    | nil =>
      rw [List.nil_append, List.dropWhile_eq_nil_iff.2 hb]; rfl
    | cons c t' =>
      have := h1' c (by rw [ht]; rfl)
      rw [List.cons_append, List.dropWhile_cons_of_neg (by simp [this]), ← List.cons_append, ← ht]
      exact rstripBy_append hb h2'
  constructor
  · rintro rfl
    refine ⟨s.takeWhile isPySpace, ((s.dropWhile isPySpace).reverse.takeWhile isPySpace).reverse, ?_, ?_, ?_, ?_, ?_⟩
    · rw [strip, rstripBy, lstripBy, List.append_assoc, ← List.reverse_append, List.takeWhile_append_dropWhile,
        List.reverse_reverse, List.takeWhile_append_dropWhile]
    · exact fun c hc => List.all_eq_true.1 List.all_takeWhile c hc
    · exact fun c hc => List.all_eq_true.1 List.all_takeWhile c (List.mem_reverse.1 hc)
    · intro c hc
      have hp := rstrip_pre isPySpace (lstripBy isPySpace s)
      obtain ⟨q, hq⟩ := hp
      have : (lstripBy isPySpace s).head? = some c := by
        rw [← hq]
        change (strip s ++ q).head? = _
        cases hst : strip s with
        | nil => rw [hst] at hc; cases hc
        | cons x xs => rw [hst] at hc; simpa using hc
      have h2 := List.head?_dropWhile_not isPySpace s
      rw [lstripBy] at this
      rw [this] at h2
      simpa [IsSpace] using h2
    · intro c hc
      have : ((lstripBy isPySpace s).reverse.dropWhile isPySpace).head? = some c := by
        rw [strip, rstripBy, List.getLast?_reverse] at hc
        exact hc
      have h2 := List.head?_dropWhile_not isPySpace (lstripBy isPySpace s).reverse
      rw [this] at h2
      simpa [IsSpace] using h2
  · exact key
where
  rstrip_pre (p : Char → Bool) (y : Str) : rstripBy p y <+: y := by
    have := List.dropWhile_suffix (l := y.reverse) p
    have := List.reverse_prefix.2 this
    simpa [rstripBy] using this

theorem isLabelSpace_iff (c : Char) : isLabelSpace c = true ↔ LabelSpace c := by
  simp only [isLabelSpace, LabelSpace, Bool.or_eq_true, beq_iff_eq]
  tauto

theorem rest_run {w s : Str} (hne : w ≠ []) (hw : ∀ c ∈ w, isLabelSpace c = true)
    (hs : ∀ c, s.head? = some c → isLabelSpace c = false) : reSPACE.rest (w ++ s) = some s := by
  cases w with
  | nil => exact absurd rfl hne
  | cons c w =>
    have h1 := hw c (by simp)
    have hd : (w ++ s).dropWhile isLabelSpace = s := by
      rw [List.dropWhile_append_of_pos (fun x hx => hw x (by simp [hx]))]
      cases s with
      | nil => rfl
      | cons x s => rw [List.dropWhile_cons_of_neg (by simp [hs x rfl])]
    rw [Re.rest, reSPACE, Re.plus, Re.run_seq, List.cons_append, Re.run_chr_cons, if_pos h1, Re.run_star_chr_some, hd]

theorem rest_dark {c : Char} {s : Str} (hc : isLabelSpace c = false) : reSPACE.rest (c :: s) = none := by
  rw [Re.rest, reSPACE, Re.plus, Re.run_seq, Re.run_chr_cons, if_neg (by simp [hc])]

theorem collapse_sub {s t : Str} (h : Collapse s t) : reSPACE.sub (fun _ => [' ']) s = t := by
  induction h with
  | nil => exact Re.sub_nil _ _
  | keep hc _ ih =>
    rw [Re.sub_none rfl _ (rest_dark (by simpa using mt (isLabelSpace_iff _).1 hc)), ih]
  | run hne hw hs _ ih =>
    rw [Re.sub_match rfl _ hne (rest_run hne (fun c hc => (isLabelSpace_iff c).2 (hw c hc))
      (fun c hc => by simpa using mt (isLabelSpace_iff c).1 (hs c hc))), ih]
    rfl

theorem collapse_exists : ∀ (n : Nat) (s : Str), s.length ≤ n → ∃ t, Collapse s t
  | _, [], _ => ⟨[], .nil⟩
  | 0, _ :: _, h => by simp at h
  | n + 1, c :: s, h => by
    by_cases hc : LabelSpace c
    · obtain ⟨t, ht⟩ := collapse_exists n (s.dropWhile isLabelSpace)
        (Nat.le_trans (List.dropWhile_sublist _).length_le (by simpa using h))
      refine ⟨' ' :: t, ?_⟩
      have := Collapse.run (w := c :: s.takeWhile isLabelSpace) (by simp) ?_ ?_ ht
      · rwa [List.cons_append, List.takeWhile_append_dropWhile] at this
      · intro x hx
        rcases List.mem_cons.1 hx with rfl | hx
        · exact hc
        · exact (isLabelSpace_iff x).1 (List.all_eq_true.1 List.all_takeWhile x hx)
      · intro x hx
        have h2 := List.head?_dropWhile_not isLabelSpace s
        rw [hx] at h2
        rw [← isLabelSpace_iff]
        simpa using h2
    · obtain ⟨t, ht⟩ := collapse_exists n s (by simpa using h)
      exact ⟨_, .keep hc ht⟩

theorem sub_iff (s t : Str) : reSPACE.sub (fun _ => [' ']) s = t ↔ Collapse s t := by
  constructor
  · rintro rfl
    obtain ⟨t, ht⟩ := collapse_exists s.length s (Nat.le_refl _)
    rwa [collapse_sub ht]
  · exact collapse_sub

theorem chop_label (x : Str) : chop ('[' :: x ++ [']']) = x := by
  simp [chop]

theorem normalizeReference_label (x : Str) :
    normalizeReference ('[' :: x ++ [']']) = caseFold (reSPACE.sub (fun _ => [' ']) (strip x)) := by
  rw [normalizeReference, chop_label]

theorem labelSpace_white {c : Char} (h : LabelSpace c) : isPySpace c = true := by
  rcases h with rfl | rfl | rfl | rfl <;> decide

theorem collapse_head {s t : Str} (h : Collapse s t) : (∀ c, s.head? = some c → ¬ LabelSpace c) → t.head? = s.head? := by
  intro hs
  cases h with
  | nil => rfl
  | keep _ _ => rfl
  | run hne hw hr _ =>
    exfalso
    rename_i w s t _
    cases w with
    | nil => exact hne rfl
    | cons c w => exact hs c rfl (hw c (by simp))

theorem collapse_nil {s t : Str} (h : Collapse s t) : t = [] ↔ s = [] := by
  cases h with
  | nil => simp
  | keep => simp
  | run hne => simp [hne]

theorem collapse_last {s t : Str} (h : Collapse s t) : (∀ c, s.getLast? = some c → ¬ LabelSpace c) → t.getLast? = s.getLast? := by
  induction h with
  | nil => intro _; rfl
  | @keep c s t hc ht ih =>
    intro hs
    cases s with
    | nil => rw [(collapse_nil ht).2 rfl]
    | cons y s =>
      have := ih (fun c hc => hs c (by simpa [List.getLast?_cons_cons] using hc))
      rw [List.getLast?_cons_cons, ← this]
      cases t with
      | nil =>
        exact absurd ((collapse_nil ht).1 rfl) (by simp)
      | cons z t => rw [List.getLast?_cons_cons]
  | @run w s t hne hw hr ht ih =>
    intro hs
    cases s with
    | nil =>
      exfalso
      rw [List.append_nil] at hs
      cases hg : w.getLast? with
      | none => exact hne (List.getLast?_eq_none_iff.1 hg)
      | some c => exact hs c hg (hw c (List.mem_of_getLast? hg))
    | cons y s =>
      have h1 : (w ++ y :: s).getLast? = (y :: s).getLast? := by
        rw [List.getLast?_append]
        cases hg : (y :: s).getLast? with
        | none => simp at hg
        | some _ => rfl
      have := ih (fun c hc => hs c (by rw [h1]; exact hc))
      rw [h1, ← this]
      cases t with
      | nil => exact absurd ((collapse_nil ht).1 rfl) (by simp)
      | cons z t => rw [List.getLast?_cons_cons]

/-- Folding a collapsed text leaves it collapsed. -/
theorem collapse_fold {s t : Str} (h : Collapse s t) : Collapse (caseFold t) (caseFold t) := by
  have dark : ∀ (x u : Str), (∀ c ∈ x, ¬ LabelSpace c) → Collapse u u → Collapse (x ++ u) (x ++ u) := by
    intro x u hx hu
    induction x with
    | nil => exact hu
    | cons c x ih => exact .keep (hx c (by simp)) (ih (fun d hd => hx d (by simp [hd])))
  induction h with
  | nil => exact .nil
  | @keep c s t hc ht ih =>
    have : caseFold (c :: t) = foldChar c ++ caseFold t := rfl
    rw [this]
    apply dark _ _ _ ih
    intro x hx hl
    by_cases hw : isPySpace c = true
    · rw [foldChar_white hw] at hx
      exact hc ((by simpa using hx : x = c) ▸ hl)
    · have := (foldChar_dark (by simpa using hw)).2 x hx
      rw [labelSpace_white hl] at this
      cases this
  | @run w s t hne hw hr ht ih =>
    have : caseFold (' ' :: t) = ' ' :: caseFold t := by
      change foldChar ' ' ++ caseFold t = _
      rw [foldChar_white (by decide)]; rfl
    rw [this]
    refine Collapse.run (w := [' ']) (by simp) (by simp [LabelSpace]) ?_ ih
    intro c hc hl
    have hth := collapse_head ht hr
    cases t with
    | nil => cases hc
    | cons y t =>
      have hy : ¬ LabelSpace y := hr y (by rw [← hth]; rfl)
      change (foldChar y ++ caseFold t).head? = some c at hc
      by_cases hyw : isPySpace y = true
      · rw [foldChar_white hyw] at hc
        have : y = c := by simpa using hc
        exact hy (this ▸ hl)
      · obtain ⟨h1, h2⟩ := foldChar_dark (by simpa using hyw)
        cases hf : foldChar y with
        | nil => exact h1 hf
        | cons z zs =>
          rw [hf] at hc
          have : z = c := by simpa using hc
          have := h2 c (by rw [hf, ← this]; simp)
          rw [labelSpace_white hl] at this
          cases this

theorem fold_head {t : Str} (h : ∀ c, t.head? = some c → ¬ IsSpace c) : ∀ c, (caseFold t).head? = some c → ¬ IsSpace c := by
  intro c hc
  cases t with
  | nil => cases hc
  | cons y t =>
    change (foldChar y ++ caseFold t).head? = some c at hc
    obtain ⟨h1, h2⟩ := foldChar_dark (by simpa [IsSpace] using h y rfl)
    cases hf : foldChar y with
    | nil => exact absurd hf h1
    | cons z zs =>
      rw [hf] at hc
      have : z = c := by simpa using hc
      simpa [IsSpace] using h2 c (by rw [hf, ← this]; simp)

theorem fold_last {t : Str} (h : ∀ c, t.getLast? = some c → ¬ IsSpace c) : ∀ c, (caseFold t).getLast? = some c → ¬ IsSpace c := by
  intro c hc
  rcases List.eq_nil_or_concat t with rfl | ⟨t, y, rfl⟩
  · cases hc
  · rw [List.concat_eq_append] at h hc
    obtain ⟨h1, h2⟩ := foldChar_dark (by simpa [IsSpace] using h y (by simp))
    have : caseFold (t ++ [y]) = caseFold t ++ foldChar y := by simp [caseFold]
    rw [this, List.getLast?_append] at hc
    cases hf : (foldChar y).getLast? with
    | none => exact absurd (List.getLast?_eq_none_iff.1 hf) h1
    | some z =>
      rw [hf] at hc
      have : z = c := by simpa using hc
      simpa [IsSpace] using h2 c (this ▸ List.mem_of_getLast? hf)

theorem normalize_idem (x : Str) : normalizeReference ('[' :: normalizeReference ('[' :: x ++ [']']) ++ [']']) =
    normalizeReference ('[' :: x ++ [']']) := by
  rw [normalizeReference_label, normalizeReference_label]
  obtain ⟨a, b, _, ha, hb, h1, h2⟩ := (strip_iff x _).1 rfl
  generalize strip x = t at h1 h2
  have hc := (sub_iff t _).1 rfl
  have hls : ∀ c, ¬ IsSpace c → ¬ LabelSpace c := fun c hc hl => hc (labelSpace_white hl)
  have e1 := collapse_head hc (fun c hh => hls c (h1 c hh))
  have e2 := collapse_last hc (fun c hh => hls c (h2 c hh))
  generalize reSPACE.sub (fun _ => [' ']) t = u at hc e1 e2
  have hst : strip (caseFold u) = caseFold u := (strip_iff _ _).2
    ⟨[], [], by simp, by simp, by simp, fold_head (by rw [e1]; exact h1), fold_last (by rw [e2]; exact h2)⟩
  rw [hst, collapse_sub (collapse_fold hc), caseFold_idem]

end CM
