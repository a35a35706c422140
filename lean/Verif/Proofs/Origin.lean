import Verif.Spec.Origin
import Verif.Proofs.Every
import Verif.Proofs.LineKinds
import Verif.Proofs.Fenced
import Verif.Proofs.HtmlBlock
/-
The text at the first position of every block.
-/
namespace CM
open Spec

theorem atx_text {s m : Str} (h : reATXHeadingMarker.matchPrefix s = some m) (hs : '\n' ∉ s) :
    AtxMarker (strip m).length s := by
  obtain ⟨k, k1, k2, k3⟩ := atx_marker h
  obtain ⟨t, hst, hd⟩ := Re.matchPrefix_den h
  obtain ⟨m1, m2, rfl, h1, h2⟩ := hd
  obtain ⟨a, b, c⟩ := (den_between_chr (by omega)).1 h1
  have hm1 := eq_replicate_of_all c
  have hm2 : ∀ c ∈ m2, isPySpace c = true := by
    rcases h2 with h2 | h2
    · intro c hc
      have := (den_plus_chr.1 h2).2 c hc
      simp only [isSpTab, Bool.or_eq_true, beq_iff_eq] at this
      rcases this with rfl | rfl <;> decide
    · obtain ⟨rfl, _⟩ := h2; simp
  have hlen : (strip (m1 ++ m2)).length = m1.length := by
    have hne : m1 ≠ [] := by rintro rfl; simp at a
    rw [strip, lstripBy_of_head, rstripBy_append hm2]
    · intro c hc
      have : c ∈ m1 := List.mem_of_getLast? hc
      rw [hm1] at this
      rw [List.eq_of_mem_replicate this]; decide
    · intro c hc
      have : c ∈ m1 := by
        cases m1 with
        | nil => exact absurd rfl hne
        | cons x xs => simp at hc; subst hc; simp
      rw [hm1] at this
      rw [List.eq_of_mem_replicate this]; decide
  rw [hlen]
  refine ⟨a, b, m2 ++ t, by rw [hst, List.append_assoc, ← hm1], ?_⟩
  rcases h2 with h2 | h2
  · obtain ⟨g1, g2⟩ := den_plus_chr.1 h2
    cases m2 with
    | nil => simp at g1
    | cons x xs =>
      have := g2 x (by simp)
      simp only [isSpTab, Bool.or_eq_true, beq_iff_eq] at this
      right
      rcases this with rfl | rfl <;> simp
  · obtain ⟨rfl, h3⟩ := h2
    left
    have := noNl_eos hs hst h3
    simp [this]

theorem setext_text {s m : Str} (h : reSetextHeadingLine.matchPrefix s = some m) (hs : '\n' ∉ s) :
    ∃ c, SetextUnderline c s ∧ (c = '=' ∧ (if m.head? == some '=' then 1 else 2) = 1 ∨
      c = '-' ∧ (if m.head? == some '=' then 1 else 2) = 2) := by
  obtain ⟨c, hc⟩ := (setext_iff hs).1 (by rw [h]; rfl)
  refine ⟨c, hc, ?_⟩
  obtain ⟨t, hst, _⟩ := Re.matchPrefix_den h
  have hml : 1 ≤ m.length := Re.matchPrefix_minLen h
  obtain ⟨hc', n, r, hn, e, _⟩ := hc
  have hh : m.head? = some c := by
    cases m with
    | nil => simp at hml
    | cons x xs =>
      rw [hst] at e
      cases n with
      | zero => omega
      | succ n =>
        rw [List.replicate_succ, List.cons_append, List.cons_append, List.cons.injEq] at e
        rw [e.1]; rfl
  rw [hh]
  rcases hc' with rfl | rfl
  · left; exact ⟨rfl, rfl⟩
  · right; exact ⟨rfl, rfl⟩

theorem fence_text {s m : Str} (h : reCodeFence.matchPrefix s = some m) (hs : '\n' ∉ s) :
    ∃ c info, m.head? = some c ∧ CodeFence c m.length info s := by
  obtain ⟨c, n, info, hc⟩ := (fence_iff hs).1 (by rw [h]; rfl)
  have := fence_match hc
  rw [h, Option.some.injEq] at this
  refine ⟨c, info, ?_, ?_⟩
  · rw [this]
    have := hc.1
    cases n with
    | zero => omega
    | succ n => rfl
  · rw [this, List.length_replicate]; exact hc

/-- The lines, without line feeds. -/
def LineOf (ls : List Str) (n : Nat) (x : Str) : Prop := 1 ≤ n ∧ ls[n - 1]? = some x ∧ '\n' ∉ x

theorem sourceText_atLine {ls : List Str} {n : Nat} {x : Str} (h : LineOf ls n x) {d : NodeData} {col : Nat} {e : Nat × Nat}
    (hd : d.sourcepos = some ((n, col + 1), e)) : sourceText ls d = x.drop col := by
  simp only [sourceText, firstLine, firstColumn, hd, Option.map_some, Option.getD_some, List.getD_eq_getElem?_getD, h.2.1]
  rfl

theorem sourceText_sig {ls : List Str} {d d' : NodeData} (h : sig d = sig d') : sourceText ls d = sourceText ls d' ∧
    firstLine d = firstLine d' := by
  have h1 : ∀ d : NodeData, firstLine (sig d) = firstLine d := by
    intro d; simp only [firstLine, sig, Option.map_map]; rfl
  have h2 : ∀ d : NodeData, firstColumn (sig d) = firstColumn d := by
    intro d; simp only [firstColumn, sig, Option.map_map]; rfl
  simp only [sourceText]
  rw [← h1 d, ← h2 d, h, h1, h2]
  exact ⟨rfl, rfl⟩

theorem noNl_drop {x : Str} (h : '\n' ∉ x) (n : Nat) : '\n' ∉ x.drop n := fun hm => h (List.mem_of_mem_drop hm)

/-- Leaf blocks and block quotes. -/
theorem sound_origin (ls : List Str) : Sound (Origin ls) (LineOf ls) where
  congr := by
    intro d d' hs h
    obtain ⟨e1, e2⟩ := sourceText_sig (ls := ls) hs
    have ht : d.t = d'.t := by have := congrArg NodeData.t hs; exact this
    have hl : d.level = d'.level := by have := congrArg NodeData.level hs; exact this
    have hf : d.isFenced = d'.isFenced := by have := congrArg NodeData.isFenced hs; exact this
    have hn : d.fenceLength = d'.fenceLength := by have := congrArg NodeData.fenceLength hs; exact this
    have hc : d.fenceChar = d'.fenceChar := by have := congrArg NodeData.fenceChar hs; exact this
    unfold Origin at h ⊢
    rw [← e1, ← e2, ← ht, ← hl, ← hf, ← hn, ← hc]
    exact h
  doc := by refine ⟨?_, ?_, ?_, ?_, ?_⟩ <;> intro h <;> cases h
  new := by
    intro c d hw h
    cases h with
    | quote col hc hq =>
      refine ⟨(fun h => by cases h), (fun h => by cases h), (fun h => by cases h), fun _ => ?_, (fun h => by cases h)⟩
      rw [sourceText_atLine hw rfl, List.head?_drop]; exact hq
    | atx col m k hc hm =>
      refine ⟨(fun h => by cases h), fun _ => ⟨_, rfl, Or.inl ?_⟩, (fun h => by cases h), (fun h => by cases h), (fun h => by cases h)⟩
      rw [sourceText_atLine hw rfl]
      exact atx_text hm (noNl_drop hw.2.2 _)
    | fenced col m k hc hm hk =>
      refine ⟨(fun h => by cases h), (fun h => by cases h), fun _ _ => ?_, (fun h => by cases h), (fun h => by cases h)⟩
      rw [sourceText_atLine hw rfl]
      obtain ⟨c', info, h1, h2⟩ := fence_text hm (noNl_drop hw.2.2 _)
      exact ⟨c', info, h1, h2⟩
    | html col i hc h1 h7 =>
      exact ⟨(fun h => by cases h), (fun h => by cases h), (fun h => by cases h), (fun h => by cases h), (fun h => by cases h)⟩
    | thematic col hc hm =>
      refine ⟨fun _ => ?_, (fun h => by cases h), (fun h => by cases h), (fun h => by cases h), (fun h => by cases h)⟩
      rw [sourceText_atLine hw rfl]
      exact (thematic_iff (noNl_drop hw.2.2 _)).1 hm
    | indented col hc =>
      exact ⟨(fun h => by cases h), (fun h => by cases h), (fun _ h => by cases h), (fun h => by cases h), (fun h => by cases h)⟩
  para := by
    intro c off ch hw h1 h2 h3
    refine ⟨(fun h => by cases h), (fun h => by cases h), (fun h => by cases h), (fun h => by cases h), fun _ => ⟨ch, ?_, h2, h3⟩⟩
    rw [sourceText_atLine hw rfl, List.head?_drop]; exact h1
  list := by
    intro c col l k _ _ hk
    rcases hk with rfl | rfl <;> (refine ⟨?_, ?_, ?_, ?_, ?_⟩ <;> intro h <;> cases h)
  setext := by
    intro c d x col m hw _ hp hle hm
    refine ⟨(fun h => by cases h), fun _ => ⟨_, rfl, Or.inr ⟨c.line, hle, ?_⟩⟩, (fun h => by cases h), (fun h => by cases h), (fun h => by cases h)⟩
    obtain ⟨ch, h1, h2⟩ := setext_text hm (noNl_drop hw.2.2 _)
    exact ⟨c.text, col, ch, hw.2.1, h1, h2⟩

/-- HTML blocks and indented code blocks. -/
theorem sound_raw (ls : List Str) : Sound (OriginRaw ls) (LineOf ls) where
  congr := by
    intro d d' hs h
    obtain ⟨e1, e2⟩ := sourceText_sig (ls := ls) hs
    have ht : d.t = d'.t := by have := congrArg NodeData.t hs; exact this
    have hl : d.htmlBlockType = d'.htmlBlockType := by have := congrArg NodeData.htmlBlockType hs; exact this
    have hf : d.isFenced = d'.isFenced := by have := congrArg NodeData.isFenced hs; exact this
    unfold OriginRaw at h ⊢
    rw [← e1, ← ht, ← hl, ← hf]
    exact h
  doc := by refine ⟨?_, ?_⟩ <;> intro h <;> cases h
  new := by
    intro c d hw h
    cases h with
    | html col i hc h1 h7 hx =>
      refine ⟨fun _ => ?_, (fun h => by cases h)⟩
      obtain ⟨k, n, hn, hws, hi⟩ := hx
      rw [sourceText_atLine hw rfl]
      refine ⟨(c.text.drop col).take (n - col), c.text.drop n, ?_, ?_, ((htmlBlockType_iff (noNl_drop hw.2.2 _)).1 hi).1⟩
      · have : c.text.drop n = (c.text.drop col).drop (n - col) := by
          rw [List.drop_drop]; congr 1; omega
        rw [this, List.take_append_drop]
      · intro x hx
        obtain ⟨j, hj⟩ := List.mem_iff_getElem?.1 hx
        have hjl : j < n - col := by
          have := (List.getElem?_eq_some_iff.1 hj).1
          simp only [List.length_take] at this
          omega
        rw [List.getElem?_take_of_lt hjl, List.getElem?_drop] at hj
        have := hws (col + j) (by omega) (by omega)
        rw [hj] at this
        simpa using this
    | indented col hc hx =>
      refine ⟨(fun h => by cases h), fun _ _ => ?_⟩
      obtain ⟨j, ch, h1, h2, h3⟩ := hx
      rw [sourceText_atLine hw rfl]
      refine ⟨ch, List.mem_of_getElem? (i := j - col) ?_, h3⟩
      rw [List.getElem?_drop, show col + (j - col) = j by omega]
      exact h2
    | fenced col m k hc hm hk => exact ⟨(fun h => by cases h), fun _ h => by cases h⟩
    | _ => exact ⟨(fun h => by cases h), (fun h => by cases h)⟩
  para := by
    intro c off ch hw h1 h2 h3
    exact ⟨(fun h => by cases h), (fun h => by cases h)⟩
  list := by
    intro c col l k _ _ hk
    rcases hk with rfl | rfl <;> (refine ⟨?_, ?_⟩ <;> intro h <;> cases h)
  setext := by
    intro c d x col m hw _ hp hle hm
    exact ⟨(fun h => by cases h), (fun h => by cases h)⟩

/-! ### List markers -/

/-- `MarkerText` with the digits that `\d` matches. -/
def MarkerU (l : ListData) (x : Str) : Prop :=
  (l.type = .bullet ∧ ∃ c r, x = c :: r ∧ (c = '*' ∨ c = '+' ∨ c = '-') ∧ l.bulletChar = some c ∧ EndOrSpace r) ∨
  (l.type = .ordered ∧ ∃ ds c r, x = ds ++ c :: r ∧ 1 ≤ ds.length ∧ ds.length ≤ 9 ∧ (∀ y ∈ ds, isPyDigit y = true) ∧
    (c = '.' ∨ c = ')') ∧ l.delimiter = some c ∧ l.start = some (pyInt ds) ∧ EndOrSpace r)

def OriginList (ls : List Str) (d : NodeData) : Prop :=
  d.t = .list ∨ d.t = .item → ∃ l, d.listData = some l ∧ MarkerU l (sourceText ls d)

theorem markerU_of {c : Core} {col : Nat} {l : ListData} (h : MarkerAt c col l) : MarkerU l (c.text.drop col) := by
  obtain ⟨k, m, hm, hn⟩ := h.marker
  have hend : ∀ r, c.text.drop col = m ++ r → EndOrSpace r := by
    intro r hr
    have e : c.text[col + m.length]? = r.head? := by
      have h1 : c.text.drop (col + m.length) = r := by rw [← List.drop_drop, hr]; simp
      rw [← h1, List.head?_drop]
    rw [e] at hn
    cases r with
    | nil => exact Or.inl rfl
    | cons x xs =>
      simp only [List.head?_cons, Option.isNone_some, Bool.false_or, isSpTabOpt, isSpTab, Bool.or_eq_true, beq_iff_eq] at hn
      right
      rcases hn with rfl | rfl <;> simp
  generalize c.text.drop col = s at *
  unfold listMarker at hm
  split at hm
  · cases hm
  · rename_i x xs
    split at hm
    · rename_i hb
      simp only [Option.some.injEq, Prod.mk.injEq] at hm
      obtain ⟨rfl, h1, h2, h3, h4⟩ := hm
      left
      refine ⟨h1.symm, x, xs, rfl, ?_, h2.symm, hend xs rfl⟩
      simp only [isBulletChar, Bool.or_eq_true, beq_iff_eq] at hb
      rcases hb with (rfl | rfl) | rfl <;> simp
    · split at hm
      · cases hm
      · rename_i m' hm'
        split at hm
        · simp only [Option.some.injEq, Prod.mk.injEq] at hm
          obtain ⟨rfl, h1, h2, h3, h4⟩ := hm
          obtain ⟨t, hst, _⟩ := Re.matchPrefix_den hm'
          obtain ⟨ds, ch, rfl, a, b, hd, he⟩ := ordered_marker hm'
          right
          refine ⟨h1.symm, ds, ch, t, by rw [hst]; simp, a, b, hd, he, ?_, ?_, hend t hst⟩
          · rw [← h4, List.getLast?_concat]
          · rw [← h3, List.dropLast_concat]
        · cases hm

theorem sound_list (ls : List Str) : Sound (OriginList ls) (LineOf ls) where
  congr := by
    intro d d' hs h
    obtain ⟨e1, e2⟩ := sourceText_sig (ls := ls) hs
    have ht : d.t = d'.t := by have := congrArg NodeData.t hs; exact this
    have hl : d.listData.map (fun l => { l with tight := false }) = d'.listData.map (fun l => { l with tight := false }) := by
      have := congrArg NodeData.listData hs; exact this
    unfold OriginList at h ⊢
    rw [← e1, ← ht]
    intro hk
    obtain ⟨l, h1, h2⟩ := h hk
    rw [h1, Option.map_some] at hl
    obtain ⟨l', h3, h4⟩ := Option.map_eq_some_iff.1 hl.symm
    refine ⟨l', h3, ?_⟩
    simp only [ListData.mk.injEq] at h4
    obtain ⟨g1, _, g2, g3, g4, _⟩ := h4
    unfold MarkerU at h2 ⊢
    rw [g1, g2, g3, g4]
    exact h2
  doc := by intro h; rcases h with h | h <;> cases h
  new := by
    intro c d hw h
    cases h <;> (intro h; rcases h with h | h <;> cases h)
  para := by
    intro c off ch _ _ _ _ h
    rcases h with h | h <;> cases h
  list := by
    intro c col l k hw hm hk _
    refine ⟨l, rfl, ?_⟩
    rw [sourceText_atLine hw rfl]
    exact markerU_of hm
  setext := by
    intro c d x col m _ _ _ _ _ h
    rcases h with h | h <;> cases h

/-! ### Documents -/

theorem noNul_cleaned (ln : Str) : noNul ln = cleaned ln := by
  simp [noNul, cleaned, replaceChar]

theorem lineOf_input {s : Str} {ls : List Str} (hs : TextLines s ls) :
    ∀ i ln, (inputLines s)[i]? = some ln → LineOf (ls.map noNul) (i + 1) (cleaned ln) := by
  rw [inputLines_of hs]
  intro i ln h
  refine ⟨by omega, by simp [h, noNul_cleaned], ?_⟩
  intro hm
  have hmem : ln ∈ inputLines s := by rw [inputLines_of hs]; exact List.mem_of_getElem? h
  rcases cleaned_mem _ hm with h | h
  · revert h; decide
  · exact (inputLines_mem hmem _ h.1).2.1 rfl

theorem parse_origin {smart : Bool} {s : Str} {ls : List Str} {t : Tree} (hs : TextLines s ls)
    (h : parse smart s = .ok t) : All (Origin (ls.map noNul)) t := by
  refine parse_all (sound_origin _) ?_ (lineOf_input hs) h
  intro d hd
  refine ⟨?_, ?_, ?_, ?_, ?_⟩ <;> (intro h; exfalso; rw [h] at hd; revert hd; decide)

theorem parse_originRaw {smart : Bool} {s : Str} {ls : List Str} {t : Tree} (hs : TextLines s ls)
    (h : parse smart s = .ok t) : All (OriginRaw (ls.map noNul)) t := by
  refine parse_all (sound_raw _) ?_ (lineOf_input hs) h
  intro d hd
  refine ⟨?_, ?_⟩ <;> (intro h; exfalso; rw [h] at hd; revert hd; decide)

theorem parse_originList {smart : Bool} {s : Str} {ls : List Str} {t : Tree} (hs : TextLines s ls)
    (h : parse smart s = .ok t) : All (OriginList (ls.map noNul)) t := by
  refine parse_all (sound_list _) ?_ (lineOf_input hs) h
  intro d hd hk
  exfalso; rcases hk with hk | hk <;> (rw [hk] at hd; revert hd; decide)

theorem pyDigitVal_ascii {c : Char} (h : AsciiDigit c) : pyDigitVal c = digitVal c ∧ digit c = some (digitVal c) ∧ digitVal c < 10 := by
  obtain ⟨h1, h2⟩ := h
  rw [char_le_iff] at h1 h2
  have e1 : '0'.toNat = 48 := rfl
  have e2 : '9'.toNat = 57 := rfl
  rw [e1] at h1; rw [e2] at h2
  have key : ∀ n, 48 ≤ n → n ≤ 57 → (match ndRanges.find? fun r => r.1 ≤ n && n ≤ r.2 with
      | some r => (n - r.1) % 10 | none => 0) = n - 48 := by
    intro n a b
    have : ∀ k < 10, (match ndRanges.find? fun r => r.1 ≤ k + 48 && k + 48 ≤ r.2 with
      | some r => (k + 48 - r.1) % 10 | none => 0) = k := by decide +kernel
    have h3 := this (n - 48) (by omega)
    rw [show n - 48 + 48 = n by omega] at h3
    exact h3
  have hd : isDig c = true := by
    simp only [isDig, inRange, Bool.and_eq_true, decide_eq_true_eq, e1, e2]; omega
  refine ⟨?_, digit_dec hd⟩
  have h3 : pyDigitVal c = c.toNat - 48 := key c.toNat h1 h2
  rw [h3]
  simp only [digitVal]
  rw [if_pos (by simpa [isDig] using hd)]
  rfl

theorem pyInt_ascii {ds : Str} (h : ∀ c ∈ ds, AsciiDigit c) : numeral 10 ds = some (pyInt ds) := by
  rw [numeral_intBase fun c hc => (pyDigitVal_ascii (h c hc)).2]
  congr 1
  simp only [pyInt, intBase]
  generalize 0 = a
  induction ds generalizing a with
  | nil => rfl
  | cons x xs ih =>
    simp only [List.foldl_cons]
    rw [(pyDigitVal_ascii (h x (by simp))).1]
    exact ih (fun c hc => h c (by simp [hc])) _

theorem markerText_of {l : ListData} {x : Str} (h : MarkerU l x) (ha : ∀ c ∈ x, isPyDigit c = true → AsciiDigit c) :
    MarkerText l x := by
  rcases h with h | ⟨h1, ds, c, r, rfl, h3, h4, h5, h6, h7, h8, h9⟩
  · exact Or.inl h
  · right
    have hd : ∀ y ∈ ds, AsciiDigit y := fun y hy => ha y (by simp [hy]) (h5 y hy)
    exact ⟨h1, ds, c, r, rfl, h3, h4, hd, h6, h7, by rw [h8, pyInt_ascii hd], h9⟩

end CM
