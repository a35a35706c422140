import Verif.Proofs.Fold
/-
C22 (reference labels).
-/
set_option linter.unusedVariables false
namespace CM
open Spec

/-- C22: the key under which the label `[x]` is stored and looked up is `x` trimmed, with runs of space, tab, CR and LF
collapsed, and case folded. -/
theorem C22_key {x t u v : Str} (h1 : Trimmed x t) (h2 : Collapse t u) (h3 : FoldsText foldRanges u v) :
    normalizeReference ('[' :: x ++ [']']) = v := by
  rw [normalizeReference_label, (strip_iff x t).2 h1, (sub_iff t u).2 h2, (caseFold_iff u v).2 h3]

/-- C22: every label has such a form. -/
theorem C22_key_exists (x : Str) : ∃ t u v, Trimmed x t ∧ Collapse t u ∧ FoldsText foldRanges u v :=
  ⟨_, _, _, (strip_iff x _).1 rfl, (sub_iff _ _).1 rfl, (caseFold_iff _ _).1 rfl⟩

/-- C22: two labels have the same key iff they are equal after trimming, collapsing and case folding. -/
theorem C22_iff {x t u x' t' u' : Str} (h1 : Trimmed x t) (h2 : Collapse t u) (h1' : Trimmed x' t') (h2' : Collapse t' u') :
    normalizeReference ('[' :: x ++ [']']) = normalizeReference ('[' :: x' ++ [']']) ↔
      ∃ v, FoldsText foldRanges u v ∧ FoldsText foldRanges u' v := by
  constructor
  · intro h
    have a := (caseFold_iff u _).1 rfl
    have b := (caseFold_iff u' _).1 rfl
    rw [C22_key h1 h2 a, C22_key h1' h2' b] at h
    exact ⟨_, a, h ▸ b⟩
  · rintro ⟨v, a, b⟩
    rw [C22_key h1 h2 a, C22_key h1' h2' b]

/-- C22: normalising a normalised label changes nothing. -/
theorem C22_idempotent (x : Str) : normalizeReference ('[' :: normalizeReference ('[' :: x ++ [']']) ++ [']']) =
    normalizeReference ('[' :: x ++ [']']) := normalize_idem x

/-- ASCII lower case. -/
def lowerAscii (c : Char) : Char := if 65 ≤ c.toNat ∧ c.toNat ≤ 90 then Char.ofNat (c.toNat + 32) else c

theorem ascii_fold : ∀ n < 128, foldChar (lowerAscii (Char.ofNat n)) = foldChar (Char.ofNat n) ∧
    isPySpace (lowerAscii (Char.ofNat n)) = isPySpace (Char.ofNat n) ∧
    isLabelSpace (lowerAscii (Char.ofNat n)) = isLabelSpace (Char.ofNat n) := by decide +kernel

theorem lower_facts (c : Char) : foldChar (lowerAscii c) = foldChar c ∧ isPySpace (lowerAscii c) = isPySpace c ∧
    isLabelSpace (lowerAscii c) = isLabelSpace c := by
  by_cases h : c.toNat < 128
  · have := ascii_fold c.toNat h
    rwa [Char.ofNat_toNat] at this
  · have : lowerAscii c = c := by
      unfold lowerAscii
      rw [if_neg (by omega)]
    rw [this]; exact ⟨rfl, rfl, rfl⟩

theorem trimmed_lower {s t : Str} (h : Trimmed s t) : Trimmed (s.map lowerAscii) (t.map lowerAscii) := by
  obtain ⟨a, b, rfl, ha, hb, h1, h2⟩ := h
  refine ⟨a.map lowerAscii, b.map lowerAscii, by simp, ?_, ?_, ?_, ?_⟩
  · intro c hc
    obtain ⟨d, hd, rfl⟩ := List.mem_map.1 hc
    rw [IsSpace, (lower_facts d).2.1]; exact ha d hd
  · intro c hc
    obtain ⟨d, hd, rfl⟩ := List.mem_map.1 hc
    rw [IsSpace, (lower_facts d).2.1]; exact hb d hd
  · intro c hc
    rw [List.head?_map] at hc
    obtain ⟨d, hd, rfl⟩ := Option.map_eq_some_iff.1 hc
    rw [IsSpace, (lower_facts d).2.1]; exact h1 d hd
  · intro c hc
    rw [List.getLast?_map] at hc
    obtain ⟨d, hd, rfl⟩ := Option.map_eq_some_iff.1 hc
    rw [IsSpace, (lower_facts d).2.1]; exact h2 d hd

theorem labelSpace_lower (c : Char) : LabelSpace (lowerAscii c) ↔ LabelSpace c := by
  rw [← isLabelSpace_iff, ← isLabelSpace_iff, (lower_facts c).2.2]

theorem collapse_lower {s t : Str} (h : Collapse s t) : Collapse (s.map lowerAscii) (t.map lowerAscii) := by
  induction h with
  | nil => exact .nil
  | keep hc _ ih => exact .keep (by rwa [labelSpace_lower]) ih
  | @run w s t hne hw hs _ ih =>
    rw [List.map_append, List.map_cons, show lowerAscii ' ' = ' ' by decide]
    refine .run (by simpa using hne) ?_ ?_ ih
    · intro c hc
      obtain ⟨d, hd, rfl⟩ := List.mem_map.1 hc
      rw [labelSpace_lower]; exact hw d hd
    · intro c hc
      rw [List.head?_map] at hc
      obtain ⟨d, hd, rfl⟩ := Option.map_eq_some_iff.1 hc
      rw [labelSpace_lower]; exact hs d hd

theorem normalize_lower (x : Str) :
    normalizeReference ('[' :: x.map lowerAscii ++ [']']) = normalizeReference ('[' :: x ++ [']']) := by
  obtain ⟨t, u, v, h1, h2, h3⟩ := C22_key_exists x
  rw [C22_key h1 h2 h3, normalizeReference_label, (strip_iff _ _).2 (trimmed_lower h1), (sub_iff _ _).2 (collapse_lower h2),
    ← (caseFold_iff u v).2 h3]
  simp only [caseFold, List.flatMap_map, Function.comp_def, (lower_facts _).1]

/-- C22: the case of ASCII letters does not matter. -/
theorem C22_ascii_case {x y : Str} (h : List.Forall₂ SameLetter x y) :
    normalizeReference ('[' :: x ++ [']']) = normalizeReference ('[' :: y ++ [']']) := by
  rw [← normalize_lower x, ← normalize_lower y]
  have : x.map lowerAscii = y.map lowerAscii := by
    induction h with
    | nil => rfl
    | @cons c d _ _ hcd _ ih =>
      rw [List.map_cons, List.map_cons, ih]
      congr 1
      rcases hcd with rfl | ⟨h1, h2, h3⟩ | ⟨h1, h2, h3⟩
      · rfl
      · unfold lowerAscii
        rw [if_pos ⟨h1, h2⟩, if_neg (by omega), ← h3, Char.ofNat_toNat]
      · unfold lowerAscii
        rw [if_neg (by omega), if_pos ⟨h1, h2⟩, ← h3, Char.ofNat_toNat]
  rw [this]

/-- C22: the table in use is the one written in the source, decoded. -/
theorem C22_table : parseTable (foldRaw.flatMap String.toList) = foldRanges := parseTable_raw

/-- A label with a character that folds to two, and white space of all kinds. -/
example : Trimmed " Foo\t\n Straße ".toList "Foo\t\n Straße".toList ∧ Collapse "Foo\t\n Straße".toList "Foo Straße".toList ∧
    FoldsText foldRanges "Foo Straße".toList "foo strasse".toList :=
  ⟨(strip_iff _ _).1 (by decide +kernel), (sub_iff _ _).1 (by decide +kernel), (caseFold_iff _ _).1 (by decide +kernel)⟩

example : normalizeReference "[ Foo\t\n Straße ]".toList = normalizeReference "[foo STRASSE]".toList := by decide +kernel

example : List.Forall₂ SameLetter "aB1".toList "Ab1".toList := by
  refine .cons (Or.inr (Or.inr (by decide))) (.cons (Or.inr (Or.inl (by decide))) (.cons (Or.inl rfl) .nil))

end CM
