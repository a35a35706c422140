import Verif.Model.Common
import Verif.Spec.Text
/-
Lemmas for C11-C13.
-/
namespace CM
open Spec

/-! ### The model's UTF-8 encoder is Lean's -/

theorem utf8_eq (c : Char) : utf8 c = (String.utf8EncodeChar c).map UInt8.toNat := by
  have hc : c.val.toNat = c.toNat := rfl
  have hlt : c.toNat < 0x110000 := by
    have := c.valid
    rcases this with h | h <;> simp only [← Char.toNat_val] at * <;> omega
  unfold utf8 String.utf8EncodeChar
  simp only [hc]
  by_cases h1 : c.toNat < 128
  · rw [if_pos h1, if_pos (show c.toNat ≤ 127 by omega)]; simp; omega
  · rw [if_neg h1, if_neg (show ¬ c.toNat ≤ 127 by omega)]
    by_cases h2 : c.toNat < 0x800
    · rw [if_pos h2, if_pos (show c.toNat ≤ 2047 by omega)]; simp; omega
    · rw [if_neg h2, if_neg (show ¬ c.toNat ≤ 2047 by omega)]
      by_cases h3 : c.toNat < 0x10000
      · rw [if_pos h3, if_pos (show c.toNat ≤ 65535 by omega)]; simp; omega
      · rw [if_neg h3, if_neg (show ¬ c.toNat ≤ 65535 by omega)]; simp; omega

theorem utf8Str_eq (s : Str) : utf8Str s = utf8Bytes s := by
  simp only [utf8Str, utf8Bytes, List.map_flatMap]
  congr 1; funext c; exact utf8_eq c

theorem utf8Str_lt (s : Str) : ∀ b ∈ utf8Str s, b < 256 := by
  rw [utf8Str_eq]
  intro b hb
  simp only [utf8Bytes, List.mem_map] at hb
  obtain ⟨x, _, rfl⟩ := hb
  exact x.toNat_lt

theorem utf8_ascii {c : Char} (h : c.toNat < 128) : utf8 c = [c.toNat] := by simp [utf8, h]

/-! ### Facts about one byte, for the 256 bytes there are -/

theorem quoteByte_alphabet : ∀ b < 256, ∀ c ∈ quoteByte b, c ∈ uriAlphabet := by decide +kernel

theorem alphabet_fixed : ∀ c ∈ uriAlphabet, c.toNat < 128 ∧ quoteByte c.toNat = [c] := by decide +kernel

theorem quoteByte_cases : ∀ b < 256,
    ((quoteByte b).map Char.toNat = [b] ∨
      ∃ x y, hexValue x = some (b / 16) ∧ hexValue y = some (b % 16) ∧ hexValue b = none ∧ b ≠ 0x25 ∧
        (quoteByte b).map Char.toNat = [0x25, x, y]) := by
  have h : ∀ b < 256, ((quoteByte b).map Char.toNat = [b] ∨
      (hexValue b = none ∧ b ≠ 0x25 ∧ (quoteByte b).length = 3 ∧ (quoteByte b).map Char.toNat =
        [0x25, ((quoteByte b)[1]?.getD 'x').toNat, ((quoteByte b)[2]?.getD 'x').toNat] ∧
        hexValue ((quoteByte b)[1]?.getD 'x').toNat = some (b / 16) ∧
        hexValue ((quoteByte b)[2]?.getD 'x').toNat = some (b % 16))) := by decide +kernel
  intro b hb
  rcases h b hb with h | ⟨h1, h2, _, h3, h4, h5⟩
  · exact .inl h
  · exact .inr ⟨_, _, h4, h5, h1, h2, h3⟩

theorem mem_normalizeUri_alphabet (s : Str) : ∀ c ∈ normalizeUri s, c ∈ uriAlphabet := by
  intro c hc
  simp only [normalizeUri, List.mem_flatMap] at hc
  obtain ⟨b, hb, hc⟩ := hc
  exact quoteByte_alphabet b (utf8Str_lt s b hb) c hc

theorem normalizeUri_of_alphabet (s : Str) (h : ∀ c ∈ s, c ∈ uriAlphabet) : normalizeUri s = s := by
  induction s with
  | nil => rfl
  | cons c s ih =>
    have hc := alphabet_fixed c (h c (by simp))
    have := ih (fun d hd => h d (by simp [hd]))
    simp only [normalizeUri, utf8Str] at *
    simp [utf8_ascii hc.1, hc.2, this]

/-! ### Percent-decoding -/

theorem percentDecode_cons_ne {c : Nat} (hc : c ≠ 0x25) (s : List Nat) :
    percentDecode (c :: s) = c :: percentDecode s := by
  rw [percentDecode]
  intros; contradiction

theorem percentDecode_hex {a b x y : Nat} (ha : hexValue a = some x) (hb : hexValue b = some y) (s : List Nat) :
    percentDecode (0x25 :: a :: b :: s) = (16 * x + y) :: percentDecode s := by
  rw [percentDecode, ha, hb]

theorem percentDecode_not_hex1 {a : Nat} (ha : hexValue a = none) (s : List Nat) :
    percentDecode (0x25 :: a :: s) = 0x25 :: percentDecode (a :: s) := by
  cases s with
  | nil => rw [percentDecode]; simp
  | cons b s => rw [percentDecode, ha]

theorem percentDecode_not_hex2 {a b : Nat} (hb : hexValue b = none) (s : List Nat) :
    percentDecode (0x25 :: a :: b :: s) = 0x25 :: percentDecode (a :: b :: s) := by
  rw [percentDecode, hb]; cases hexValue a <;> simp

theorem hexValue_pct : hexValue 0x25 = none := by decide

theorem percentDecode_quote (n : Nat) : ∀ l : List Nat, l.length ≤ n → (∀ b ∈ l, b < 256) →
    percentDecode ((l.flatMap quoteByte).map Char.toNat) = percentDecode l := by
  induction n with
  | zero => intro l hl _; cases l <;> simp_all
  | succ n ih =>
    intro l hl hb
    cases l with
    | nil => rfl
    | cons c l =>
      have ihl := ih l (by simpa using hl) (fun b h => hb b (by simp [h]))
      rw [List.flatMap_cons, List.map_append]
      have hc := hb c (by simp)
      rcases quoteByte_cases c hc with h | ⟨x, y, hx, hy, _, hne, h⟩
      · rw [h, List.singleton_append]
        by_cases hp : c = 0x25
        · subst hp
          match l with
          | [] => rfl
          | [a] =>
            rw [List.flatMap_cons, List.map_append] at ihl ⊢
            rcases quoteByte_cases a (hb a (by simp)) with h | ⟨x, y, hx, hy, hn, hne, h⟩
            · rw [h]; rfl
            · rw [h, List.cons_append] at ihl ⊢
              rw [percentDecode_not_hex1 hexValue_pct, ihl, percentDecode_not_hex1 hn]
          | a :: b :: t =>
            rw [List.flatMap_cons, List.map_append] at ihl ⊢
            cases ha : hexValue a with
            | none =>
              rw [percentDecode_not_hex1 ha, ← ihl]
              rcases quoteByte_cases a (hb a (by simp)) with h | ⟨x, y, hx, hy, hn, hne, h⟩ <;> rw [h]
              · exact percentDecode_not_hex1 ha _
              · exact percentDecode_not_hex1 hexValue_pct _
            | some x =>
              have h : (quoteByte a).map Char.toNat = [a] := by
                rcases quoteByte_cases a (hb a (by simp)) with h | ⟨_, _, _, _, hn, _, _⟩
                · exact h
                · rw [hn] at ha; simp at ha
              rw [h] at ihl ⊢
              rw [List.flatMap_cons, List.map_append] at ihl ⊢
              cases hb' : hexValue b with
              | none =>
                rw [percentDecode_not_hex2 hb', ← ihl]
                rcases quoteByte_cases b (hb b (by simp)) with h | ⟨x, y, hx, hy, hn, hne, h⟩ <;> rw [h]
                · exact percentDecode_not_hex2 hb' _
                · exact percentDecode_not_hex2 hexValue_pct _
              | some y =>
                have h : (quoteByte b).map Char.toNat = [b] := by
                  rcases quoteByte_cases b (hb b (by simp)) with h | ⟨_, _, _, _, hn, _, _⟩
                  · exact h
                  · rw [hn] at hb'; simp at hb'
                rw [h]
                simp only [List.singleton_append]
                rw [percentDecode_hex ha hb', percentDecode_hex ha hb',
                  ih t (by simp at hl; omega) (fun b h => hb b (by simp [h]))]
        · rw [percentDecode_cons_ne hp, percentDecode_cons_ne hp, ihl]
      · rw [h, percentDecode_cons_ne hne]
        simp only [List.cons_append, List.nil_append]
        rw [percentDecode_hex hx hy, ihl]
        congr 1; omega

theorem percentDecode_id (l : List Nat) (h : 0x25 ∉ l) : percentDecode l = l := by
  induction l with
  | nil => rfl
  | cons c l ih =>
    simp only [List.mem_cons, not_or] at h
    rw [percentDecode_cons_ne (fun e => h.1 e.symm), ih h.2]

theorem utf8_no_percent {c : Char} (h : c ≠ '%') : 0x25 ∉ utf8 c := by
  intro hm
  unfold utf8 at hm
  simp only at hm
  have hn : c.toNat ≠ 0x25 := fun e => h (Char.toNat_inj.mp e)
  split at hm
  · simp at hm; omega
  · split at hm
    · simp at hm; omega
    · split at hm <;> simp at hm <;> omega

theorem utf8Bytes_injective {s t : Str} (h : utf8Bytes s = utf8Bytes t) : s = t := by
  have h1 : s.flatMap String.utf8EncodeChar = t.flatMap String.utf8EncodeChar :=
    (List.map_inj_right (fun a b e => UInt8.toNat_inj.mp e)).mp h
  have h2 : s.utf8Encode = t.utf8Encode := by simp only [List.utf8Encode, h1]
  have h3 : String.ofList s = String.ofList t := by
    rw [← String.toByteArray_inj, String.toByteArray_ofList, String.toByteArray_ofList, h2]
  simpa using congrArg String.toList h3

end CM
