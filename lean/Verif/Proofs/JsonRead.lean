import Verif.Proofs.Compose
import Verif.Proofs.HtmlSafe
import Verif.Spec.JsonRead
import Mathlib.Data.List.Forall2
/-
The text of a JSON dump is read back as the value dumped (C62).
-/
set_option linter.unusedSimpArgs false
namespace CM
open Spec

/-! ### Strings -/

theorem jsonHex_lower : ∀ n, n < 16 → jsonHex (hexLower n) = some n := by decide

theorem jsonHex4_jsonU {n : Nat} (h : n < 65536) :
    jsonHex4 (hexLower (n / 4096 % 16)) (hexLower (n / 256 % 16)) (hexLower (n / 16 % 16)) (hexLower (n % 16)) = some n := by
  unfold jsonHex4
  rw [jsonHex_lower _ (by omega), jsonHex_lower _ (by omega), jsonHex_lower _ (by omega), jsonHex_lower _ (by omega)]
  simp only [bind, Option.bind, pure, Option.some.injEq]
  omega

theorem readUnits_u {n : Nat} (h : n < 65536) (s : Str) :
    readUnits (jsonU n ++ s) = (readUnits s).map fun p => (n :: p.1, p.2) := by
  simp only [jsonU, List.cons_append, List.nil_append]
  rw [readUnits.eq_def]
  simp only
  rw [if_neg (by decide)]
  simp only [if_true]
  rw [jsonHex4_jsonU h]
  cases readUnits s <;> rfl

theorem readUnits_escape {c : Char} {n : Nat} (hc : c ≠ 'u') (h : jsonEscapes.lookup c = some n) (s : Str) :
    readUnits ('\\' :: c :: s) = (readUnits s).map fun p => (n :: p.1, p.2) := by
  rw [readUnits.eq_def]
  simp only
  rw [if_neg (by decide)]
  simp only [hc, if_true, if_false, h]
  cases readUnits s <;> rfl

theorem readUnits_char (c : Char) (s : Str) :
    readUnits (jsonChar c ++ s) = (readUnits s).map fun p => (utf16Units c ++ p.1, p.2) := by
  have small : ∀ {c : Char}, c.toNat < 0x10000 → utf16Units c = [c.toNat] := fun h => by rw [utf16Units, if_pos h]
  have ofNat : ∀ {c d : Char}, c.toNat = d.toNat → c = d := fun {c d} h => by
    rw [← Char.ofNat_toNat c, ← Char.ofNat_toNat d, h]
  unfold jsonChar
  by_cases h1 : c = '"'
  · subst h1; exact readUnits_escape (by decide) (by decide) s
  by_cases h2 : c = '\\'
  · subst h2; exact readUnits_escape (by decide) (by decide) s
  by_cases h3 : c = '\n'
  · subst h3; exact readUnits_escape (by decide) (by decide) s
  by_cases h4 : c = '\r'
  · subst h4; exact readUnits_escape (by decide) (by decide) s
  by_cases h5 : c = '\t'
  · subst h5; exact readUnits_escape (by decide) (by decide) s
  by_cases h6 : c.toNat = 12
  · have : c = Char.ofNat 12 := ofNat (by rw [h6]; rfl)
    subst this; exact readUnits_escape (by decide) (by decide) s
  by_cases h7 : c.toNat = 8
  · have : c = Char.ofNat 8 := ofNat (by rw [h7]; rfl)
    subst this; exact readUnits_escape (by decide) (by decide) s
  simp only [beq_iff_eq, h1, h2, h3, h4, h5, h6, h7, if_false, Bool.and_eq_true, decide_eq_true_eq]
  by_cases h8 : 32 ≤ c.toNat ∧ c.toNat ≤ 126
  · rw [if_pos h8, small (by omega)]
    simp only [List.cons_append, List.nil_append]
    rw [readUnits.eq_def]
    simp only
    rw [if_neg h1, if_neg h2, if_neg (by omega), small (by omega)]
    cases readUnits s <;> rfl
  rw [if_neg h8]
  by_cases h9 : c.toNat < 0x10000
  · rw [if_pos h9, small h9, readUnits_u h9]; rfl
  · have hm : c.toNat < 0x110000 := by
      have := c.valid
      rcases this with h | ⟨-, h⟩
      · have : c.toNat < 0xd800 := h
        omega
      · exact h
    rw [if_neg h9, List.append_assoc, readUnits_u (by omega), readUnits_u (by omega)]
    rw [utf16Units, if_neg h9]
    cases readUnits s <;> rfl

theorem readUnits_text (x s : Str) :
    readUnits (x.flatMap jsonChar ++ '"' :: s) = some (x.flatMap utf16Units, s) := by
  induction x with
  | nil => rw [readUnits.eq_def]; rfl
  | cons c x ih =>
    rw [List.flatMap_cons, List.append_assoc, readUnits_char, ih]; rfl

theorem utf16Decode_char (c : Char) (us : List Nat) :
    utf16Decode (utf16Units c ++ us) = (utf16Decode us).map (c :: ·) := by
  have hv := c.valid
  have hn : c.toNat = c.val.toNat := rfl
  have hv : c.toNat < 0xd800 ∨ 0xdfff < c.toNat ∧ c.toNat < 0x110000 := hv
  unfold utf16Units
  by_cases h9 : c.toNat < 0x10000
  · rw [if_pos h9]
    simp only [List.cons_append, List.nil_append]
    rw [utf16Decode.eq_def]; simp only; rw [if_pos (by omega), Char.ofNat_toNat]
    cases utf16Decode us <;> rfl
  · rw [if_neg h9]
    simp only [List.cons_append, List.nil_append]
    rw [utf16Decode.eq_def]; simp only; rw [if_neg (by omega), if_pos (by omega)]
    rw [if_pos (by omega)]
    have : 0x10000 + 1024 * (0xD800 + (c.toNat - 0x10000) / 1024 - 0xD800) + (0xDC00 + (c.toNat - 0x10000) % 1024 - 0xDC00) = c.toNat := by
      omega
    rw [this, Char.ofNat_toNat]
    cases utf16Decode us <;> rfl

theorem utf16Decode_text (x : Str) : utf16Decode (x.flatMap utf16Units) = some x := by
  induction x with
  | nil => rfl
  | cons c x ih => rw [List.flatMap_cons, utf16Decode_char, ih]; rfl

theorem readString_text (x s : Str) : readString (x.flatMap jsonChar ++ '"' :: s) = some (x, s) := by
  simp only [readString, readUnits_text, bind, Option.bind, utf16Decode_text, pure]

/-! ### Numbers -/

theorem natToStr_isDigit {n : Nat} : ∀ c ∈ natToStr n, c.isDigit = true := fun _ h =>
  Nat.isDigit_of_mem_toDigits (b := 10) (by decide) (by decide) h

theorem natToStr_head : ∀ (n : Nat), 0 < n → (natToStr n).head? ≠ some '0' := by
  intro n
  induction n using Nat.strongRecOn with
  | _ n ih =>
    intro hn
    unfold natToStr at *
    by_cases h : n < 10
    · rw [Nat.toDigits_of_lt_base h]
      have : ∀ n, n < 10 → 0 < n → [n.digitChar].head? ≠ some '0' := by decide
      exact this n h hn
    · rw [Nat.toDigits_of_base_le (by decide) (by omega)]
      have := ih (n / 10) (by omega) (by omega)
      have h2 : Nat.toDigits 10 (n / 10) ≠ [] := Nat.toDigits_ne_nil
      cases hd : Nat.toDigits 10 (n / 10) with
      | nil => exact absurd hd h2
      | cons a b => rw [hd] at this; simpa using this

theorem readNat_text {n : Nat} {s : Str} (hs : ∀ c, s.head? = some c → c.isDigit = false) :
    readNat (natToStr n ++ s) = some (n, s) := by
  have e1 : (natToStr n ++ s).takeWhile Char.isDigit = natToStr n := by
    rw [List.takeWhile_append_of_pos natToStr_isDigit]
    cases s with
    | nil => simp
    | cons c s => simp [List.takeWhile_cons, hs c rfl]
  have e2 : (natToStr n ++ s).dropWhile Char.isDigit = s := by
    rw [List.dropWhile_append_of_pos natToStr_isDigit]
    cases s with
    | nil => rfl
    | cons c s => simp [List.dropWhile_cons, hs c rfl]
  unfold readNat
  simp only [e1, e2]
  rw [if_neg]
  · congr 2
    exact Nat.ofDigitChars_toDigits (b := 10) (n := n) (by decide) (by decide)
  · rintro (h | ⟨h1, h2⟩)
    · exact Nat.toDigits_ne_nil h
    · by_cases hn : 0 < n
      · exact natToStr_head n hn h2
      · have : n = 0 := by omega
        subst this
        exact absurd h1 (by decide)

/-! ### Values -/

mutual
/-- A bound for the recursion of the reader. -/
def Json.need : Json → Nat
  | .null => 1
  | .bool _ => 1
  | .num _ => 1
  | .str _ => 1
  | .arr xs => 1 + Json.needArr xs
  | .obj kvs => 1 + Json.needObj kvs
def Json.needArr : List Json → Nat
  | [] => 0
  | x :: xs => 1 + x.need + Json.needArr xs
def Json.needObj : List (Str × Json) → Nat
  | [] => 0
  | (_, x) :: kvs => 1 + x.need + Json.needObj kvs
end

/-- White space of JSON. -/
def jsonWhite (c : Char) : Bool := c == ' ' || c == '\n' || c == '\r' || c == '\t'

theorem skipWhite_cons {c : Char} {s : Str} (h : jsonWhite c = false) : skipWhite (c :: s) = c :: s := by
  unfold jsonWhite at h
  simp only [skipWhite, List.dropWhile_cons, h, Bool.false_eq_true, if_false]

theorem skipWhite_nl (k : Nat) (s : Str) : skipWhite (jsonNl k ++ s) = skipWhite s := by
  have : ∀ n, skipWhite (List.replicate n ' ' ++ s) = skipWhite s := by
    intro n
    induction n with
    | zero => rfl
    | succ n ih => rw [List.replicate_succ, List.cons_append, ← ih]; rfl
  rw [jsonNl, List.cons_append, ← this (4 * k)]; rfl

theorem skipWhite_space (s : Str) : skipWhite (' ' :: s) = skipWhite s := rfl

/-- The rest does not go on with a digit. -/
def NoDigit (s : Str) : Prop := ∀ c, s.head? = some c → c.isDigit = false

theorem noDigit_cons {c : Char} {s : Str} (h : c.isDigit = false) : NoDigit (c :: s) := by
  intro d hd; cases hd; exact h

/-- A value begins with a character that is neither white space nor a closing bracket. -/
theorem dump_head (v : Json) (l : Nat) : ∃ c r, v.dump l = c :: r ∧ jsonWhite c = false ∧ c ≠ ']' := by
  cases v with
  | null => exact ⟨_, _, rfl, by decide, by decide⟩
  | bool b => cases b <;> exact ⟨_, _, rfl, by decide, by decide⟩
  | num n =>
    cases h : natToStr n with
    | nil => exact absurd h Nat.toDigits_ne_nil
    | cons c r =>
      have := natToStr_digits n c (by rw [h]; exact List.mem_cons_self)
      have key : ∀ c ∈ "0123456789".toList, jsonWhite c = false ∧ c ≠ ']' := by decide
      exact ⟨c, r, by rw [Json.dump, h], key c this⟩
  | str s => exact ⟨_, _, by rw [Json.dump, jsonStr], by decide, by decide⟩
  | arr xs =>
    cases xs with
    | nil => exact ⟨'[', [']'], by rw [Json.dump]; rfl, by decide, by decide⟩
    | cons => exact ⟨'[', _, by rw [Json.dump], by decide, by decide⟩
  | obj xs =>
    rcases xs with _ | ⟨⟨k, x⟩, xs⟩
    · exact ⟨'{', ['}'], by rw [Json.dump]; rfl, by decide, by decide⟩
    · exact ⟨'{', _, by rw [Json.dump], by decide, by decide⟩

theorem readValue_num {n m : Nat} {s rest : Str} (hs : skipWhite s = natToStr m ++ rest) (hr : NoDigit rest) :
    readValue (n + 1) s = some (.num m, rest) := by
  have hn := readNat_text (n := m) hr
  cases h : natToStr m with
  | nil => exact absurd h Nat.toDigits_ne_nil
  | cons c r =>
    have hc := natToStr_digits m c (by rw [h]; exact List.mem_cons_self)
    rw [h] at hs hn
    have key : ∀ c ∈ "0123456789".toList, c ≠ '"' ∧ c ≠ '[' ∧ c ≠ '{' ∧ c ≠ 'n' ∧ c ≠ 't' ∧ c ≠ 'f' := by decide
    obtain ⟨k1, k2, k3, k4, k5, k6⟩ := key c hc
    rw [readValue]
    rw [hs]
    simp only [List.cons_append] at hn ⊢
    split <;> rename_i heq <;> simp only [List.cons.injEq] at heq
    · exact absurd heq.1 k1
    · exact absurd heq.1 k2
    · exact absurd heq.1 k3
    · exact absurd heq.1 k4
    · exact absurd heq.1 k5
    · exact absurd heq.1 k6
    · rw [hn]; rfl

theorem readValue_str {n : Nat} {x s rest : Str} (hs : skipWhite s = jsonStr x ++ rest) :
    readValue (n + 1) s = some (.str x, rest) := by
  rw [readValue, hs]
  simp only [jsonStr, List.cons_append, List.append_assoc, List.nil_append]
  rw [readString_text]; rfl

/-- The rest of an array after an item. -/
def arrTail (l : Nat) (xs : List Json) (rest : Str) : Str := Json.dumpArr l xs ++ (jsonNl l ++ ']' :: rest)
/-- The rest of an object after a member. -/
def objTail (l : Nat) (xs : List (Str × Json)) (rest : Str) : Str := Json.dumpObj l xs ++ (jsonNl l ++ '}' :: rest)

theorem noDigit_arrTail (l : Nat) (xs : List Json) (rest : Str) : NoDigit (arrTail l xs rest) := by
  cases xs with
  | nil => exact noDigit_cons (by decide)
  | cons x xs => rw [arrTail, Json.dumpArr]; exact noDigit_cons (by decide)

theorem noDigit_objTail (l : Nat) (xs : List (Str × Json)) (rest : Str) : NoDigit (objTail l xs rest) := by
  rcases xs with _ | ⟨⟨k, x⟩, xs⟩
  · exact noDigit_cons (by decide)
  · rw [objTail, Json.dumpObj]; exact noDigit_cons (by decide)

mutual
/-- A dumped value is read back. -/
theorem readValue_dump : ∀ (v : Json) (l n : Nat) (s rest : Str), v.need ≤ n → NoDigit rest → skipWhite s = v.dump l ++ rest →
    readValue n s = some (v, rest)
  | .null, l, n, s, rest, hn, hr, hs => by
    obtain ⟨n, rfl⟩ : ∃ m, n = m + 1 := ⟨n - 1, by rw [Json.need] at hn; omega⟩
    rw [readValue, hs]; rfl
  | .bool b, l, n, s, rest, hn, hr, hs => by
    obtain ⟨n, rfl⟩ : ∃ m, n = m + 1 := ⟨n - 1, by rw [Json.need] at hn; omega⟩
    rw [readValue, hs]; cases b <;> rfl
  | .num m, l, n, s, rest, hn, hr, hs => by
    obtain ⟨n, rfl⟩ : ∃ m, n = m + 1 := ⟨n - 1, by rw [Json.need] at hn; omega⟩
    exact readValue_num hs hr
  | .str x, l, n, s, rest, hn, hr, hs => by
    obtain ⟨n, rfl⟩ : ∃ m, n = m + 1 := ⟨n - 1, by rw [Json.need] at hn; omega⟩
    exact readValue_str hs
  | .arr [], l, n, s, rest, hn, hr, hs => by
    obtain ⟨n, rfl⟩ : ∃ m, n = m + 1 := ⟨n - 1, by rw [Json.need] at hn; omega⟩
    rw [readValue, hs]; rfl
  | .arr (x :: xs), l, n, s, rest, hn, hr, hs => by
    rw [Json.need] at hn
    obtain ⟨n, rfl⟩ : ∃ m, n = m + 1 := ⟨n - 1, by omega⟩
    have hs : skipWhite s = '[' :: (jsonNl (l + 1) ++ (x.dump (l + 1) ++ arrTail l xs rest)) := by
      rw [hs, Json.dump]; simp [arrTail]
    have h := readItems_dump (x :: xs) x xs rfl l n (jsonNl (l + 1) ++ (x.dump (l + 1) ++ arrTail l xs rest)) rest (by omega)
    obtain ⟨c, r, hx, h1, h2⟩ := dump_head x (l + 1)
    have hw : skipWhite (jsonNl (l + 1) ++ (x.dump (l + 1) ++ arrTail l xs rest)) = x.dump (l + 1) ++ arrTail l xs rest := by
      rw [skipWhite_nl, hx, List.cons_append, skipWhite_cons h1]
    have hw2 : skipWhite (x.dump (l + 1) ++ arrTail l xs rest) = x.dump (l + 1) ++ arrTail l xs rest := by
      rw [hx, List.cons_append, skipWhite_cons h1]
    have h := readItems_dump (x :: xs) x xs rfl l n _ rest (by omega) hw2
    rw [readValue, hs]
    simp only [hw]
    split
    · rename_i heq
      rw [hx, List.cons_append, List.cons.injEq] at heq
      exact absurd heq.1 h2
    · rw [h]; rfl
  | .obj [], l, n, s, rest, hn, hr, hs => by
    obtain ⟨n, rfl⟩ : ∃ m, n = m + 1 := ⟨n - 1, by rw [Json.need] at hn; omega⟩
    rw [readValue, hs]; rfl
  | .obj ((k, x) :: xs), l, n, s, rest, hn, hr, hs => by
    rw [Json.need] at hn
    obtain ⟨n, rfl⟩ : ∃ m, n = m + 1 := ⟨n - 1, by omega⟩
    have hs : skipWhite s = '{' :: (jsonNl (l + 1) ++ (jsonStr k ++ (':' :: ' ' :: (x.dump (l + 1) ++ objTail l xs rest)))) := by
      rw [hs, Json.dump]; simp [objTail]
    have hw : skipWhite (jsonNl (l + 1) ++ (jsonStr k ++ (':' :: ' ' :: (x.dump (l + 1) ++ objTail l xs rest)))) =
        jsonStr k ++ (':' :: ' ' :: (x.dump (l + 1) ++ objTail l xs rest)) := by
      rw [skipWhite_nl]; rfl
    have h := readMembers_dump ((k, x) :: xs) k x xs rfl l n _ rest (by omega)
      (show skipWhite (jsonStr k ++ (':' :: ' ' :: (x.dump (l + 1) ++ objTail l xs rest))) = _ from rfl)
    rw [readValue, hs]
    simp only [hw]
    split
    · rename_i heq
      simp [jsonStr] at heq
    · rw [h]; rfl
theorem readItems_dump : ∀ (ys : List Json) (x : Json) (xs : List Json), ys = x :: xs → ∀ (l n : Nat) (s rest : Str),
    Json.needArr ys ≤ n → skipWhite s = x.dump (l + 1) ++ arrTail l xs rest → readItems n s = some (ys, rest)
  | [], x, xs, hy, l, n, s, rest, hn, hs => nomatch hy
  | [y], x, xs, hy, l, n, s, rest, hn, hs => by
    cases hy
    rw [Json.needArr] at hn
    obtain ⟨n, rfl⟩ : ∃ m, n = m + 1 := ⟨n - 1, by omega⟩
    have h := readValue_dump y (l + 1) n s _ (by omega) (noDigit_arrTail l [] rest) hs
    rw [readItems, h]
    have : skipWhite (arrTail l [] rest) = ']' :: rest := by rw [arrTail, Json.dumpArr, List.nil_append, skipWhite_nl]; rfl
    simp only [bind, Option.bind, this]; rfl
  | y :: z :: zs, x, xs, hy, l, n, s, rest, hn, hs => by
    cases hy
    rw [Json.needArr] at hn
    obtain ⟨n, rfl⟩ : ∃ m, n = m + 1 := ⟨n - 1, by omega⟩
    have h := readValue_dump y (l + 1) n s _ (by omega) (noDigit_arrTail l (z :: zs) rest) hs
    have e : arrTail l (z :: zs) rest = ',' :: (jsonNl (l + 1) ++ (z.dump (l + 1) ++ arrTail l zs rest)) := by
      rw [arrTail, Json.dumpArr]; simp [arrTail]
    obtain ⟨c, r, hx, h1, h2⟩ := dump_head z (l + 1)
    have h2 := readItems_dump (z :: zs) z zs rfl l n (jsonNl (l + 1) ++ (z.dump (l + 1) ++ arrTail l zs rest)) rest (by omega)
      (by rw [skipWhite_nl, hx, List.cons_append, skipWhite_cons h1])
    rw [readItems, h]
    have : skipWhite (arrTail l (z :: zs) rest) = ',' :: (jsonNl (l + 1) ++ (z.dump (l + 1) ++ arrTail l zs rest)) := by rw [e]; rfl
    simp only [bind, Option.bind, this, h2]; rfl
theorem readMembers_dump : ∀ (ys : List (Str × Json)) (k : Str) (x : Json) (xs : List (Str × Json)), ys = (k, x) :: xs →
    ∀ (l n : Nat) (s rest : Str), Json.needObj ys ≤ n →
    skipWhite s = jsonStr k ++ (':' :: ' ' :: (x.dump (l + 1) ++ objTail l xs rest)) → readMembers n s = some (ys, rest)
  | [], k, x, xs, hy, l, n, s, rest, hn, hs => nomatch hy
  | [(j, y)], k, x, xs, hy, l, n, s, rest, hn, hs => by
    cases hy
    rw [Json.needObj] at hn
    obtain ⟨n, rfl⟩ : ∃ m, n = m + 1 := ⟨n - 1, by omega⟩
    obtain ⟨c, r, hx, h1, h2⟩ := dump_head y (l + 1)
    have h := readValue_dump y (l + 1) n (' ' :: (y.dump (l + 1) ++ objTail l [] rest)) _ (by omega) (noDigit_objTail l [] rest)
      (by rw [skipWhite_space, hx, List.cons_append, skipWhite_cons h1])
    rw [readMembers, hs]
    simp only [jsonStr, List.cons_append, List.append_assoc, List.nil_append]
    rw [readString_text]
    have hc : ∀ s, skipWhite (':' :: s) = ':' :: s := fun s => rfl
    have : skipWhite (objTail l [] rest) = '}' :: rest := by rw [objTail, Json.dumpObj, List.nil_append, skipWhite_nl]; rfl
    simp only [bind, Option.bind, hc, h, this]; rfl
  | (j, y) :: (j', z) :: zs, k, x, xs, hy, l, n, s, rest, hn, hs => by
    cases hy
    rw [Json.needObj] at hn
    obtain ⟨n, rfl⟩ : ∃ m, n = m + 1 := ⟨n - 1, by omega⟩
    obtain ⟨c, r, hx, h1, h2⟩ := dump_head y (l + 1)
    have h := readValue_dump y (l + 1) n (' ' :: (y.dump (l + 1) ++ objTail l ((j', z) :: zs) rest)) _ (by omega)
      (noDigit_objTail l ((j', z) :: zs) rest) (by rw [skipWhite_space, hx, List.cons_append, skipWhite_cons h1])
    have e : objTail l ((j', z) :: zs) rest =
        ',' :: (jsonNl (l + 1) ++ (jsonStr j' ++ (':' :: ' ' :: (z.dump (l + 1) ++ objTail l zs rest)))) := by
      rw [objTail, Json.dumpObj]; simp [objTail]
    have h3 := readMembers_dump ((j', z) :: zs) j' z zs rfl l n
      (jsonNl (l + 1) ++ (jsonStr j' ++ (':' :: ' ' :: (z.dump (l + 1) ++ objTail l zs rest)))) rest (by omega)
      (by rw [skipWhite_nl]; rfl)
    rw [readMembers, hs]
    simp only [jsonStr, List.cons_append, List.append_assoc, List.nil_append]
    rw [readString_text]
    have hc : ∀ s, skipWhite (':' :: s) = ':' :: s := fun s => rfl
    have : skipWhite (objTail l ((j', z) :: zs) rest) =
        ',' :: (jsonNl (l + 1) ++ (jsonStr j' ++ (':' :: ' ' :: (z.dump (l + 1) ++ objTail l zs rest)))) := by rw [e]; rfl
    simp only [bind, Option.bind, hc, h, this, h3]; rfl
end

/-! ### The whole text -/

mutual
theorem need_le : ∀ (v : Json) (l : Nat), v.need ≤ (v.dump l).length
  | .null, l => by rw [Json.need, Json.dump]; decide
  | .bool b, l => by rw [Json.need, Json.dump]; cases b <;> decide
  | .num n, l => by
    rw [Json.need, Json.dump]
    have : natToStr n ≠ [] := Nat.toDigits_ne_nil
    have := List.length_pos_iff.2 this
    omega
  | .str s, l => by rw [Json.need, Json.dump]; simp [jsonStr]
  | .arr [], l => by rw [Json.need, Json.needArr, Json.dump]; decide
  | .arr (x :: xs), l => by
    rw [Json.need, Json.needArr, Json.dump]
    have h1 := need_le x (l + 1)
    have h2 := needArr_le xs l
    simp only [List.length_cons, List.length_append, jsonNl, List.length_replicate, List.length_nil]
    omega
  | .obj [], l => by rw [Json.need, Json.needObj, Json.dump]; decide
  | .obj ((k, x) :: xs), l => by
    rw [Json.need, Json.needObj, Json.dump]
    have h1 := need_le x (l + 1)
    have h2 := needObj_le xs l
    simp only [List.length_cons, List.length_append, jsonNl, List.length_replicate, List.length_nil]
    omega
theorem needArr_le : ∀ (xs : List Json) (l : Nat), Json.needArr xs ≤ (Json.dumpArr l xs).length
  | [], l => by rw [Json.needArr]; omega
  | x :: xs, l => by
    rw [Json.needArr, Json.dumpArr]
    have h1 := need_le x (l + 1)
    have h2 := needArr_le xs l
    simp only [List.length_cons, List.length_append]
    omega
theorem needObj_le : ∀ (xs : List (Str × Json)) (l : Nat), Json.needObj xs ≤ (Json.dumpObj l xs).length
  | [], l => by rw [Json.needObj]; omega
  | (k, x) :: xs, l => by
    rw [Json.needObj, Json.dumpObj]
    have h1 := need_le x (l + 1)
    have h2 := needObj_le xs l
    simp only [List.length_cons, List.length_append]
    omega
end

theorem readJson_dump (v : Json) : readJson (v.dump 0) = some v := by
  obtain ⟨c, r, hx, h1, h2⟩ := dump_head v 0
  have h := readValue_dump v 0 ((v.dump 0).length + 1) (v.dump 0) [] (by have := need_le v 0; omega)
    (by intro c hc; cases hc) (by rw [List.append_nil, hx, skipWhite_cons h1])
  simp only [readJson, h, bind, Option.bind]
  rfl

/-! ### ASCII -/

theorem hexLower_ascii : ∀ n, n < 16 → (hexLower n).toNat < 128 := by decide

theorem jsonU_ascii (n : Nat) : ∀ c ∈ jsonU n, c.toNat < 128 := by
  intro c hc
  simp only [jsonU, List.mem_cons, List.not_mem_nil, or_false] at hc
  rcases hc with h | h | h | h | h | h <;> subst h
  · decide
  · decide
  all_goals exact hexLower_ascii _ (by omega)

theorem jsonChar_ascii (a : Char) : ∀ c ∈ jsonChar a, c.toNat < 128 := by
  intro c hc
  have two : ∀ {b : Char}, b.toNat < 128 → c ∈ ['\\', b] → c.toNat < 128 := by
    intro b hb h
    simp only [List.mem_cons, List.not_mem_nil, or_false] at h
    rcases h with h | h <;> subst h
    · decide
    · exact hb
  unfold jsonChar at hc
  split at hc
  · exact two (by decide) hc
  split at hc
  · exact two (by decide) hc
  split at hc
  · exact two (by decide) hc
  split at hc
  · exact two (by decide) hc
  split at hc
  · exact two (by decide) hc
  split at hc
  · exact two (by decide) hc
  split at hc
  · exact two (by decide) hc
  split at hc
  · rename_i h
    simp only [Bool.and_eq_true, decide_eq_true_eq] at h
    rw [List.mem_singleton] at hc; subst hc; omega
  split at hc
  · exact jsonU_ascii _ c hc
  · rcases List.mem_append.1 hc with hc | hc <;> exact jsonU_ascii _ c hc

theorem jsonStr_ascii (s : Str) : ∀ c ∈ jsonStr s, c.toNat < 128 := by
  intro c hc
  simp only [jsonStr, List.mem_cons, List.mem_append, List.mem_flatMap, List.not_mem_nil, or_false] at hc
  rcases hc with h | ⟨a, -, h⟩ | h
  · subst h; decide
  · exact jsonChar_ascii a c h
  · subst h; decide

theorem jsonNl_ascii (n : Nat) : ∀ c ∈ jsonNl n, c.toNat < 128 := by
  intro c hc
  simp only [jsonNl, List.mem_cons, List.mem_replicate] at hc
  rcases hc with h | ⟨-, h⟩ <;> subst h <;> decide

mutual
theorem dump_ascii : ∀ (v : Json) (l : Nat), ∀ c ∈ v.dump l, c.toNat < 128
  | .null, l => by rw [Json.dump]; decide
  | .bool b, l => by rw [Json.dump]; cases b <;> decide
  | .num n, l => by
    rw [Json.dump]
    intro c hc
    have := natToStr_digits n c hc
    have key : ∀ c ∈ "0123456789".toList, c.toNat < 128 := by decide
    exact key c this
  | .str s, l => by rw [Json.dump]; exact jsonStr_ascii s
  | .arr [], l => by rw [Json.dump]; decide
  | .arr (x :: xs), l => by
    rw [Json.dump]
    intro c hc
    simp only [List.mem_cons, List.mem_append, List.not_mem_nil, or_false] at hc
    rcases hc with h | (((h | h) | h) | h) | h
    · subst h; decide
    · exact jsonNl_ascii _ c h
    · exact dump_ascii x _ c h
    · exact dumpArr_ascii xs l c h
    · exact jsonNl_ascii _ c h
    · subst h; decide
  | .obj [], l => by rw [Json.dump]; decide
  | .obj ((k, x) :: xs), l => by
    rw [Json.dump]
    intro c hc
    simp only [List.mem_cons, List.mem_append, List.not_mem_nil, or_false] at hc
    rcases hc with h | (((((h | h) | (h | h)) | h) | h) | h) | h
    · subst h; decide
    · exact jsonNl_ascii _ c h
    · exact jsonStr_ascii k c h
    · subst h; decide
    · subst h; decide
    · exact dump_ascii x _ c h
    · exact dumpObj_ascii xs l c h
    · exact jsonNl_ascii _ c h
    · subst h; decide
theorem dumpArr_ascii : ∀ (xs : List Json) (l : Nat), ∀ c ∈ Json.dumpArr l xs, c.toNat < 128
  | [], l => by rw [Json.dumpArr]; intro c hc; cases hc
  | x :: xs, l => by
    rw [Json.dumpArr]
    intro c hc
    simp only [List.mem_cons, List.mem_append] at hc
    rcases hc with ((h | h) | h) | h
    · subst h; decide
    · exact jsonNl_ascii _ c h
    · exact dump_ascii x _ c h
    · exact dumpArr_ascii xs l c h
theorem dumpObj_ascii : ∀ (xs : List (Str × Json)) (l : Nat), ∀ c ∈ Json.dumpObj l xs, c.toNat < 128
  | [], l => by rw [Json.dumpObj]; intro c hc; cases hc
  | (k, x) :: xs, l => by
    rw [Json.dumpObj]
    intro c hc
    simp only [List.mem_cons, List.mem_append, List.not_mem_nil, or_false] at hc
    rcases hc with ((((h | h) | h) | (h | h)) | h) | h
    · subst h; decide
    · exact jsonNl_ascii _ c h
    · exact jsonStr_ascii k c h
    · subst h; decide
    · subst h; decide
    · exact dump_ascii x _ c h
    · exact dumpObj_ascii xs l c h
end

/-! ### Nodes -/

theorem field_cons (k : String) (kv : Str × Json) (kvs : List (Str × Json)) :
    field k (.obj (kv :: kvs)) = if kv.1 = k.toList then some kv.2 else field k (.obj kvs) := by
  unfold field
  simp only [List.find?_cons]
  by_cases h : kv.1 = k.toList
  · simp [h]
  · rw [if_neg h, show (kv.1 == k.toList) = false from by simpa using h]

theorem field_append (k : String) (a b : List (Str × Json)) :
    field k (.obj (a ++ b)) = (field k (.obj a)).or (field k (.obj b)) := by
  induction a with
  | nil => simp [field]
  | cons kv a ih =>
    rw [List.cons_append, field_cons, field_cons, ih]
    split <;> rfl

theorem field_optKey (k : String) (j : Str) (v : Option Str) :
    field k (.obj (optKey j v)) = if j = k.toList then textField v else none := by
  cases v with
  | none => simp [optKey, field, textField]
  | some s =>
    cases s with
    | nil => simp [optKey, field, textField]
    | cons c s => simp [optKey, field_cons, textField, field]

theorem field_hit {k : String} {j : Str} {v : Json} {kvs : List (Str × Json)} (h : (j == k.toList) = true) :
    field k (.obj ((j, v) :: kvs)) = some v := by rw [field_cons, if_pos (by simpa using h)]

theorem field_miss {k : String} {j : Str} {v w : Json} {kvs : List (Str × Json)} (h : (j == k.toList) = false)
    (hw : field k (.obj kvs) = some w) : field k (.obj ((j, v) :: kvs)) = some w := by
  rw [field_cons, if_neg (by simpa using h), hw]

theorem listData_described (l : ListData) : DescribesList l (listDataJson l) := by
  constructor
  · have : (if l.type = .bullet then "bullet".toList else "ordered".toList) =
        if l.type == .bullet then lit "bullet" else lit "ordered" := by cases l.type <;> rfl
    rw [this]
    exact field_miss (by decide) <| field_miss (by decide) <| field_miss (by decide) <| field_miss (by decide) <|
      field_miss (by decide) <| field_miss (by decide) <| field_hit (by decide)
  · exact field_miss (by decide) <| field_miss (by decide) <| field_miss (by decide) <| field_miss (by decide) <|
      field_miss (by decide) <| field_hit (by decide)
  · have : charField l.bulletChar = Json.ofOpt (fun c => .str [c]) l.bulletChar := by cases l.bulletChar <;> rfl
    rw [this]
    exact field_hit (by decide)
  · have : charField l.delimiter = Json.ofOpt (fun c => .str [c]) l.delimiter := by cases l.delimiter <;> rfl
    rw [this]
    exact field_miss (by decide) <| field_hit (by decide)
  · have : field "start" (listDataJson l) = some (Json.ofOpt .num l.start) :=
      field_miss (by decide) <| field_miss (by decide) <| field_miss (by decide) <| field_miss (by decide) <| field_hit (by decide)
    rw [this]
    cases l.start <;> rfl
  · exact field_miss (by decide) <| field_miss (by decide) <| field_miss (by decide) <| field_hit (by decide)
  · exact field_miss (by decide) <| field_miss (by decide) <| field_hit (by decide)

/-- The field, if it has this name. -/
def pick (k : String) (j : Str) (v : Option Json) : Option Json := if j == k.toList then v else none

theorem pick_hit {k : String} {j : Str} {v : Option Json} (h : (j == k.toList) = true) : pick k j v = v := by rw [pick, if_pos h]
theorem pick_miss {k : String} {j : Str} {v : Option Json} (h : (j == k.toList) = false) : pick k j v = none := by
  rw [pick, if_neg (by rw [h]; decide)]

/-- The fields of the JSON object of a node. -/
theorem field_rep (k : String) (d : NodeData) (cs : Option (List Json)) : field k (repJson d cs) =
    ((((((((pick k (lit "children") (cs.map Json.arr)).or
      (pick k (lit "destination") (textField d.destination))).or
      (pick k (lit "info") (textField d.info))).or
      (pick k (lit "list_data") (d.listData.map listDataJson))).or
      (pick k (lit "literal") (textField d.literal))).or
      (pick k (lit "string_content") (textField d.stringContent))).or
      (pick k (lit "title") (textField d.title))).or
      (pick k (lit "type") (some (.str d.t.name)))) := by
  have hk : ∀ j v, field k (.obj (optKey j v)) = pick k j (textField v) := by
    intro j v; rw [field_optKey]; unfold pick; by_cases h : j = k.toList <;> simp [h]
  have h1 : ∀ (j : Str) (v : Json), field k (.obj [(j, v)]) = pick k j (some v) := by
    intro j v; rw [field_cons]; unfold pick; by_cases h : j = k.toList <;> simp [h, field]
  have hn : ∀ j, pick k j none = none := by intro j; unfold pick; split <;> rfl
  unfold repJson
  rw [field_append, field_append, field_append, field_append, field_append, field_append, field_append, hk, hk, hk, hk, hk, h1]
  congr 6
  · cases cs with
    | none => rw [Option.map_none, hn]; rfl
    | some cs => exact congrArg (Option.or · _) (h1 _ _)
  · cases d.listData with
    | none => rw [Option.map_none, hn]; rfl
    | some l => exact h1 _ _

theorem or_none' (x : Option Json) : x.or none = x := by cases x <;> rfl
theorem none_or' (x : Option Json) : (none : Option Json).or x = x := rfl

/-- One field of the JSON object of a node, found by deciding which names are equal. -/
macro "pick_field" : tactic => `(tactic| (
  rw [field_rep]
  repeat first
    | rw [pick_hit (by decide)]
    | rw [pick_miss (by decide)]
  repeat first
    | rw [none_or']
    | rw [or_none']))

theorem rep_children (d : NodeData) (cs : Option (List Json)) : field "children" (repJson d cs) = cs.map Json.arr := by
  pick_field

theorem rep_described (d : NodeData) (cs : Option (List Json)) (h : cs.isSome = isContainer d.t) :
    DescribesNode d (repJson d cs) := by
  have hl : field "list_data" (repJson d cs) = d.listData.map listDataJson := by pick_field
  constructor
  · pick_field
  · pick_field
  · pick_field
  · pick_field
  · pick_field
  · pick_field
  · rw [hl]
    cases d.listData with
    | none => rfl
    | some l => exact ⟨_, rfl, listData_described l⟩
  · rw [rep_children, Option.isSome_map, h]

/-- The children of a rep are there for containers. -/
theorem prepare_children {t : Tree} {rs : List Rep} (h : prepare t = .ok rs) :
    ∀ r ∈ rs, r.children.isSome = isContainer r.node.t := by
  have step : ∀ (es : List Event) (a b : List Rep), (∀ r ∈ a, r.children.isSome = isContainer r.node.t) →
      es.foldlM prepareStep a = .ok b → ∀ r ∈ b, r.children.isSome = isContainer r.node.t := by
    intro es
    induction es with
    | nil => intro a b ha h; cases h; exact ha
    | cons e es ih =>
      intro a b ha h
      rw [List.foldlM_cons] at h
      have mk : ∀ d : NodeData, (mkRep d).children.isSome = isContainer (mkRep d).node.t := by
        intro d; unfold mkRep; cases isContainer d.t <;> rfl
      cases hs : prepareStep a e with
      | error x => rw [hs] at h; cases h
      | ok c =>
        rw [hs] at h
        refine ih c b ?_ h
        unfold prepareStep at hs
        cases a with
        | nil => cases hs; intro r hr; rw [List.mem_singleton] at hr; subst hr; exact mk _
        | cons r0 rs =>
          simp only at hs
          split at hs
          · cases hc : r0.children with
            | none => rw [hc] at hs; cases hs
            | some cs =>
              rw [hc] at hs; cases hs
              intro r hr
              rcases List.mem_cons.1 hr with hr | hr
              · subst hr
                have := ha r0 List.mem_cons_self
                rw [hc] at this; exact this
              · exact ha r (List.mem_cons_of_mem _ hr)
          · cases hs
            intro r hr
            rcases List.mem_cons.1 hr with hr | hr
            · subst hr; exact mk _
            · exact ha r hr
  unfold prepare at h
  cases hf : (events none none t).foldlM prepareStep [] with
  | error x => rw [hf] at h; cases h
  | ok b =>
    rw [hf] at h; cases h
    intro r hr
    exact step _ _ _ (by intro r hr; cases hr) hf r (List.mem_reverse.1 hr)

theorem leaf_described (d : NodeData) : DescribesNode d (leafJson d) :=
  rep_described d _ (by cases isContainer d.t <;> rfl)

theorem listed_reps : ∀ (rs : List Rep), (∀ r ∈ rs, r.children.isSome = isContainer r.node.t) →
    List.Forall₂ DescribesNode (flattenReps rs) (listed (.arr (rs.map Rep.json)))
  | [], _ => .nil
  | r :: rs, h => by
    have ih := listed_reps rs fun r hr => h r (List.mem_cons_of_mem _ hr)
    have e1 : flattenReps (r :: rs) = (r.node :: r.children.getD []) ++ flattenReps rs := rfl
    have e2 : listed (.arr ((r :: rs).map Rep.json)) =
        (r.json :: (r.children.getD []).map leafJson) ++ listed (.arr (rs.map Rep.json)) := by
      simp only [listed, List.map_cons, List.flatMap_cons]
      rw [Rep.json, rep_children]
      cases r.children <;> rfl
    rw [e1, e2]
    refine List.rel_append ?_ ih
    refine .cons (rep_described _ _ ?_) ?_
    · rw [Option.isSome_map]; exact h r List.mem_cons_self
    · rw [List.forall₂_map_right_iff]
      exact List.forall₂_same.2 fun d _ => leaf_described d

end CM
