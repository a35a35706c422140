import Verif.Model.PyStr
/-
Specification side of character references: numeric references, the number they name, and the
numbers that `html.unescape` refuses.
-/
namespace Spec
open CM

/-- Value of an ASCII (hexadecimal) digit. -/
def digit (c : Char) : Option Nat :=
  if '0' ≤ c ∧ c ≤ '9' then some (c.toNat - 48)
  else if 'a' ≤ c ∧ c ≤ 'f' then some (c.toNat - 87)
  else if 'A' ≤ c ∧ c ≤ 'F' then some (c.toNat - 55)
  else none

/-- Value of a numeral, most significant digit first. -/
def numeral (base : Nat) : Str → Option Nat
  | [] => some 0
  | c :: cs => do
    let d ← digit c
    let r ← numeral base cs
    if d < base then some (d * base ^ cs.length + r) else none

/-- `m` is the decimal (`&#65;`) or hexadecimal (`&#x41;`) reference to the number `n`, with at most
seven or six digits. -/
def NumericRef (m : Str) (n : Nat) : Prop :=
  (∃ ds, m = "&#".toList ++ ds ++ [';'] ∧ 1 ≤ ds.length ∧ ds.length ≤ 7 ∧ numeral 10 ds = some n) ∨
  (∃ x ds, m = "&#".toList ++ x :: ds ++ [';'] ∧ (x = 'x' ∨ x = 'X') ∧ 1 ≤ ds.length ∧ ds.length ≤ 6 ∧
    numeral 16 ds = some n)

/-- Control characters (other than white space and the C1 range) and non-characters. -/
def Refused (n : Nat) : Prop :=
  (1 ≤ n ∧ n ≤ 8) ∨ n = 0xb ∨ (0xe ≤ n ∧ n ≤ 0x1f) ∨ n = 0x7f ∨ (0xfdd0 ≤ n ∧ n ≤ 0xfdef) ∨
  (0xfffe ≤ n % 0x10000 ∧ n ≤ 0x10ffff)

/-- Line `ln` ends with a numeric reference to a refused number. -/
def EndsWithRefused (ln : Str) : Prop := ∃ a m n, ln = a ++ m ∧ NumericRef m n ∧ Refused n

end Spec
