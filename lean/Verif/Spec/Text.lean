/-
Specifications for text encodings (C10-C13). Nothing here refers to the model.
-/
namespace Spec

/-- Replace the four character references `&amp; &lt; &gt; &quot;` by the characters they
denote, from left to right; everything else is kept. -/
def xmlDecode : List Char → List Char
  | '&' :: 'a' :: 'm' :: 'p' :: ';' :: s => '&' :: xmlDecode s
  | '&' :: 'l' :: 't' :: ';' :: s => '<' :: xmlDecode s
  | '&' :: 'g' :: 't' :: ';' :: s => '>' :: xmlDecode s
  | '&' :: 'q' :: 'u' :: 'o' :: 't' :: ';' :: s => '"' :: xmlDecode s
  | c :: s => c :: xmlDecode s
  | [] => []

/-- `t` starts with the rest of one of the four references, i.e. with what may follow `&`. -/
def StartsReference (t : List Char) : Prop :=
  "amp;".toList <+: t ∨ "lt;".toList <+: t ∨ "gt;".toList <+: t ∨ "quot;".toList <+: t

/-- The characters a normalised URI may consist of. -/
def uriAlphabet : List Char :=
  ("ABCDEFGHIJKLMNOPQRSTUVWXYZabcdefghijklmnopqrstuvwxyz0123456789" ++ "_.-~" ++ ";/@:+?=&()%#*,").toList

/-- Value of the byte of a hexadecimal digit of either case. -/
def hexValue (b : Nat) : Option Nat :=
  if '0'.toNat ≤ b ∧ b ≤ '9'.toNat then some (b - '0'.toNat)
  else if 'A'.toNat ≤ b ∧ b ≤ 'F'.toNat then some (b - 'A'.toNat + 10)
  else if 'a'.toNat ≤ b ∧ b ≤ 'f'.toNat then some (b - 'a'.toNat + 10)
  else none

/-- Percent-decoding (RFC 3986) of a byte sequence: `%XY` is the byte with that hexadecimal
value, any other byte stands for itself. -/
def percentDecode : List Nat → List Nat
  | [] => []
  | 0x25 :: a :: b :: s =>
    match hexValue a, hexValue b with
    | some x, some y => (16 * x + y) :: percentDecode s
    | _, _ => 0x25 :: percentDecode (a :: b :: s)
  | c :: s => c :: percentDecode s

/-- The UTF-8 bytes of a text, by Lean's own UTF-8 encoder. -/
def utf8Bytes (s : List Char) : List Nat :=
  (s.flatMap String.utf8EncodeChar).map UInt8.toNat

end Spec
