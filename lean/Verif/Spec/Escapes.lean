import Verif.Spec.Inline
import Verif.Spec.Entity
/-
Specification side of backslash escapes and character references (C24-C26).
-/
namespace Spec

/-- `BackslashedAs s t`: `t` is the text `s` written with backslash escapes.  Every backslash and every
ampersand of `s` is escaped, any other ASCII punctuation character may be. -/
inductive BackslashedAs : List Char → List Char → Prop
  | nil : BackslashedAs [] []
  | keep {c : Char} {s t : List Char} : c ≠ '\\' → c ≠ '&' → BackslashedAs s t → BackslashedAs (c :: s) (c :: t)
  | escape {c : Char} {s t : List Char} : c ∈ asciiPunctuation → BackslashedAs s t →
      BackslashedAs (c :: s) ('\\' :: c :: t)

/-- The text with a backslash before every ASCII punctuation character. -/
def backslashAll (s : List Char) : List Char :=
  s.flatMap fun c => if c ∈ asciiPunctuation then ['\\', c] else [c]

/-- Code points 0x80-0x9F that HTML reads as Windows-1252. -/
def windows1252 : List (Nat × Nat) := [
  (0x80, 0x20ac), (0x82, 0x201a), (0x83, 0x192), (0x84, 0x201e), (0x85, 0x2026), (0x86, 0x2020),
  (0x87, 0x2021), (0x88, 0x2c6), (0x89, 0x2030), (0x8a, 0x160), (0x8b, 0x2039), (0x8c, 0x152),
  (0x8e, 0x17d), (0x91, 0x2018), (0x92, 0x2019), (0x93, 0x201c), (0x94, 0x201d), (0x95, 0x2022),
  (0x96, 0x2013), (0x97, 0x2014), (0x98, 0x2dc), (0x99, 0x2122), (0x9a, 0x161), (0x9b, 0x203a),
  (0x9c, 0x153), (0x9e, 0x17e), (0x9f, 0x178)]

/-- Code points that cannot be decoded: NUL, surrogates and numbers above U+10FFFF. -/
def NoCharacter (n : Nat) : Prop := n = 0 ∨ (0xD800 ≤ n ∧ n ≤ 0xDFFF) ∨ 0x10FFFF < n

end Spec
