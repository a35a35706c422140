import Verif.Proofs.Unescape
/-
C24 (backslash escapes) and C26 (character references) for `unescape_string`.
-/
namespace CM
open Spec

/-- C24.  A text written with backslash escapes (all backslashes and ampersands, and possibly other
ASCII punctuation) is read back exactly. -/
theorem C24_escapes_inverted {s t : Str} (h : BackslashedAs s t) : unescapeString t = s :=
  unescape_backslashed h

/-- C24.  In particular with a backslash before every ASCII punctuation character. -/
theorem C24_all_escaped (s : Str) : unescapeString (backslashAll s) = s := by
  refine C24_escapes_inverted ?_
  induction s with
  | nil => exact .nil
  | cons c cs ih =>
    simp only [backslashAll, List.flatMap_cons] at ih ⊢
    split
    · exact .escape (by assumption) ih
    · rename_i h
      refine .keep ?_ ?_ ih
      · rintro rfl; exact h (by decide)
      · rintro rfl; exact h (by decide)

/-- C24.  A text without backslash and ampersand is returned unchanged. -/
theorem C24_plain {s : Str} (h1 : '\\' ∉ s) (h2 : '&' ∉ s) : unescapeString s = s := by
  rw [unescapeString_eq, sub_eoe_plain h1 h2]

/-- C24.  A backslash before another character stays. -/
theorem C24_other_backslash {c : Char} (h : c ∉ asciiPunctuation) (s : Str) :
    unescapeString ('\\' :: c :: s) = '\\' :: unescapeString (c :: s) :=
  unescapeString_unescapable (by rw [← Bool.not_eq_true, isEscapable_iff]; exact h) s

example : BackslashedAs "a & *b*".toList "a \\& *b\\*".toList ∧ unescapeString "a \\& *b\\*".toList = "a & *b*".toList :=
  ⟨.keep (by decide) (by decide) <| .keep (by decide) (by decide) <| .escape (by decide) <|
    .keep (by decide) (by decide) <| .keep (by decide) (by decide) <| .keep (by decide) (by decide) <|
    .escape (by decide) .nil, by decide +kernel⟩
example : backslashAll "\\&x;".toList = "\\\\\\&x\\;".toList := by decide
example : unescapeString "\\q".toList = "\\q".toList := by decide +kernel

/-- C26 (violated as stated, see the counterexamples).  A numeric reference to a character other than a
refused control or non-character or a C1 control is decoded to that character, wherever it stands. -/
theorem C26_numeric_partial {m : Str} {n : Nat} (h : NumericRef m n) (h0 : ¬ NoCharacter n) (h1 : ¬ Refused n)
    (h2 : ∀ v, (n, v) ∉ windows1252) (t : Str) : unescapeString (m ++ t) = Char.ofNat n :: unescapeString t := by
  obtain ⟨hd, he⟩ := numericRef_entity h
  rw [unescapeString_entity (hd 0 t), he, numCharref_plain h0 h1 h2]; rfl

/-- C26.  References to NUL, surrogates and numbers beyond U+10FFFF give U+FFFD. -/
theorem C26_no_character {m : Str} {n : Nat} (h : NumericRef m n) (h0 : NoCharacter n) (t : Str) :
    unescapeString (m ++ t) = Char.ofNat 0xFFFD :: unescapeString t := by
  obtain ⟨hd, he⟩ := numericRef_entity h
  rw [unescapeString_entity (hd 0 t), he, numCharref_noChar h0]; rfl

/-- C26, deviation: references to refused numbers vanish. -/
theorem C26_refused_vanish {m : Str} {n : Nat} (h : NumericRef m n) (h0 : Refused n) (t : Str) :
    unescapeString (m ++ t) = unescapeString t := by
  obtain ⟨hd, he⟩ := numericRef_entity h
  rw [unescapeString_entity (hd 0 t), he, numCharref_of_refused h0]; rfl

/-- C26, deviation: C1 controls are read as Windows-1252. -/
theorem C26_windows1252 {m : Str} {n v : Nat} (h : NumericRef m n) (h0 : (n, v) ∈ windows1252) (t : Str) :
    unescapeString (m ++ t) = Char.ofNat v :: unescapeString t := by
  obtain ⟨hd, he⟩ := numericRef_entity h
  rw [unescapeString_entity (hd 0 t), he, numCharref_1252 h0]; rfl

/-- C26.  Every name of the HTML table that ends with a semicolon is decoded to its value. -/
theorem C26_known_name {e : String × List Nat} (h : e ∈ html5Tab) (hs : e.1.toList.getLast? = some ';') (t : Str) :
    unescapeString ('&' :: e.1.toList ++ t) = e.2.map Char.ofNat ++ unescapeString t := by
  have hg := List.all_eq_true.1 html5_names e h
  rw [hs] at hg
  simp only [bne_self_eq_false, Bool.false_or] at hg
  obtain ⟨x, ds, he, h1, h2, h3, h4⟩ := goodName_shape hg
  have hn := html5Get_mem h
  rw [he] at hn ⊢
  rw [unescapeString_entity (den_entity_name 0 h1 h2 h3 h4), nameRef_unescape h1 h2 h3 h4, named_known hn]

/-- C26 (violated as stated).  A name (a letter and 1 to 31 letters or digits) is left alone together with
its `&` and `;` if neither it nor any beginning of it with two or more characters is in the table. -/
theorem C26_unknown_name_partial {x : Char} {ds : Str} (hx : isAlpha x = true) (h1 : 1 ≤ ds.length)
    (h2 : ds.length ≤ 31) (h : ∀ c ∈ ds, isAlnum c = true)
    (hu : ∀ e ∈ html5Tab, ∀ k, 2 ≤ k → e.1.toList ≠ (x :: (ds ++ [';'])).take k) (t : Str) :
    unescapeString ('&' :: x :: (ds ++ [';']) ++ t) = '&' :: x :: (ds ++ [';']) ++ unescapeString t := by
  have hx' : isAlphaCI x = true := by simp [isAlphaCI, hx]
  have h' : ∀ c ∈ ds, isAlnumCI c = true := by
    intro c hc
    have := h c hc
    simp only [isAlnum, Bool.or_eq_true] at this
    simp only [isAlnumCI, isAlphaCI, Bool.or_eq_true]
    rcases this with h | h
    · exact Or.inl (Or.inl h)
    · exact Or.inr h
  rw [unescapeString_entity (den_entity_name 0 hx' h1 h2 h'), nameRef_unescape hx' h1 h2 h']
  have e1 : html5Get (x :: (ds ++ [';'])) = none := by
    refine html5Get_none fun e he => ?_
    have := hu e he (x :: (ds ++ [';'])).length (by simp)
    rwa [List.take_length] at this
  have e2 : html5Prefix (x :: (ds ++ [';'])) ((x :: (ds ++ [';'])).length - 1) = none :=
    html5Prefix_none fun k hk _ => html5Get_none fun e he => hu e he k hk
  unfold named
  rw [e1, e2]; rfl

/-- C26 is false as stated: an unknown name with a known beginning is partly decoded, a control
character vanishes, and a C1 control becomes another character. -/
theorem C26_counterexample :
    unescapeString "&copyfoo;".toList = "©foo;".toList ∧
    (∀ e ∈ html5Tab, e.1.toList ≠ "copyfoo;".toList) ∧
    unescapeString "a&#1;b".toList = "ab".toList ∧
    unescapeString "&#128;".toList = "€".toList := by
  refine ⟨by decide +kernel, ?_, by decide +kernel, by decide +kernel⟩
  have : (html5Tab.all fun e => e.1 != "copyfoo;") = true := by decide +kernel
  intro e he heq
  have := List.all_eq_true.1 this e he
  rw [String.toList_inj.1 heq] at this
  simp at this

example : NumericRef "&#65;".toList 65 ∧ ¬ NoCharacter 65 ∧ ¬ Refused 65 ∧ ∀ v, (65, v) ∉ windows1252 := by
  refine ⟨Or.inl ⟨"65".toList, rfl, by decide, by decide, by decide⟩, ?_, ?_, ?_⟩
  · unfold NoCharacter; omega
  · unfold Refused; omega
  · intro v hv
    have : ∀ e ∈ windows1252, e.1 ≠ 65 := by decide
    exact this _ hv rfl
example : NumericRef "&#X22;".toList 0x22 := Or.inr ⟨'X', "22".toList, rfl, by decide, by decide, by decide, by decide⟩
example : NumericRef "&#xD800;".toList 0xD800 ∧ NoCharacter 0xD800 :=
  ⟨Or.inr ⟨'x', "D800".toList, rfl, by decide, by decide, by decide, by decide⟩, by unfold NoCharacter; omega⟩
example : (html5Tab.any fun e => e.1 == "hearts;" && e.2 == [0x2665]) = true := by decide +kernel
example : unescapeString "a&zqzq;b".toList = "a&zqzq;b".toList ∧
    (html5Tab.all fun e => (["zq", "zqz", "zqzq", "zqzq;"].all fun n => e.1 != n)) = true := by
  constructor <;> decide +kernel

end CM
