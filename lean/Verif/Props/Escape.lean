import Verif.Proofs.Escape
/-
C10: `escape_xml`.
-/
namespace CM
open Spec

/-- **C10.** Escaping distributes over concatenation. -/
theorem C10_escapeXml_append (s t : Str) : escapeXml (s ++ t) = escapeXml s ++ escapeXml t := by
  simp [escapeXml_eq_flatMap]

/-- **C10.** Replacing the four references back gives the original text. -/
theorem C10_xmlDecode_escapeXml (s : Str) : xmlDecode (escapeXml s) = s := by
  rw [escapeXml_eq_flatMap]
  induction s with
  | nil => rfl
  | cons c s ih =>
    rw [List.flatMap_cons]
    rcases replaceUnsafeChar_cases c with ⟨rfl, h⟩ | ⟨rfl, h⟩ | ⟨rfl, h⟩ | ⟨rfl, h⟩ | ⟨h1, _, _, _, h⟩ <;> rw [h]
    · simp [xmlDecode, ih]
    · simp [xmlDecode, ih]
    · simp [xmlDecode, ih]
    · simp [xmlDecode, ih]
    · rw [List.singleton_append, xmlDecode, ih]
      all_goals (intros; contradiction)

/-- **C10.** Distinct texts have distinct escapes. -/
theorem C10_escapeXml_injective {s t : Str} (h : escapeXml s = escapeXml t) : s = t := by
  rw [← C10_xmlDecode_escapeXml s, h, C10_xmlDecode_escapeXml]

/-- **C10.** No `<`, `>` or `"` in the result. -/
theorem C10_escapeXml_no_special (s : Str) :
    '<' ∉ escapeXml s ∧ '>' ∉ escapeXml s ∧ '"' ∉ escapeXml s := by
  rw [escapeXml_eq_flatMap]
  simp only [List.mem_flatMap, not_exists, not_and]
  refine ⟨?_, ?_, ?_⟩ <;> intro c _ hc <;>
  · rcases replaceUnsafeChar_cases c with ⟨rfl, h⟩ | ⟨rfl, h⟩ | ⟨rfl, h⟩ | ⟨rfl, h⟩ | ⟨h1, h2, h3, h4, h⟩ <;>
      rw [h] at hc <;> simp at hc
    first | exact h2 hc.symm | exact h3 hc.symm | exact h4 hc.symm

/-- **C10.** `&` occurs in the result only as the start of one of the four references. -/
theorem C10_escapeXml_amp (s u v : Str) (h : escapeXml s = u ++ '&' :: v) : StartsReference v := by
  rw [escapeXml_eq_flatMap] at h
  induction s generalizing u with
  | nil => simp at h
  | cons c s ih =>
    rw [List.flatMap_cons] at h
    have key : ∀ w : Str, '&' ∉ w → (w ++ List.flatMap replaceUnsafeChar s = u ++ '&' :: v) →
        StartsReference v := by
      intro w hw he
      rcases List.append_eq_append_iff.mp he with ⟨a, rfl, h2⟩ | ⟨a, rfl, h2⟩
      · exact ih a h2
      · cases a with
        | nil => exact ih [] (by simpa using h2.symm)
        | cons x a =>
          simp only [List.cons_append, List.cons.injEq] at h2
          exact absurd (by rw [h2.1]; simp) hw
    have key2 : ∀ w : Str, '&' ∉ w → (w <+: "amp;".toList ∨ True) →
        (∀ r, StartsReference (w ++ r)) → ('&' :: w ++ List.flatMap replaceUnsafeChar s = u ++ '&' :: v) →
        StartsReference v := by
      intro w hw _ hs he
      cases u with
      | nil =>
        simp only [List.nil_append, List.cons_append, List.cons.injEq, true_and] at he
        rw [← he]; exact hs _
      | cons x u =>
        simp only [List.cons_append, List.cons.injEq] at he
        rcases List.append_eq_append_iff.mp he.2 with ⟨a, rfl, h2⟩ | ⟨a, rfl, h2⟩
        · exact ih a h2
        · cases a with
          | nil => exact ih [] (by simpa using h2.symm)
          | cons y a =>
            simp only [List.cons_append, List.cons.injEq] at h2
            exact absurd (by rw [h2.1]; simp) hw
    rcases replaceUnsafeChar_cases c with ⟨rfl, hr⟩ | ⟨rfl, hr⟩ | ⟨rfl, hr⟩ | ⟨rfl, hr⟩ | ⟨h1, _, _, _, hr⟩ <;>
      rw [hr] at h
    · exact key2 "amp;".toList (by simp) (by simp) (fun r => .inl (List.prefix_append _ _)) h
    · exact key2 "lt;".toList (by simp) (by simp) (fun r => .inr (.inl (List.prefix_append _ _))) h
    · exact key2 "gt;".toList (by simp) (by simp) (fun r => .inr (.inr (.inl (List.prefix_append _ _)))) h
    · exact key2 "quot;".toList (by simp) (by simp) (fun r => .inr (.inr (.inr (List.prefix_append _ _)))) h
    · exact key [c] (by simpa using fun e => h1 e.symm) h

/-- **C10.** Text without the four special characters is unchanged, and nothing else is. -/
theorem C10_escapeXml_eq_self_iff (s : Str) :
    escapeXml s = s ↔ '&' ∉ s ∧ '<' ∉ s ∧ '>' ∉ s ∧ '"' ∉ s := by
  constructor
  · intro h
    have hn := C10_escapeXml_no_special s
    rw [h] at hn
    refine ⟨fun hm => ?_, hn⟩
    obtain ⟨u, v, rfl⟩ := List.append_of_mem hm
    rw [escapeXml_eq_flatMap, List.flatMap_append, List.flatMap_cons] at h
    have h0 := congrArg List.length h
    have e : (replaceUnsafeChar '&').length = 5 := by decide
    rw [List.length_append, List.length_append, e, List.length_append, List.length_cons] at h0
    have h1 := length_le_escape u
    have h2 := length_le_escape v
    omega
  · rintro ⟨h1, h2, h3, h4⟩
    unfold escapeXml
    rw [if_neg]
    simp only [List.any_eq_true, not_exists, not_and]
    intro c hc he
    simp only [Bool.or_eq_true, beq_iff_eq] at he
    rcases he with ((rfl | rfl) | rfl) | rfl <;> contradiction

/-- `escape_xml(None)` is the empty string. -/
theorem C10_escapeXml_none : escapeXmlOpt none = [] := rfl

example : escapeXml (lit "a<b> & \"c\" &lt;") = lit "a&lt;b&gt; &amp; &quot;c&quot; &amp;lt;" := by decide
/-- `C10_escapeXml_amp` at the second `&` of an escaped text. -/
example : ∃ u v, escapeXml (lit "x&<") = u ++ '&' :: v ∧ u ≠ [] := ⟨lit "x&amp;", lit "lt;", by decide, by decide⟩
/-- `C10_escapeXml_eq_self_iff`: both sides occur. -/
example : escapeXml (lit "plain 'text'") = lit "plain 'text'" ∧ escapeXml (lit "<") ≠ lit "<" := by decide

end CM
