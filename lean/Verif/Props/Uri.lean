import Verif.Proofs.Uri
/-
C11, C12, C13: `normalize_uri`.
-/
namespace CM
open Spec

/-- **C11.** The result consists of characters of the URI alphabet. -/
theorem C11_normalizeUri_alphabet (u : Str) : ∀ c ∈ normalizeUri u, c ∈ uriAlphabet :=
  mem_normalizeUri_alphabet u

/-- **C11.** In particular: no white space, quote, angle bracket, backslash, backtick, control or
non-ASCII character. -/
theorem C11_normalizeUri_no_special (u : Str) :
    ∀ c ∈ normalizeUri u, 0x20 < c.toNat ∧ c.toNat < 0x7f ∧ c ≠ '"' ∧ c ≠ '\'' ∧ c ≠ '<' ∧ c ≠ '>' ∧
      c ≠ '\\' ∧ c ≠ '`' ∧ c ≠ '[' ∧ c ≠ ']' := by
  intro c hc
  have : ∀ c ∈ uriAlphabet, 0x20 < c.toNat ∧ c.toNat < 0x7f ∧ c ≠ '"' ∧ c ≠ '\'' ∧ c ≠ '<' ∧ c ≠ '>' ∧
      c ≠ '\\' ∧ c ≠ '`' ∧ c ≠ '[' ∧ c ≠ ']' := by decide +kernel
  exact this c (mem_normalizeUri_alphabet u c hc)

/-- **C12.** A string over the URI alphabet is left alone, and nothing else is. -/
theorem C12_normalizeUri_eq_self_iff (u : Str) : normalizeUri u = u ↔ ∀ c ∈ u, c ∈ uriAlphabet :=
  ⟨fun h => h ▸ mem_normalizeUri_alphabet u, normalizeUri_of_alphabet u⟩

/-- **C12.** `normalize_uri` is idempotent. -/
theorem C12_normalizeUri_idempotent (u : Str) : normalizeUri (normalizeUri u) = normalizeUri u :=
  normalizeUri_of_alphabet _ (mem_normalizeUri_alphabet u)

/-- **C13.** Normalising never changes what a URI means after percent-decoding. -/
theorem C13_percentDecode_normalizeUri (u : Str) :
    percentDecode ((normalizeUri u).map Char.toNat) = percentDecode (utf8Bytes u) := by
  rw [← utf8Str_eq]
  exact percentDecode_quote _ _ (Nat.le_refl _) (utf8Str_lt u)

/-- **C13.** For a URI without `%`, percent-decoding gives back its UTF-8 bytes. -/
theorem C13_percentDecode_no_percent (u : Str) (h : '%' ∉ u) :
    percentDecode ((normalizeUri u).map Char.toNat) = utf8Bytes u := by
  rw [C13_percentDecode_normalizeUri, percentDecode_id]
  rw [← utf8Str_eq]
  simp only [utf8Str, List.mem_flatMap, not_exists, not_and]
  intro c hc
  exact utf8_no_percent (fun e => h (e ▸ hc))

/-- **C13.** Distinct URIs without `%` stay distinct. -/
theorem C13_normalizeUri_injective {u v : Str} (hu : '%' ∉ u) (hv : '%' ∉ v)
    (h : normalizeUri u = normalizeUri v) : u = v := by
  apply utf8Bytes_injective
  rw [← C13_percentDecode_no_percent u hu, h, C13_percentDecode_no_percent v hv]

/-- The restriction is needed: normalisation identifies an encoded space with a space. -/
theorem C13_not_injective_with_percent : normalizeUri (lit "%20") = normalizeUri (lit " ") := by decide

example : normalizeUri (lit "/ü b?q=\"%20") = lit "/%C3%BC%20b?q=%22%20" := by decide +kernel
/-- A URI without `%` that is changed by normalisation (hypothesis of C13). -/
example : '%' ∉ lit "http://x/ü [y]" ∧ normalizeUri (lit "http://x/ü [y]") ≠ lit "http://x/ü [y]" := by decide +kernel

end CM
