import Verif.Proofs.First
/-
C59: the first line that is not blank decides of which kind the first block of a document is, whatever follows.

`Starts` (Spec/First.lean) says which block a line begins; it is put together from what the CommonMark specification says about the
lines that begin thematic breaks, headings, fenced code, HTML blocks and list items (Spec/LineKinds.lean, Spec/ParaText.lean,
Spec/HtmlBlock.lean).
-/
namespace CM
open Spec

/-- **C59.** After any number of blank lines, a line that begins a block of some kind makes the first block one of this kind. -/
theorem C59_first_block {smart : Bool} {s w l : Str} {bs ls : List Str} {c : Char} {k : Kind} {d : NodeData} {cs : List Tree}
    (hs : TextLines s (bs ++ (w ++ l) :: ls)) (hbs : ∀ x ∈ bs, OnlySpTab x) (hw : OnlySpTab w) (hc : l.head? = some c)
    (h1 : c ≠ ' ') (h2 : c ≠ '\t') (hk : Starts w (noNul l) k) (hp : parse smart s = .ok (.node d cs)) :
    ∃ t ts, cs = t :: ts ∧ t.data.t = k := by
  rcases parse_first hs hbs hw hc h1 h2 hp with ⟨k', hk', t, ts, e, hb⟩ | ⟨h, -⟩
  · obtain rfl := starts_unique hk hk'
    refine ⟨t, ts, e, ?_⟩
    rcases hb with hb | ⟨hb, -⟩
    · exact hb
    · exact absurd hb (starts_ne hk)
  · exact absurd hk (h k)

/-- **C59.** A line that begins no block and no link reference definition makes it a paragraph, or a heading if it is underlined. -/
theorem C59_otherwise_paragraph {smart : Bool} {s w l : Str} {bs ls : List Str} {c : Char} {d : NodeData} {cs : List Tree}
    (hs : TextLines s (bs ++ (w ++ l) :: ls)) (hbs : ∀ x ∈ bs, OnlySpTab x) (hw : OnlySpTab w) (hc : l.head? = some c)
    (h1 : c ≠ ' ') (h2 : c ≠ '\t') (hk : ∀ k, ¬ Starts w (noNul l) k) (hdef : ∀ y, ¬ DefinitionStart (noNul l ++ '\n' :: y))
    (hp : parse smart s = .ok (.node d cs)) : ∃ t ts, cs = t :: ts ∧ (t.data.t = .paragraph ∨ t.data.t = .heading) := by
  rcases parse_first hs hbs hw hc h1 h2 hp with ⟨k', hk', -⟩ | ⟨-, h⟩
  · exact absurd hk' (hk k')
  · obtain ⟨t, ts, e, hb⟩ := h hdef
    exact ⟨t, ts, e, hb.imp_right And.right⟩

/-- **C59.** Blank lines alone are a document without blocks. -/
theorem C59_blank_document {smart : Bool} {s : Str} {bs : List Str} (hs : TextLines s bs) (hbs : ∀ x ∈ bs, OnlySpTab x) :
    ∃ d, d.t = .document ∧ parse smart s = .ok (.node d []) :=
  parse_blank hs hbs

/-- **C59.** The first block is an HTML block exactly if the first line that is not blank begins one: it has less than four columns of
indentation and then one of the seven beginnings of the CommonMark specification. -/
theorem C59_html_block_iff {smart : Bool} {s w l : Str} {bs ls : List Str} {c : Char} {d : NodeData} {cs : List Tree}
    (hs : TextLines s (bs ++ (w ++ l) :: ls)) (hbs : ∀ x ∈ bs, OnlySpTab x) (hw : OnlySpTab w) (hc : l.head? = some c)
    (h1 : c ≠ ' ') (h2 : c ≠ '\t') (hb : c ≠ '[') (hp : parse smart s = .ok (.node d cs)) :
    (∃ t ts, cs = t :: ts ∧ t.data.t = .htmlBlock) ↔ columnFrom 0 w < 4 ∧ ∃ i, HtmlOpen i (noNul l) := by
  have hdef : ∀ y, ¬ DefinitionStart (noNul l ++ '\n' :: y) := by
    intro y hy
    have := definitionStart_head hy
    cases l with
    | nil => cases hc
    | cons x r =>
      cases hc
      simp only [noNul, List.map_cons, List.cons_append, List.head?_cons, Option.some.injEq] at this
      split at this
      · revert this; decide
      · exact hb this
  constructor
  · rintro ⟨t, ts, rfl, ht⟩
    rcases parse_first hs hbs hw hc h1 h2 hp with ⟨k', hk', t', ts', e, hb'⟩ | ⟨-, h⟩
    · cases e
      rcases hb' with hb' | ⟨-, hb'⟩
      · rw [ht] at hb'
        subst hb'
        cases hk' with
        | other h3 h4 =>
          generalize noNul l = l' at h4 ⊢
          cases h4 with
          | html h5 => exact ⟨h3, _, h5⟩
      · rw [ht] at hb'; cases hb'
    · obtain ⟨t', ts', e, hb'⟩ := h hdef
      cases e
      rw [Becomes, ht] at hb'
      rcases hb' with hb' | ⟨-, hb'⟩ <;> cases hb'
  · rintro ⟨h3, i, h4⟩
    exact C59_first_block hs hbs hw hc h1 h2 (.other h3 (.html h4)) hp

/-- The first block is of this kind. -/
def firstIs (k : Kind) : Except PyErr Tree → Bool
  | .ok (.node _ (.node d _ :: _)) => decide (d.t = k)
  | _ => false

/-- An HTML block after a blank line, one that a paragraph could not be interrupted by, with the theorem. -/
example : ∃ d cs, parse false "\n  <b x=1>\nfoo".toList = .ok (.node d cs) ∧ ∃ t ts, cs = t :: ts ∧ t.data.t = .htmlBlock := by
  obtain ⟨⟨d, cs⟩, h⟩ : ∃ t, parse false "\n  <b x=1>\nfoo".toList = .ok t := by
    cases h : parse false "\n  <b x=1>\nfoo".toList with
    | ok t => exact ⟨t, rfl⟩
    | error e =>
      have : firstIs .htmlBlock (parse false "\n  <b x=1>\nfoo".toList) = true := by decide +kernel
      rw [h] at this; cases this
  refine ⟨d, cs, h, C59_first_block (bs := [[]]) (w := "  ".toList) (l := "<b x=1>".toList) (ls := ["foo".toList]) (c := '<')
    ((textLines_iff _ _).2 (by decide)) ?_ ?_ rfl (by decide) (by decide) (.other (by decide) (.html (i := 7) ?_)) h⟩
  · intro x hx; simp at hx; subst hx; intro y hy; cases hy
  · intro x hx; revert x; decide
  · exact ((htmlBlockType_iff (k := .document) (i := 7) (by decide)).1 (by decide +kernel)).1.1

/-- The kinds of the first blocks of some documents. -/
example : firstIs .list (parse false "\n \t\n  12) foo\n> bar".toList) = true ∧ firstIs .thematicBreak (parse false "* * *\n* foo".toList) = true ∧
    firstIs .codeBlock (parse false "  \t# foo".toList) = true ∧ firstIs .paragraph (parse false "<b\nfoo".toList) = true ∧
    firstIs .heading (parse false "1foo\n---".toList) = true := by decide +kernel

/-- With a definition the first block is another one. -/
example : firstIs .thematicBreak (parse false "[a]: b\n\n***".toList) = true := by decide +kernel

end CM
