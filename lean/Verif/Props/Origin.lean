import Verif.Proofs.Origin
/-
C34 for whole documents, C46 ordered list markers (violated; what holds).
-/
namespace CM
open Spec

/-- C34: at the first position of every thematic break, ATX heading, fenced code block and block quote of a document
stands the text that makes such a block; a heading that has no ATX marker there has a setext underline of its level
below. -/
theorem C34_document (smart : Bool) (s : Str) (ls : List Str) (t : Tree) (hs : TextLines s ls)
    (h : parse smart s = .ok t) : EveryNode (fun d _ => Origin (ls.map noNul) d) t := parse_origin hs h

/-- C34: at the first position of every HTML block stands, after white space, the text that starts a block of its kind
(and of no earlier kind); and there is something other than white space in the line of every indented code block. -/
theorem C34_document_raw (smart : Bool) (s : Str) (ls : List Str) (t : Tree) (hs : TextLines s ls)
    (h : parse smart s = .ok t) : EveryNode (fun d _ => OriginRaw (ls.map noNul) d) t := parse_originRaw hs h

/-- HTML blocks and an indented code block. -/
example : (parse false "  <div>\n\n\t\tx\n> <!-- a".toList).toOption.map (fun t => t.children.map fun b =>
      (b.data.t, firstLine b.data, firstColumn b.data, b.data.htmlBlockType)) =
    some [(.htmlBlock, 1, 1, 6), (.codeBlock, 3, 2, 0), (.blockQuote, 4, 1, 0)] := by decide +kernel

/-- The first positions of the blocks of a document. -/
example : (parse false "a\n===\n> ***\n\n  ~~~ py".toList).toOption.map (fun t => t.children.map fun b =>
      (b.data.t, firstLine b.data, firstColumn b.data)) =
    some [(.heading, 1, 1), (.blockQuote, 3, 1), (.codeBlock, 5, 3)] := by decide +kernel

/-- C46: if the text has no decimal digits but `0` to `9`, then at the first position of every list item (and list)
stands the marker that the node describes: a bullet, or one to nine of these digits, whose value is the number of
the item, and `.` or `)`; and then a space, a tab or the end of the line.  Missing: texts with other digits, for
which it is false. -/
theorem C46_ascii_digits_partial (smart : Bool) (s : Str) (ls : List Str) (t : Tree) (hs : TextLines s ls)
    (h : parse smart s = .ok t) (hd : ∀ c ∈ s, isPyDigit c = true → AsciiDigit c) :
    EveryNode (fun d _ => d.t = .list ∨ d.t = .item →
      ∃ l, d.listData = some l ∧ MarkerText l (sourceText (ls.map noNul) d)) t := by
  refine EveryNode.mono ?_ (parse_originList hs h)
  intro d _ ho hk
  obtain ⟨l, h1, h2⟩ := ho hk
  refine ⟨l, h1, markerText_of h2 ?_⟩
  intro c hc hp
  have h3 : c ∈ (ls.map noNul).getD (firstLine d - 1) [] := List.mem_of_mem_drop hc
  rw [List.getD_eq_getElem?_getD] at h3
  cases he : (ls.map noNul)[firstLine d - 1]? with
  | none => rw [he] at h3; simp at h3
  | some x =>
    rw [he] at h3
    obtain ⟨ln, h4, rfl⟩ := List.mem_map.1 (List.mem_of_getElem? he)
    rw [Option.getD_some, noNul_cleaned] at h3
    rcases cleaned_mem c h3 with rfl | h5
    · exact absurd hp (by decide +kernel)
    · rw [← inputLines_of hs] at h4
      exact hd c (inputLines_mem h4 c h5.1).1 hp

/-- C46 (violated): `1٢.` (with U+0662) is a marker with the number 12. -/
theorem C46_counterexample :
    (parse false ('1' :: Char.ofNat 0x662 :: ". foo".toList)).toOption.map
      (fun t => t.children.map fun b => (b.data.t, b.data.listData.bind (·.start))) = some [(.list, some 12)] := by
  decide +kernel

/-- A text without other digits, with a list. -/
example : ∀ c ∈ "7) a\n8) b".toList, isPyDigit c = true → AsciiDigit c := by
  unfold AsciiDigit; decide +kernel
example : (parse false "7) a\n8) b".toList).toOption.map (fun t => t.children.map fun b => b.children.map fun i =>
      (i.data.listData.bind (·.start), i.data.listData.bind (·.delimiter))) =
    some [[(some 7, some ')'), (some 8, some ')')]] := by decide +kernel
example : MarkerText ⟨.ordered, true, none, some 7, some ')', 3, 0⟩ "7) a".toList :=
  Or.inr ⟨rfl, ['7'], ')', " a".toList, rfl, by decide, by decide, by unfold AsciiDigit; decide, by decide, rfl, rfl, by simp [EndOrSpace]⟩

end CM
