import Verif.Props.Parsed
import Verif.Proofs.EndsAt
/-
C71 Source positions of blocks: where they start and end (violated for blocks that an end mark closes; what holds).
-/
namespace CM
open Spec

/-- C71.  The first position of every block is the position of a character of the text (the document apart, whose
text can be empty). -/
theorem C71_starts (smart : Bool) (s : Str) (ls : List Str) (t : Tree) (hs : TextLines s ls)
    (h : parse smart s = .ok t) :
    EveryNode (fun d _ => d.t ∈ blockKinds → d.t ≠ .document →
      ∃ line, 1 ≤ firstLine d ∧ ls[firstLine d - 1]? = some line ∧ 1 ≤ firstColumn d ∧ firstColumn d ≤ line.length) t := by
  have h1 := parse_starts hs h
  obtain ⟨_, _, h3⟩ := C40_positions smart s t ls hs h
  refine EveryNode.mono ?_ (everyNode_and t h1 h3)
  intro d ks ⟨hd, hn⟩ hk hdoc
  have hpos : 1 ≤ firstLine d ∧ 1 ≤ firstColumn d := ⟨(hn hk).2.1, (hn hk).2.2.1⟩
  have hne := hd (by revert hk; generalize d.t = k; cases k <;> decide) hdoc
  simp only [sourceText, List.getD_eq_getElem?_getD, List.getElem?_map] at hne
  cases e : ls[firstLine d - 1]? with
  | none => rw [e] at hne; simp at hne
  | some line =>
    rw [e] at hne
    refine ⟨line, hpos.1, rfl, hpos.2, ?_⟩
    by_cases hlt : firstColumn d ≤ line.length
    · exact hlt
    · exact absurd (by simp [noNul]; omega) hne

/-- C71.  Every block ends at the end of its last line, if it is not a fenced code block or an HTML block of the kinds
that have an end condition of their own; these end there too, or at the column at which the line before ends.
Missing: such blocks, for which it is false if their end mark closes them. -/
theorem C71_ends_partial (smart : Bool) (s : Str) (ls : List Str) (t : Tree) (hs : TextLines s ls)
    (h : parse smart s = .ok t) :
    EveryNode (fun d _ => d.t ∈ blockKinds →
      lastColumn d = lengthOfLine ls (lastLine d) ∨
      HasEndMark d ∧ lastColumn d = lengthOfLine ls (lastLine d - 1)) t := by
  refine EveryNode.mono ?_ (parse_ends hs h)
  intro d _ hd hk
  exact hd (by revert hk; generalize d.t = k; cases k <;> decide)

/-- The positions of the blocks of a document. -/
example : (parse false "abc\n\n> d\ne\n\n    x".toList).toOption.map (fun t => (t :: t.children).map fun b =>
      (b.data.t, b.data.sourcepos)) =
    some [(.document, some ((1, 1), (6, 5))), (.paragraph, some ((1, 1), (1, 3))), (.blockQuote, some ((3, 1), (4, 1))),
      (.codeBlock, some ((6, 5), (6, 5)))] := by decide +kernel

/-- C71 is false of blocks that their end mark closes: this code block ends at line 3, which has 3 characters, and is
said to end at column 6; this HTML block of ten characters is said to end at column 0. -/
theorem C71_counterexample :
    (parse false "```\nabcdef\n```".toList).toOption.map (fun t => t.children.map fun b => (b.data.t, b.data.sourcepos)) =
      some [(.codeBlock, some ((1, 1), (3, 6)))] ∧
    (parse false "<!-- a -->".toList).toOption.map (fun t => t.children.map fun b => (b.data.t, b.data.sourcepos)) =
      some [(.htmlBlock, some ((1, 1), (1, 0)))] := by constructor <;> decide +kernel

end CM
