import Verif.Proofs.Size
import Verif.Model.Events
/-
C68: the document tree is not larger than the text.
-/
namespace CM
open Spec

mutual
theorem height_le_nodes : ∀ t : Tree, heightT t ≤ nodesT t
  | .node d cs => by simp only [heightT, nodesT]; have := height_le_nodesL cs; omega
theorem height_le_nodesL : ∀ ts : List Tree, heightL ts ≤ nodesL ts
  | [] => Nat.le_refl _
  | t :: ts => by
    simp only [heightL, nodesL]
    have := height_le_nodes t
    have := height_le_nodesL ts
    omega
end

mutual
theorem events_le : ∀ (t : Tree) (p g : Option NodeData), (events p g t).length ≤ 2 * nodesT t
  | .node d cs, p, g => by
    rw [events.eq_def]
    have := eventsList_le cs (some d) p
    simp only [nodesT]
    split
    · simp only [List.length_cons, List.length_append, List.length_nil]; omega
    · simp only [List.length_cons, List.length_nil]; omega
theorem eventsList_le : ∀ (ts : List Tree) (p g : Option NodeData), (eventsList p g ts).length ≤ 2 * nodesL ts
  | [], p, g => by rw [eventsList.eq_def]; exact Nat.zero_le _
  | t :: ts, p, g => by
    rw [eventsList.eq_def]
    have := events_le t p g
    have := eventsList_le ts p g
    simp only [nodesL, List.length_append]
    omega
end

/-- C68: the tree of a text of `n` characters has at most `n + 2` nodes. -/
theorem C68_nodes (smart : Bool) (s : Str) (t : Tree) (h : parse smart s = .ok t) : nodesT t ≤ s.length + 2 :=
  parse_nodes h

/-- C68: so it is at most `n + 2` levels deep. -/
theorem C68_depth (smart : Bool) (s : Str) (t : Tree) (h : parse smart s = .ok t) : heightT t ≤ s.length + 2 :=
  Nat.le_trans (height_le_nodes t) (parse_nodes h)

/-- C68: and a walk over the tree has at most `2 n + 4` events. -/
theorem C68_events (smart : Bool) (s : Str) (t : Tree) (h : parse smart s = .ok t) : (events none none t).length ≤ 2 * s.length + 4 := by
  have := events_le t none none
  have := parse_nodes h
  omega

/-- C68: the inline nodes of a paragraph or heading are at most as many as the characters of its text. -/
theorem C68_inlines (smart : Bool) (refmap : RefMap) (content : Str) (ts : List Tree) (h : parseInlines smart refmap content = .ok ts) :
    nodesL ts ≤ (strip content).length :=
  inlines_nodes h

/-- The bounds are reached: by one letter, and by markers that nest at every character. -/
example : ((parse false "a".toList).toOption.map nodesT) = some ("a".length + 2) := by decide +kernel
example : ((parse false ">+\t>+\t>a".toList).toOption.map fun t => (nodesT t, heightT t)) = some (10, 10) ∧ ">+\t>+\t>a".length + 2 = 10 := by decide +kernel
example : ((parse false "]]]".toList).toOption.map nodesT) = some ("]]]".length + 2) := by decide +kernel
/-- Blank lines, code and definitions make fewer nodes. -/
example : ((parse false "> - *a* [b](c)\n> 1. `d`\n\nfoo\n===\n".toList).toOption.map fun t => (nodesT t, heightT t)) = some (16, 7) := by decide +kernel
example : ((parse false "".toList).toOption.map nodesT) = some 1 := by decide +kernel

end CM
