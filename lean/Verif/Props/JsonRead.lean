import Verif.Proofs.JsonRead
import Verif.Props.Compose
/-
C62: the JSON dump is JSON and says what is in the tree.
-/
namespace CM
open Spec

/-- C62.  Of every tree `dumpJSON` gives a text in ASCII that a reader of JSON accepts.  Its value is an array of objects;
read in order, each followed by its children, they describe the nodes of the walk, with every text in them unchanged. -/
theorem C62_json_text (t : Tree) : ∃ s v, dumpJSON t = .ok s ∧ (∀ c ∈ s, c.toNat < 128) ∧ readJson s = some v ∧
    List.Forall₂ DescribesNode ((events none none t).map (·.node)) (listed v) := by
  obtain ⟨rs, h1, h2, h3⟩ := C38_flatten t
  refine ⟨_, _, h3, dump_ascii _ 0, readJson_dump _, ?_⟩
  rw [← h2]
  exact listed_reps rs (prepare_children h1)

/-- C62.  The entries of the array are the root and then, for every container in the order in which the walk leaves them,
that container: the first one has the nodes up to the first leaving as its children. -/
theorem C62_json_entries (t : Tree) : ∃ s xs, dumpJSON t = .ok s ∧ readJson s = some (.arr xs) ∧
    List.Forall₂ DescribesNode (t.data :: ((events none none t).filter fun e => !e.entering).map (·.node)) xs := by
  obtain ⟨rs, h1, -, h3⟩ := C38_flatten t
  refine ⟨_, _, h3, readJson_dump _, ?_⟩
  rw [← C38_toplevel t rs h1, List.forall₂_map_left_iff, List.forall₂_map_right_iff]
  exact List.forall₂_same.2 fun r hr => rep_described _ _ (by rw [Option.isSome_map]; exact prepare_children h1 r hr)

/-- C62.  Different values have different texts, and the text of a value is read as that value. -/
theorem C62_values (v : Json) : readJson (v.dump 0) = some v := readJson_dump v

/-- A tree with a list, quotation marks, a backslash, a control character and a character beyond 16 bits: its dump is read,
and these are the fields of the text node. -/
example : ((parse false "1) \"\\\\\u0001😀\n".toList).toOption.bind fun t => (dumpJSON t).toOption.bind readJson).map
    (fun v => (listed v).filterMap fun x => match field "literal" x with
      | some (.str s) => some s
      | _ => none) = some ["\"".toList, "\\".toList, "\u0001😀".toList] := by decide +kernel

/-- The reader rejects texts that are not JSON. -/
example : (readJson "[1,]".toList).isNone ∧ (readJson "[01]".toList).isNone ∧ (readJson "\"\\ud800\"".toList).isNone ∧
    (readJson "{\"a\": 1} x".toList).isNone ∧ (readJson " [ 1 , {\"a\": null} ]".toList).isSome := by decide +kernel

end CM
