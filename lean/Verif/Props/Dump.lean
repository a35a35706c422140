import Verif.Proofs.Dump
import Verif.Model.Main
/-
C76: what the printed form of a tree shows.
-/
namespace CM
open Spec

/-- C76.  Two trees have the same printed form exactly if their roots, and the nodes of their walks one by one, agree in what is shown
of a node: its kind, title, info string, destination, literal text, string content, position and list data, and whether it is open and
ended with a blank line.  So all of this can be read from the printed form, and nothing else. -/
theorem C76_shows (t t' : Tree) : dumpAST t = dumpAST t' ↔ (visits t).map shownData = (visits t').map shownData := by
  constructor
  · intro h
    rw [dumpAST_eq, dumpAST_eq] at h
    exact dump_inj (dumpNode_split (.inl rfl) h).2
  · intro h
    have hd : shownData t.data = shownData t'.data := by
      have := congrArg List.head? h
      rw [List.head?_map, List.head?_map, visits_head, visits_head] at this
      simpa using this
    have key : ∀ xs : List NodeData, xs.flatMap (dumpNode 2) = (xs.map shownData).flatMap (dumpNode 2) := by
      intro xs
      rw [List.flatMap_map]
      exact List.flatMap_congr fun x _ => (dumpNode_shown 2 x).symm
    rw [dumpAST_eq, dumpAST_eq, key (visits t), key (visits t'), h, ← dumpNode_shown 0 t.data, hd, dumpNode_shown]

/-- C76.  The lines that begin with a kind of node: the root, and then every node of the walk (those that can have children twice), with
two tabs and an arrow. -/
theorem C76_kinds (t : Tree) : (dumpAST t).filter (fun l => "[".toList.isPrefixOf l || "\t\t-> [".toList.isPrefixOf l) =
    ("[".toList ++ t.data.t.name ++ "]".toList) :: (visits t).map fun d => "\t\t-> [".toList ++ d.t.name ++ "]".toList := by
  have hn : ∀ (ind : Nat) (d : NodeData), ind = 0 ∨ ind = 2 →
      (dumpNode ind d).filter (fun l => "[".toList.isPrefixOf l || "\t\t-> [".toList.isPrefixOf l) = [indent ind ++ ['['] ++ (d.t.name ++ [']'])] := by
    intro ind d hi
    have hk : ∀ p ∈ (keys ind).tail ++ [label ind "Children:"], differ "[".toList p = true ∧ differ "\t\t-> [".toList p = true := by
      rcases hi with rfl | rfl <;> decide +kernel
    have h0 : ∀ v, ("[".toList.isPrefixOf (indent ind ++ ['['] ++ v) || "\t\t-> [".toList.isPrefixOf (indent ind ++ ['['] ++ v)) = true := by
      intro v
      rcases hi with rfl | rfl <;> simp [indent, lit, List.isPrefixOf]
    have h1 : ∀ p ∈ (keys ind).tail ++ [label ind "Children:"], ∀ v,
        ¬ (("[".toList.isPrefixOf (p ++ v) || "\t\t-> [".toList.isPrefixOf (p ++ v)) = true) := by
      intro p hp v h
      rw [Bool.or_eq_true, List.isPrefixOf_iff_prefix, List.isPrefixOf_iff_prefix] at h
      rcases h with ⟨x, hx⟩ | ⟨x, hx⟩
      · exact differ_ne (hk p hp).1 x v hx
      · exact differ_ne (hk p hp).2 x v hx
    have hf : ∃ gs, fieldsOf ind d = (indent ind ++ ['['], [d.t.name ++ [']']]) :: gs ∧ gs.map (·.1) = (keys ind).tail := ⟨_, rfl, rfl⟩
    obtain ⟨gs, e1, e2⟩ := hf
    rw [dumpNode_eq, e1, labelled, List.flatMap_cons, List.map_cons, List.map_nil, List.append_assoc, List.singleton_append,
      List.filter_cons_of_pos (by exact h0 (d.t.name ++ [']'])), List.filter_eq_nil_iff.2]
    intro l hl
    rcases List.mem_append.1 hl with hl | hl
    · obtain ⟨g, hg, v, rfl⟩ := labelled_lines hl
      exact h1 g.1 (List.mem_append_left _ (by rw [← e2]; exact List.mem_map_of_mem (f := (·.1)) hg)) v
    · rw [List.mem_singleton.1 hl]
      have := h1 (label ind "Children:") (by simp) []
      rwa [List.append_nil] at this
  rw [dumpAST_eq, List.filter_append, hn 0 _ (.inl rfl)]
  have : ∀ xs : List NodeData, (xs.flatMap (dumpNode 2)).filter (fun l => "[".toList.isPrefixOf l || "\t\t-> [".toList.isPrefixOf l) =
      xs.map fun d => "\t\t-> [".toList ++ d.t.name ++ "]".toList := by
    intro xs
    induction xs with
    | nil => rfl
    | cons x xs ih =>
      rw [List.flatMap_cons, List.filter_append, hn 2 _ (.inr rfl), ih]
      simp [indent, lit]
  rw [this]
  simp [indent]

/-- C76.  Texts of the document are printed as they are. -/
theorem C76_literal (t : Tree) {d : NodeData} {s : Str} (hd : d ∈ visits t) (hl : d.literal = some s) (hs : s ≠ []) :
    "\t\t\t-> Literal: ".toList ++ s ∈ dumpAST t := by
  rw [dumpAST_eq]
  refine List.mem_append_right _ (List.mem_flatMap.2 ⟨d, hd, ?_⟩)
  rw [dumpNode_eq]
  refine List.mem_append_left _ (List.mem_flatMap.2 ⟨(label 2 "Literal: ", optValues d.literal), by simp [fieldsOf], ?_⟩)
  have : optValues d.literal = [s] := by rw [hl]; simp [optValues, hs]
  rw [this]
  simp [label, indent, lit]

/-- C76: the level of a heading is not shown: `#  a` and `## a` have the same printed form (and different HTML). -/
theorem C76_level : ((parse false "#  a".toList).toOption.map dumpAST).isSome = true ∧
    (parse false "#  a".toList).toOption.map dumpAST = (parse false "## a".toList).toOption.map dumpAST ∧
    toHtml false {} "#  a".toList ≠ toHtml false {} "## a".toList := by
  refine ⟨by decide +kernel, by decide +kernel, by decide +kernel⟩

/-- C76: the printed form does not tell where a node with children begins and where it ends, so different trees can have the same:
emphasis in emphasis (`<em>a<em>b</em>c</em>`), and two emphasised texts one after the other (`<em>a</em>b<em>c</em>`). -/
theorem C76_nesting :
    let x (s : String) : Tree := .node { t := .text, literal := some s.toList } []
    let em (cs : List Tree) : Tree := .node { t := .emph } cs
    let p (cs : List Tree) : Tree := .node { t := .paragraph } cs
    dumpAST (p [em [x "a", em [x "b"], x "c"]]) = dumpAST (p [em [x "a"], x "b", em [x "c"]]) := by
  decide +kernel

/-! ### Examples -/

example : ∃ t, parse false "1) x\n".toList = .ok t ∧ "\t\t\t-> Literal: x".toList ∈ dumpAST t ∧
    (dumpAST t).filter (fun l => "[".toList.isPrefixOf l || "\t\t-> [".toList.isPrefixOf l) =
      ["[document]", "\t\t-> [document]", "\t\t-> [list]", "\t\t-> [item]", "\t\t-> [paragraph]", "\t\t-> [text]", "\t\t-> [paragraph]",
        "\t\t-> [item]", "\t\t-> [list]", "\t\t-> [document]"].map String.toList := by
  have h : ((parse false "1) x\n".toList).toOption.map visits).map (fun vs => vs.any (·.literal == some ['x']) &&
      vs.map (·.t) == [.document, .list, .item, .paragraph, .text, .paragraph, .item, .list, .document]) = some true := by decide +kernel
  cases hp : parse false "1) x\n".toList with
  | error e => rw [hp] at h; cases h
  | ok t =>
    rw [hp] at h
    simp only [Except.toOption, Option.map_some, Option.some.injEq, Bool.and_eq_true, List.any_eq_true, beq_iff_eq] at h
    obtain ⟨⟨d, hd, hx⟩, hk⟩ := h
    refine ⟨t, rfl, C76_literal t hd hx (by decide), ?_⟩
    rw [C76_kinds]
    have h1 : t.data.t = .document := by
      have := congrArg List.head? hk
      rw [List.head?_map, visits_head] at this
      simpa using this
    have h2 : ((visits t).map fun d => "\t\t-> [".toList ++ d.t.name ++ "]".toList) =
        ((visits t).map (·.t)).map fun k => "\t\t-> [".toList ++ k.name ++ "]".toList := by rw [List.map_map]; rfl
    rw [h1, h2, hk]
    decide +kernel

end CM
