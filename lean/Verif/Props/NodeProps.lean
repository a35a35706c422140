import Verif.Proofs.NodeProps
/-
C18 (walker), C19 (tree operations), C20 (normalize): properties of the pointer structure in
/repo/commonmark/node.py.  `Spec.Linked h kids` says that the five pointers of all nodes describe the
lists of children `kids`.
-/
namespace CM
open Spec
set_option linter.unusedSimpArgs false

/-- `append_child` moves the child to the end of the list of its new parent; nothing else changes. -/
theorem C19_append {h : Heap} {kids} (L : Linked h kids) (self child : Nat) :
    Linked (h.appendChild self child)
      (fun p => if p = self then (kids p).erase child ++ [child] else (kids p).erase child) ∧
    ∀ i, (h.appendChild self child i).data = (h i).data :=
  appendChild_linked L self child

/-- `prepend_child` moves the child to the front of the list of its new parent. -/
theorem C19_prepend {h : Heap} {kids} (L : Linked h kids) (self child : Nat) :
    Linked (h.prependChild self child)
      (fun p => if p = self then child :: (kids p).erase child else (kids p).erase child) ∧
    ∀ i, (h.prependChild self child i).data = (h i).data :=
  prependChild_linked L self child

/-- `unlink` removes the node from the list it is in. -/
theorem C19_unlink {h : Heap} {kids} (L : Linked h kids) (x : Nat) :
    Linked (h.unlink x) (fun p => (kids p).erase x) ∧ ∀ i, (h.unlink x i).data = (h i).data :=
  unlink_linked L x

/-- `insert_after` moves the sibling right behind the node, if that is another node with a parent. -/
theorem C19_insert_after {h : Heap} {kids} (L : Linked h kids) {self sibling p : Nat}
    (hne : self ≠ sibling) (hp : self ∈ kids p) :
    ∃ h', h.insertAfter self sibling = .ok h' ∧
      Linked h' (fun q => putAfter self sibling ((kids q).erase sibling)) ∧
      ∀ i, (h' i).data = (h i).data :=
  insertAfter_linked L hne ((L.parent p self).1 hp)

/-- `insert_before` moves the sibling right in front of the node, likewise. -/
theorem C19_insert_before {h : Heap} {kids} (L : Linked h kids) {self sibling p : Nat}
    (hne : self ≠ sibling) (hp : self ∈ kids p) :
    ∃ h', h.insertBefore self sibling = .ok h' ∧
      Linked h' (fun q => putBefore self sibling ((kids q).erase sibling)) ∧
      ∀ i, (h' i).data = (h i).data :=
  insertBefore_linked L hne ((L.parent p self).1 hp)

/-- Every history of legal calls, from newly constructed nodes on, runs without an exception, leaves
the pointers consistent and the lists of children exactly as the calls say. -/
theorem C19_history (d : Nat → NodeData) (ops : List NodeOp) (kids : Nat → List Nat)
    (hh : History (fun _ => []) ops kids) :
    ∃ h, ops.foldlM NodeOp.run (freshHeap d) = .ok h ∧ Linked h kids ∧ ∀ i, (h i).data = d i :=
  history_linked hh (freshHeap d) (freshHeap_linked d) fun _ => rfl

/-- The lists that a linked heap describes are unique: `kids` in the theorems above is no extra
choice. -/
theorem C19_unique {h : Heap} {kids kids'} (L : Linked h kids) (L' : Linked h kids') : kids = kids' := by
  funext p
  have sub : ∀ {k : Nat → List Nat}, Linked h k → ∀ l r, k p = l ++ r → r.head? = ((kids p).drop l.length).head? →
      l = (kids p).take l.length → r = (kids p).drop l.length := by
    intro k Lk l r
    induction r generalizing l with
    | nil =>
      intro hk hh _
      cases hd : (kids p).drop l.length with
      | nil => rfl
      | cons a b => rw [hd] at hh; simp at hh
    | cons c r ih =>
      intro hk hh hl
      cases hd : (kids p).drop l.length with
      | nil => rw [hd] at hh; simp at hh
      | cons a b =>
        rw [hd] at hh
        simp at hh
        subst hh
        have e1 := Lk.beside p l c r hk
        have hkp : kids p = l ++ c :: b := by
          rw [← List.take_append_drop l.length (kids p), hd, ← hl]
        have e2 := L.beside p l c b hkp
        have hd2 : (kids p).drop (l ++ [c]).length = b := by
          rw [List.length_append, ← List.drop_drop, hd]; rfl
        have := ih (l ++ [c]) (by rw [hk]; simp) (by rw [hd2, ← e1.2, e2.2])
          (by rw [hkp, show l ++ c :: b = (l ++ [c]) ++ b by simp, List.take_left])
        rw [hd2] at this
        rw [this]
  have := sub L' [] (kids' p) rfl (by rw [List.length_nil, List.drop_zero, ← L.first p, ← L'.first p]) (by simp)
  simpa using this.symm

/-- Outside these conditions the operations are not safe: next to a node without a parent they raise
AttributeError (when it has no siblings), … -/
theorem C19_insert_after_orphan {h : Heap} {kids} (L : Linked h kids) {self sibling : Nat}
    (hp : (h self).parent = none) (hne : self ≠ sibling) :
    h.insertAfter self sibling = .error .attributeError := by
  have L' := (unlink_linked L sibling).1
  have hp' : (h.unlink sibling self).parent = none := by
    cases hq : (h.unlink sibling self).parent with
    | none => rfl
    | some p =>
      have h1 := (L'.parent p self).2 hq
      have h2 := (L.parent p self).1 (List.mem_of_mem_erase h1)
      rw [hp] at h2; cases h2
  have ho := L'.orphan self hp'
  simp only [Heap.insertAfter]
  generalize h.unlink sibling = g at *
  simp [Heap.set, Heap.setOpt, ho.2, hp', hne, Ne.symm hne]

/-- … and inserting a node next to itself leaves pointers that describe no lists of children at all. -/
theorem C19_insert_after_self {h : Heap} (x : Nat) :
    ∃ h', h.insertAfter x x = .ok h' ∧ ¬∃ kids, Linked h' kids := by
  have hpar := unlink_parent h x
  have hpn := unlink_prv_nxt h x
  simp only [Heap.insertAfter]
  generalize h.unlink x = g at *
  simp only [Heap.set, Heap.setOpt, hpar, hpn, if_true]
  refine ⟨_, rfl, ?_⟩
  rintro ⟨kids, L⟩
  have hx := L.orphan x
  simp [Heap.set] at hx

/-- A history that the theorem covers: build `0 → [1, 2]`, move 1 behind 2, put 3 in front of 2. -/
example : History (fun _ => [])
    [.append 0 1, .append 0 2, .after 2 1, .before 2 3, .prepend 1 4, .unlink 4]
    (fun p => if p = 0 then [3, 2, 1] else []) := by
  have hk : ∀ {k ops k' k''}, History k ops k' → k' = k'' → History k ops k'' := by
    intro _ _ _ _ h e; exact e ▸ h
  refine hk (.cons _ _ trivial (.cons _ _ trivial (.cons _ _ ⟨by decide, 0, by decide⟩
    (.cons _ _ ⟨by decide, 0, by decide⟩ (.cons _ _ trivial (.cons _ _ trivial (.nil _))))))) ?_
  funext p
  by_cases h0 : p = 0
  · subst h0; decide
  · by_cases h1 : p = 1
    · subst h1; decide
    · simp [NodeOp.move, h0, h1, putAfter, putBefore]

/-- Iterating `walker()` yields the events of the tree below the root in document order and then
stops: the first `n` results are the first `n` events, for every `n`. -/
theorem C18_walker {h : Heap} {kids} (L : Linked h kids) (t : Shape) (ht : TreeOf kids t) (n : Nat) :
    Walker.take h n (Walker.new t.id) = (docOrder h t).take n :=
  walk_root L t ht n

/-- No event occurs twice: every node is entered once and left at most once. -/
theorem C18_once {h : Heap} {kids} (L : Linked h kids) (t : Shape) (ht : TreeOf kids t) (n : Nat) :
    (Walker.take h n (Walker.new t.id)).Nodup := by
  rw [C18_walker L t ht n]
  exact (docOrder_nodup t (ids_nodup L ht)).sublist (List.take_sublist _ _)

/-- Every node of the tree is entered exactly once, and left exactly once if it is of a container
kind and never otherwise. -/
theorem C18_each {h : Heap} {kids} (L : Linked h kids) (t : Shape) (ht : TreeOf kids t)
    (hp : Proper h t) :
    ∃ N, ∀ n, N ≤ n → ∀ x ∈ t.ids,
      (Walker.take h n (Walker.new t.id)).count (x, true) = 1 ∧
      (Walker.take h n (Walker.new t.id)).count (x, false) =
        if isContainer (h x).data.t then 1 else 0 := by
  refine ⟨(docOrder h t).length, fun n hn x hx => ?_⟩
  rw [C18_walker L t ht n, List.take_of_length_le hn]
  have hnd := ids_nodup L ht
  obtain ⟨h1, h2⟩ := docOrder_all t hp hnd x hx
  have hdn := docOrder_nodup (h := h) t hnd
  refine ⟨by rw [hdn.count, if_pos h1], ?_⟩
  rw [hdn.count]
  by_cases hc : isContainer (h x).data.t = true
  · rw [if_pos (h2.2 hc), if_pos hc]
  · rw [if_neg (fun hh => hc (h2.1 hh)), if_neg hc]

/-- The link to the tree model that the renderers use: what a renderer sees along the walk of a
parentless root (nodes, and their parents, grandparents and first children) is `events`. -/
theorem C18_events {h : Heap} {kids} (L : Linked h kids) (t : Shape) (ht : TreeOf kids t)
    (hroot : (h t.id).parent = none) (n : Nat) :
    (Walker.take h n (Walker.new t.id)).map (eventAt h) = (events none none (payload h t)).take n := by
  rw [C18_walker L t ht n, List.map_take, events_docOrder L t ht, hroot]
  rfl

/-- The hypotheses of the walker theorems hold for it. -/
example : ∃ h, Linked h demoKids ∧ TreeOf demoKids demoTree ∧ Proper h demoTree ∧
    (h demoTree.id).parent = none ∧
    docOrder h demoTree = [(0, true), (1, true), (2, true), (3, true), (2, false), (4, true), (5, true),
      (0, false)] := by
  obtain ⟨h, _, L, hd⟩ := demo_linked
  have hc : ∀ i, isContainer (h i).data.t = (i = 0 ∨ i = 2 : Bool) := by
    intro i
    rw [hd]
    by_cases h0 : i = 0 <;> by_cases h2 : i = 2 <;> simp [demoData, h0, h2, isContainer]
  refine ⟨h, L, ?_, ?_, ?_, ?_⟩
  · simp [demoTree, TreeOf, TreesOf, demoKids, Shape.id]
  · simp [demoTree, Proper, Propers, hc]
  · cases hp : (h demoTree.id).parent with
    | none => rfl
    | some p =>
      have := (L.parent p 0).2 hp
      simp only [demoKids] at this
      split at this <;> (try split at this) <;> simp at this
  · simp [demoTree, docOrder, docOrderList, hc]

/-- `normalize()` terminates without an exception and leaves a linked tree with the same root whose
payload is the old one with runs of adjacent text siblings merged; nodes outside the tree keep their
children and payload. -/
theorem C20_normalize {h : Heap} {kids} (L : Linked h kids) (t : Shape) (ht : TreeOf kids t)
    (hl : TextLit h t.ids) :
    ∃ (h' : Heap) (kids' : Nat → List Nat) (t' : Shape) (N : Nat),
      (∀ fuel, N ≤ fuel → normalizeHeap fuel h t.id = .ok h') ∧ Linked h' kids' ∧ TreeOf kids' t' ∧
      t'.id = t.id ∧ (∀ x ∈ t'.ids, x ∈ t.ids) ∧ (∀ q, q ∉ t.ids → kids' q = kids q) ∧
      (∀ x, x ∉ t.ids → (h' x).data = (h x).data) ∧
      payload h' t' = mergeText (payload h t) :=
  norm_root L t ht hl

/-- Afterwards no two adjacent siblings are text nodes, and the text between any two other things in
the document is what it was. -/
theorem C20_effect {h : Heap} {kids} (L : Linked h kids) (t : Shape) (ht : TreeOf kids t)
    (hl : TextLit h t.ids) :
    ∃ (h' : Heap) (kids' : Nat → List Nat) (t' : Shape) (N : Nat),
      (∀ fuel, N ≤ fuel → normalizeHeap fuel h t.id = .ok h') ∧ Linked h' kids' ∧ TreeOf kids' t' ∧
      NoAdjacentText (payload h' t') ∧ visible (payload h' t') = visible (payload h t) := by
  obtain ⟨h', kids', t', N, h1, h2, h3, _, _, _, _, h8⟩ := norm_root L t ht hl
  exact ⟨h', kids', t', N, h1, h2, h3, by rw [h8]; exact mergeText_noAdj _,
    by rw [h8]; exact visible_merge _⟩

/-- Calling it again changes nothing: the second call succeeds and gives the same payload tree. -/
theorem C20_idempotent {h : Heap} {kids} (L : Linked h kids) (t : Shape) (ht : TreeOf kids t)
    (hl : TextLit h t.ids) :
    ∃ (h' h'' : Heap) (kids' kids'' : Nat → List Nat) (t' t'' : Shape) (N : Nat),
      (∀ fuel, N ≤ fuel → normalizeHeap fuel h t.id = .ok h') ∧ Linked h' kids' ∧ TreeOf kids' t' ∧
      (∀ fuel, N ≤ fuel → normalizeHeap fuel h' t.id = .ok h'') ∧ Linked h'' kids'' ∧
      TreeOf kids'' t'' ∧ t'.id = t.id ∧ t''.id = t.id ∧ payload h'' t'' = payload h' t' := by
  obtain ⟨h', kids', t', N, h1, h2, h3, h4, _, _, _, h8⟩ := norm_root L t ht hl
  have hl' : TextLit h' t'.ids := by
    refine textLit_of_payload t' ?_
    rw [h8]
    exact mergeText_lit _ (textLit_payload t hl)
  obtain ⟨h'', kids'', t'', M, g1, g2, g3, g4, _, _, _, g8⟩ := norm_root h2 t' h3 hl'
  refine ⟨h', h'', kids', kids'', t', t'', N + M, fun f hf => h1 f (by omega), h2, h3,
    fun f hf => by rw [← h4]; exact g1 f (by omega), g2, g3, h4, g4.trans h4, ?_⟩
  rw [g8, h8, mergeText_fix _ (mergeText_noAdj _)]

/-- The hypotheses hold for the demonstration heap, and merging does something there. -/
example : ∃ h, Linked h demoKids ∧ TreeOf demoKids demoTree ∧ TextLit h demoTree.ids ∧
    (mergeText (payload h demoTree)).children.length = 3 := by
  obtain ⟨h, _, L, hd⟩ := demo_linked
  refine ⟨h, L, ?_, ?_, ?_⟩
  · simp [demoTree, TreeOf, TreesOf, demoKids, Shape.id]
  · intro x _ _
    rw [hd]
    simp only [demoData]
    split
    · exact ⟨_, rfl⟩
    · split <;> exact ⟨_, rfl⟩
  · have : payload h demoTree = payload (freshHeap demoData) demoTree :=
      payload_congr _ fun x _ => by rw [hd]; rfl
    rw [this]
    decide

end CM
