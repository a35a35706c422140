import Verif.Proofs.WalkEdits
/-
C79: a walk can be resumed at any event, and it goes on when nodes are unlinked behind it.
-/
namespace CM
open Spec

/-- C79: a walker of a tree that is put back (or forward) to one of its events with `resume_at` gives that event and all that follow it,
whatever it has given before. -/
theorem C79_resume {h : Heap} {kids} (L : Linked h kids) {t : Shape} (ht : TreeOf kids t) {before rest : List (Nat × Bool)} {node : Nat}
    {entering : Bool} (hd : docOrder h t = before ++ (node, entering) :: rest) {w : Walker} (hw : w.root = t.id) (n : Nat) :
    Walker.take h n (w.resumeAt node entering) = ((node, entering) :: rest).take n := by
  have e : w.resumeAt node entering = ⟨some node, t.id, entering⟩ := by
    obtain ⟨c, r, en⟩ := w
    simp only at hw
    rw [hw]; rfl
  rw [e]
  exact gives_at L ht hd n

/-- C79: `resume_at(node, False)` when a node with children is entered skips what is below it, and nothing else. -/
theorem C79_skip {h : Heap} {kids} (L : Linked h kids) {t u : Shape} (ht : TreeOf kids t) {before rest : List (Nat × Bool)}
    (hc : isContainer (h u.id).data.t = true) (hd : docOrder h t = before ++ docOrder h u ++ rest) {w : Walker} (hw : w.root = t.id) (n : Nat) :
    Walker.take h n (w.resumeAt u.id false) = ((u.id, false) :: rest).take n := by
  cases u with
  | node i cs =>
    have hc' : isContainer (h i).data.t = true := hc
    rw [docOrder, if_pos hc'] at hd
    exact C79_resume L ht (before := before ++ (i, true) :: docOrderList h cs) (by rw [hd]; simp [Shape.id]) hw n

/-- C79: the body of a loop along a walk can unlink any nodes below the root, each one at its last event (when it is left, or at its only
event if it can have no children).  The loop still sees every event of the tree as it was, in document order; afterwards
exactly the chosen nodes are missing among the children of all nodes, and nothing else has changed. -/
theorem C79_remove {h : Heap} {kids} (L : Linked h kids) {t : Shape} (ht : TreeOf kids t) (hp : Proper h t) {P : Nat → Bool}
    (hr : P t.id = false) : ∃ N, ∀ n, N ≤ n →
      (sweep P n h (Walker.new t.id)).1 = docOrder h t ∧
      Linked (sweep P n h (Walker.new t.id)).2 (fun p => (kids p).filter fun c => !(P c && decide (c ∈ t.ids))) ∧
      ∀ i, ((sweep P n h (Walker.new t.id)).2 i).data = (h i).data := by
  refine ⟨(docOrder h t).length, fun n hn => ?_⟩
  have hat : WalkAt (Walker.new t.id) t.id (docOrder h t) := by
    obtain ⟨i, cs⟩ := t
    refine ⟨rfl, ?_, ?_⟩
    · rw [docOrder]; split <;> rfl
    · intro e he
      rw [docOrder] at he
      split at he <;> cases he <;> rfl
  obtain ⟨h1, h2, h3⟩ := sweep_from P (docOrder h t) h kids t [] (Walker.new t.id) L ht hr rfl hat n hn
  refine ⟨h1, ?_, h3⟩
  have e : (fun p => (kids p).filter fun c => !(P c && decide (∃ f, (c, f) ∈ docOrder h t ∧ lastEvent h (c, f) = true))) =
      (fun p => (kids p).filter fun c => !(P c && decide (c ∈ t.ids))) := by
    funext p
    refine List.filter_congr fun c _ => ?_
    have hiff : (∃ f, (c, f) ∈ docOrder h t ∧ lastEvent h (c, f) = true) ↔ c ∈ t.ids := by
      constructor
      · rintro ⟨f, hf, _⟩; exact docOrder_mem t _ hf
      · intro hc
        obtain ⟨k1, k2⟩ := docOrder_all t hp (ids_nodup L ht) c hc
        by_cases hk : isContainer (h c).data.t = true
        · exact ⟨false, k2.2 hk, rfl⟩
        · exact ⟨true, k1, by simp [lastEvent, Bool.eq_false_iff.2 hk]⟩
    simp only [hiff]
  rw [← e]; exact h2

/-- C79: the body of the loop can put other nodes after the current one at its last event.  The tree then has the new nodes right after it;
the walk does not come to them and goes on with the events that were to come. -/
theorem C79_insert_after {h : Heap} {kids} (L : Linked h kids) {t u : Shape} (ht : TreeOf kids t) (hu : TreeOf kids u)
    (hdis : ∀ z ∈ u.ids, z ∉ t.ids) {before rest : List (Nat × Bool)} {e : Nat × Bool}
    (hd : docOrder h t = before ++ e :: rest) (hl : lastEvent h e = true) (hx : e.1 ≠ t.id)
    {w w' : Walker} (hw : w.root = t.id) (hn : w.next h = some (e, w')) :
    ∃ h' kids' t', h.insertAfter e.1 u.id = .ok h' ∧ t'.id = t.id ∧ Linked h' kids' ∧ TreeOf kids' t' ∧
      docOrder h' t' = before ++ e :: (docOrder h u ++ rest) ∧ (∀ i, (h' i).data = (h i).data) ∧
      ∀ n, Walker.take h' n w' = rest.take n := by
  obtain ⟨h', kids', t', h1, h2, h3, h4, h5, h6⟩ := insertAfter_docOrder L ht hu hdis hd hl hx
  refine ⟨h', kids', t', h1, h2, h3, h4, h5, h6, ?_⟩
  have hat := walkAt_next L ht hd hw hn
  rw [← h2] at hat
  exact WalkAt.gives h3 h4 (a := before ++ e :: docOrder h u) (by rw [h5]; simp) hat

/-- C79: the same for nodes put before the current one when it is entered. -/
theorem C79_insert_before {h : Heap} {kids} (L : Linked h kids) {t u : Shape} (ht : TreeOf kids t) (hu : TreeOf kids u)
    (hdis : ∀ z ∈ u.ids, z ∉ t.ids) {before rest : List (Nat × Bool)} {node : Nat}
    (hd : docOrder h t = before ++ (node, true) :: rest) (hx : node ≠ t.id)
    {w w' : Walker} (hw : w.root = t.id) (hn : w.next h = some ((node, true), w')) :
    ∃ h' kids' t', h.insertBefore node u.id = .ok h' ∧ t'.id = t.id ∧ Linked h' kids' ∧ TreeOf kids' t' ∧
      docOrder h' t' = before ++ docOrder h u ++ (node, true) :: rest ∧ (∀ i, (h' i).data = (h i).data) ∧
      ∀ n, Walker.take h' n w' = rest.take n := by
  obtain ⟨h', kids', t', h1, h2, h3, h4, h5, h6⟩ := insertBefore_docOrder L ht hu hdis hd hx
  refine ⟨h', kids', t', h1, h2, h3, h4, h5, h6, ?_⟩
  have hat := walkAt_next L ht hd hw hn
  rw [← h2] at hat
  exact WalkAt.gives h3 h4 (a := before ++ docOrder h u ++ [(node, true)]) (by rw [h5]; simp) hat

/-- C79: a node can be replaced by another one at its last event (`insert_after` and then `unlink`).
The new node stands in the place of the old one and all that was below it, and the walk goes on with the events that were to come. -/
theorem C79_replace {h : Heap} {kids} (L : Linked h kids) {t u v : Shape} (ht : TreeOf kids t) (hu : TreeOf kids u)
    (hdis : ∀ z ∈ u.ids, z ∉ t.ids) {before inside rest : List (Nat × Bool)} {e : Nat × Bool} (hv : v.id = e.1)
    (hd : docOrder h t = before ++ docOrder h v ++ rest) (hi : docOrder h v = inside ++ [e]) (hl : lastEvent h e = true) (hx : e.1 ≠ t.id)
    {w w' : Walker} (hw : w.root = t.id) (hn : w.next h = some (e, w')) :
    ∃ h' kids' t', h.insertAfter e.1 u.id = .ok h' ∧ t'.id = t.id ∧ Linked (h'.unlink e.1) kids' ∧ TreeOf kids' t' ∧
      docOrder (h'.unlink e.1) t' = before ++ docOrder h u ++ rest ∧ (∀ i, (h'.unlink e.1 i).data = (h i).data) ∧
      ∀ n, Walker.take (h'.unlink e.1) n w' = rest.take n := by
  have hd' : docOrder h t = (before ++ inside) ++ e :: rest := by rw [hd, hi]; simp
  obtain ⟨h', kids', t', h1, h2, h3, h4, h5, h6⟩ := insertAfter_docOrder L ht hu hdis hd' hl hx
  have hat := walkAt_next L ht hd' hw hn
  have h5' : docOrder h' t' = before ++ (docOrder h' v ++ (docOrder h u ++ rest)) := by
    rw [h5, docOrder_congr h6 v, hi]; simp
  obtain ⟨t'', k1, k2, k3, k4⟩ := unlink_docOrder_at h3 h4 (by rw [h2, hv]; exact hx) h5'
  rw [hv] at k2 k3 k4
  have hdata : ∀ i, (h'.unlink e.1 i).data = (h i).data := fun i => ((unlink_linked h3 e.1).2 i).trans (h6 i)
  refine ⟨h', _, t'', h1, k1.trans h2, k2, k3, by rw [k4, List.append_assoc], hdata, ?_⟩
  rw [← h2, ← k1] at hat
  exact WalkAt.gives k2 k3 (a := before ++ docOrder h u) (by rw [k4, List.append_assoc]) hat

/-! ### Examples -/

/-- The demonstration tree: after the fourth event, on with the second; below the node 2 skipped; the nodes 1 and 2 unlinked. -/
example : ∃ h, Linked h demoKids ∧ (∀ n, Walker.take h n ((Walker.new 0).resumeAt 2 false) = [(2, false), (4, true), (5, true), (0, false)].take n) ∧
    ∃ g, Linked g (fun p => (demoKids p).filter fun c => !((c = 1 ∨ c = 2 : Bool) && decide (c ∈ demoTree.ids))) ∧
      ((demoKids 0).filter fun c => !((c = 1 ∨ c = 2 : Bool) && decide (c ∈ demoTree.ids))) = [4, 5] := by
  obtain ⟨h, _, L, hd⟩ := demo_linked
  have hc : ∀ i, isContainer (h i).data.t = (i = 0 ∨ i = 2 : Bool) := by
    intro i
    rw [hd]
    by_cases h0 : i = 0 <;> by_cases h2 : i = 2 <;> simp [demoData, h0, h2, isContainer]
  have ht : TreeOf demoKids demoTree := by simp [demoTree, TreeOf, TreesOf, demoKids, Shape.id]
  have ho : docOrder h demoTree = [(0, true), (1, true), (2, true), (3, true), (2, false), (4, true), (5, true), (0, false)] := by
    simp [demoTree, docOrder, docOrderList, hc]
  refine ⟨h, L, fun n => ?_, ?_⟩
  · exact C79_resume L ht (before := [(0, true), (1, true), (2, true), (3, true)]) (by rw [ho]; rfl) (w := Walker.new 0) rfl n
  · obtain ⟨N, hN⟩ := C79_remove L ht (by simp [demoTree, Proper, Propers, hc]) (P := fun c => (c = 1 ∨ c = 2 : Bool)) (by decide)
    exact ⟨_, (hN N (Nat.le_refl N)).2.1, by decide⟩

/-- The demonstration tree: the node 2, with the node 3 below it, replaced by the node 7 when it is left. -/
example : ∃ h h' kids' t', Linked h demoKids ∧ h.insertAfter 2 7 = .ok h' ∧ Linked (h'.unlink 2) kids' ∧ TreeOf kids' t' ∧
    docOrder (h'.unlink 2) t' = [(0, true), (1, true), (7, true), (4, true), (5, true), (0, false)] ∧
    ∃ w', (⟨some 2, 0, false⟩ : Walker).next h = some ((2, false), w') ∧
      Walker.take (h'.unlink 2) 10 w' = [(4, true), (5, true), (0, false)] := by
  obtain ⟨h, _, L, hd⟩ := demo_linked
  have hc : ∀ i, isContainer (h i).data.t = (i = 0 ∨ i = 2 : Bool) := by
    intro i
    rw [hd]
    by_cases h0 : i = 0 <;> by_cases h2 : i = 2 <;> simp [demoData, h0, h2, isContainer]
  have ht : TreeOf demoKids demoTree := by simp [demoTree, TreeOf, TreesOf, demoKids, Shape.id]
  have hu : TreeOf demoKids (.node 7 []) := by simp [TreeOf, TreesOf, demoKids]
  have ho : docOrder h demoTree = [(0, true), (1, true), (2, true), (3, true), (2, false), (4, true), (5, true), (0, false)] := by
    simp [demoTree, docOrder, docOrderList, hc]
  have ov : docOrder h (.node 2 [.node 3 []]) = [(2, true), (3, true), (2, false)] := by simp [docOrder, docOrderList, hc]
  have ou : docOrder h (.node 7 []) = [(7, true)] := by simp [docOrder, hc]
  obtain ⟨w', hn, _⟩ := WalkAt.next L ht (a := [(0, true), (1, true), (2, true), (3, true)]) (e := (2, false)) (b := [(4, true), (5, true), (0, false)])
    (by rw [ho]; rfl) (w := ⟨some 2, 0, false⟩) ⟨rfl, rfl, by intro e he; cases he; rfl⟩
  obtain ⟨h', kids', t', k1, _, k3, k4, k5, _, k7⟩ := C79_replace L ht hu (by decide) (v := .node 2 [.node 3 []]) (e := (2, false)) rfl
    (before := [(0, true), (1, true)]) (rest := [(4, true), (5, true), (0, false)]) (by rw [ho, ov]; rfl) (inside := [(2, true), (3, true)])
    (by rw [ov]; rfl) rfl (by decide) rfl hn
  exact ⟨h, h', kids', t', L, k1, k3, k4, by rw [k5, ou]; rfl, w', hn, k7 10⟩

/-- C79: a node that is unlinked when it is entered ends the walk too early: the events after it are lost. -/
theorem C79_too_early :
    let d : Nat → NodeData := fun i => { t := if i = 0 then .document else .paragraph }
    let h := ((freshHeap d).appendChild 0 1).appendChild 0 2
    Walker.take h 10 (Walker.new 0) = [(0, true), (1, true), (1, false), (2, true), (2, false), (0, false)] ∧
    ∃ w, Walker.take h 2 (Walker.new 0) = [(0, true), (1, true)] ∧ w = (((Walker.new 0).next h).bind fun x => x.2.next h).map Prod.snd ∧
      (w.map fun w => Walker.take (h.unlink 1) 10 w) = some [(1, false)] := by
  refine ⟨by decide, _, by decide, rfl, by decide⟩

end CM
