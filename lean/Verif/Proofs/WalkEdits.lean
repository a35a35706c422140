import Verif.Proofs.Walks
/-
Inserting and replacing nodes during a walk.
-/
namespace CM
open Spec

mutual
/-- The tree with `f v` in the place of the node `v` with the identity `x` below the root. -/
def Shape.subst (x : Nat) (f : Shape → List Shape) : Shape → Shape
  | .node i cs => .node i (Shape.substList x f cs)
def Shape.substList (x : Nat) (f : Shape → List Shape) : List Shape → List Shape
  | [] => []
  | t :: ts => if t.id = x then f t ++ Shape.substList x f ts else Shape.subst x f t :: Shape.substList x f ts
end

theorem subst_id (x : Nat) (f : Shape → List Shape) (t : Shape) : (Shape.subst x f t).id = t.id := by
  cases t; rw [Shape.subst]; rfl

theorem docOrderList_append (h : Heap) : ∀ as bs : List Shape, docOrderList h (as ++ bs) = docOrderList h as ++ docOrderList h bs
  | [], bs => by rw [docOrderList]; rfl
  | a :: as, bs => by rw [List.cons_append, docOrderList, docOrderList, docOrderList_append h as, List.append_assoc]

theorem treesOf_append {kids : Nat → List Nat} : ∀ {as bs : List Shape}, TreesOf kids as → TreesOf kids bs → TreesOf kids (as ++ bs)
  | [], _, _, h => h
  | _ :: as, _, h1, h2 => ⟨h1.1, treesOf_append (as := as) h1.2 h2⟩

mutual
theorem subst_absent {x : Nat} {f : Shape → List Shape} : ∀ {t : Shape}, x ∉ t.ids → Shape.subst x f t = t
  | .node i cs, h => by
    rw [Shape.subst, substList_absent]
    intro hx; exact h (by rw [Shape.ids]; simp [hx])
theorem substList_absent {x : Nat} {f : Shape → List Shape} : ∀ {ts : List Shape}, x ∉ Shape.idsList ts → Shape.substList x f ts = ts
  | [], _ => by rw [Shape.substList]
  | t :: ts, h => by
    rw [Shape.idsList, List.mem_append, not_or] at h
    rw [Shape.substList, if_neg, subst_absent h.1, substList_absent h.2]
    rintro rfl; exact h.1 (id_mem_ids t)
end

mutual
theorem docOrder_subst {h : Heap} {x : Nat} {f : Shape → List Shape} {b : Bool} : ∀ {t : Shape}, t.ids.Nodup → x ≠ t.id → (x, b) ∈ docOrder h t →
    ∃ a u c, u.id = x ∧ docOrder h t = a ++ (docOrder h u ++ c) ∧ docOrder h (Shape.subst x f t) = a ++ (docOrderList h (f u) ++ c)
  | .node i cs, hn, hx, hm => by
    rw [Shape.ids, List.nodup_cons] at hn
    rw [docOrder] at hm
    rw [Shape.subst, docOrder, docOrder]
    split at hm
    · rename_i hc
      rw [if_pos hc, if_pos hc]
      have hx' : x ≠ i := hx
      have hm' : (x, b) ∈ docOrderList h cs := by
        simp only [List.mem_cons, List.mem_append, Prod.mk.injEq, List.not_mem_nil, or_false] at hm
        rcases hm with h | h | h
        · exact absurd h.1 hx'
        · exact h
        · exact absurd h.1 hx'
      obtain ⟨a, u, c, h1, h2, h3⟩ := docOrderList_subst (f := f) hn.2 hm'
      exact ⟨(i, true) :: a, u, c ++ [(i, false)], h1, by rw [h2]; simp, by rw [h3]; simp⟩
    · simp only [List.mem_singleton, Prod.mk.injEq] at hm
      exact absurd hm.1 hx
theorem docOrderList_subst {h : Heap} {x : Nat} {f : Shape → List Shape} {b : Bool} : ∀ {ts : List Shape}, (Shape.idsList ts).Nodup →
    (x, b) ∈ docOrderList h ts →
    ∃ a u c, u.id = x ∧ docOrderList h ts = a ++ (docOrder h u ++ c) ∧ docOrderList h (Shape.substList x f ts) = a ++ (docOrderList h (f u) ++ c)
  | [], _, hm => by rw [docOrderList] at hm; cases hm
  | t :: ts, hn, hm => by
    rw [Shape.idsList, List.nodup_append] at hn
    obtain ⟨n1, n2, n3⟩ := hn
    rw [docOrderList] at hm
    rw [Shape.substList]
    by_cases hx : t.id = x
    · rw [if_pos hx, substList_absent]
      · exact ⟨[], t, docOrderList h ts, hx, by rw [docOrderList]; rfl, by rw [docOrderList_append]; rfl⟩
      · intro hm'
        exact n3 x (by rw [← hx]; exact id_mem_ids t) x hm' rfl
    · rw [if_neg hx, docOrderList, docOrderList]
      rcases List.mem_append.1 hm with hm | hm
      · obtain ⟨a, u, c, h1, h2, h3⟩ := docOrder_subst (f := f) n1 (Ne.symm hx) hm
        have hab : x ∉ Shape.idsList ts := fun h' => n3 x (docOrder_mem t _ hm) x h' rfl
        rw [substList_absent hab]
        exact ⟨a, u, c ++ docOrderList h ts, h1, by rw [h2]; simp, by rw [h3]; simp⟩
      · obtain ⟨a, u, c, h1, h2, h3⟩ := docOrderList_subst (f := f) n2 hm
        have hab : x ∉ t.ids := fun h' => n3 x h' x (docOrderList_mem ts _ hm) rfl
        rw [subst_absent hab]
        exact ⟨docOrder h t ++ a, u, c, h1, by rw [h2]; simp, by rw [h3]; simp⟩
end

mutual
theorem subst_tree {kids kids' : Nat → List Nat} {x : Nat} {f : Shape → List Shape} {g : List Nat}
    (hf : ∀ v, TreeOf kids v → v.id = x → (f v).map Shape.id = g ∧ TreesOf kids' (f v)) : ∀ (t : Shape), TreeOf kids t →
    (∀ q ∈ t.ids, kids' q = (kids q).flatMap fun z => if z = x then g else [z]) → TreeOf kids' (Shape.subst x f t)
  | .node i cs, ht, hk => by
    rw [TreeOf] at ht
    rw [Shape.subst, TreeOf]
    obtain ⟨h1, h2⟩ := subst_trees hf cs ht.2 (fun q hq => hk q (by rw [Shape.ids]; simp [hq]))
    refine ⟨?_, h2⟩
    rw [hk i (by rw [Shape.ids]; simp), ht.1, h1]
theorem subst_trees {kids kids' : Nat → List Nat} {x : Nat} {f : Shape → List Shape} {g : List Nat}
    (hf : ∀ v, TreeOf kids v → v.id = x → (f v).map Shape.id = g ∧ TreesOf kids' (f v)) : ∀ (ts : List Shape), TreesOf kids ts →
    (∀ q ∈ Shape.idsList ts, kids' q = (kids q).flatMap fun z => if z = x then g else [z]) →
    (Shape.substList x f ts).map Shape.id = (ts.map Shape.id).flatMap (fun z => if z = x then g else [z]) ∧ TreesOf kids' (Shape.substList x f ts)
  | [], _, _ => by rw [Shape.substList]; exact ⟨rfl, trivial⟩
  | t :: ts, ht, hk => by
    rw [TreesOf] at ht
    obtain ⟨h1, h2⟩ := subst_trees hf ts ht.2 (fun q hq => hk q (by rw [Shape.idsList]; simp [hq]))
    rw [Shape.substList, List.map_cons, List.flatMap_cons]
    split
    · rename_i hx
      obtain ⟨k1, k2⟩ := hf t ht.1 hx
      rw [List.map_append, k1, h1]
      exact ⟨rfl, treesOf_append k2 h2⟩
    · rw [List.map_cons, h1, subst_id]
      exact ⟨rfl, subst_tree hf t ht.1 (fun q hq => hk q (by rw [Shape.idsList]; simp [hq])), h2⟩
end

mutual
theorem parent_in {kids : Nat → List Nat} {x : Nat} : ∀ {t : Shape}, TreeOf kids t → x ∈ t.ids → x ≠ t.id → ∃ p, x ∈ kids p
  | .node i cs, ht, hx, hne => by
    rw [Shape.ids, List.mem_cons] at hx
    rcases hx with rfl | hx
    · exact absurd rfl hne
    · rcases parents_in ht.2 hx with h | h
      · exact ⟨i, by rw [ht.1]; exact h⟩
      · exact h
theorem parents_in {kids : Nat → List Nat} {x : Nat} : ∀ {ts : List Shape}, TreesOf kids ts → x ∈ Shape.idsList ts →
    x ∈ ts.map Shape.id ∨ ∃ p, x ∈ kids p
  | [], _, hx => by rw [Shape.idsList] at hx; cases hx
  | t :: ts, ht, hx => by
    rw [Shape.idsList, List.mem_append] at hx
    rcases hx with hx | hx
    · by_cases he : x = t.id
      · exact .inl (by rw [he]; simp)
      · exact .inr (parent_in ht.1 hx he)
    · rcases parents_in ht.2 hx with h | h
      · exact .inl (by simp [h])
      · exact .inr h
end

theorem flatMap_absent {x : Nat} {g l : List Nat} (h : x ∉ l) : (l.flatMap fun z => if z = x then g else [z]) = l := by
  induction l with
  | nil => rfl
  | cons z l ih =>
    rw [List.flatMap_cons, if_neg (by rintro rfl; exact h (by simp)), ih fun hx => h (by simp [hx])]; rfl

/-- The lists of children in a tree from which the node `y` is far away. -/
theorem erase_absent {kids : Nat → List Nat} {t : Shape} {y : Nat} (ht : TreeOf kids t) (hy : y ∉ t.ids) {q : Nat} (hq : q ∈ t.ids) :
    (kids q).erase y = kids q := List.erase_of_not_mem fun h => hy (ids_closed ht hq h)

/-- A tree whose root only is moved. -/
theorem treeOf_moved {kids : Nat → List Nat} {u : Shape} (hu : TreeOf kids u) {x : Nat} {g : List Nat} (hx : ∀ q ∈ u.ids, x ∉ kids q) :
    TreeOf (fun q => ((kids q).erase u.id).flatMap fun z => if z = x then g else [z]) u := by
  refine treeOf_congr u ?_ hu
  intro q hq
  show ((kids q).erase u.id).flatMap _ = _
  have h1 : u.id ∉ kids q := by
    intro h
    obtain ⟨i, cs⟩ := u
    rw [Shape.ids, List.mem_cons] at hq
    rcases hq with rfl | hq
    · rw [hu.1] at h
      obtain ⟨c, hc, he⟩ := List.mem_map.1 h
      exact root_not_below hu (by rw [show (Shape.node q cs).id = q from rfl] at he; rw [← he]; exact mem_idsList_of_mem hc)
    · exact root_not_below hu (idsList_closed hu.2 hq h)
  rw [List.erase_of_not_mem h1, flatMap_absent (hx q hq)]

mutual
theorem below_mem {kids : Nat → List Nat} {t : Shape} (ht : TreeOf kids t) : ∀ (s : Shape), TreeOf kids s → s.id ∈ t.ids → ∀ q ∈ s.ids, q ∈ t.ids
  | .node i cs, hs, hm, q, hq => by
    rw [Shape.ids, List.mem_cons] at hq
    rcases hq with rfl | hq
    · exact hm
    · exact belows_mem ht cs hs.2 (fun c hc => ids_closed ht hm (by rw [show (Shape.node i cs).id = i from rfl, hs.1]; exact List.mem_map_of_mem hc)) q hq
theorem belows_mem {kids : Nat → List Nat} {t : Shape} (ht : TreeOf kids t) : ∀ (ss : List Shape), TreesOf kids ss → (∀ c ∈ ss, c.id ∈ t.ids) →
    ∀ q ∈ Shape.idsList ss, q ∈ t.ids
  | [], _, _, q, hq => by rw [Shape.idsList] at hq; cases hq
  | s :: ss, hs, hm, q, hq => by
    rw [Shape.idsList, List.mem_append] at hq
    rcases hq with hq | hq
    · exact below_mem ht s hs.1 (hm s (by simp)) q hq
    · exact belows_mem ht ss hs.2 (fun c hc => hm c (by simp [hc])) q hq
end

theorem insert_tree {kids : Nat → List Nat} {t u : Shape} (ht : TreeOf kids t) (hu : TreeOf kids u) (hdis : ∀ z ∈ u.ids, z ∉ t.ids) {x : Nat}
    (hx : x ∈ t.ids) {f : Shape → List Shape} {g : List Nat} (hf : ∀ v : Shape, v.id = x → (f v).map Shape.id = g)
    (hfu : ∀ v w : Shape, w ∈ f v → w = v ∨ w = u) :
    TreeOf (fun q => ((kids q).erase u.id).flatMap fun z => if z = x then g else [z]) (Shape.subst x f t) := by
  refine subst_tree (kids := kids) (g := g) ?_ t ht ?_
  · intro v hv hvx
    refine ⟨hf v hvx, ?_⟩
    have hvt : ∀ q ∈ v.ids, q ∈ t.ids := below_mem ht v hv (by rw [hvx]; exact hx)
    have h1 : TreeOf (fun q => ((kids q).erase u.id).flatMap fun z => if z = x then g else [z]) v := by
      refine treeOf_congr v ?_ hv
      intro q hq
      show ((kids q).erase u.id).flatMap _ = _
      rw [erase_absent ht (fun h => hdis _ (id_mem_ids u) h) (hvt q hq), flatMap_absent]
      intro h
      rw [← hvx] at h
      obtain ⟨i, cs⟩ := v
      rw [Shape.ids, List.mem_cons] at hq
      rcases hq with rfl | hq
      · rw [hv.1] at h
        obtain ⟨c, hc, he⟩ := List.mem_map.1 h
        exact root_not_below hv (by rw [show (Shape.node q cs).id = q from rfl] at he; rw [← he]; exact mem_idsList_of_mem hc)
      · exact root_not_below hv (idsList_closed hv.2 hq h)
    have h2 : TreeOf (fun q => ((kids q).erase u.id).flatMap fun z => if z = x then g else [z]) u :=
      treeOf_moved hu fun q hq h => hdis x (ids_closed hu hq h) hx
    have key : ∀ ws : List Shape, (∀ w ∈ ws, w = v ∨ w = u) →
        TreesOf (fun q => ((kids q).erase u.id).flatMap fun z => if z = x then g else [z]) ws := by
      intro ws
      induction ws with
      | nil => intro _; trivial
      | cons w ws ih =>
        intro h
        refine ⟨?_, ih fun w hw => h w (by simp [hw])⟩
        rcases h w (by simp) with rfl | rfl
        · exact h1
        · exact h2
    exact key _ (hfu v)
  · intro q hq
    show ((kids q).erase u.id).flatMap _ = _
    rw [erase_absent ht (fun h => hdis _ (id_mem_ids u) h) hq]

theorem split_last {h : Heap} {kids} (L : Linked h kids) {t : Shape} (ht : TreeOf kids t) {a b a' c : List (Nat × Bool)} {e : Nat × Bool} {v : Shape}
    (hd : docOrder h t = a ++ e :: b) (hl : lastEvent h e = true) (hv : v.id = e.1) (h2 : docOrder h t = a' ++ (docOrder h v ++ c)) :
    a ++ [e] = a' ++ docOrder h v ∧ b = c := by
  obtain ⟨x, f⟩ := e
  obtain ⟨d, g, e1, e2⟩ := docOrder_last h v
  rw [hv] at e1 e2
  have hn := ids_nodup L ht
  have hm : (x, f) ∈ docOrder h t := by rw [hd]; simp
  have hm2 : (x, g) ∈ docOrder h t := by rw [h2, e1]; simp
  have : g = f := lastEvent_eq hm2 hm e2 hl
  subst this
  have hnd := docOrder_nodup (h := h) t hn
  rw [hd] at h2 hnd
  rw [e1] at h2 ⊢
  have e3 : a ++ (x, g) :: b = (a' ++ d) ++ (x, g) :: c := by rw [h2]; simp
  have k1 : (x, g) ∉ a := by
    have := (List.nodup_append.1 hnd).2.2
    intro hm; exact this _ hm _ List.mem_cons_self rfl
  have k2 : (x, g) ∉ b := by
    have := (List.nodup_append.1 hnd).2.1
    exact (List.nodup_cons.1 this).1
  have hbc := uniq_split e3 k1 k2
  subst hbc
  refine ⟨?_, rfl⟩
  rw [← List.append_assoc]
  exact congrArg (· ++ [(x, g)]) (List.append_cancel_right e3)

theorem split_first {h : Heap} {kids} (L : Linked h kids) {t : Shape} (ht : TreeOf kids t) {a b a' c : List (Nat × Bool)} {x : Nat} {v : Shape}
    (hd : docOrder h t = a ++ (x, true) :: b) (hv : v.id = x) (h2 : docOrder h t = a' ++ (docOrder h v ++ c)) :
    a = a' ∧ (x, true) :: b = docOrder h v ++ c := by
  have e1 : ∃ d, docOrder h v = (x, true) :: d := by
    obtain ⟨i, cs⟩ := v
    rw [← show i = x from hv, docOrder]
    split
    · exact ⟨_, rfl⟩
    · exact ⟨_, rfl⟩
  obtain ⟨d, e1⟩ := e1
  have hnd := docOrder_nodup (h := h) t (ids_nodup L ht)
  rw [hd] at h2 hnd
  rw [e1] at h2 ⊢
  have e3 : a ++ (x, true) :: b = a' ++ (x, true) :: (d ++ c) := by rw [h2]; simp
  have k1 : (x, true) ∉ a := by
    have := (List.nodup_append.1 hnd).2.2
    intro hm; exact this _ hm _ List.mem_cons_self rfl
  have k2 : (x, true) ∉ b := by
    have := (List.nodup_append.1 hnd).2.1
    exact (List.nodup_cons.1 this).1
  have hbc := uniq_split e3 k1 k2
  rw [hbc] at e3 ⊢
  exact ⟨List.append_cancel_right e3, rfl⟩

/-- A tree put after a node. -/
theorem insertAfter_docOrder {h : Heap} {kids} (L : Linked h kids) {t u : Shape} (ht : TreeOf kids t) (hu : TreeOf kids u)
    (hdis : ∀ z ∈ u.ids, z ∉ t.ids) {a b : List (Nat × Bool)} {e : Nat × Bool}
    (hd : docOrder h t = a ++ e :: b) (hl : lastEvent h e = true) (hx : e.1 ≠ t.id) :
    ∃ h' kids' t', h.insertAfter e.1 u.id = .ok h' ∧ t'.id = t.id ∧ Linked h' kids' ∧ TreeOf kids' t' ∧
      docOrder h' t' = a ++ e :: (docOrder h u ++ b) ∧ ∀ i, (h' i).data = (h i).data := by
  have hm : (e.1, e.2) ∈ docOrder h t := by rw [hd]; simp
  have hxt : e.1 ∈ t.ids := docOrder_mem t _ hm
  obtain ⟨p, hp⟩ := parent_in ht hxt hx
  have hne : e.1 ≠ u.id := fun he => hdis _ (id_mem_ids u) (he ▸ hxt)
  obtain ⟨h', h1, L', hdata⟩ := insertAfter_linked L hne ((L.parent p _).1 hp)
  refine ⟨h', _, Shape.subst e.1 (fun v => [v, u]) t, h1, subst_id _ _ _, L', ?_, ?_, hdata⟩
  · exact insert_tree ht hu hdis hxt (f := fun v => [v, u]) (g := [e.1, u.id]) (fun v hv => by simp [hv]) (fun v w hw => by simpa using hw)
  · rw [docOrder_congr hdata]
    obtain ⟨a', v, c, k1, k2, k3⟩ := docOrder_subst (f := fun v => [v, u]) (ids_nodup L ht) hx hm
    obtain ⟨k4, rfl⟩ := split_last L ht hd hl k1 k2
    rw [k3, docOrderList, docOrderList, docOrderList, List.append_nil, List.append_assoc, ← List.append_assoc, ← k4]
    simp

/-- A tree put before a node. -/
theorem insertBefore_docOrder {h : Heap} {kids} (L : Linked h kids) {t u : Shape} (ht : TreeOf kids t) (hu : TreeOf kids u)
    (hdis : ∀ z ∈ u.ids, z ∉ t.ids) {a b : List (Nat × Bool)} {x : Nat}
    (hd : docOrder h t = a ++ (x, true) :: b) (hx : x ≠ t.id) :
    ∃ h' kids' t', h.insertBefore x u.id = .ok h' ∧ t'.id = t.id ∧ Linked h' kids' ∧ TreeOf kids' t' ∧
      docOrder h' t' = a ++ docOrder h u ++ (x, true) :: b ∧ ∀ i, (h' i).data = (h i).data := by
  have hm : (x, true) ∈ docOrder h t := by rw [hd]; simp
  have hxt : x ∈ t.ids := docOrder_mem t _ hm
  obtain ⟨p, hp⟩ := parent_in ht hxt hx
  have hne : x ≠ u.id := fun he => hdis _ (id_mem_ids u) (he ▸ hxt)
  obtain ⟨h', h1, L', hdata⟩ := insertBefore_linked L hne ((L.parent p _).1 hp)
  refine ⟨h', _, Shape.subst x (fun v => [u, v]) t, h1, subst_id _ _ _, L', ?_, ?_, hdata⟩
  · exact insert_tree ht hu hdis hxt (f := fun v => [u, v]) (g := [u.id, x]) (fun v hv => by simp [hv]) (fun v w hw => by simpa [or_comm] using hw)
  · rw [docOrder_congr hdata]
    obtain ⟨a', v, c, k1, k2, k3⟩ := docOrder_subst (f := fun v => [u, v]) (ids_nodup L ht) hx hm
    obtain ⟨rfl, k4⟩ := split_first L ht hd k1 k2
    rw [k3, docOrderList, docOrderList, docOrderList, List.append_nil, k4]
    simp

/-- Unlinking a node takes out its events and those below it. -/
theorem unlink_docOrder_at {h : Heap} {kids} (L : Linked h kids) {t v : Shape} (ht : TreeOf kids t) {a b : List (Nat × Bool)}
    (hx : v.id ≠ t.id) (hd : docOrder h t = a ++ (docOrder h v ++ b)) :
    ∃ t', t'.id = t.id ∧ Linked (h.unlink v.id) (fun p => (kids p).erase v.id) ∧ TreeOf (fun p => (kids p).erase v.id) t' ∧
      docOrder (h.unlink v.id) t' = a ++ b := by
  obtain ⟨d, f, e1, e2⟩ := docOrder_last h v
  have hm : (v.id, f) ∈ docOrder h t := by rw [hd, e1]; simp
  obtain ⟨a', u, c, h1, h2, h3⟩ := docOrder_remove (ids_nodup L ht) hx hm
  obtain ⟨L', hdata⟩ := unlink_linked L v.id
  refine ⟨Shape.remove v.id t, remove_id _ t, L', remove_tree L _ t ht, ?_⟩
  rw [docOrder_congr hdata, h3]
  have hf : ∃ g, docOrder h v = (v.id, true) :: g := by
    obtain ⟨i, cs⟩ := v
    rw [docOrder]
    split
    · exact ⟨_, rfl⟩
    · exact ⟨_, rfl⟩
  obtain ⟨g, hf⟩ := hf
  have hd1 : docOrder h t = a ++ (v.id, true) :: (g ++ b) := by rw [hd, hf]; simp
  have hd2 : docOrder h t = (a ++ d) ++ (v.id, f) :: b := by rw [hd, e1]; simp
  rw [(split_first L ht hd1 h1 h2).1, (split_last L ht hd2 e2 h1 h2).2]

theorem walkAt_next {h : Heap} {kids} (L : Linked h kids) {t : Shape} (ht : TreeOf kids t) {a b : List (Nat × Bool)} {e : Nat × Bool}
    (hd : docOrder h t = a ++ e :: b) {w w' : Walker} (hr : w.root = t.id) (hn : w.next h = some (e, w')) : WalkAt w' t.id b := by
  obtain ⟨_, h1, h2⟩ := next_root hn
  obtain ⟨w'', k1, k2⟩ := WalkAt.next L ht hd (w := w) ⟨hr, h1, by intro e' he; cases he; exact h2⟩
  rw [hn] at k1
  cases k1; exact k2

theorem WalkAt.gives {h : Heap} {kids} (L : Linked h kids) {t : Shape} (ht : TreeOf kids t) {a b : List (Nat × Bool)}
    (hd : docOrder h t = a ++ b) {w : Walker} (hw : WalkAt w t.id b) : ∀ n, Walker.take h n w = b.take n := by
  cases b with
  | nil =>
    intro n
    have : w.next h = none := by rw [Walker.next, hw.2.1]; rfl
    cases n with
    | zero => rfl
    | succ n => rw [Walker.take, this]; rfl
  | cons e b =>
    have hw' : w = ⟨some e.1, t.id, e.2⟩ := by
      obtain ⟨c, r, en⟩ := w
      obtain ⟨h1, h2, h3⟩ := hw
      simp only at h1 h2
      rw [h1, h2, show en = e.2 from h3 e rfl]; rfl
    rw [hw']
    exact gives_at L ht hd

end CM
