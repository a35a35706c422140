import Verif.Proofs.Nodes
namespace CM
open Spec

mutual
/-- Number of nodes. -/
def Shape.size : Shape → Nat
  | .node _ cs => 1 + Shape.sizeList cs
def Shape.sizeList : List Shape → Nat
  | [] => 0
  | t :: ts => Shape.size t + Shape.sizeList ts
end

mutual
theorem treeOf_det {kids} : ∀ {t u : Shape}, TreeOf kids t → TreeOf kids u → t.id = u.id → t = u
  | .node i cs, .node j ds, ht, hu, he => by
    simp only [Shape.id] at he
    subst he
    simp only [TreeOf] at ht hu
    have : cs = ds := treesOf_det ht.2 hu.2 (ht.1.symm.trans hu.1)
    rw [this]
theorem treesOf_det {kids} : ∀ {ts us : List Shape}, TreesOf kids ts → TreesOf kids us →
    ts.map Shape.id = us.map Shape.id → ts = us
  | [], [], _, _, _ => rfl
  | [], _ :: _, _, _, h => by simp at h
  | _ :: _, [], _, _, h => by simp at h
  | t :: ts, u :: us, ht, hu, h => by
    simp only [List.map_cons, List.cons.injEq] at h
    rw [treeOf_det ht.1 hu.1 h.1, treesOf_det ht.2 hu.2 h.2]
end

mutual
theorem subtree_of_mem {kids} : ∀ {t : Shape} {x}, TreeOf kids t → x ∈ t.ids →
    ∃ u, TreeOf kids u ∧ u.id = x ∧ Shape.size u ≤ Shape.size t
  | .node i cs, x, ht, hx => by
    simp only [Shape.ids, List.mem_cons] at hx
    rcases hx with hx | hx
    · exact ⟨.node i cs, ht, by simp [Shape.id, hx], Nat.le_refl _⟩
    · obtain ⟨u, h1, h2, h3⟩ := subtree_of_memList ht.2 hx
      exact ⟨u, h1, h2, by simp only [Shape.size]; omega⟩
theorem subtree_of_memList {kids} : ∀ {ts : List Shape} {x}, TreesOf kids ts → x ∈ Shape.idsList ts →
    ∃ u, TreeOf kids u ∧ u.id = x ∧ Shape.size u ≤ Shape.sizeList ts
  | [], _, _, hx => by simp [Shape.idsList] at hx
  | t :: ts, x, ht, hx => by
    simp only [Shape.idsList, List.mem_append] at hx
    rcases hx with hx | hx
    · obtain ⟨u, h1, h2, h3⟩ := subtree_of_mem ht.1 hx
      exact ⟨u, h1, h2, by simp only [Shape.sizeList]; omega⟩
    · obtain ⟨u, h1, h2, h3⟩ := subtree_of_memList ht.2 hx
      exact ⟨u, h1, h2, by simp only [Shape.sizeList]; omega⟩
end

/-- A node is not below itself. -/
theorem root_not_below {kids} {i : Nat} {cs : List Shape} (ht : TreeOf kids (.node i cs)) :
    i ∉ Shape.idsList cs := by
  intro hm
  obtain ⟨u, h1, h2, h3⟩ := subtree_of_memList ht.2 hm
  have := treeOf_det h1 ht h2
  subst this
  simp only [Shape.size] at h3
  omega

theorem id_mem_ids (t : Shape) : t.id ∈ t.ids := by cases t; simp [Shape.id, Shape.ids]

mutual
theorem ids_closed {kids} : ∀ {t : Shape} {x y}, TreeOf kids t → x ∈ t.ids → y ∈ kids x → y ∈ t.ids
  | .node i cs, x, y, ht, hx, hy => by
    simp only [Shape.ids, List.mem_cons] at hx ⊢
    rcases hx with hx | hx
    · subst hx
      rw [ht.1] at hy
      obtain ⟨c, hc, rfl⟩ := List.mem_map.1 hy
      exact Or.inr (mem_idsList_of_mem hc)
    · exact Or.inr (idsList_closed ht.2 hx hy)
theorem idsList_closed {kids} : ∀ {ts : List Shape} {x y}, TreesOf kids ts → x ∈ Shape.idsList ts →
    y ∈ kids x → y ∈ Shape.idsList ts
  | [], _, _, _, hx, _ => by simp [Shape.idsList] at hx
  | t :: ts, x, y, ht, hx, hy => by
    simp only [Shape.idsList, List.mem_append] at hx ⊢
    rcases hx with hx | hx
    · exact Or.inl (ids_closed ht.1 hx hy)
    · exact Or.inr (idsList_closed ht.2 hx hy)
theorem mem_idsList_of_mem : ∀ {ts : List Shape} {c : Shape}, c ∈ ts → c.id ∈ Shape.idsList ts
  | [], _, h => by simp at h
  | t :: ts, c, h => by
    simp only [Shape.idsList, List.mem_append]
    rcases List.mem_cons.1 h with h | h
    · subst h; exact Or.inl (id_mem_ids c)
    · exact Or.inr (mem_idsList_of_mem h)
end

/-! ### Parent chains -/

/-- `y` is `k` steps above `x`. -/
def above (h : Heap) : Nat → Nat → Option Nat
  | 0, x => some x
  | k + 1, x => (above h k x).bind fun z => (h z).parent

theorem above_add (h : Heap) (j k x y : Nat) (hj : above h j x = some y) :
    above h (j + k) x = above h k y := by
  induction k with
  | zero => simpa [above] using hj
  | succ k ih => rw [← Nat.add_assoc]; simp only [above, ih]

theorem mem_of_above {h : Heap} {kids} (L : Linked h kids) {t : Shape} (ht : TreeOf kids t) :
    ∀ k x, above h k x = some t.id → x ∈ t.ids := by
  intro k
  induction k with
  | zero => intro x hx; simp [above] at hx; subst hx; exact id_mem_ids t
  | succ k ih =>
    intro x hx
    -- move one step up first
    cases hp : (h x).parent with
    | none =>
      have : above h (k + 1) x = none := by
        rw [Nat.add_comm]
        have : ∀ k, above h (1 + k) x = none := by
          intro k
          induction k with
          | zero => simp [above, hp]
          | succ k ih2 => rw [← Nat.add_assoc]; simp [above, ih2]
        exact this k
      rw [this] at hx; cases hx
    | some y =>
      have h1 : above h 1 x = some y := by simp [above, hp]
      have h2 := above_add h 1 k x y h1
      rw [Nat.add_comm] at h2
      rw [h2] at hx
      exact ids_closed ht (ih y hx) ((L.parent y x).2 hp)

mutual
theorem above_of_mem {h : Heap} {kids} (L : Linked h kids) : ∀ {t : Shape} {x}, TreeOf kids t →
    x ∈ t.ids → ∃ k, above h k x = some t.id
  | .node i cs, x, ht, hx => by
    simp only [Shape.ids, List.mem_cons] at hx
    rcases hx with hx | hx
    · exact ⟨0, by simp [above, Shape.id, hx]⟩
    · obtain ⟨c, hc, k, hk⟩ := above_of_memList L ht.2 hx
      refine ⟨k + 1, ?_⟩
      simp only [above, hk, Option.bind_some, Shape.id]
      exact (L.parent i c.id).1 (by rw [ht.1]; exact List.mem_map_of_mem hc)
theorem above_of_memList {h : Heap} {kids} (L : Linked h kids) : ∀ {ts : List Shape} {x},
    TreesOf kids ts → x ∈ Shape.idsList ts → ∃ c ∈ ts, ∃ k, above h k x = some c.id
  | [], _, _, hx => by simp [Shape.idsList] at hx
  | t :: ts, x, ht, hx => by
    simp only [Shape.idsList, List.mem_append] at hx
    rcases hx with hx | hx
    · obtain ⟨k, hk⟩ := above_of_mem L ht.1 hx
      exact ⟨t, by simp, k, hk⟩
    · obtain ⟨c, hc, k, hk⟩ := above_of_memList L ht.2 hx
      exact ⟨c, by simp [hc], k, hk⟩
end

theorem treesOf_mem {kids} : ∀ {ts : List Shape} {c}, TreesOf kids ts → c ∈ ts → TreeOf kids c
  | [], _, _, h => by simp at h
  | t :: ts, c, ht, h => by
    rcases List.mem_cons.1 h with h | h
    · subst h; exact ht.1
    · exact treesOf_mem ht.2 h

/-- Subtrees of different children are disjoint. -/
theorem children_disjoint {h : Heap} {kids} (L : Linked h kids) {i : Nat} {cs : List Shape}
    (ht : TreeOf kids (.node i cs)) {c d : Shape} (hc : c ∈ cs) (hd : d ∈ cs) {x}
    (hxc : x ∈ c.ids) (hxd : x ∈ d.ids) : c.id = d.id := by
  have tc := treesOf_mem ht.2 hc
  have td := treesOf_mem ht.2 hd
  have pc : (h c.id).parent = some i := (L.parent i c.id).1 (by rw [ht.1]; exact List.mem_map_of_mem hc)
  have pd : (h d.id).parent = some i := (L.parent i d.id).1 (by rw [ht.1]; exact List.mem_map_of_mem hd)
  obtain ⟨j, hj⟩ := above_of_mem L tc hxc
  obtain ⟨k, hk⟩ := above_of_mem L td hxd
  -- wlog by a helper
  have key : ∀ (c d : Shape) (j k : Nat), c ∈ cs → d ∈ cs → (h c.id).parent = some i →
      TreeOf kids d → above h j x = some c.id →
      above h k x = some d.id → j ≤ k → c.id = d.id := by
    intro c d j k hc hd pc td hj hk hle
    obtain ⟨m, rfl⟩ := Nat.le.dest hle
    rw [above_add h j m x _ hj] at hk
    cases m with
    | zero => simpa [above] using hk
    | succ m =>
      have h1 : above h 1 c.id = some i := by simp [above, pc]
      have h2 := above_add h 1 m c.id i h1
      rw [Nat.add_comm] at h2
      rw [h2] at hk
      -- i is below d, which is a child of i
      have hid : i ∈ d.ids := mem_of_above L td m i hk
      exfalso
      refine root_not_below ht ?_
      have : ∀ {ts : List Shape}, d ∈ ts → ∀ y ∈ d.ids, y ∈ Shape.idsList ts := by
        intro ts
        induction ts with
        | nil => intro hm; simp at hm
        | cons t ts ih =>
          intro hm y hy
          simp only [Shape.idsList, List.mem_append]
          rcases List.mem_cons.1 hm with hm | hm
          · subst hm; exact Or.inl hy
          · exact Or.inr (ih hm y hy)
      exact this hd i hid
  by_cases hle : j ≤ k
  · exact key c d j k hc hd pc td hj hk hle
  · exact (key d c k j hd hc pd tc hk hj (by omega)).symm

theorem mem_idsList {ts : List Shape} {x} (hx : x ∈ Shape.idsList ts) : ∃ c ∈ ts, x ∈ c.ids := by
  induction ts with
  | nil => simp [Shape.idsList] at hx
  | cons t ts ih =>
    simp only [Shape.idsList, List.mem_append] at hx
    rcases hx with hx | hx
    · exact ⟨t, by simp, hx⟩
    · obtain ⟨c, hc, h⟩ := ih hx
      exact ⟨c, by simp [hc], h⟩

mutual
/-- The nodes of a tree are distinct. -/
theorem ids_nodup {h : Heap} {kids} (L : Linked h kids) : ∀ {t : Shape}, TreeOf kids t → t.ids.Nodup
  | .node i cs, ht => by
    simp only [Shape.ids, List.nodup_cons]
    refine ⟨root_not_below ht, idsList_nodup L ht.2 ?_ ?_⟩
    · have := L.nodup i
      rw [ht.1] at this; exact this
    · intro c hc d hd x h1 h2
      exact children_disjoint L ht hc hd h1 h2
theorem idsList_nodup {h : Heap} {kids} (L : Linked h kids) : ∀ {ts : List Shape}, TreesOf kids ts →
    (ts.map Shape.id).Nodup → (∀ c ∈ ts, ∀ d ∈ ts, ∀ x, x ∈ c.ids → x ∈ d.ids → c.id = d.id) →
    (Shape.idsList ts).Nodup
  | [], _, _, _ => by simp [Shape.idsList]
  | t :: ts, ht, hn, hd => by
    simp only [Shape.idsList, List.nodup_append]
    simp only [List.map_cons, List.nodup_cons] at hn
    refine ⟨ids_nodup L ht.1, idsList_nodup L ht.2 hn.2
      (fun c hc d hd' => hd c (by simp [hc]) d (by simp [hd'])), ?_⟩
    intro a ha b hb hab
    subst hab
    obtain ⟨c, hc, hx⟩ := mem_idsList hb
    have := hd t (by simp) c (by simp [hc]) a ha hx
    exact hn.1 (by rw [this]; exact List.mem_map_of_mem hc)
end

/-! ### The walker -/

/-- Where the walker stands after it has finished the node `i` (not the root). -/
def Walker.after (h : Heap) (root i : Nat) : Walker :=
  match (h i).nxt with
  | none => ⟨(h i).parent, root, false⟩
  | some n => ⟨some n, root, true⟩

theorem take_step {h : Heap} {w w' : Walker} {e} (hw : w.next h = some (e, w')) (n : Nat) :
    Walker.take h (n + 1) w = e :: Walker.take h n w' := by
  simp [Walker.take, hw]

theorem take_append_helper {α} (a b : List α) (n : Nat) (f : Nat → List α) :
    (a ++ b).take n ++ f (n - (a ++ b).length) =
      a.take n ++ (b.take (n - a.length) ++ f (n - a.length - b.length)) := by
  rw [List.take_append, List.append_assoc, List.length_append, Nat.sub_add_eq]

mutual
theorem walk_tree {h : Heap} {kids} (L : Linked h kids) (root : Nat) : ∀ (t : Shape), TreeOf kids t →
    root ∉ t.ids → ∀ n, Walker.take h n ⟨some t.id, root, true⟩ =
      (docOrder h t).take n ++ Walker.take h (n - (docOrder h t).length) (Walker.after h root t.id)
  | .node i cs, ht, hr, n => by
    have hir : i ≠ root := by intro hh; subst hh; simp [Shape.ids] at hr
    have hrl : root ∉ Shape.idsList cs := by simp only [Shape.ids, List.mem_cons] at hr; exact fun hh => hr (Or.inr hh)
    cases n with
    | zero => simp [Walker.take]
    | succ n =>
    simp only [Shape.id, docOrder]
    by_cases hc : isContainer (h i).data.t = true
    · rw [if_pos hc]
      have hexit : ∀ n, Walker.take h n ⟨some i, root, false⟩ =
          [(i, false)].take n ++ Walker.take h (n - 1) (Walker.after h root i) := by
        intro n
        cases n with
        | zero => simp [Walker.take]
        | succ n =>
          rw [take_step (e := (i, false)) (w' := Walker.after h root i)]
          · simp
          · simp only [Walker.next, Walker.after]
            rw [if_neg (by simp), if_neg hir]
            cases (h i).nxt <;> rfl
      have hf := L.first i
      rw [ht.1] at hf
      cases cs with
      | nil =>
        rw [take_step (e := (i, true)) (w' := ⟨some i, root, false⟩)]
        · rw [hexit]; simp [docOrderList]
        · simp only [Walker.next, hc]
          simp only [List.map_nil, List.head?_nil] at hf
          simp [hf]
      | cons c cs =>
        rw [take_step (e := (i, true)) (w' := ⟨some c.id, root, true⟩)]
        · rw [walk_list L root i c cs [] (by rw [ht.1]; simp) ht.2 hrl n, hexit]
          simp only [List.take_succ_cons, List.length_cons, List.length_append, List.length_nil]
          rw [List.cons_append, List.take_append]
          simp only [List.append_assoc]
          congr 4
          omega
        · simp only [Walker.next, hc]
          simp only [List.map_cons, List.head?_cons] at hf
          simp [hf]
    · rw [if_neg hc]
      rw [take_step (e := (i, true)) (w' := Walker.after h root i)]
      · simp
      · simp only [Walker.next, Walker.after]
        rw [if_neg (by simp [hc]), if_neg hir]
        cases (h i).nxt <;> rfl
termination_by t => sizeOf t
theorem walk_list {h : Heap} {kids} (L : Linked h kids) (root i : Nat) : ∀ (c : Shape) (cs : List Shape)
    (l : List Nat), kids i = l ++ c.id :: cs.map Shape.id → TreesOf kids (c :: cs) →
    root ∉ Shape.idsList (c :: cs) → ∀ n, Walker.take h n ⟨some c.id, root, true⟩ =
      (docOrderList h (c :: cs)).take n ++
        Walker.take h (n - (docOrderList h (c :: cs)).length) ⟨some i, root, false⟩
  | c, [], l, hk, ht, hr, n => by
    have hr' : root ∉ c.ids := by
      intro hh; exact hr (by simp [Shape.idsList, hh])
    have hb := L.beside i l c.id [] hk
    have hp : (h c.id).parent = some i := (L.parent i c.id).1 (by rw [hk]; simp)
    rw [walk_tree L root c ht.1 hr' n]
    simp only [docOrderList, List.append_nil]
    simp only [Walker.after, hb.2, List.head?_nil, hp]
  | c, d :: ds, l, hk, ht, hr, n => by
    have hr' : root ∉ c.ids := by
      intro hh; exact hr (by simp [Shape.idsList, hh])
    have hr'' : root ∉ Shape.idsList (d :: ds) := by
      intro hh; exact hr (by rw [Shape.idsList]; exact List.mem_append_right _ hh)
    have hb := L.beside i l c.id _ hk
    rw [walk_tree L root c ht.1 hr' n]
    simp only [Walker.after, hb.2, List.map_cons, List.head?_cons]
    rw [walk_list L root i d ds (l ++ [c.id]) (by rw [hk]; simp) ht.2 hr'']
    rw [show docOrderList h (c :: d :: ds) = docOrder h c ++ docOrderList h (d :: ds) from rfl]
    rw [take_append_helper _ _ n (fun m => Walker.take h m ⟨some i, root, false⟩)]
termination_by c cs => sizeOf (c :: cs)
end

theorem walk_root {h : Heap} {kids} (L : Linked h kids) (t : Shape) (ht : TreeOf kids t) (n : Nat) :
    Walker.take h n (Walker.new t.id) = (docOrder h t).take n := by
  obtain ⟨i, cs⟩ := t
  simp only [Shape.id, Walker.new]
  cases n with
  | zero => simp [Walker.take]
  | succ n =>
  have hrl := root_not_below ht
  have hend : ∀ n, Walker.take h n ⟨none, i, true⟩ = [] ∧ Walker.take h n ⟨none, i, false⟩ = [] := by
    intro n; cases n <;> simp [Walker.take, Walker.next]
  simp only [docOrder]
  by_cases hc : isContainer (h i).data.t = true
  · rw [if_pos hc]
    have hexit : ∀ n, Walker.take h n ⟨some i, i, false⟩ = [(i, false)].take n := by
      intro n
      cases n with
      | zero => simp [Walker.take]
      | succ n =>
        rw [take_step (e := (i, false)) (w' := ⟨none, i, false⟩)]
        · simp [hend]
        · simp [Walker.next]
    have hf := L.first i
    rw [ht.1] at hf
    cases cs with
    | nil =>
      rw [take_step (e := (i, true)) (w' := ⟨some i, i, false⟩)]
      · rw [hexit]; simp [docOrderList]
      · simp only [Walker.next, hc]
        simp only [List.map_nil, List.head?_nil] at hf
        simp [hf]
    | cons c cs =>
      rw [take_step (e := (i, true)) (w' := ⟨some c.id, i, true⟩)]
      · rw [walk_list L i i c cs [] (by rw [ht.1]; simp) ht.2 hrl n, hexit]
        simp only [List.take_succ_cons, List.take_append]
      · simp only [Walker.next, hc]
        simp only [List.map_cons, List.head?_cons] at hf
        simp [hf]
  · rw [if_neg hc]
    rw [take_step (e := (i, true)) (w' := ⟨none, i, true⟩)]
    · simp [hend]
    · simp [Walker.next, hc]

end CM
