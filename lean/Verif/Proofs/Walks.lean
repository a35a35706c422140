import Verif.Spec.Walks
import Verif.Proofs.Walker
import Verif.Proofs.NodeProps
import Verif.Props.NodeProps
/-
Resuming a walk, and unlinking nodes during a walk.
-/
namespace CM
open Spec

/-- The walker gives these events and stops. -/
def Gives (h : Heap) (w : Walker) (l : List (Nat × Bool)) : Prop := ∀ n, Walker.take h n w = l.take n

theorem next_root {h : Heap} {w w' : Walker} {e : Nat × Bool} (hn : w.next h = some (e, w')) :
    w'.root = w.root ∧ w.current = some e.1 ∧ w.entering = e.2 := by
  unfold Walker.next at hn
  cases hc : w.current with
  | none => rw [hc] at hn; cases hn
  | some cur =>
    rw [hc] at hn
    simp only [Option.some.injEq, Prod.mk.injEq] at hn
    obtain ⟨rfl, rfl⟩ := hn
    refine ⟨?_, rfl, rfl⟩
    repeat' split
    all_goals rfl

theorem Gives.nil {h : Heap} {w : Walker} (g : Gives h w []) : w.current = none := by
  have := g 1
  cases hc : w.current with
  | none => rfl
  | some c =>
    simp [Walker.take, Walker.next, hc] at this

theorem Gives.cons {h : Heap} {w : Walker} {e : Nat × Bool} {l : List (Nat × Bool)} (g : Gives h w (e :: l)) :
    ∃ w', w.next h = some (e, w') ∧ Gives h w' l := by
  have g1 := g 1
  rw [Walker.take] at g1
  cases hn : w.next h with
  | none => rw [hn] at g1; cases g1
  | some x =>
    obtain ⟨e', w'⟩ := x
    rw [hn] at g1
    have he : e' = e := by simpa [Walker.take] using g1
    subst he
    refine ⟨w', rfl, fun n => ?_⟩
    have := g (n + 1)
    rw [take_step hn, List.take_succ_cons] at this
    exact (List.cons.inj this).2

theorem Gives.drop {h : Heap} : ∀ {a l : List (Nat × Bool)} {w : Walker}, Gives h w (a ++ l) → ∃ w', w'.root = w.root ∧ Gives h w' l
  | [], l, w, g => ⟨w, rfl, g⟩
  | e :: a, l, w, g => by
    obtain ⟨w', h1, g'⟩ := Gives.cons g
    obtain ⟨w'', h2, g''⟩ := Gives.drop g'
    exact ⟨w'', h2.trans (next_root h1).1, g''⟩

/-- The walker of a tree, put at one of its events. -/
theorem gives_at {h : Heap} {kids} (L : Linked h kids) {t : Shape} (ht : TreeOf kids t) {a b : List (Nat × Bool)} {e : Nat × Bool}
    (hd : docOrder h t = a ++ e :: b) : Gives h ⟨some e.1, t.id, e.2⟩ (e :: b) := by
  have g : Gives h (Walker.new t.id) (a ++ e :: b) := fun n => by rw [← hd]; exact walk_root L t ht n
  obtain ⟨w, hr, g'⟩ := Gives.drop g
  obtain ⟨w', hn, _⟩ := Gives.cons g'
  obtain ⟨_, h1, h2⟩ := next_root hn
  have : w = ⟨some e.1, t.id, e.2⟩ := by
    obtain ⟨c, r, en⟩ := w
    simp only at h1 h2 hr
    rw [h1, h2, hr]; rfl
  rw [← this]; exact g'

/-! ### Removing a node -/

mutual
/-- The tree without the node `x` and what is below it. -/
def Shape.remove (x : Nat) : Shape → Shape
  | .node i cs => .node i (Shape.removeList x cs)
def Shape.removeList (x : Nat) : List Shape → List Shape
  | [] => []
  | t :: ts => if t.id = x then Shape.removeList x ts else Shape.remove x t :: Shape.removeList x ts
end

theorem remove_id (x : Nat) (t : Shape) : (Shape.remove x t).id = t.id := by
  cases t; rw [Shape.remove]; rfl

theorem removeList_ids (x : Nat) : ∀ ts : List Shape, (Shape.removeList x ts).map Shape.id = (ts.map Shape.id).filter (· ≠ x)
  | [] => by rw [Shape.removeList]; rfl
  | t :: ts => by
    rw [Shape.removeList]
    split
    · rename_i h
      rw [removeList_ids x ts, List.map_cons, List.filter_cons_of_neg (by simpa using h)]
    · rename_i h
      rw [List.map_cons, List.map_cons, removeList_ids x ts, remove_id, List.filter_cons_of_pos (by simpa using h)]

mutual
theorem remove_tree {h : Heap} {kids} (L : Linked h kids) (x : Nat) : ∀ (t : Shape), TreeOf kids t → TreeOf (fun p => (kids p).erase x) (Shape.remove x t)
  | .node i cs, ht => by
    rw [TreeOf] at ht
    rw [Shape.remove, TreeOf]
    refine ⟨?_, remove_trees L x cs ht.2⟩
    rw [removeList_ids, (L.nodup i).erase_eq_filter, ht.1]
    refine List.filter_congr fun c _ => ?_
    by_cases hc : c = x <;> simp [hc]
theorem remove_trees {h : Heap} {kids} (L : Linked h kids) (x : Nat) : ∀ (ts : List Shape), TreesOf kids ts →
    TreesOf (fun p => (kids p).erase x) (Shape.removeList x ts)
  | [], _ => by rw [Shape.removeList]; trivial
  | t :: ts, ht => by
    rw [TreesOf] at ht
    rw [Shape.removeList]
    split
    · exact remove_trees L x ts ht.2
    · exact ⟨remove_tree L x t ht.1, remove_trees L x ts ht.2⟩
end

mutual
theorem remove_absent {x : Nat} : ∀ {t : Shape}, x ∉ t.ids → Shape.remove x t = t
  | .node i cs, h => by
    rw [Shape.remove, removeList_absent]
    intro hx; exact h (by rw [Shape.ids]; simp [hx])
theorem removeList_absent {x : Nat} : ∀ {ts : List Shape}, x ∉ Shape.idsList ts → Shape.removeList x ts = ts
  | [], _ => by rw [Shape.removeList]
  | t :: ts, h => by
    rw [Shape.idsList, List.mem_append, not_or] at h
    rw [Shape.removeList, if_neg, remove_absent h.1, removeList_absent h.2]
    rintro rfl; exact h.1 (id_mem_ids t)
end

mutual
theorem docOrder_congr {g h : Heap} (hd : ∀ i, (g i).data = (h i).data) : ∀ t : Shape, docOrder g t = docOrder h t
  | .node i cs => by rw [docOrder, docOrder, hd, docOrderList_congr hd cs]
theorem docOrderList_congr {g h : Heap} (hd : ∀ i, (g i).data = (h i).data) : ∀ ts : List Shape, docOrderList g ts = docOrderList h ts
  | [] => by rw [docOrderList, docOrderList]
  | t :: ts => by rw [docOrderList, docOrderList, docOrder_congr hd t, docOrderList_congr hd ts]
end

mutual
/-- The events of a node that is below the root are together, and without the node the others remain. -/
theorem docOrder_remove {h : Heap} {x : Nat} {b : Bool} : ∀ {t : Shape}, t.ids.Nodup → x ≠ t.id → (x, b) ∈ docOrder h t →
    ∃ a u c, u.id = x ∧ docOrder h t = a ++ (docOrder h u ++ c) ∧ docOrder h (Shape.remove x t) = a ++ c
  | .node i cs, hn, hx, hm => by
    rw [Shape.ids, List.nodup_cons] at hn
    rw [docOrder] at hm
    rw [Shape.remove, docOrder, docOrder]
    split at hm
    · rename_i hc
      rw [if_pos hc, if_pos hc]
      have hx' : x ≠ i := hx
      have hm' : (x, b) ∈ docOrderList h cs := by
        simp only [List.mem_cons, List.mem_append, Prod.mk.injEq, List.not_mem_nil, or_false] at hm
        rcases hm with h | h | h
        · exact absurd h.1 hx'
        · exact h
        · exact absurd h.1 hx'
      obtain ⟨a, u, c, h1, h2, h3⟩ := docOrderList_remove hn.2 hm'
      exact ⟨(i, true) :: a, u, c ++ [(i, false)], h1, by rw [h2]; simp, by rw [h3]; simp⟩
    · simp only [List.mem_singleton, Prod.mk.injEq] at hm
      exact absurd hm.1 hx
theorem docOrderList_remove {h : Heap} {x : Nat} {b : Bool} : ∀ {ts : List Shape}, (Shape.idsList ts).Nodup → (x, b) ∈ docOrderList h ts →
    ∃ a u c, u.id = x ∧ docOrderList h ts = a ++ (docOrder h u ++ c) ∧ docOrderList h (Shape.removeList x ts) = a ++ c
  | [], _, hm => by rw [docOrderList] at hm; cases hm
  | t :: ts, hn, hm => by
    rw [Shape.idsList, List.nodup_append] at hn
    obtain ⟨n1, n2, n3⟩ := hn
    rw [docOrderList] at hm
    rw [Shape.removeList]
    by_cases hx : t.id = x
    · rw [if_pos hx, removeList_absent]
      · exact ⟨[], t, docOrderList h ts, hx, by rw [docOrderList]; rfl, rfl⟩
      · intro hm'
        exact n3 x (by rw [← hx]; exact id_mem_ids t) x hm' rfl
    · rw [if_neg hx, docOrderList, docOrderList]
      rcases List.mem_append.1 hm with hm | hm
      · obtain ⟨a, u, c, h1, h2, h3⟩ := docOrder_remove n1 (Ne.symm hx) hm
        have hab : x ∉ Shape.idsList ts := fun h' => n3 x (docOrder_mem t _ hm) x h' rfl
        rw [removeList_absent hab]
        exact ⟨a, u, c ++ docOrderList h ts, h1, by rw [h2]; simp, by rw [h3]; simp⟩
      · obtain ⟨a, u, c, h1, h2, h3⟩ := docOrderList_remove n2 hm
        have hab : x ∉ t.ids := fun h' => n3 x h' x (docOrderList_mem ts _ hm) rfl
        rw [remove_absent hab]
        exact ⟨docOrder h t ++ a, u, c, h1, by rw [h2]; simp, by rw [h3]; simp⟩
end

theorem docOrder_last (h : Heap) (u : Shape) : ∃ d b, docOrder h u = d ++ [(u.id, b)] ∧ lastEvent h (u.id, b) = true := by
  cases u with
  | node i cs =>
    rw [docOrder]
    split
    · exact ⟨(i, true) :: docOrderList h cs, false, by simp [Shape.id], rfl⟩
    · rename_i hc
      refine ⟨[], true, rfl, ?_⟩
      rw [lastEvent]
      show (true == false || !isContainer (h i).data.t) = true
      rw [Bool.eq_false_iff.2 hc]; rfl

mutual
/-- A node that is no container has no second event. -/
theorem docOrder_leaf {h : Heap} {x : Nat} : ∀ {t : Shape}, (x, false) ∈ docOrder h t → isContainer (h x).data.t = true
  | .node i cs, hm => by
    rw [docOrder] at hm
    split at hm
    · rename_i hc
      simp only [List.mem_cons, List.mem_append, Prod.mk.injEq, List.not_mem_nil, or_false] at hm
      rcases hm with h | h | h
      · exact absurd h.2 (by decide)
      · exact docOrderList_leaf h
      · rw [h.1]; exact hc
    · simp only [List.mem_singleton, Prod.mk.injEq] at hm
      exact absurd hm.2 (by decide)
theorem docOrderList_leaf {h : Heap} {x : Nat} : ∀ {ts : List Shape}, (x, false) ∈ docOrderList h ts → isContainer (h x).data.t = true
  | [], hm => by rw [docOrderList] at hm; cases hm
  | t :: ts, hm => by
    rw [docOrderList] at hm
    rcases List.mem_append.1 hm with hm | hm
    · exact docOrder_leaf hm
    · exact docOrderList_leaf hm
end

theorem lastEvent_eq {h : Heap} {t : Shape} {x : Nat} {b c : Bool} (h1 : (x, b) ∈ docOrder h t) (h2 : (x, c) ∈ docOrder h t)
    (l1 : lastEvent h (x, b) = true) (l2 : lastEvent h (x, c) = true) : b = c := by
  have key : ∀ {b : Bool}, (x, b) ∈ docOrder h t → lastEvent h (x, b) = true → b = !isContainer (h x).data.t := by
    intro b hm hl
    cases b with
    | false => rw [docOrder_leaf hm]; rfl
    | true => simpa [lastEvent] using hl.symm
  rw [key h1 l1, key h2 l2]

theorem uniq_split {α : Type} {x : α} {a a' b c : List α} (h : a ++ x :: b = a' ++ x :: c) (h1 : x ∉ a) (h2 : x ∉ b) : b = c := by
  rcases List.append_eq_append_iff.1 h with ⟨y, e1, e2⟩ | ⟨y, e1, e2⟩
  · cases y with
    | nil => exact (List.cons.inj e2).2
    | cons z y => exact absurd (by rw [(List.cons.inj e2).2]; simp) h2
  · cases y with
    | nil => exact (List.cons.inj e2).2.symm
    | cons z y => exact absurd (by rw [e1, ← (List.cons.inj e2).1]; simp) h1

/-- Unlinking a node at its last event leaves the events after it. -/
theorem unlink_docOrder {h : Heap} {kids} (L : Linked h kids) {t : Shape} (ht : TreeOf kids t) {a b : List (Nat × Bool)} {e : Nat × Bool}
    (hd : docOrder h t = a ++ e :: b) (hl : lastEvent h e = true) (hx : e.1 ≠ t.id) :
    ∃ a' t', t'.id = t.id ∧ Linked (h.unlink e.1) (fun p => (kids p).erase e.1) ∧ TreeOf (fun p => (kids p).erase e.1) t' ∧
      docOrder (h.unlink e.1) t' = a' ++ b := by
  obtain ⟨x, f⟩ := e
  have hn := ids_nodup L ht
  have hm : (x, f) ∈ docOrder h t := by rw [hd]; simp
  obtain ⟨a', u, c, h1, h2, h3⟩ := docOrder_remove hn hx hm
  obtain ⟨L', hdata⟩ := unlink_linked L x
  refine ⟨a', Shape.remove x t, remove_id x t, L', remove_tree L x t ht, ?_⟩
  rw [docOrder_congr hdata, h3]
  obtain ⟨d, g, e1, e2⟩ := docOrder_last h u
  rw [h1] at e1 e2
  have hm2 : (x, g) ∈ docOrder h t := by rw [h2, e1]; simp
  have : g = f := lastEvent_eq hm2 hm e2 hl
  subst this
  have hnd := docOrder_nodup (h := h) t hn
  rw [hd] at h2 hnd
  rw [e1] at h2
  have e3 : a ++ (x, g) :: b = (a' ++ d) ++ (x, g) :: c := by rw [h2]; simp
  have k1 : (x, g) ∉ a := by
    have := (List.nodup_append.1 hnd).2.2
    intro hm; exact this _ hm _ List.mem_cons_self rfl
  have k2 : (x, g) ∉ b := by
    have := (List.nodup_append.1 hnd).2.1
    exact (List.nodup_cons.1 this).1
  rw [uniq_split e3 k1 k2]

/-! ### Sweeping -/

/-- The walker is before these events. -/
def WalkAt (w : Walker) (root : Nat) (l : List (Nat × Bool)) : Prop :=
  w.root = root ∧ w.current = l.head?.map Prod.fst ∧ ∀ e, l.head? = some e → w.entering = e.2

theorem WalkAt.next {h : Heap} {kids} (L : Linked h kids) {t : Shape} (ht : TreeOf kids t) {a b : List (Nat × Bool)} {e : Nat × Bool}
    (hd : docOrder h t = a ++ e :: b) {w : Walker} (hw : WalkAt w t.id (e :: b)) : ∃ w', w.next h = some (e, w') ∧ WalkAt w' t.id b := by
  have hw' : w = ⟨some e.1, t.id, e.2⟩ := by
    obtain ⟨c, r, en⟩ := w
    obtain ⟨h1, h2, h3⟩ := hw
    simp only at h1 h2
    rw [h1, h2, show en = e.2 from h3 e rfl]; rfl
  rw [hw']
  obtain ⟨w', h1, g⟩ := Gives.cons (gives_at L ht hd)
  refine ⟨w', h1, (next_root h1).1, ?_⟩
  cases b with
  | nil => exact ⟨Gives.nil g, by simp⟩
  | cons f b =>
    obtain ⟨w'', h2, _⟩ := Gives.cons g
    obtain ⟨_, k1, k2⟩ := next_root h2
    exact ⟨k1, by intro e he; cases he; exact k2⟩

theorem sweep_from (P : Nat → Bool) : ∀ (b : List (Nat × Bool)) (h : Heap) (kids : Nat → List Nat) (t : Shape) (a : List (Nat × Bool)) (w : Walker),
    Linked h kids → TreeOf kids t → P t.id = false → docOrder h t = a ++ b → WalkAt w t.id b → ∀ n, b.length ≤ n →
    (sweep P n h w).1 = b ∧
    Linked (sweep P n h w).2 (fun p => (kids p).filter fun c => !(P c && decide (∃ f, (c, f) ∈ b ∧ lastEvent h (c, f) = true))) ∧
    ∀ i, ((sweep P n h w).2 i).data = (h i).data
  | [], h, kids, t, a, w, L, ht, hr, hd, hw, n, hn => by
    have e : sweep P n h w = ([], h) := by
      cases n with
      | zero => rfl
      | succ n =>
        have : w.next h = none := by rw [Walker.next, hw.2.1]; rfl
        rw [sweep, this]
    rw [e]
    refine ⟨rfl, ?_, fun _ => rfl⟩
    have : (fun p => (kids p).filter fun c => !(P c && decide (∃ f, (c, f) ∈ ([] : List (Nat × Bool)) ∧ lastEvent h (c, f) = true))) = kids := by
      funext p
      rw [List.filter_eq_self]
      intro c _; simp
    rw [this]; exact L
  | e :: b, h, kids, t, a, w, L, ht, hr, hd, hw, n + 1, hn => by
    obtain ⟨w', h1, hw'⟩ := hw.next L ht hd
    rw [sweep, h1]
    simp only
    have hnb : b.length ≤ n := by simpa using hn
    by_cases hrem : (P e.1 && lastEvent h e) = true
    · rw [if_pos hrem]
      rw [Bool.and_eq_true] at hrem
      have hx : e.1 ≠ t.id := by intro he; rw [he, hr] at hrem; exact absurd hrem.1 (by decide)
      obtain ⟨a', t', k1, k2, k3, k4⟩ := unlink_docOrder L ht hd hrem.2 hx
      have hdata := (unlink_linked L e.1).2
      rw [← k1] at hr hw'
      obtain ⟨i1, i2, i3⟩ := sweep_from P b _ _ t' a' w' k2 k3 hr k4 hw' n hnb
      refine ⟨by rw [i1], ?_, fun i => (i3 i).trans (hdata i)⟩
      have ek : (fun p => ((kids p).erase e.1).filter fun c => !(P c && decide (∃ f, (c, f) ∈ b ∧ lastEvent (h.unlink e.1) (c, f) = true))) =
          (fun p => (kids p).filter fun c => !(P c && decide (∃ f, (c, f) ∈ e :: b ∧ lastEvent h (c, f) = true))) := by
        funext p
        rw [(L.nodup p).erase_eq_filter, List.filter_filter]
        refine List.filter_congr fun c _ => ?_
        have hle : ∀ f, lastEvent (h.unlink e.1) (c, f) = lastEvent h (c, f) := by intro f; unfold lastEvent; rw [hdata]
        simp only [hle]
        by_cases hc : c = e.1
        · subst hc
          have : ∃ f, (e.1, f) ∈ e :: b ∧ lastEvent h (e.1, f) = true := ⟨e.2, List.mem_cons_self, hrem.2⟩
          rw [decide_eq_true this, hrem.1]; simp
        · have hiff : (∃ f, (c, f) ∈ e :: b ∧ lastEvent h (c, f) = true) ↔ (∃ f, (c, f) ∈ b ∧ lastEvent h (c, f) = true) := by
            refine exists_congr fun f => and_congr_left fun _ => ?_
            rw [List.mem_cons]
            constructor
            · rintro (h | h)
              · rw [← h] at hc; exact absurd rfl hc
              · exact h
            · exact .inr
          simp only [hiff]
          simp [hc]
      rw [← ek]; exact i2
    · rw [if_neg hrem]
      have hd' : docOrder h t = (a ++ [e]) ++ b := by rw [hd]; simp
      obtain ⟨i1, i2, i3⟩ := sweep_from P b h kids t (a ++ [e]) w' L ht hr hd' hw' n hnb
      refine ⟨by rw [i1], ?_, i3⟩
      have ek : (fun p => (kids p).filter fun c => !(P c && decide (∃ f, (c, f) ∈ b ∧ lastEvent h (c, f) = true))) =
          (fun p => (kids p).filter fun c => !(P c && decide (∃ f, (c, f) ∈ e :: b ∧ lastEvent h (c, f) = true))) := by
        funext p
        refine List.filter_congr fun c _ => ?_
        by_cases hc : P c = true
        · have hiff : (∃ f, (c, f) ∈ e :: b ∧ lastEvent h (c, f) = true) ↔ (∃ f, (c, f) ∈ b ∧ lastEvent h (c, f) = true) := by
            refine exists_congr fun f => ?_
            rw [List.mem_cons]
            constructor
            · rintro ⟨h' | h', hl⟩
              · rw [← h'] at hrem; exact absurd (by rw [hc, hl]; rfl) hrem
              · exact ⟨h', hl⟩
            · exact fun h => ⟨.inr h.1, h.2⟩
          simp only [hiff]
        · simp [Bool.eq_false_iff.2 hc]
      rw [← ek]; exact i2

end CM
