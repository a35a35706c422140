import Verif.Proofs.Normalize
/-
Lemmas for C18-C20.
-/
namespace CM
open Spec
set_option linter.unusedSimpArgs false

/-! ### C19: the operations keep the tree linked and do what their names say -/

theorem foldlM_ok_cons {h h' : Heap} {op : NodeOp} {ops : List NodeOp} (he : op.run h = .ok h') :
    (op :: ops).foldlM NodeOp.run h = ops.foldlM NodeOp.run h' := by
  simp [List.foldlM, he, bind, Except.bind]

theorem history_linked {d : Nat → NodeData} {k ops k'} (hh : History k ops k') : ∀ h0 : Heap,
    Linked h0 k → (∀ i, (h0 i).data = d i) →
      ∃ h, ops.foldlM NodeOp.run h0 = .ok h ∧ Linked h k' ∧ ∀ i, (h i).data = d i := by
  induction hh with
  | nil k => intro h0 L hd; exact ⟨h0, rfl, L, hd⟩
  | @cons k k' op ops hl _ ih =>
    intro h0 L hd
    have step : ∃ h1, op.run h0 = .ok h1 ∧ Linked h1 (op.move k) ∧ ∀ i, (h1 i).data = (h0 i).data := by
      cases op with
      | append s c => exact ⟨_, rfl, appendChild_linked L s c⟩
      | prepend s c => exact ⟨_, rfl, prependChild_linked L s c⟩
      | after s c => obtain ⟨hne, p, hp⟩ := hl; exact insertAfter_linked L hne ((L.parent p s).1 hp)
      | before s c => obtain ⟨hne, p, hp⟩ := hl; exact insertBefore_linked L hne ((L.parent p s).1 hp)
      | unlink x => exact ⟨_, rfl, unlink_linked L x⟩
    obtain ⟨h1, e1, L1, d1⟩ := step
    rw [foldlM_ok_cons e1]
    exact ih h1 L1 fun i => (d1 i).trans (hd i)

theorem freshHeap_linked (d : Nat → NodeData) : Linked (freshHeap d) (fun _ => []) :=
  ⟨by simp, by simp [freshHeap], by simp [freshHeap], by simp [freshHeap], by simp, by simp [freshHeap]⟩

/-! ### C18: the walker -/

mutual
theorem docOrder_mem {h : Heap} : ∀ (t : Shape) (e : Nat × Bool), e ∈ docOrder h t → e.1 ∈ t.ids
  | .node i cs, e, he => by
    simp only [docOrder] at he
    split at he
    · simp only [List.mem_cons, List.mem_append, List.mem_nil_iff, or_false] at he
      rcases he with he | he | he
      · simp [he, Shape.ids]
      · simp [Shape.ids, docOrderList_mem cs e he]
      · simp [he, Shape.ids]
    · simp at he
      simp [he, Shape.ids]
theorem docOrderList_mem {h : Heap} : ∀ (ts : List Shape) (e : Nat × Bool), e ∈ docOrderList h ts →
    e.1 ∈ Shape.idsList ts
  | [], _, he => by simp [docOrderList] at he
  | t :: ts, e, he => by
    simp only [docOrderList, List.mem_append] at he
    simp only [Shape.idsList, List.mem_append]
    exact he.imp (docOrder_mem t e) (docOrderList_mem ts e)
end

mutual
theorem docOrder_nodup {h : Heap} : ∀ (t : Shape), t.ids.Nodup → (docOrder h t).Nodup
  | .node i cs, hn => by
    simp only [Shape.ids, List.nodup_cons] at hn
    simp only [docOrder]
    split
    · rw [List.nodup_cons, List.nodup_append]
      have hm : ∀ b, (i, b) ∉ docOrderList h cs := fun b hb => hn.1 (docOrderList_mem cs _ hb)
      refine ⟨by simp [hm], docOrderList_nodup cs hn.2, by simp, ?_⟩
      intro a ha b hb hab
      simp at hb
      subst hab; subst hb
      exact hm _ ha
    · simp
theorem docOrderList_nodup {h : Heap} : ∀ (ts : List Shape), (Shape.idsList ts).Nodup →
    (docOrderList h ts).Nodup
  | [], _ => by simp [docOrderList]
  | t :: ts, hn => by
    simp only [Shape.idsList, List.nodup_append] at hn
    simp only [docOrderList, List.nodup_append]
    refine ⟨docOrder_nodup t hn.1, docOrderList_nodup ts hn.2.1, ?_⟩
    intro a ha b hb hab
    subst hab
    exact hn.2.2 _ (docOrder_mem t _ ha) _ (docOrderList_mem ts _ hb) rfl
end

mutual
theorem docOrder_all {h : Heap} : ∀ (t : Shape), Proper h t → t.ids.Nodup → ∀ x ∈ t.ids,
    (x, true) ∈ docOrder h t ∧ ((x, false) ∈ docOrder h t ↔ isContainer (h x).data.t = true)
  | .node i cs, hp, hn, x, hx => by
    simp only [Shape.ids, List.nodup_cons] at hn
    simp only [Shape.ids, List.mem_cons] at hx
    simp only [Proper] at hp
    have hm : ∀ b, (i, b) ∉ docOrderList h cs := fun b hb => hn.1 (docOrderList_mem cs _ hb)
    simp only [docOrder]
    by_cases hc : isContainer (h i).data.t = true
    · rw [if_pos hc]
      rcases hx with hx | hx
      · subst hx; simp [hc]
      · obtain ⟨h1, h2⟩ := docOrderList_all cs hp.2 hn.2 x hx
        have hxi : x ≠ i := fun hh => hn.1 (hh ▸ hx)
        simp [h1, h2, hxi]
    · have hcs : cs = [] := hp.1 (by simpa using hc)
      subst hcs
      rw [if_neg hc]
      simp [Shape.idsList] at hx
      subst hx
      simp [hc]
theorem docOrderList_all {h : Heap} : ∀ (ts : List Shape), Propers h ts → (Shape.idsList ts).Nodup →
    ∀ x ∈ Shape.idsList ts,
    (x, true) ∈ docOrderList h ts ∧ ((x, false) ∈ docOrderList h ts ↔ isContainer (h x).data.t = true)
  | [], _, _, _, hx => by simp [Shape.idsList] at hx
  | t :: ts, hp, hn, x, hx => by
    simp only [Shape.idsList, List.nodup_append] at hn
    simp only [Shape.idsList, List.mem_append] at hx
    simp only [docOrderList, List.mem_append]
    rcases hx with hx | hx
    · obtain ⟨h1, h2⟩ := docOrder_all t hp.1 hn.1 x hx
      have : ∀ b, (x, b) ∉ docOrderList h ts := fun b hb =>
        hn.2.2 x hx x (docOrderList_mem ts _ hb) rfl
      simp [h1, h2, this]
    · obtain ⟨h1, h2⟩ := docOrderList_all ts hp.2 hn.2.1 x hx
      have : ∀ b, (x, b) ∉ docOrder h t := fun b hb =>
        hn.2.2 x (docOrder_mem t _ hb) x hx rfl
      simp [h1, h2, this]
end

mutual
theorem events_docOrder {h : Heap} {kids} (L : Linked h kids) : ∀ (t : Shape), TreeOf kids t →
    (docOrder h t).map (eventAt h) =
      events ((h t.id).parent.map fun p => (h p).data)
        (((h t.id).parent.bind fun p => (h p).parent).map fun g => (h g).data) (payload h t)
  | .node i cs, ht => by
    have hf : (h i).firstChild.map (fun c => (h c).data) = (payloadList h cs).head?.map (·.data) := by
      rw [L.first i, ht.1]
      cases cs with
      | nil => rfl
      | cons c cs => cases c; rfl
    simp only [docOrder, payload, events, Shape.id]
    split
    · simp only [List.map_cons, List.map_append, List.map_nil]
      rw [eventsList_docOrder L i cs ht.2 (fun c hc => (L.parent i c.id).1 (by
        rw [ht.1]; exact List.mem_map_of_mem hc))]
      simp only [eventAt, hf]
    · simp only [List.map_cons, List.map_nil, eventAt, hf]
theorem eventsList_docOrder {h : Heap} {kids} (L : Linked h kids) (i : Nat) : ∀ (ts : List Shape),
    TreesOf kids ts → (∀ c ∈ ts, (h c.id).parent = some i) →
    (docOrderList h ts).map (eventAt h) =
      eventsList (some (h i).data) ((h i).parent.map fun g => (h g).data) (payloadList h ts)
  | [], _, _ => rfl
  | t :: ts, ht, hp => by
    simp only [docOrderList, payloadList, eventsList, List.map_append]
    rw [events_docOrder L t ht.1, eventsList_docOrder L i ts ht.2 (fun c hc => hp c (by simp [hc]))]
    rw [hp t (by simp)]
    rfl
end

/-- The heap of `0: paragraph [1: text, 2: emph [3: text], 4: text, 5: text]`. -/
def demoData (i : Nat) : NodeData :=
  { t := if i = 0 then .paragraph else if i = 2 then .emph else .text
    literal := if i = 1 then some ['a'] else if i = 3 then some ['b'] else some ['c'] }

def demoOps : List NodeOp := [.append 0 1, .append 0 2, .append 2 3, .append 0 4, .append 0 5]

def demoKids (p : Nat) : List Nat := if p = 0 then [1, 2, 4, 5] else if p = 2 then [3] else []

def demoTree : Shape := .node 0 [.node 1 [], .node 2 [.node 3 []], .node 4 [], .node 5 []]

theorem demo_linked : ∃ h, demoOps.foldlM NodeOp.run (freshHeap demoData) = .ok h ∧
    Linked h demoKids ∧ ∀ i, (h i).data = demoData i := by
  refine history_linked (k := fun _ => []) ?_ (freshHeap demoData) (freshHeap_linked _) (fun _ => rfl)
  have hk : ∀ {k ops k' k''}, History k ops k' → k' = k'' → History k ops k'' := by
    intro _ _ _ _ h e; exact e ▸ h
  refine hk (.cons _ _ trivial (.cons _ _ trivial (.cons _ _ trivial (.cons _ _ trivial
    (.cons _ _ trivial (.nil _)))))) ?_
  funext p
  by_cases h0 : p = 0
  · subst h0; decide
  · by_cases h1 : p = 2
    · subst h1; decide
    · simp [NodeOp.move, h0, h1, demoKids]

/-! ### C20: normalize -/

mutual
theorem textLit_payload {h : Heap} : ∀ t : Shape, (∀ x ∈ t.ids, (h x).data.t = .text →
    ∃ a, (h x).data.literal = some a) → AllNodes (fun d => d.t = .text → ∃ a, d.literal = some a) (payload h t)
  | .node i cs, hl => by
    simp only [payload, AllNodes]
    exact ⟨hl i (by simp [Shape.ids]), textLit_payloads cs fun x hx => hl x (by simp [Shape.ids, hx])⟩
theorem textLit_payloads {h : Heap} : ∀ ts : List Shape, (∀ x ∈ Shape.idsList ts, (h x).data.t = .text →
    ∃ a, (h x).data.literal = some a) →
    AllNodesList (fun d => d.t = .text → ∃ a, d.literal = some a) (payloadList h ts)
  | [], _ => trivial
  | t :: ts, hl => by
    simp only [payloadList, AllNodesList]
    exact ⟨textLit_payload t fun x hx => hl x (by simp [Shape.idsList, hx]),
      textLit_payloads ts fun x hx => hl x (by simp [Shape.idsList, hx])⟩
end

mutual
theorem textLit_of_payload {h : Heap} : ∀ t : Shape,
    AllNodes (fun d => d.t = .text → ∃ a, d.literal = some a) (payload h t) → TextLit h t.ids
  | .node i cs, hl => by
    simp only [payload, AllNodes] at hl
    intro x hx
    simp only [Shape.ids, List.mem_cons] at hx
    rcases hx with hx | hx
    · subst hx; exact hl.1
    · exact textLit_of_payloads cs hl.2 x hx
theorem textLit_of_payloads {h : Heap} : ∀ ts : List Shape,
    AllNodesList (fun d => d.t = .text → ∃ a, d.literal = some a) (payloadList h ts) →
    TextLit h (Shape.idsList ts)
  | [], _ => by intro x hx; simp [Shape.idsList] at hx
  | t :: ts, hl => by
    simp only [payloadList, AllNodesList] at hl
    intro x hx
    simp only [Shape.idsList, List.mem_append] at hx
    rcases hx with hx | hx
    · exact textLit_of_payload t hl.1 x hx
    · exact textLit_of_payloads ts hl.2 x hx
end

theorem joinText_lit {t : Tree} {ts : List Tree}
    (h1 : AllNodes (fun d => d.t = .text → ∃ a, d.literal = some a) t)
    (h2 : AllNodesList (fun d => d.t = .text → ∃ a, d.literal = some a) ts) :
    AllNodesList (fun d => d.t = .text → ∃ a, d.literal = some a) (joinText t ts) := by
  cases t with
  | node d cs =>
    cases ts with
    | nil => exact ⟨h1, trivial⟩
    | cons u us =>
      cases u with
      | node e ds =>
        simp only [joinText]
        split
        · exact ⟨⟨fun _ => ⟨_, rfl⟩, h1.2⟩, h2.2⟩
        · exact ⟨h1, h2⟩

mutual
theorem mergeText_lit : ∀ t : Tree, AllNodes (fun d => d.t = .text → ∃ a, d.literal = some a) t →
    AllNodes (fun d => d.t = .text → ∃ a, d.literal = some a) (mergeText t)
  | .node d cs, h => by
    simp only [mergeText]
    split
    · exact ⟨h.1, mergeTexts_lit cs h.2⟩
    · exact h
theorem mergeTexts_lit : ∀ ts : List Tree,
    AllNodesList (fun d => d.t = .text → ∃ a, d.literal = some a) ts →
    AllNodesList (fun d => d.t = .text → ∃ a, d.literal = some a) (mergeTexts ts)
  | [], _ => trivial
  | t :: ts, h => by
    simp only [mergeTexts]
    exact joinText_lit (mergeText_lit t h.1) (mergeTexts_lit ts h.2)
end

end CM
