import Verif.Proofs.Walker
namespace CM
open Spec

/-! ### Facts about merging -/

theorem mergeText_kind (t : Tree) : (mergeText t).kind = t.kind := by
  cases t with
  | node d cs => simp only [mergeText]; split <;> rfl

theorem mergeText_data (t : Tree) : (mergeText t).data = t.data := by
  cases t with
  | node d cs => simp only [mergeText]; split <;> rfl

theorem joinText_noPair (t : Tree) (ts : List Tree) (h : noTextPair ts) : noTextPair (joinText t ts) := by
  cases t with
  | node d cs =>
    cases ts with
    | nil => simp [joinText, noTextPair]
    | cons u us =>
      cases u with
      | node e ds =>
        simp only [joinText]
        split
        · rename_i hd
          cases us with
          | nil => simp [noTextPair]
          | cons v vs =>
            simp only [noTextPair, Tree.kind, Tree.data] at h ⊢
            refine ⟨?_, h.2⟩
            rintro ⟨_, hv⟩
            exact h.1 ⟨hd.2, hv⟩
        · rename_i hd
          simp only [noTextPair, Tree.kind, Tree.data]
          exact ⟨hd, h⟩

theorem text_not_container {k : Kind} (h : k = .text) : isContainer k = false := by subst h; rfl

theorem joinText_noAdj (t : Tree) (ts : List Tree) (ht : NoAdjacentText t) (h : NoAdjacentTexts ts) :
    NoAdjacentTexts (joinText t ts) := by
  cases t with
  | node d cs =>
    cases ts with
    | nil => simp [joinText, NoAdjacentTexts, ht]
    | cons u us =>
      cases u with
      | node e ds =>
        simp only [joinText]
        split
        · rename_i hd
          simp only [NoAdjacentTexts] at h ⊢
          refine ⟨?_, h.2⟩
          simp only [NoAdjacentText]
          intro hc
          rw [text_not_container hd.1] at hc; cases hc
        · exact ⟨ht, h⟩

mutual
theorem mergeText_noAdj : ∀ t : Tree, NoAdjacentText (mergeText t)
  | .node d cs => by
    simp only [mergeText]
    split
    · simp only [NoAdjacentText]
      intro _
      exact mergeTexts_noAdj cs
    · rename_i hc
      simp only [NoAdjacentText]
      intro h; exact absurd h hc
theorem mergeTexts_noAdj : ∀ ts : List Tree,
    noTextPair (mergeTexts ts) ∧ NoAdjacentTexts (mergeTexts ts)
  | [] => by simp [mergeTexts, noTextPair, NoAdjacentTexts]
  | t :: ts => by
    simp only [mergeTexts]
    exact ⟨joinText_noPair _ _ (mergeTexts_noAdj ts).1,
      joinText_noAdj _ _ (mergeText_noAdj t) (mergeTexts_noAdj ts).2⟩
end

theorem joinText_of_noPair (t : Tree) (ts : List Tree) (h : noTextPair (t :: ts)) :
    joinText t ts = t :: ts := by
  cases t with
  | node d cs =>
    cases ts with
    | nil => rfl
    | cons u us =>
      cases u with
      | node e ds =>
        simp only [noTextPair, Tree.kind, Tree.data] at h
        simp only [joinText]
        rw [if_neg h.1]

mutual
theorem mergeText_fix : ∀ t : Tree, NoAdjacentText t → mergeText t = t
  | .node d cs, h => by
    simp only [mergeText]
    split
    · rename_i hc
      simp only [NoAdjacentText] at h
      rw [mergeTexts_fix cs (h hc).1 (h hc).2]
    · rfl
theorem mergeTexts_fix : ∀ ts : List Tree, noTextPair ts → NoAdjacentTexts ts → mergeTexts ts = ts
  | [], _, _ => rfl
  | t :: ts, hp, ha => by
    simp only [mergeTexts]
    have hp' : noTextPair ts := by
      cases ts with
      | nil => trivial
      | cons u us => exact hp.2
    rw [mergeText_fix t ha.1, mergeTexts_fix ts hp' ha.2, joinText_of_noPair t ts hp]
end

theorem visibles_join (t : Tree) (ts : List Tree) :
    visibles (joinText t ts) = visible t ++ visibles ts := by
  cases t with
  | node d cs =>
    cases ts with
    | nil => simp [joinText, visibles]
    | cons u us =>
      cases u with
      | node e ds =>
        simp only [joinText]
        split
        · rename_i hd
          simp [visibles, visible, hd.1, hd.2]
        · simp [visibles]

mutual
theorem visible_merge : ∀ t : Tree, visible (mergeText t) = visible t
  | .node d cs => by
    simp only [mergeText]
    split
    · simp only [visible]
      rw [visibles_merge cs]
    · rfl
theorem visibles_merge : ∀ ts : List Tree, visibles (mergeTexts ts) = visibles ts
  | [] => rfl
  | t :: ts => by
    simp only [mergeTexts, visibles_join, visible_merge t, visibles_merge ts, visibles]
end


theorem joinText_nontext {d : NodeData} (hd : d.t ≠ .text) (X : List Tree) (M : List Tree) :
    joinText (.node d X) M = .node d X :: M := by
  cases M with
  | nil => rfl
  | cons u us => cases u with
    | node e ds => simp [joinText, hd]

theorem joinText_text {d e : NodeData} (hd : d.t = .text) (he : e.t = .text) (X Y M : List Tree) :
    joinText (.node d X) (joinText (.node e Y) M) =
      joinText (.node { d with literal := some (d.literal.getD [] ++ e.literal.getD []) } X) M := by
  cases M with
  | nil => simp [joinText, hd, he]
  | cons u us => cases u with
    | node f ds =>
      by_cases hf : f.t = .text
      · simp [joinText, hd, he, hf]
      · simp [joinText, hd, he, hf]

mutual
theorem payload_congr {g h : Heap} : ∀ t : Shape, (∀ x ∈ t.ids, (g x).data = (h x).data) →
    payload g t = payload h t
  | .node i cs, e => by
    simp only [payload]
    rw [e i (by simp [Shape.ids]), payloadList_congr cs (fun x hx => e x (by simp [Shape.ids, hx]))]
theorem payloadList_congr {g h : Heap} : ∀ ts : List Shape,
    (∀ x ∈ Shape.idsList ts, (g x).data = (h x).data) → payloadList g ts = payloadList h ts
  | [], _ => rfl
  | t :: ts, e => by
    simp only [payloadList]
    rw [payload_congr t (fun x hx => e x (by simp [Shape.idsList, hx])),
      payloadList_congr ts (fun x hx => e x (by simp [Shape.idsList, hx]))]
end

mutual
theorem treeOf_congr {k k' : Nat → List Nat} : ∀ t : Shape, (∀ x ∈ t.ids, k' x = k x) →
    TreeOf k t → TreeOf k' t
  | .node i cs, e, h => by
    simp only [TreeOf] at h ⊢
    exact ⟨by rw [e i (by simp [Shape.ids]), h.1],
      treesOf_congr cs (fun x hx => e x (by simp [Shape.ids, hx])) h.2⟩
theorem treesOf_congr {k k' : Nat → List Nat} : ∀ ts : List Shape,
    (∀ x ∈ Shape.idsList ts, k' x = k x) → TreesOf k ts → TreesOf k' ts
  | [], _, _ => trivial
  | t :: ts, e, h => by
    simp only [TreesOf] at h ⊢
    exact ⟨treeOf_congr t (fun x hx => e x (by simp [Shape.idsList, hx])) h.1,
      treesOf_congr ts (fun x hx => e x (by simp [Shape.idsList, hx])) h.2⟩
end

theorem loop_step {g g' : Heap} {w w' : Walker} {cur b prev prev'} (hw : w.next g = some ((cur, b), w'))
    (hs : normalizeStep g prev cur = .ok (g', prev')) (fuel : Nat) :
    normalizeLoop (fuel + 1) g w prev = normalizeLoop fuel g' w' prev' := by
  simp [normalizeLoop, hw, hs]

theorem step_nontext {g : Heap} {prev cur : Nat} (h : (g cur).data.t ≠ .text) :
    normalizeStep g (some prev) cur = .ok (g, some cur) := by
  simp [normalizeStep, h]

theorem step_after_nontext {g : Heap} {prev cur : Nat} (h : (g prev).data.t ≠ .text) :
    normalizeStep g (some prev) cur = .ok (g, some cur) := by
  simp [normalizeStep, h]

theorem next_leaf {g : Heap} {root j : Nat} {b} (hj : j ≠ root)
    (h : b = false ∨ isContainer (g j).data.t = false) :
    Walker.next g ⟨some j, root, b⟩ = some ((j, b), Walker.after g root j) := by
  simp only [Walker.next, Walker.after]
  rw [if_neg (by rcases h with h | h <;> simp [h]), if_neg hj]
  cases (g j).nxt <;> rfl

/-- What normalising a list of siblings (or a tree) achieves. -/
structure ListResult (g : Heap) (kids : Nat → List Nat) (root i prev : Nat) (done : List Nat)
    (cs : List Shape) (w : Walker) : Prop where
  ex : ∃ (g' : Heap) (kids' : Nat → List Nat) (prev' : Nat) (ts : List Shape) (n : Nat),
    (∀ fuel, normalizeLoop (fuel + n) g w (some prev) =
      normalizeLoop fuel g' ⟨some i, root, false⟩ (some prev')) ∧
    Linked g' kids' ∧ kids' i = done ++ ts.map Shape.id ∧ TreesOf kids' ts ∧
    (∀ x ∈ Shape.idsList ts, x ∈ Shape.idsList cs) ∧
    (∀ q, q ≠ i → q ∉ Shape.idsList cs → kids' q = kids q) ∧
    (∀ x, x ∉ Shape.idsList cs → (x = prev → (g prev).data.t ≠ .text) → (g' x).data = (g x).data) ∧
    (∀ X, .node (g' prev).data X :: payloadList g' ts =
      joinText (.node (g prev).data X) (mergeTexts (payloadList g cs)))

structure TreeResult (g : Heap) (kids : Nat → List Nat) (root prev : Nat) (t : Shape) : Prop where
  ex : ∃ (g' : Heap) (kids' : Nat → List Nat) (t' : Shape) (n : Nat),
    (∀ fuel, normalizeLoop (fuel + n) g ⟨some t.id, root, true⟩ (some prev) =
      normalizeLoop fuel g' (Walker.after g' root t.id) (some t.id)) ∧
    Linked g' kids' ∧ TreeOf kids' t' ∧ t'.id = t.id ∧ (∀ x ∈ t'.ids, x ∈ t.ids) ∧
    (∀ q, q ∉ t.ids → kids' q = kids q) ∧
    (∀ x, x ∉ t.ids → (g' x).data = (g x).data) ∧ (g' t.id).data = (g t.id).data ∧
    payload g' t' = mergeText (payload g t)

mutual
theorem norm_tree (root : Nat) : ∀ (t : Shape) (g : Heap) (kids : Nat → List Nat) (prev : Nat),
    Linked g kids → TreeOf kids t → root ∉ t.ids → TextLit g t.ids → (g t.id).data.t ≠ .text →
    TreeResult g kids root prev t
  | .node j ds, g, kids, prev, L, ht, hr, hl, hnt => by
    have hjr : j ≠ root := by intro hh; subst hh; simp [Shape.ids] at hr
    simp only [Shape.id] at hnt
    by_cases hc : isContainer (g j).data.t = true
    · have hf := L.first j
      rw [ht.1] at hf
      cases ds with
      | nil =>
        refine ⟨⟨g, kids, .node j [], 2, fun fuel => ?_, L, ht, rfl, fun x hx => hx, fun _ _ => rfl,
          fun _ _ => rfl, rfl, ?_⟩⟩
        · rw [loop_step (w' := ⟨some j, root, false⟩) (cur := j) (b := true) ?_ (step_nontext hnt),
            loop_step (next_leaf hjr (Or.inl rfl)) (step_nontext hnt)]
          · rfl
          · simp only [List.map_nil, List.head?_nil] at hf
            simp [Walker.next, hc, hf, Shape.id]
        · simp [payload, payloadList, mergeText, mergeTexts]
      | cons d ds =>
        have hnd := ids_nodup L ht
        simp only [Shape.ids, List.nodup_cons] at hnd
        obtain ⟨g', kids', prev', ts, n, h1, h2, h3, h4, h5, h6, h7, h8⟩ :=
          (norm_list root j d ds g kids j [] L (by rw [ht.1]; simp) ht.2
            (fun hh => hr (by simp [Shape.ids, hh])) hnd.1 (by simp) hnd.2
            (fun x hx => hl x (by simp [Shape.ids, hx])) hnt hnd.1 (fun hh => absurd hh hnt)).ex
        have hdj : (g' j).data = (g j).data := h7 j hnd.1 (fun _ => hnt)
        have hnt' : (g' j).data.t ≠ .text := by rw [hdj]; exact hnt
        refine ⟨⟨g', kids', .node j ts, n + 2, fun fuel => ?_, h2, ⟨by rw [h3]; simp, h4⟩, rfl, ?_, ?_,
          ?_, hdj, ?_⟩⟩
        · rw [show fuel + (n + 2) = (fuel + 1 + n) + 1 by omega]
          rw [loop_step (w' := ⟨some d.id, root, true⟩) (cur := j) (b := true) ?_ (step_nontext hnt),
            h1, loop_step (next_leaf hjr (Or.inl rfl)) (step_nontext hnt')]
          · rfl
          · simp only [List.map_cons, List.head?_cons] at hf
            simp [Walker.next, hc, hf, Shape.id]
        · intro x hx
          simp only [Shape.ids, List.mem_cons] at hx ⊢
          exact hx.imp id (h5 x)
        · intro q hq
          simp only [Shape.ids, List.mem_cons, not_or] at hq
          exact h6 q hq.1 hq.2
        · intro x hx
          simp only [Shape.ids, List.mem_cons, not_or] at hx
          exact h7 x hx.2 (fun hh => absurd hh hx.1)
        · have := h8 []
          rw [joinText_nontext hnt] at this
          simp only [List.cons.injEq] at this
          simp only [payload, mergeText, hc, if_true]
          rw [this.2, hdj]
    · have hc' : isContainer (g j).data.t = false := by simpa using hc
      refine ⟨⟨g, kids, .node j ds, 1, fun fuel => ?_, L, ht, rfl, fun x hx => hx, fun _ _ => rfl,
          fun _ _ => rfl, rfl, ?_⟩⟩
      · exact loop_step (next_leaf hjr (Or.inr hc')) (step_nontext hnt) fuel
      · simp [payload, mergeText, hc]
termination_by t => sizeOf t
theorem norm_list (root i : Nat) : ∀ (c : Shape) (cs : List Shape) (g : Heap)
    (kids : Nat → List Nat) (prev : Nat) (done : List Nat),
    Linked g kids → kids i = done ++ c.id :: cs.map Shape.id → TreesOf kids (c :: cs) →
    root ∉ Shape.idsList (c :: cs) → i ∉ Shape.idsList (c :: cs) →
    (∀ x ∈ done, x ∉ Shape.idsList (c :: cs)) → (Shape.idsList (c :: cs)).Nodup →
    TextLit g (Shape.idsList (c :: cs)) → (g i).data.t ≠ .text → prev ∉ Shape.idsList (c :: cs) →
    ((g prev).data.t = .text → prev ∈ done ∧ ∃ a, (g prev).data.literal = some a) →
    ListResult g kids root i prev done (c :: cs) ⟨some c.id, root, true⟩
  | c, cs, g, kids, prev, done, L, hk, ht, hr, hi, hd, hnd, hl, hit, hp, hpt => by
    have hb := L.beside i done c.id _ hk
    have hcp : (g c.id).parent = some i := (L.parent i c.id).1 (by rw [hk]; simp)
    have hnd' := hnd
    simp only [Shape.idsList, List.nodup_append] at hnd'
    have hmem : ∀ x, x ∈ Shape.idsList (c :: cs) ↔ x ∈ c.ids ∨ x ∈ Shape.idsList cs := by
      intro x; simp [Shape.idsList]
    have hdisj : ∀ x, x ∈ c.ids → x ∈ Shape.idsList cs → False := fun x h1 h2 =>
      hnd'.2.2 x h1 x h2 rfl
    have hcc := id_mem_ids c
    have hroot : c.id ≠ root := fun hh => hr ((hmem _).2 (Or.inl (hh ▸ hcc)))
    have hci : c.id ≠ i := fun hh => hi ((hmem _).2 (Or.inl (hh ▸ hcc)))
    by_cases hct : (g c.id).data.t = .text
    · obtain ⟨j, ds⟩ := c
      simp only [Shape.id] at hct hb hcp hroot hk hci
      obtain ⟨b, hbl⟩ := hl j ((hmem _).2 (Or.inl hcc)) hct
      have hleaf : isContainer (g j).data.t = false := text_not_container hct
      have hmt : mergeText (payload g (.node j ds)) = payload g (.node j ds) := by
        simp [payload, mergeText, hleaf]
      by_cases hpt' : (g prev).data.t = .text
      · -- merge into prev
        obtain ⟨hpd, a, ha⟩ := hpt hpt'
        have hpj : prev ≠ j := fun hh => hp ((hmem _).2 (Or.inl (hh ▸ hcc)))
        have hstep : normalizeStep g (some prev) j =
            .ok ((g.set prev fun n => { n with data := { n.data with literal := some (a ++ b) } }).unlink j,
              some prev) := by
          simp [normalizeStep, hpt', hct, ha, hbl]
        have Ls : Linked (g.set prev fun n => { n with data := { n.data with literal := some (a ++ b) } }) kids := by
          refine L.congr ?_ ?_ ?_ ?_ ?_ (fun _ => rfl) <;>
          · intro x
            simp only [Heap.set]
            split <;> rfl
        obtain ⟨L1, hdat⟩ := unlink_linked Ls j
        have hdata : ∀ x, ((g.set prev fun n => { n with data := { n.data with literal := some (a ++ b) } }).unlink j x).data
            = if x = prev then { (g prev).data with literal := some (a ++ b) } else (g x).data := by
          intro x
          rw [hdat x]
          simp only [Heap.set]
          split
          · rename_i hh; subst hh; rfl
          · rfl
        generalize hg1 : (g.set prev fun n => { n with data := { n.data with literal := some (a ++ b) } }).unlink j = g1 at *
        have hkeep : ∀ q, q ≠ i → (kids q).erase j = kids q := fun q hq =>
          List.erase_of_not_mem fun hm => hq (L.disj hm (by rw [hk]; simp))
        have hjdone : j ∉ done := fun hm => hd j hm ((hmem _).2 (Or.inl hcc))
        have hki : (kids i).erase j = done ++ cs.map Shape.id := by rw [hk, erase_mid hjdone]
        have hwalk : Walker.next g ⟨some j, root, true⟩ = some ((j, true), Walker.after g root j) :=
          next_leaf hroot (Or.inr hleaf)
        have hjoin : ∀ X, joinText (.node (g prev).data X) (mergeTexts (payloadList g (.node j ds :: cs))) =
            joinText (.node (g1 prev).data X) (mergeTexts (payloadList g cs)) := by
          intro X
          simp only [payloadList, mergeTexts, hmt]
          simp only [payload]
          rw [joinText_text hpt' hct, hdata prev, if_pos rfl, ha, hbl]
          rfl
        cases cs with
        | nil =>
          refine ⟨⟨g1, fun q => (kids q).erase j, prev, [], 1, fun fuel => ?_, L1, by simp [hki], trivial,
            by simp [Shape.idsList], fun q hq _ => hkeep q hq, ?_, ?_⟩⟩
          · simp only [Shape.id]
            rw [loop_step hwalk hstep]
            simp only [Walker.after, hb.2, List.map_nil, List.head?_nil, hcp]
          · intro x hx hxp
            rw [hdata x, if_neg]
            intro hh; exact hxp hh hpt'
          · intro X
            rw [hjoin X]
            simp [payloadList, mergeTexts, joinText]
        | cons c2 cs =>
          have hpl : payloadList g1 (c2 :: cs) = payloadList g (c2 :: cs) :=
            payloadList_congr _ fun x hx => by
              rw [hdata x, if_neg]
              intro hh; subst hh; exact hp ((hmem _).2 (Or.inr hx))
          have hit1 : (g1 i).data.t ≠ .text := by
            rw [hdata i]; split
            · rename_i hh; rw [hh] at hit; exact absurd hpt' hit
            · exact hit
          have hpt1 : (g1 prev).data.t = .text := by rw [hdata prev, if_pos rfl]; exact hpt'
          obtain ⟨g', kids', prev', ts, n, h1, h2, h3, h4, h5, h6, h7, h8⟩ :=
            (norm_list root i c2 cs g1 (fun q => (kids q).erase j) prev done L1 (by simp [hki])
              (treesOf_congr _ (fun x hx => hkeep x fun hh => hi ((hmem _).2 (Or.inr (hh ▸ hx)))) ht.2)
              (fun hh => hr ((hmem _).2 (Or.inr hh))) (fun hh => hi ((hmem _).2 (Or.inr hh)))
              (fun x hx hh => hd x hx ((hmem _).2 (Or.inr hh))) hnd'.2.1
              (fun x hx hxt => by
                have hxp : x ≠ prev := fun hh => hp ((hmem _).2 (Or.inr (hh ▸ hx)))
                rw [hdata x, if_neg hxp] at hxt ⊢
                exact hl x ((hmem _).2 (Or.inr hx)) hxt)
              hit1 (fun hh => hp ((hmem _).2 (Or.inr hh)))
              (fun _ => ⟨hpd, a ++ b, by rw [hdata prev, if_pos rfl]⟩)).ex
          refine ⟨⟨g', kids', prev', ts, n + 1, fun fuel => ?_, h2, h3, h4,
            fun x hx => (hmem x).2 (Or.inr (h5 x hx)), ?_, ?_, ?_⟩⟩
          · simp only [Shape.id]
            rw [show fuel + (n + 1) = (fuel + n) + 1 by omega]
            rw [loop_step hwalk hstep]
            simp only [Walker.after, hb.2, List.map_cons, List.head?_cons]
            exact h1 fuel
          · intro q hq hqn
            rw [h6 q hq (fun hh => hqn ((hmem q).2 (Or.inr hh)))]
            exact hkeep q hq
          · intro x hx hxp
            have hxp' : x ≠ prev := fun hh => hxp hh hpt'
            rw [h7 x (fun hh => hx ((hmem x).2 (Or.inr hh))) (fun hh => absurd hh hxp'), hdata x, if_neg hxp']
          · intro X
            rw [hjoin X, ← hpl]
            exact h8 X
      · -- a new run of text
        have hstep : normalizeStep g (some prev) j = .ok (g, some j) := step_after_nontext hpt'
        have hwalk : Walker.next g ⟨some j, root, true⟩ = some ((j, true), Walker.after g root j) :=
          next_leaf hroot (Or.inr hleaf)
        have hjn : j ∉ Shape.idsList cs := fun hh => hdisj j hcc hh
        cases cs with
        | nil =>
          refine ⟨⟨g, kids, j, [.node j ds], 1, fun fuel => ?_, L, hk, ht, fun x hx => hx, fun _ _ _ => rfl,
            fun _ _ _ => rfl, ?_⟩⟩
          · simp only [Shape.id]
            rw [loop_step hwalk hstep]
            simp only [Walker.after, hb.2, List.map_nil, List.head?_nil, hcp]
          · intro X
            rw [joinText_nontext hpt']
            simp only [payloadList, mergeTexts, hmt, joinText]
        | cons c2 cs =>
          obtain ⟨g', kids', prev', ts, n, h1, h2, h3, h4, h5, h6, h7, h8⟩ :=
            (norm_list root i c2 cs g kids j (done ++ [j]) L (by rw [hk]; simp) ht.2
              (fun hh => hr ((hmem _).2 (Or.inr hh))) (fun hh => hi ((hmem _).2 (Or.inr hh)))
              (fun x hx hh => by
                rcases List.mem_append.1 hx with hx | hx
                · exact hd x hx ((hmem _).2 (Or.inr hh))
                · simp at hx; subst hx; exact hjn hh) hnd'.2.1
              (fun x hx hxt => hl x ((hmem _).2 (Or.inr hx)) hxt)
              hit hjn (fun _ => ⟨by simp, b, hbl⟩)).ex
          have hsub : ∀ x ∈ Shape.idsList ds, x ∉ Shape.idsList (c2 :: cs) ∧ x ≠ j ∧ x ≠ i := by
            intro x hx
            have hxc : x ∈ (Shape.node j ds).ids := by simp [Shape.ids, hx]
            refine ⟨fun hh => hdisj x hxc hh, ?_, fun hh => hi ((hmem _).2 (Or.inl (hh ▸ hxc)))⟩
            intro hh; subst hh; exact root_not_below ht.1 hx
          have hkj : kids' j = kids j := h6 j hci hjn
          have hpds : payloadList g' ds = payloadList g ds :=
            payloadList_congr _ fun x hx => h7 x (hsub x hx).1 (fun hh => absurd hh (hsub x hx).2.1)
          refine ⟨⟨g', kids', prev', .node j ds :: ts, n + 1, fun fuel => ?_, h2, ?_, ?_, ?_, ?_, ?_, ?_⟩⟩
          · simp only [Shape.id]
            rw [show fuel + (n + 1) = (fuel + n) + 1 by omega]
            rw [loop_step hwalk hstep]
            simp only [Walker.after, hb.2, List.map_cons, List.head?_cons]
            exact h1 fuel
          · rw [h3]; simp [Shape.id]
          · refine ⟨treeOf_congr _ (fun x hx => ?_) ht.1, h4⟩
            simp only [Shape.ids, List.mem_cons] at hx
            rcases hx with hx | hx
            · subst hx; exact hkj
            · exact h6 x (hsub x hx).2.2 (hsub x hx).1
          · intro x hx
            rw [Shape.idsList, List.mem_append] at hx
            exact (hmem x).2 (hx.imp id (h5 x))
          · intro q hq hqn
            exact h6 q hq (fun hh => hqn ((hmem q).2 (Or.inr hh)))
          · intro x hx hxp
            exact h7 x (fun hh => hx ((hmem x).2 (Or.inr hh)))
              (fun hh => absurd ((hmem x).2 (Or.inl (hh ▸ hcc))) hx)
          · intro X
            rw [joinText_nontext hpt']
            have hpd : (g' prev).data = (g prev).data :=
              h7 prev (fun hh => hp ((hmem _).2 (Or.inr hh)))
                (fun hh => absurd ((hmem prev).2 (Or.inl (hh ▸ hcc))) hp)
            rw [hpd]
            congr 1
            rw [show payloadList g (.node j ds :: c2 :: cs) =
              payload g (.node j ds) :: payloadList g (c2 :: cs) from rfl]
            rw [show ∀ t ts, mergeTexts (t :: ts) = joinText (mergeText t) (mergeTexts ts) from
              fun _ _ => by simp only [mergeTexts], hmt]
            simp only [payloadList, payload] at h8 ⊢
            rw [← h8 (payloadList g ds), hpds]
    · -- not a text node
      obtain ⟨g1, kids1, t1, n1, k1, k2, k3, k4, k5, k6, k7, k8, k9⟩ :=
        (norm_tree root c g kids prev L ht.1 (fun hh => hr ((hmem _).2 (Or.inl hh)))
          (fun x hx => hl x ((hmem _).2 (Or.inl hx))) hct).ex
      have hic : i ∉ c.ids := fun hh => hi ((hmem _).2 (Or.inl hh))
      have hk1 : kids1 i = done ++ c.id :: cs.map Shape.id := by rw [k6 i hic, hk]
      have hb1 := k2.beside i done c.id _ hk1
      have hcp1 : (g1 c.id).parent = some i := (k2.parent i c.id).1 (by rw [hk1]; simp)
      have hct1 : (g1 c.id).data.t ≠ .text := by rw [k8]; exact hct
      have hprev1 : (g1 prev).data = (g prev).data := k7 prev fun hh => hp ((hmem _).2 (Or.inl hh))
      have hmne : ∀ X M, joinText (.node (g prev).data X) (payload g1 t1 :: M) =
          .node (g prev).data X :: payload g1 t1 :: M := by
        intro X M
        have : (payload g1 t1).kind ≠ .text := by
          rw [k9, mergeText_kind]
          cases c; exact hct
        cases hpp : payload g1 t1 with
        | node e es =>
          rw [hpp] at this
          simp only [Tree.kind, Tree.data] at this
          simp [joinText, this]
      have hjc : ∀ M, joinText (payload g1 t1) M = payload g1 t1 :: M := by
        intro M
        have : (payload g1 t1).kind ≠ .text := by
          rw [k9, mergeText_kind]
          cases c; exact hct
        cases hpp : payload g1 t1 with
        | node e es =>
          rw [hpp] at this
          exact joinText_nontext this es M
      cases cs with
      | nil =>
        refine ⟨⟨g1, kids1, c.id, [t1], n1, fun fuel => ?_, k2, by rw [hk1]; simp [k4], ⟨k3, trivial⟩, ?_,
          fun q hq hqn => k6 q (fun hh => hqn ((hmem q).2 (Or.inl hh))),
          fun x hx _ => k7 x (fun hh => hx ((hmem x).2 (Or.inl hh))), ?_⟩⟩
        · rw [k1]
          simp only [Walker.after, hb1.2, List.map_nil, List.head?_nil, hcp1]
        · intro x hx
          simp only [Shape.idsList, List.append_nil] at hx
          exact (hmem x).2 (Or.inl (k5 x hx))
        · intro X
          simp only [payloadList, mergeTexts]
          rw [← k9, hjc, hmne, hprev1]
      | cons c2 cs =>
        have hcs : ∀ x ∈ Shape.idsList (c2 :: cs), x ∉ c.ids := fun x hx hh => hdisj x hh hx
        have hpl : payloadList g1 (c2 :: cs) = payloadList g (c2 :: cs) :=
            payloadList_congr _ fun x hx => k7 x (hcs x hx)
        obtain ⟨g', kids', prev', ts, n, h1, h2, h3, h4, h5, h6, h7, h8⟩ :=
            (norm_list root i c2 cs g1 kids1 c.id (done ++ [c.id]) k2 (by rw [hk1]; simp)
              (treesOf_congr _ (fun x hx => k6 x (hcs x hx)) ht.2)
              (fun hh => hr ((hmem _).2 (Or.inr hh))) (fun hh => hi ((hmem _).2 (Or.inr hh)))
              (fun x hx hh => by
                rcases List.mem_append.1 hx with hx | hx
                · exact hd x hx ((hmem _).2 (Or.inr hh))
                · simp at hx; subst hx; exact hcs _ hh hcc) hnd'.2.1
              (fun x hx hxt => by
                rw [k7 x (hcs x hx)] at hxt ⊢
                exact hl x ((hmem _).2 (Or.inr hx)) hxt)
              (by rw [k7 i hic]; exact hit) (fun hh => hcs _ hh hcc) (fun hh => absurd hh hct1)).ex
        have hkeep : ∀ x ∈ t1.ids, x ∉ Shape.idsList (c2 :: cs) ∧ x ≠ i := fun x hx =>
          ⟨fun hh => hcs x hh (k5 x hx), fun hh => hic (hh ▸ k5 x hx)⟩
        refine ⟨⟨g', kids', prev', t1 :: ts, n1 + n, fun fuel => ?_, h2, ?_, ?_, ?_, ?_, ?_, ?_⟩⟩
        · rw [show fuel + (n1 + n) = (fuel + n) + n1 by omega, k1]
          simp only [Walker.after, hb1.2, List.map_cons, List.head?_cons]
          exact h1 fuel
        · rw [h3]; simp [k4]
        · exact ⟨treeOf_congr _ (fun x hx => h6 x (hkeep x hx).2 (hkeep x hx).1) k3, h4⟩
        · intro x hx
          rw [Shape.idsList, List.mem_append] at hx
          exact (hmem x).2 (hx.imp (k5 x) (h5 x))
        · intro q hq hqn
          rw [h6 q hq (fun hh => hqn ((hmem q).2 (Or.inr hh))),
            k6 q (fun hh => hqn ((hmem q).2 (Or.inl hh)))]
        · intro x hx hxp
          rw [h7 x (fun hh => hx ((hmem x).2 (Or.inr hh))) (fun _ => hct1),
            k7 x (fun hh => hx ((hmem x).2 (Or.inl hh)))]
        · intro X
          have hpt1 : payload g' t1 = payload g1 t1 :=
            payload_congr _ fun x hx => h7 x (hkeep x hx).1 (fun _ => hct1)
          have h9 := h8 []
          rw [joinText_nontext hct1] at h9
          simp only [List.cons.injEq] at h9
          have hpp : (g' prev).data = (g prev).data := by
            rw [h7 prev (fun hh => hp ((hmem _).2 (Or.inr hh))) (fun _ => hct1), hprev1]
          rw [show payloadList g (c :: c2 :: cs) = payload g c :: payloadList g (c2 :: cs) from rfl]
          rw [show ∀ t ts, mergeTexts (t :: ts) = joinText (mergeText t) (mergeTexts ts) from
              fun _ _ => by simp only [mergeTexts], ← k9, hjc, hmne, hpp]
          rw [show payloadList g' (t1 :: ts) = payload g' t1 :: payloadList g' ts from rfl, hpt1, h9.2, hpl]
termination_by c cs => sizeOf (c :: cs)
end

theorem norm_root {h : Heap} {kids} (L : Linked h kids) (t : Shape) (ht : TreeOf kids t)
    (hl : TextLit h t.ids) :
    ∃ (h' : Heap) (kids' : Nat → List Nat) (t' : Shape) (n : Nat),
      (∀ fuel, n ≤ fuel → normalizeHeap fuel h t.id = .ok h') ∧ Linked h' kids' ∧ TreeOf kids' t' ∧
      t'.id = t.id ∧ (∀ x ∈ t'.ids, x ∈ t.ids) ∧ (∀ q, q ∉ t.ids → kids' q = kids q) ∧
      (∀ x, x ∉ t.ids → (h' x).data = (h x).data) ∧
      payload h' t' = mergeText (payload h t) := by
  obtain ⟨i, cs⟩ := t
  have hrl := root_not_below ht
  have hf := L.first i
  rw [ht.1] at hf
  have first : ∀ {w w' : Walker} {b}, w.next h = some ((i, b), w') → ∀ fuel,
      normalizeLoop (fuel + 1) h w none = normalizeLoop fuel h w' (some i) := by
    intro w w' b hw fuel
    exact loop_step hw (by simp [normalizeStep]) fuel
  have fin : ∀ {g : Heap} {b p} (fuel), 1 ≤ fuel → normalizeLoop fuel g ⟨none, i, b⟩ p = .ok g := by
    intro g b p fuel hf
    obtain ⟨f, rfl⟩ := Nat.exists_eq_add_of_le' hf
    simp [normalizeLoop, Walker.next]
  by_cases hc : isContainer (h i).data.t = true
  · have hnt : (h i).data.t ≠ .text := by
      intro hh; rw [text_not_container hh] at hc; cases hc
    cases cs with
    | nil =>
      refine ⟨h, kids, .node i [], 3, fun fuel hfu => ?_, L, ht, rfl, fun x hx => hx, fun _ _ => rfl,
        fun _ _ => rfl, by simp [payload, payloadList, mergeText, mergeTexts]⟩
      obtain ⟨f, rfl⟩ := Nat.exists_eq_add_of_le' hfu
      simp only [List.map_nil, List.head?_nil] at hf
      simp only [normalizeHeap, Walker.new, Shape.id]
      rw [first (b := true) (w' := ⟨some i, i, false⟩) (by simp [Walker.next, hc, hf]),
        loop_step (cur := i) (b := false) (w' := ⟨none, i, false⟩) (by simp [Walker.next]) (step_nontext hnt)]
      exact fin _ (by omega)
    | cons c cs =>
      have hnd := ids_nodup L ht
      simp only [Shape.ids, List.nodup_cons] at hnd
      obtain ⟨g', kids', prev', ts, n, h1, h2, h3, h4, h5, h6, h7, h8⟩ :=
        (norm_list i i c cs h kids i [] L (by rw [ht.1]; simp) ht.2 hrl hnd.1 (by simp) hnd.2
          (fun x hx => hl x (by simp [Shape.ids, hx])) hnt hnd.1 (fun hh => absurd hh hnt)).ex
      have hdj : (g' i).data = (h i).data := h7 i hnd.1 (fun _ => hnt)
      have hnt' : (g' i).data.t ≠ .text := by rw [hdj]; exact hnt
      refine ⟨g', kids', .node i ts, n + 3, fun fuel hfu => ?_, h2, ⟨by rw [h3]; simp, h4⟩, rfl, ?_, ?_, ?_, ?_⟩
      · obtain ⟨f, rfl⟩ := Nat.exists_eq_add_of_le' hfu
        simp only [List.map_cons, List.head?_cons] at hf
        simp only [normalizeHeap, Walker.new, Shape.id]
        rw [show f + (n + 3) = (f + 2 + n) + 1 by omega]
        rw [first (b := true) (w' := ⟨some c.id, i, true⟩) (by simp [Walker.next, hc, hf]), h1,
          loop_step (cur := i) (b := false) (w' := ⟨none, i, false⟩) (by simp [Walker.next]) (step_nontext hnt')]
        exact fin _ (by omega)
      · intro x hx
        simp only [Shape.ids, List.mem_cons] at hx ⊢
        exact hx.imp id (h5 x)
      · intro q hq
        simp only [Shape.ids, List.mem_cons, not_or] at hq
        exact h6 q hq.1 hq.2
      · intro x hx
        simp only [Shape.ids, List.mem_cons, not_or] at hx
        exact h7 x hx.2 (fun hh => absurd hh hx.1)
      · have := h8 []
        rw [joinText_nontext hnt] at this
        simp only [List.cons.injEq] at this
        simp only [payload, mergeText, hc, if_true]
        rw [this.2, hdj]
  · refine ⟨h, kids, .node i cs, 2, fun fuel hfu => ?_, L, ht, rfl, fun x hx => hx, fun _ _ => rfl,
      fun _ _ => rfl, by simp [payload, mergeText, hc]⟩
    obtain ⟨f, rfl⟩ := Nat.exists_eq_add_of_le' hfu
    simp only [normalizeHeap, Walker.new, Shape.id]
    rw [first (b := true) (w' := ⟨none, i, true⟩) (by simp [Walker.next, hc])]
    exact fin _ (by omega)

end CM
