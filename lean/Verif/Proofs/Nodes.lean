import Verif.Spec.Nodes
namespace CM
open Spec
set_option linter.unusedSimpArgs false

theorem getLast?_append_ne {α} (l m : List α) (h : m ≠ []) : (l ++ m).getLast? = m.getLast? := by
  rcases List.eq_nil_or_concat m with hm | ⟨m', a, hm⟩
  · exact absurd hm h
  · subst hm; rw [List.concat_eq_append, ← List.append_assoc]; simp

theorem Heap.set_same (h : Heap) (i : Nat) (f) : (h.set i f) i = f (h i) := by simp [Heap.set]
theorem Heap.set_ne (h : Heap) {i j : Nat} (f) (hij : j ≠ i) : (h.set i f) j = h j := by
  simp [Heap.set, hij]

theorem _root_.Spec.Linked.split {h : Heap} {kids} (L : Linked h kids) {c p} (hp : (h c).parent = some p) :
    ∃ l r, kids p = l ++ c :: r := List.append_of_mem ((L.parent p c).2 hp)

theorem _root_.Spec.Linked.notMem {h : Heap} {kids} (L : Linked h kids) {c} (hp : (h c).parent = none) (p) :
    c ∉ kids p := fun hm => by rw [(L.parent p c).1 hm] at hp; cases hp

/-- Disjointness of the lists. -/
theorem _root_.Spec.Linked.disj {h : Heap} {kids} (L : Linked h kids) {c p q} (hp : c ∈ kids p)
    (hq : c ∈ kids q) : p = q := by
  have a := (L.parent p c).1 hp
  have b := (L.parent q c).1 hq
  rw [a] at b; exact Option.some.inj b

/-- Two heaps that agree on pointers. -/
theorem _root_.Spec.Linked.congr {h h' : Heap} {kids kids'} (L : Linked h kids)
    (e1 : ∀ i, (h' i).parent = (h i).parent) (e2 : ∀ i, (h' i).firstChild = (h i).firstChild)
    (e3 : ∀ i, (h' i).lastChild = (h i).lastChild) (e4 : ∀ i, (h' i).prv = (h i).prv)
    (e5 : ∀ i, (h' i).nxt = (h i).nxt) (ek : ∀ p, kids' p = kids p) : Linked h' kids' := by
  have : kids' = kids := funext ek
  subst this
  exact ⟨L.nodup, fun p c => by rw [e1]; exact L.parent p c, fun p => by rw [e2]; exact L.first p,
    fun p => by rw [e3]; exact L.last p, fun p l c r he => by rw [e4, e5]; exact L.beside p l c r he,
    fun c hc => by rw [e4, e5]; exact L.orphan c (by rw [← e1]; exact hc)⟩

/-- The pointers after `unlink` of a node with a parent. -/
theorem unlink_fields {h : Heap} {kids} (L : Linked h kids) {x p l r}
    (hk : kids p = l ++ x :: r) (i : Nat) :
    (h.unlink x i).data = (h i).data ∧
    (h.unlink x i).parent = (if i = x then none else (h i).parent) ∧
    (h.unlink x i).firstChild = (if i = p ∧ l = [] then r.head? else (h i).firstChild) ∧
    (h.unlink x i).lastChild = (if i = p ∧ r = [] then l.getLast? else (h i).lastChild) ∧
    (h.unlink x i).prv = (if i = x then none else if r.head? = some i then l.getLast? else (h i).prv) ∧
    (h.unlink x i).nxt = (if i = x then none else if l.getLast? = some i then r.head? else (h i).nxt) := by
  have hb := L.beside p l x r hk
  have hpar : (h x).parent = some p := (L.parent p x).1 (by rw [hk]; simp)
  have hnd := L.nodup p
  rw [hk] at hnd
  have hxl : x ∉ l := by
    intro hm; exact (List.nodup_append.1 hnd).2.2 x hm x (by simp) rfl
  have hxr : x ∉ r := by
    have := (List.nodup_append.1 hnd).2.1
    exact (List.nodup_cons.1 this).1
  have hlr : ∀ a, a ∈ l → a ∈ r → False := fun a ha hr =>
    (List.nodup_append.1 hnd).2.2 a ha a (by simp [hr]) rfl
  rcases List.eq_nil_or_concat l with hl | ⟨l', a, hl⟩
  · subst hl
    cases r with
    | nil =>
      simp only [List.getLast?_nil, List.head?_nil] at hb
      simp only [Heap.unlink, hb.1, hb.2, hpar, Heap.setOpt]
      by_cases h1 : i = x <;> by_cases h2 : i = p <;> by_cases h3 : x = p <;>
        simp_all [Heap.set] <;> (try split) <;> simp_all
    | cons b r =>
      simp only [List.getLast?_nil, List.head?_cons] at hb
      have hbx : b ≠ x := by intro hh; subst hh; simp at hxr
      simp only [Heap.unlink, hb.1, hb.2, hpar, Heap.setOpt]
      by_cases h1 : i = x <;> by_cases h2 : i = p <;> by_cases h3 : x = p <;> by_cases h4 : i = b <;>
        simp_all [Heap.set] <;> (try split) <;> (try simp_all) <;> (try grind)
  · rw [List.concat_eq_append] at hl
    subst hl
    have hax : a ≠ x := by intro hh; subst hh; simp at hxl
    cases r with
    | nil =>
      simp only [List.getLast?_concat, List.head?_nil] at hb
      simp only [Heap.unlink, hb.1, hb.2, hpar, Heap.setOpt]
      by_cases h1 : i = x <;> by_cases h2 : i = p <;> by_cases h3 : x = p <;> by_cases h4 : i = a <;>
        simp_all [Heap.set] <;> (try split) <;> (try simp_all) <;> (try grind)
    | cons b r =>
      simp only [List.getLast?_concat, List.head?_cons] at hb
      have hbx : b ≠ x := by intro hh; subst hh; simp at hxr
      have hab : a ≠ b := fun hh => hlr a (by simp) (by simp [hh])
      simp only [Heap.unlink, hb.1, hb.2, hpar, Heap.setOpt]
      by_cases h1 : i = x <;> by_cases h2 : i = p <;> by_cases h3 : x = p <;> by_cases h4 : i = a <;>
        by_cases h5 : i = b <;>
        simp_all [Heap.set] <;> (try split) <;> (try simp_all) <;> (try grind)


theorem erase_mid {l r : List Nat} {x} (hl : x ∉ l) : (l ++ x :: r).erase x = l ++ r := by
  rw [List.erase_append_right _ hl, List.erase_cons_head]

theorem unlink_linked {h : Heap} {kids} (L : Linked h kids) (x : Nat) :
    Linked (h.unlink x) (fun p => (kids p).erase x) ∧ ∀ i, (h.unlink x i).data = (h i).data := by
  cases hp : (h x).parent with
  | none =>
    have ho := L.orphan x hp
    have he : h.unlink x = h := by
      funext i
      simp only [Heap.unlink, ho.1, ho.2, hp, Heap.setOpt, Heap.set]
      split
      · subst_vars
        cases hx : h i
        simp_all
      · rfl
    rw [he]
    exact ⟨L.congr (fun _ => rfl) (fun _ => rfl) (fun _ => rfl) (fun _ => rfl) (fun _ => rfl)
      (fun p => List.erase_of_not_mem (L.notMem hp p)), fun _ => rfl⟩
  | some p =>
    obtain ⟨l, r, hk⟩ := L.split hp
    have F := fun i => unlink_fields L hk i
    refine ⟨?_, fun i => (F i).1⟩
    have hnd := L.nodup p
    rw [hk] at hnd
    have hxl : x ∉ l := fun hm => (List.nodup_append.1 hnd).2.2 x hm x (by simp) rfl
    have hxr : x ∉ r := (List.nodup_cons.1 (List.nodup_append.1 hnd).2.1).1
    have hlr : ∀ a, a ∈ l → a ∈ r → False := fun a ha hr =>
      (List.nodup_append.1 hnd).2.2 a ha a (by simp [hr]) rfl
    have hep : (kids p).erase x = l ++ r := by rw [hk, erase_mid hxl]
    have heq : ∀ q, q ≠ p → (kids q).erase x = kids q := fun q hq =>
      List.erase_of_not_mem fun hm => hq (L.disj hm (by rw [hk]; simp))
    refine ⟨fun q => (L.nodup q).erase x, fun q c => ?_, fun q => ?_, fun q => ?_, ?_, fun c hc => ?_⟩
    · rw [(F c).2.1, (L.nodup q).mem_erase_iff, L.parent q c]
      by_cases hcx : c = x <;> simp [hcx]
    · try dsimp only
      rw [(F q).2.2.1]
      by_cases hq : q = p
      · subst hq
        rw [hep]
        cases l with
        | nil => simp
        | cons a l => simp [L.first, hk]
      · rw [heq q hq, L.first]; simp [hq]
    · try dsimp only
      rw [(F q).2.2.2.1]
      by_cases hq : q = p
      · subst hq
        rw [hep]
        cases r with
        | nil => simp
        | cons a r => simp [L.last, hk]
      · rw [heq q hq, L.last]; simp [hq]
    · intro q l1 c r1 he
      try dsimp only at he
      rw [(F c).2.2.2.2.1, (F c).2.2.2.2.2]
      by_cases hq : q = p
      · subst hq
        rw [hep] at he
        have hcx : c ≠ x := by
          intro hh; subst hh
          have : c ∈ l ++ r := by rw [he]; simp
          simp [hxl, hxr] at this
        rw [if_neg hcx, if_neg hcx]
        rcases List.append_eq_append_iff.1 he with ⟨m, h1, h2⟩ | ⟨m, h1, h2⟩
        · -- l1 = l ++ m, r = m ++ c :: r1
          have hkk : kids q = (l ++ x :: m) ++ c :: r1 := by rw [hk, h2]; simp
          have hb := L.beside q _ c r1 hkk
          have hcl : l.getLast? ≠ some c := by
            intro hh
            exact hlr c (List.mem_of_getLast? hh) (by rw [h2]; simp)
          rw [if_neg hcl]
          refine ⟨?_, hb.2⟩
          cases m with
          | nil => subst h1; simp [h2]
          | cons a m =>
            have hac : a ≠ c := by
              intro hh; subst hh
              have := L.nodup q
              rw [hkk] at this
              simp [List.nodup_append] at this
            rw [if_neg (by rw [h2]; simpa using hac), hb.1, h1]
            simp [List.getLast?_append]
        · -- l = l1 ++ m, c :: r1 = m ++ r
          cases m with
          | nil =>
            simp at h2 h1
            subst h1
            have hkk : kids q = (l ++ [x]) ++ c :: r1 := by rw [hk, ← h2]; simp
            have hb := L.beside q _ c r1 hkk
            rw [← h2]
            have hcl : l.getLast? ≠ some c := by
              intro hh
              exact hlr c (List.mem_of_getLast? hh) (by rw [← h2]; simp)
            rw [if_neg hcl]
            simp [hb.2]
          | cons a m =>
            simp at h2
            obtain ⟨rfl, h2⟩ := h2
            have hkk : kids q = l1 ++ c :: (m ++ x :: r) := by rw [hk, h1]; simp
            have hb := L.beside q _ c _ hkk
            have hcr : r.head? ≠ some c := by
              intro hh
              exact hlr c (by rw [h1]; simp) (List.mem_of_head? hh)
            rw [if_neg hcr]
            refine ⟨hb.1, ?_⟩
            cases m with
            | nil => simp at h2; subst h2; simp [h1]
            | cons b m =>
              have hbc : l.getLast? ≠ some c := by
                rw [h1]
                intro hh
                have hm : c ∈ (b :: m) := by
                  have : (l1 ++ c :: b :: m).getLast? = (b :: m).getLast? := by
                    rw [show l1 ++ c :: b :: m = (l1 ++ [c]) ++ (b :: m) by simp,
                      getLast?_append_ne _ _ (by simp)]
                  rw [this] at hh
                  exact List.mem_of_getLast? hh
                have := L.nodup q
                rw [hkk] at this
                simp [List.nodup_append] at this
                grind
              rw [if_neg hbc, hb.2, h2]
              simp
      · rw [heq q hq] at he
        have hb := L.beside q l1 c r1 he
        have hcq : c ∈ kids q := by rw [he]; simp
        have hcp : c ∉ l ++ x :: r := fun hm => hq (L.disj hcq (by rw [hk]; exact hm))
        simp at hcp
        have h1 : r.head? ≠ some c := fun hh => hcp.2.2 (List.mem_of_head? hh)
        have h2 : l.getLast? ≠ some c := fun hh => hcp.1 (List.mem_of_getLast? hh)
        rw [if_neg hcp.2.1, if_neg hcp.2.1, if_neg h1, if_neg h2]
        exact hb
    · rw [(F c).2.1] at hc
      rw [(F c).2.2.2.2.1, (F c).2.2.2.2.2]
      by_cases hcx : c = x
      · simp [hcx]
      · rw [if_neg hcx] at hc ⊢
        have h0 := L.orphan c hc
        have hcp := L.notMem hc p
        rw [hk] at hcp
        simp at hcp
        have h1 : r.head? ≠ some c := fun hh => hcp.2.2 (List.mem_of_head? hh)
        have h2 : l.getLast? ≠ some c := fun hh => hcp.1 (List.mem_of_getLast? hh)
        rw [if_neg hcx, if_neg h1, if_neg h2]
        exact h0


/-- Linking a parentless node into a list of children. -/
theorem linked_insert {h h' : Heap} {kids kids'} (L : Linked h kids) {x p : Nat} {l r : List Nat}
    (hx : (h x).parent = none) (hk : kids p = l ++ r)
    (hk' : kids' p = l ++ x :: r) (hq : ∀ q, q ≠ p → kids' q = kids q)
    (f1 : ∀ i, (h' i).parent = if i = x then some p else (h i).parent)
    (f2 : ∀ i, (h' i).firstChild = if i = p ∧ l = [] then some x else (h i).firstChild)
    (f3 : ∀ i, (h' i).lastChild = if i = p ∧ r = [] then some x else (h i).lastChild)
    (f4 : ∀ i, (h' i).prv = if i = x then l.getLast? else if r.head? = some i then some x else (h i).prv)
    (f5 : ∀ i, (h' i).nxt = if i = x then r.head? else if l.getLast? = some i then some x else (h i).nxt) :
    Linked h' kids' := by
  have hxn := L.notMem hx
  have hnd := L.nodup p
  have hxp := hxn p
  rw [hk] at hnd hxp
  have hlr : ∀ a, a ∈ l → a ∈ r → False := fun a ha hr =>
      (List.nodup_append.1 hnd).2.2 a ha a hr rfl
  simp at hxp
  refine ⟨fun q => ?_, fun q c => ?_, fun q => ?_, fun q => ?_, ?_, fun c hc => ?_⟩
  · by_cases hqp : q = p
    · subst hqp
      rw [hk']
      rw [List.nodup_append] at hnd ⊢
      refine ⟨hnd.1, List.nodup_cons.2 ⟨hxp.2, hnd.2.1⟩, ?_⟩
      intro a ha b hb hab
      subst hab
      simp at hb
      rcases hb with hb | hb
      · subst hb; exact hxp.1 ha
      · exact hlr a ha hb
    · rw [hq q hqp]; exact L.nodup q
  · rw [f1]
    have hpc := L.parent q c
    by_cases hqp : q = p
    · subst hqp
      rw [hk', List.mem_append, List.mem_cons]
      rw [hk, List.mem_append] at hpc
      by_cases hcx : c = x <;> simp [hcx]
      rw [← hpc]
    · rw [hq q hqp]
      by_cases hcx : c = x
      · subst hcx
        simp [hxn q, Ne.symm hqp]
      · rw [if_neg hcx]; exact hpc
  · rw [f2]
    by_cases hqp : q = p
    · subst hqp
      rw [hk', L.first, hk]
      cases l <;> simp
    · rw [hq q hqp, L.first]; simp [hqp]
  · rw [f3]
    by_cases hqp : q = p
    · subst hqp
      rw [hk', L.last, hk]
      cases r <;> simp
    · rw [hq q hqp, L.last]; simp [hqp]
  · intro q l1 c r1 he
    rw [f4, f5]
    by_cases hqp : q = p
    · subst hqp
      rw [hk'] at he
      by_cases hcx : c = x
      · subst hcx
        rw [if_pos rfl, if_pos rfl]
        rcases List.append_eq_append_iff.1 he with ⟨m, h1, h2⟩ | ⟨m, h1, h2⟩
        · cases m with
          | nil => simp at h1 h2; subst h1; subst h2; exact ⟨rfl, rfl⟩
          | cons a m =>
            simp at h2
            exact absurd (by rw [h2.2]; simp : c ∈ r) hxp.2
        · cases m with
          | nil => simp at h1 h2; subst h1; subst h2; exact ⟨rfl, rfl⟩
          | cons a m =>
            simp at h2
            exact absurd (by rw [h1, h2.1]; simp : c ∈ l) hxp.1
      · rw [if_neg hcx, if_neg hcx]
        rcases List.append_eq_append_iff.1 he with ⟨m, h1, h2⟩ | ⟨m, h1, h2⟩
        · cases m with
          | nil => simp at h2; exact absurd h2.1.symm hcx
          | cons a m =>
            simp at h2
            obtain ⟨rfl, h2⟩ := h2
            -- l1 = l ++ x :: m, r = m ++ c :: r1
            have hkk : kids q = (l ++ m) ++ c :: r1 := by rw [hk, h2]; simp
            have hb := L.beside q _ c r1 hkk
            have hcl : l.getLast? ≠ some c := fun hh =>
              hlr c (List.mem_of_getLast? hh) (by rw [h2]; simp)
            rw [if_neg hcl]
            refine ⟨?_, hb.2⟩
            cases m with
            | nil => simp [h2, h1]
            | cons b m =>
              have hbc : b ≠ c := by
                intro hh; subst hh
                have := L.nodup q
                rw [hkk] at this
                simp [List.nodup_append] at this
              rw [if_neg (by rw [h2]; simpa using hbc), hb.1, h1]
              simp [List.getLast?_append]
        · cases m with
          | nil => simp at h2; exact absurd h2.1 hcx
          | cons a m =>
            simp at h2
            obtain ⟨rfl, h2⟩ := h2
            have hkk : kids q = l1 ++ c :: (m ++ r) := by rw [hk, h1]; simp
            have hb := L.beside q _ c _ hkk
            have hcr : r.head? ≠ some c := fun hh =>
              hlr c (by rw [h1]; simp) (List.mem_of_head? hh)
            rw [if_neg hcr]
            refine ⟨hb.1, ?_⟩
            cases m with
            | nil => simp [h1, h2]
            | cons b m =>
              have hbc : l.getLast? ≠ some c := by
                rw [h1]
                intro hh
                have hm : c ∈ (b :: m) := by
                  have : (l1 ++ c :: b :: m).getLast? = (b :: m).getLast? := by
                    rw [show l1 ++ c :: b :: m = (l1 ++ [c]) ++ (b :: m) by simp,
                      getLast?_append_ne _ _ (by simp)]
                  rw [this] at hh
                  exact List.mem_of_getLast? hh
                have := L.nodup q
                rw [hkk] at this
                simp [List.nodup_append] at this
                grind
              rw [if_neg hbc, hb.2, h2]
              simp
    · rw [hq q hqp] at he
      have hb := L.beside q l1 c r1 he
      have hcq : c ∈ kids q := by rw [he]; simp
      have hcp : c ∉ l ++ r := fun hm => hqp (L.disj hcq (by rw [hk]; exact hm))
      simp at hcp
      have hcx : c ≠ x := fun hh => hxn q (hh ▸ hcq)
      have h1 : r.head? ≠ some c := fun hh => hcp.2 (List.mem_of_head? hh)
      have h2 : l.getLast? ≠ some c := fun hh => hcp.1 (List.mem_of_getLast? hh)
      rw [if_neg hcx, if_neg hcx, if_neg h1, if_neg h2]
      exact hb
  · rw [f1] at hc
    by_cases hcx : c = x
    · simp [hcx] at hc
    · rw [if_neg hcx] at hc
      have hcp := L.notMem hc p
      rw [hk] at hcp
      simp at hcp
      have h1 : r.head? ≠ some c := fun hh => hcp.2 (List.mem_of_head? hh)
      have h2 : l.getLast? ≠ some c := fun hh => hcp.1 (List.mem_of_getLast? hh)
      rw [f4, f5, if_neg hcx, if_neg hcx, if_neg h1, if_neg h2]
      exact L.orphan c hc

theorem unlink_parent (h : Heap) (x : Nat) :
    (h.unlink x x).parent = none := by
  simp [Heap.unlink, Heap.set]

theorem unlink_prv_nxt (h : Heap) (x : Nat) :
    (h.unlink x x).prv = none ∧ (h.unlink x x).nxt = none := by
  simp [Heap.unlink, Heap.set]

theorem appendChild_linked {h : Heap} {kids} (L : Linked h kids) (s c : Nat) :
    Linked (h.appendChild s c)
      (fun p => if p = s then (kids p).erase c ++ [c] else (kids p).erase c) ∧
    ∀ i, (h.appendChild s c i).data = (h i).data := by
  obtain ⟨L', hd⟩ := unlink_linked L c
  have hpar := unlink_parent h c
  have hpn := unlink_prv_nxt h c
  simp only [Heap.appendChild]
  generalize h.unlink c = g at *
  have hlast := L'.last s
  have hfirst := L'.first s
  have hcn := L'.notMem hpar s
  generalize hK : (kids s).erase c = K at *
  have e1 : ((g.set c fun n => { n with parent := some s }) s).lastChild = K.getLast? := by
    rw [← hlast]; simp only [Heap.set]; split <;> simp_all
  rw [e1]
  rcases List.eq_nil_or_concat K with hl | ⟨l', a, hl⟩
  · subst hl
    simp only [List.getLast?_nil]
    refine ⟨linked_insert L' (x := c) (p := s) (l := []) (r := []) hpar (by simpa using hK) (by simp [hK])
      (fun q hq => by simp [hq]) ?_ ?_ ?_ ?_ ?_, ?_⟩ <;>
    · intro i
      by_cases h1 : i = c <;> by_cases h2 : i = s <;> simp_all [Heap.set] <;> grind
  · rw [List.concat_eq_append] at hl
    subst hl
    simp only [List.getLast?_concat]
    have hac : a ≠ c := by intro hh; subst hh; simp at hcn
    refine ⟨linked_insert L' (x := c) (p := s) (l := l' ++ [a]) (r := []) hpar (by simpa using hK)
      (by simp [hK]) (fun q hq => by simp [hq]) ?_ ?_ ?_ ?_ ?_, ?_⟩ <;>
    · intro i
      by_cases h1 : i = c <;> by_cases h2 : i = s <;> by_cases h3 : i = a <;> simp_all [Heap.set] <;> grind


theorem prependChild_linked {h : Heap} {kids} (L : Linked h kids) (s c : Nat) :
    Linked (h.prependChild s c)
      (fun p => if p = s then c :: (kids p).erase c else (kids p).erase c) ∧
    ∀ i, (h.prependChild s c i).data = (h i).data := by
  obtain ⟨L', hd⟩ := unlink_linked L c
  have hpar := unlink_parent h c
  have hpn := unlink_prv_nxt h c
  simp only [Heap.prependChild]
  generalize h.unlink c = g at *
  have hlast := L'.last s
  have hfirst := L'.first s
  have hcn := L'.notMem hpar s
  generalize hK : (kids s).erase c = K at *
  have e1 : ((g.set c fun n => { n with parent := some s }) s).firstChild = K.head? := by
    rw [← hfirst]; simp only [Heap.set]; split <;> simp_all
  rw [e1]
  cases K with
  | nil =>
    simp only [List.head?_nil]
    refine ⟨linked_insert L' (x := c) (p := s) (l := []) (r := []) hpar (by simpa using hK) (by simp [hK])
      (fun q hq => by simp [hq]) ?_ ?_ ?_ ?_ ?_, ?_⟩ <;>
    · intro i
      by_cases h1 : i = c <;> by_cases h2 : i = s <;> simp_all [Heap.set] <;> grind
  | cons a r =>
    simp only [List.head?_cons]
    have hac : a ≠ c := by intro hh; subst hh; simp at hcn
    refine ⟨linked_insert L' (x := c) (p := s) (l := []) (r := a :: r) hpar (by simpa using hK)
      (by simp [hK]) (fun q hq => by simp [hq]) ?_ ?_ ?_ ?_ ?_, ?_⟩ <;>
    · intro i
      by_cases h1 : i = c <;> by_cases h2 : i = s <;> by_cases h3 : i = a <;> simp_all [Heap.set] <;> grind

theorem putAfter_notMem {x y : Nat} {l : List Nat} (h : x ∉ l) : putAfter x y l = l := by
  induction l with
  | nil => rfl
  | cons a l ih =>
    simp at h
    rw [putAfter, List.flatMap_cons, if_neg (Ne.symm h.1)]
    show a :: putAfter x y l = _
    rw [ih h.2]

theorem putBefore_notMem {x y : Nat} {l : List Nat} (h : x ∉ l) : putBefore x y l = l := by
  induction l with
  | nil => rfl
  | cons a l ih =>
    simp at h
    rw [putBefore, List.flatMap_cons, if_neg (Ne.symm h.1)]
    show a :: putBefore x y l = _
    rw [ih h.2]

theorem putAfter_mid {x y : Nat} {l r : List Nat} (hl : x ∉ l) (hr : x ∉ r) :
    putAfter x y (l ++ x :: r) = l ++ x :: y :: r := by
  have h1 := putAfter_notMem (y := y) hl
  have h2 := putAfter_notMem (y := y) hr
  simp only [putAfter] at *
  rw [List.flatMap_append, List.flatMap_cons, h1, h2]
  simp

theorem putBefore_mid {x y : Nat} {l r : List Nat} (hl : x ∉ l) (hr : x ∉ r) :
    putBefore x y (l ++ x :: r) = l ++ y :: x :: r := by
  have h1 := putBefore_notMem (y := y) hl
  have h2 := putBefore_notMem (y := y) hr
  simp only [putBefore] at *
  rw [List.flatMap_append, List.flatMap_cons, h1, h2]
  simp

/-- The state after `unlink` of another node: the place of `s`. -/
theorem unlink_other {h : Heap} {kids} (L : Linked h kids) {s c p : Nat} (hsc : s ≠ c)
    (hp : (h s).parent = some p) :
    ∃ l r, (kids p).erase c = l ++ s :: r ∧ s ∉ l ∧ s ∉ r ∧ c ∉ l ∧ c ∉ r ∧
      (h.unlink c s).parent = some p ∧ (h.unlink c s).prv = l.getLast? ∧
      (h.unlink c s).nxt = r.head? := by
  obtain ⟨L', hd⟩ := unlink_linked L c
  have hm : s ∈ (kids p).erase c := by
    rw [(L.nodup p).mem_erase_iff]
    exact ⟨hsc, (L.parent p s).2 hp⟩
  obtain ⟨l, r, hk⟩ := List.append_of_mem hm
  have hnd := L'.nodup p
  have hcn := L'.notMem (unlink_parent h c) p
  rw [hk] at hnd hcn
  simp at hcn
  refine ⟨l, r, hk, fun hm => (List.nodup_append.1 hnd).2.2 s hm s (by simp) rfl,
    (List.nodup_cons.1 (List.nodup_append.1 hnd).2.1).1, hcn.1, hcn.2.2, (L'.parent p s).1 hm, ?_⟩
  exact L'.beside p l s r hk

theorem insertAfter_linked {h : Heap} {kids} (L : Linked h kids) {s c p : Nat} (hsc : s ≠ c)
    (hp : (h s).parent = some p) :
    ∃ h', h.insertAfter s c = .ok h' ∧
      Linked h' (fun q => putAfter s c ((kids q).erase c)) ∧ ∀ i, (h' i).data = (h i).data := by
  obtain ⟨l, r, hk, hsl, hsr, hcl, hcr, hsp, hsprv, hsnxt⟩ := unlink_other L hsc hp
  obtain ⟨L', hd⟩ := unlink_linked L c
  have hpar := unlink_parent h c
  have hpn := unlink_prv_nxt h c
  simp only [Heap.insertAfter]
  generalize h.unlink c = g at *
  have hq : ∀ q, q ≠ p → putAfter s c ((kids q).erase c) = (kids q).erase c := fun q hqp =>
    putAfter_notMem fun hm => hqp (L'.disj hm (by rw [hk]; simp))
  have hpp : putAfter s c ((kids p).erase c) = l ++ s :: c :: r := by
    rw [hk, putAfter_mid hsl hsr]
  have hcs := Ne.symm hsc
  cases r with
  | nil =>
    simp only [Heap.set, Heap.setOpt, hsnxt, hsp, hsc, hcs, if_true, if_false, List.head?_nil]
    refine ⟨_, rfl, linked_insert L' (x := c) (p := p) (l := l ++ [s]) (r := []) hpar (by simpa using hk)
      (by simp [hpp]) hq ?_ ?_ ?_ ?_ ?_, ?_⟩ <;>
    · intro i
      by_cases h1 : i = c <;> by_cases h2 : i = s <;> by_cases h3 : i = p <;> simp_all [Heap.set] <;> grind
  | cons a r =>
    have hca : c ≠ a := by intro hh; subst hh; simp at hcr
    have hsa : s ≠ a := by intro hh; subst hh; simp at hsr
    simp only [Heap.set, Heap.setOpt, hsnxt, hsp, hsc, hcs, if_true, if_false, List.head?_cons]
    simp only [hca, hsa, hsc, if_true, if_false]
    refine ⟨_, rfl, linked_insert L' (x := c) (p := p) (l := l ++ [s]) (r := a :: r) hpar (by simpa using hk)
      (by simp [hpp]) hq ?_ ?_ ?_ ?_ ?_, ?_⟩ <;>
    · intro i
      by_cases h1 : i = c <;> by_cases h2 : i = s <;> by_cases h3 : i = p <;> by_cases h4 : i = a <;>
        simp_all [Heap.set] <;> grind

theorem insertBefore_linked {h : Heap} {kids} (L : Linked h kids) {s c p : Nat} (hsc : s ≠ c)
    (hp : (h s).parent = some p) :
    ∃ h', h.insertBefore s c = .ok h' ∧
      Linked h' (fun q => putBefore s c ((kids q).erase c)) ∧ ∀ i, (h' i).data = (h i).data := by
  obtain ⟨l, r, hk, hsl, hsr, hcl, hcr, hsp, hsprv, hsnxt⟩ := unlink_other L hsc hp
  obtain ⟨L', hd⟩ := unlink_linked L c
  have hpar := unlink_parent h c
  have hpn := unlink_prv_nxt h c
  simp only [Heap.insertBefore]
  generalize h.unlink c = g at *
  have hq : ∀ q, q ≠ p → putBefore s c ((kids q).erase c) = (kids q).erase c := fun q hqp =>
    putBefore_notMem fun hm => hqp (L'.disj hm (by rw [hk]; simp))
  have hpp : putBefore s c ((kids p).erase c) = l ++ c :: s :: r := by
    rw [hk, putBefore_mid hsl hsr]
  have hcs := Ne.symm hsc
  rcases List.eq_nil_or_concat l with hl | ⟨l', a, hl⟩
  · subst hl
    simp only [Heap.set, Heap.setOpt, hsprv, hsp, hsc, hcs, if_true, if_false, List.getLast?_nil]
    refine ⟨_, rfl, linked_insert L' (x := c) (p := p) (l := []) (r := s :: r) hpar (by simpa using hk)
      (by simp [hpp]) hq ?_ ?_ ?_ ?_ ?_, ?_⟩ <;>
    · intro i
      by_cases h1 : i = c <;> by_cases h2 : i = s <;> by_cases h3 : i = p <;> simp_all [Heap.set] <;> grind
  · rw [List.concat_eq_append] at hl
    subst hl
    have hca : c ≠ a := by intro hh; subst hh; simp at hcl
    have hsa : s ≠ a := by intro hh; subst hh; simp at hsl
    simp only [Heap.set, Heap.setOpt, hsprv, hsp, hsc, hcs, if_true, if_false, List.getLast?_concat]
    simp only [hca, hsa, hsc, if_true, if_false]
    refine ⟨_, rfl, linked_insert L' (x := c) (p := p) (l := l' ++ [a]) (r := s :: r) hpar (by simpa using hk)
      (by simp [hpp]) hq ?_ ?_ ?_ ?_ ?_, ?_⟩ <;>
    · intro i
      by_cases h1 : i = c <;> by_cases h2 : i = s <;> by_cases h3 : i = p <;> by_cases h4 : i = a <;>
        simp_all [Heap.set] <;> grind

end CM
