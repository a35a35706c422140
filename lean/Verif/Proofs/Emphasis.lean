import Verif.Proofs.InlineRun
/-
What `processEmphasis` keeps: a sequence of symbols that the list of siblings stands for.
-/
set_option linter.unusedSimpArgs false
set_option linter.unusedVariables false
namespace CM
open Spec

variable {α : Type} {D : Nat → Char → α → Prop} {Ok : Delim → Prop} {smart : Bool} {R : List Tree → List α → Prop}

/-- The nodes that the delimiter and bracket stacks refer to, and what they stand for.  `D i c x`: the symbol `x` belongs
to the node number `i` and stands for the character `c`. -/
inductive Tok (D : Nat → Char → α → Prop) (smart : Bool) : Item → List α → Prop
  | run {i : Nat} {c : Char} {s : List α} : 1 ≤ s.length → c = '*' ∨ c = '_' → (∀ x ∈ s, D i c x) →
      Tok D smart ⟨i, textNode (List.replicate s.length c)⟩ s
  | single {i : Nat} {q : Char} {x : α} : smart = true → q = rsquo ∨ q = lsquo → D i '\'' x → Tok D smart ⟨i, textNode [q]⟩ [x]
  | double {i : Nat} {q : Char} {x : α} : smart = true → q = ldquo ∨ q = rdquo → D i '"' x → Tok D smart ⟨i, textNode [q]⟩ [x]
  | openB {i : Nat} {x : α} : D i '[' x → Tok D smart ⟨i, textNode ['[']⟩ [x]
  | openI {i : Nat} {x y : α} : D i '!' x → D i '[' y → Tok D smart ⟨i, textNode ['!', '[']⟩ [x, y]

/-- A relation between siblings and symbols that knows emphasis. `Ok`: what is known of the entries of the delimiter
stack. -/
structure EmphRel (D : Nat → Char → α → Prop) (Ok : Delim → Prop) (smart : Bool) (R : List Tree → List α → Prop) : Prop where
  nil : R [] []
  append : ∀ {a b s t}, R a s → R b t → R (a ++ b) (s ++ t)
  tok : ∀ {it s}, it.id ≠ 0 → Tok D smart it s → R [it.node] s
  num : ∀ {d n}, Ok d → Ok { d with numdelims := n }
  wrap : ∀ {op cl : Delim} {use : Nat} {ts : List Tree} {s xs ys : List α}, cl.cc = '*' ∨ cl.cc = '_' → op.cc = cl.cc →
      Ok op → Ok cl → op.node ≠ 0 → cl.node ≠ 0 → op.node < cl.node → op.canOpen = true → cl.canClose = true →
      isOddMatch op cl = false → use = 1 ∨ use = 2 → xs.length = use → ys.length = use → (∀ x ∈ xs, D op.node cl.cc x) →
      (∀ y ∈ ys, D cl.node cl.cc y) → R ts s → R [mkNode (if use == 1 then .emph else .strong) ts] (xs ++ s ++ ys)

/-- Siblings: nodes that the stacks refer to, and runs of other nodes. -/
inductive Seg (D : Nat → Char → α → Prop) (smart : Bool) (R : List Tree → List α → Prop) : List Item → List α → Prop
  | nil : Seg D smart R [] []
  | run {its its' : List Item} {s s' : List α} : (∀ it ∈ its, it.id = 0) → R (its.map (·.node)) s →
      Seg D smart R its' s' → Seg D smart R (its ++ its') (s ++ s')
  | tok {it : Item} {its : List Item} {s s' : List α} : it.id ≠ 0 → Tok D smart it s →
      Seg D smart R its s' → Seg D smart R (it :: its) (s ++ s')

theorem Seg.append {a b : List Item} {s t : List α} (h1 : Seg D smart R a s) (h2 : Seg D smart R b t) :
    Seg D smart R (a ++ b) (s ++ t) := by
  induction h1 with
  | nil => exact h2
  | run h0 hr _ ih => rw [List.append_assoc, List.append_assoc]; exact .run h0 hr ih
  | tok h0 ht _ ih => rw [List.cons_append, List.append_assoc]; exact .tok h0 ht ih

theorem Seg.single {t : Tree} {s : List α} (h : R [t] s) : Seg D smart R [⟨0, t⟩] s := by
  have := Seg.run (D := D) (smart := smart) (its := [⟨0, t⟩]) (its' := []) (s := s) (s' := []) (by simp) h .nil
  simpa using this

theorem Seg.one {it : Item} {s : List α} (h0 : it.id ≠ 0) (h : Tok D smart it s) : Seg D smart R [it] s := by
  have := Seg.tok (R := R) h0 h .nil
  simpa using this

theorem Seg.rel (hR : EmphRel D Ok smart R) {a : List Item} {s : List α} (h : Seg D smart R a s) :
    R (a.map (·.node)) s := by
  induction h with
  | nil => exact hR.nil
  | run h0 hr _ ih => rw [List.map_append]; exact hR.append hr ih
  | tok h0 ht _ ih =>
    rw [List.map_cons]
    exact hR.append (hR.tok h0 ht) ih

/-- Cut at a node that the stacks refer to. -/
theorem Seg.split {its : List Item} {S : List α} (h : Seg D smart R its S) : ∀ {a b : List Item} {x : Item},
    its = a ++ x :: b → x.id ≠ 0 → ∃ s1 sx s2, S = s1 ++ (sx ++ s2) ∧ Seg D smart R a s1 ∧ Tok D smart x sx ∧
      Seg D smart R b s2 := by
  induction h with
  | nil => intro a b x e; simp at e
  | @run its its' s s' h0 hr h ih =>
    intro a b x e hx
    rcases List.append_eq_append_iff.1 e with ⟨a', rfl, e2⟩ | ⟨c', rfl, e2⟩
    · obtain ⟨s1, sx, s2, rfl, h1, h2, h3⟩ := ih e2 hx
      exact ⟨s ++ s1, sx, s2, by simp, .run h0 hr h1, h2, h3⟩
    · cases c' with
      | nil =>
        rw [List.nil_append] at e2
        obtain ⟨s1, sx, s2, rfl, h1, h2, h3⟩ := ih (a := []) e2.symm hx
        refine ⟨s ++ s1, sx, s2, by simp, ?_, h2, h3⟩
        have := Seg.run h0 hr h1
        simpa using this
      | cons y c' =>
        simp only [List.cons_append, List.cons.injEq] at e2
        obtain ⟨rfl, rfl⟩ := e2
        exact absurd (h0 x (by simp)) hx
  | @tok it its s s' h0 ht h ih =>
    intro a b x e hx
    cases a with
    | nil =>
      simp only [List.nil_append, List.cons.injEq] at e
      obtain ⟨rfl, rfl⟩ := e
      exact ⟨[], s, s', by simp, .nil, ht, h⟩
    | cons y a =>
      simp only [List.cons_append, List.cons.injEq] at e
      obtain ⟨rfl, rfl⟩ := e
      obtain ⟨s1, sx, s2, rfl, h1, h2, h3⟩ := ih rfl hx
      exact ⟨s ++ s1, sx, s2, by simp, .tok h0 ht h1, h2, h3⟩

/-- The numbers of the nodes that are referred to increase. -/
def Inc (its : List Item) : Prop := its.Pairwise fun x y => x.id ≠ 0 → y.id ≠ 0 → x.id < y.id

/-- The text node of an entry of the delimiter stack. -/
def DTok (d : Delim) (t : Tree) : Prop :=
  ((d.cc = '*' ∨ d.cc = '_') ∧ 1 ≤ d.numdelims ∧ t = textNode (List.replicate d.numdelims d.cc)) ∨
  (d.cc = '\'' ∧ (t = textNode [rsquo] ∨ t = textNode [lsquo])) ∨
  (d.cc = '"' ∧ (t = textNode [ldquo] ∨ t = textNode [rdquo]))

def DelimIn (its : List Item) (d : Delim) : Prop := d.node ≠ 0 ∧ ∃ it ∈ its, it.id = d.node ∧ DTok d it.node

structure EInv (D : Nat → Char → α → Prop) (Ok : Delim → Prop) (smart : Bool) (R : List Tree → List α → Prop) (bs as : List Delim) (its : List Item)
    (S : List α) : Prop where
  seg : Seg D smart R its S
  inc : Inc its
  order : (bs.reverse ++ as).Pairwise fun x y => x.node < y.node
  delims : ∀ d ∈ bs.reverse ++ as, DelimIn its d
  good : ∀ d ∈ bs.reverse ++ as, Ok d

theorem inc_append {a b : List Item} : Inc (a ++ b) ↔ Inc a ∧ Inc b ∧ ∀ x ∈ a, ∀ y ∈ b, x.id ≠ 0 → y.id ≠ 0 → x.id < y.id :=
  List.pairwise_append

theorem inc_cons {x : Item} {b : List Item} : Inc (x :: b) ↔ (∀ y ∈ b, x.id ≠ 0 → y.id ≠ 0 → x.id < y.id) ∧ Inc b :=
  List.pairwise_cons

theorem setLiteral_append (id : Nat) (f : Str → Str) (a b : List Item) :
    setLiteral id f (a ++ b) = setLiteral id f a ++ setLiteral id f b := List.map_append

theorem setLiteral_none {id : Nat} {f : Str → Str} {a : List Item} (h : ∀ x ∈ a, x.id ≠ id) : setLiteral id f a = a := by
  unfold setLiteral
  rw [List.map_congr_left (g := fun x => x)]
  · exact List.map_id' a
  · intro x hx
    rw [if_neg (by simpa using h x hx)]

theorem setLiteral_text (id : Nat) (f : Str → Str) (s : Str) (a : List Item) :
    setLiteral id f (⟨id, textNode s⟩ :: a) = ⟨id, textNode (f s)⟩ :: setLiteral id f a := by
  simp [setLiteral, textNode]

theorem removeId_none {id : Nat} {a : List Item} (h : ∀ x ∈ a, x.id ≠ id) : removeId id a = a := by
  unfold removeId
  rw [List.filter_eq_self]
  intro x hx
  simpa using h x hx

theorem splitAtId_none {id : Nat} {a b : List Item} {x : Item} (h : ∀ y ∈ a, y.id ≠ id) (hx : x.id = id) :
    splitAtId id (a ++ x :: b) = some (a, x, b) := by
  induction a with
  | nil => simp [splitAtId, hx]
  | cons y a ih =>
    rw [List.cons_append, splitAtId, if_neg (by simpa using h y (by simp)), ih (fun z hz => h z (by simp [hz]))]
    rfl

theorem spanToId_none {id : Nat} {a b : List Item} {x : Item} (h : ∀ y ∈ a, y.id ≠ id) (hx : x.id = id) :
    spanToId id (a ++ x :: b) = (a, x :: b) := by
  induction a with
  | nil => simp [spanToId, hx]
  | cons y a ih =>
    rw [List.cons_append, spanToId, if_neg (by simpa using h y (by simp)), ih (fun z hz => h z (by simp [hz]))]

/-- A node that is referred to has its own number. -/
theorem inc_unique {a b : List Item} {x : Item} (h : Inc (a ++ x :: b)) (hx : x.id ≠ 0) :
    (∀ y ∈ a, y.id ≠ x.id) ∧ ∀ y ∈ b, y.id ≠ x.id := by
  obtain ⟨_, h2, h3⟩ := inc_append.1 h
  obtain ⟨h4, _⟩ := inc_cons.1 h2
  refine ⟨fun y hy e => ?_, fun y hy e => ?_⟩
  · have := h3 y hy x (by simp) (by rw [e]; exact hx) hx
    omega
  · have := h4 y hy hx (by rw [e]; exact hx)
    omega

/-- Where a node stands, from its number. -/
theorem inc_left {a b : List Item} {x y : Item} (h : Inc (a ++ x :: b)) (hx : x.id ≠ 0) (hy : y ∈ a ++ x :: b)
    (h0 : y.id ≠ 0) (hlt : y.id < x.id) : y ∈ a := by
  obtain ⟨_, h2, h3⟩ := inc_append.1 h
  obtain ⟨h4, _⟩ := inc_cons.1 h2
  simp only [List.mem_append, List.mem_cons] at hy
  rcases hy with hy | rfl | hy
  · exact hy
  · omega
  · have := h4 y hy hx h0; omega

theorem inc_right {a b : List Item} {x y : Item} (h : Inc (a ++ x :: b)) (hx : x.id ≠ 0) (hy : y ∈ a ++ x :: b)
    (h0 : y.id ≠ 0) (hlt : x.id < y.id) : y ∈ b := by
  obtain ⟨_, h2, h3⟩ := inc_append.1 h
  simp only [List.mem_append, List.mem_cons] at hy
  rcases hy with hy | rfl | hy
  · have := h3 y hy x (by simp) h0 hx; omega
  · omega
  · exact hy

theorem textNode_inj {s t : Str} : textNode s = textNode t ↔ s = t := by simp [textNode]

/-- The symbols of a delimiter run. -/
theorem tok_run {c : Char} {n i : Nat} {s : List α} (hn : 1 ≤ n) (hc : c = '*' ∨ c = '_')
    (h : Tok D smart ⟨i, textNode (List.replicate n c)⟩ s) : s.length = n ∧ ∀ x ∈ s, D i c x := by
  obtain ⟨k, rfl⟩ : ∃ k, n = k + 1 := ⟨n - 1, by omega⟩
  generalize ht : (⟨i, textNode (List.replicate (k + 1) c)⟩ : Item) = t at h
  have key : ∀ {q : Char} {r : Str}, List.replicate (k + 1) c = q :: r → q = c := by
    intro q r e; simp [List.replicate_succ] at e; exact e.1.symm
  cases h with
  | @run j d s hm hd hx =>
    simp only [Item.mk.injEq, textNode_inj] at ht
    obtain ⟨rfl, ht⟩ := ht
    have h1 := congrArg List.length ht
    simp only [List.length_replicate] at h1
    rw [← h1, List.replicate_succ, List.replicate_succ, List.cons.injEq] at ht
    rw [ht.1]
    exact ⟨h1.symm, hx⟩
  | single _ hq =>
    simp only [Item.mk.injEq, textNode_inj] at ht
    have := key ht.2
    subst this
    rcases hc with rfl | rfl <;> exact absurd hq (by decide)
  | double _ hq =>
    simp only [Item.mk.injEq, textNode_inj] at ht
    have := key ht.2
    subst this
    rcases hc with rfl | rfl <;> exact absurd hq (by decide)
  | openB =>
    simp only [Item.mk.injEq, textNode_inj] at ht
    have := key ht.2
    subst this
    exact absurd hc (by decide)
  | openI =>
    simp only [Item.mk.injEq, textNode_inj] at ht
    have := key ht.2
    subst this
    exact absurd hc (by decide)

theorem tok_single {s : List α} {i : Nat} {q r : Char} (hq : q = rsquo ∨ q = lsquo) (hr : r = rsquo ∨ r = lsquo)
    (h : Tok D smart ⟨i, textNode [q]⟩ s) : Tok D smart ⟨i, textNode [r]⟩ s := by
  generalize ht : (⟨i, textNode [q]⟩ : Item) = t at h
  cases h with
  | @run j d s hm hd hx =>
    simp only [Item.mk.injEq, textNode_inj] at ht
    obtain ⟨m, hm⟩ : ∃ m, s.length = m + 1 := ⟨s.length - 1, by omega⟩
    rw [hm] at ht
    simp only [List.replicate_succ, List.cons.injEq] at ht
    have := ht.2.1
    subst this
    rcases hq with rfl | rfl <;> exact absurd hd (by decide)
  | single hs _ hx =>
    simp only [Item.mk.injEq, textNode_inj] at ht
    obtain ⟨rfl, _⟩ := ht
    exact .single hs hr hx
  | double _ h' =>
    simp only [Item.mk.injEq, textNode_inj, List.cons.injEq, and_true] at ht
    obtain ⟨_, rfl⟩ := ht
    rcases hq with rfl | rfl <;> exact absurd h' (by decide)
  | openB =>
    simp only [Item.mk.injEq, textNode_inj, List.cons.injEq, and_true] at ht
    obtain ⟨_, rfl⟩ := ht
    exact absurd hq (by decide)
  | openI => simp only [Item.mk.injEq, textNode_inj] at ht; simp at ht

theorem tok_double {s : List α} {i : Nat} {q r : Char} (hq : q = ldquo ∨ q = rdquo) (hr : r = ldquo ∨ r = rdquo)
    (h : Tok D smart ⟨i, textNode [q]⟩ s) : Tok D smart ⟨i, textNode [r]⟩ s := by
  generalize ht : (⟨i, textNode [q]⟩ : Item) = t at h
  cases h with
  | @run j d s hm hd hx =>
    simp only [Item.mk.injEq, textNode_inj] at ht
    obtain ⟨m, hm⟩ : ∃ m, s.length = m + 1 := ⟨s.length - 1, by omega⟩
    rw [hm] at ht
    simp only [List.replicate_succ, List.cons.injEq] at ht
    have := ht.2.1
    subst this
    rcases hq with rfl | rfl <;> exact absurd hd (by decide)
  | double hs _ hx =>
    simp only [Item.mk.injEq, textNode_inj] at ht
    obtain ⟨rfl, _⟩ := ht
    exact .double hs hr hx
  | single _ h' =>
    simp only [Item.mk.injEq, textNode_inj, List.cons.injEq, and_true] at ht
    obtain ⟨_, rfl⟩ := ht
    rcases hq with rfl | rfl <;> exact absurd h' (by decide)
  | openB =>
    simp only [Item.mk.injEq, textNode_inj, List.cons.injEq, and_true] at ht
    obtain ⟨_, rfl⟩ := ht
    exact absurd hq (by decide)
  | openI => simp only [Item.mk.injEq, textNode_inj] at ht; simp at ht

/-- Change the literal of one node. -/
theorem EInv.set {bs as : List Delim} {its : List Item} {S : List α} (h : EInv D Ok smart R bs as its S) {d : Delim}
    (hd : d ∈ bs.reverse ++ as) {r : Str}
    (hk : ∀ t s, DTok d t → Tok D smart ⟨d.node, t⟩ s → Tok D smart ⟨d.node, textNode r⟩ s) (hk' : DTok d (textNode r)) :
    EInv D Ok smart R bs as (setLiteral d.node (fun _ => r) its) S := by
  obtain ⟨h0, it, hit, hid, ht⟩ := h.delims d hd
  obtain ⟨a, b, rfl⟩ := List.append_of_mem hit
  have hx0 : it.id ≠ 0 := by rw [hid]; exact h0
  obtain ⟨u1, u2⟩ := inc_unique h.inc hx0
  have hitx : ∃ s, it = ⟨d.node, textNode s⟩ := by
    rcases ht with ⟨_, _, e⟩ | ⟨_, e | e⟩ | ⟨_, e | e⟩ <;> exact ⟨_, by rw [← hid, ← e]⟩
  have e : setLiteral d.node (fun _ => r) (a ++ it :: b) = a ++ ⟨d.node, textNode r⟩ :: b := by
    obtain ⟨s, rfl⟩ := hitx
    rw [setLiteral_append, setLiteral_text, setLiteral_none u1, setLiteral_none u2]
  rw [e]
  obtain ⟨s1, sx, s2, rfl, h1, h2, h3⟩ := h.seg.split rfl hx0
  have h2' : Tok D smart ⟨d.node, it.node⟩ sx := by rw [← hid]; exact h2
  refine ⟨h1.append (.tok h0 (hk _ _ ht h2') h3), ?_, h.order, ?_, h.good⟩
  · have := h.inc
    rw [inc_append, inc_cons] at this ⊢
    refine ⟨this.1, ⟨?_, this.2.1.2⟩, ?_⟩
    · intro y hy; have := this.2.1.1 y hy; rwa [hid] at this
    · intro x hx y hy
      rcases List.mem_cons.1 hy with rfl | hy
      · have := this.2.2 x hx it (by simp); rwa [hid] at this
      · exact this.2.2 x hx y (by simp [hy])
  · intro d' hd'
    obtain ⟨k0, it', hit', hid', ht'⟩ := h.delims d' hd'
    refine ⟨k0, ?_⟩
    by_cases hdd : d'.node = d.node
    · refine ⟨⟨d.node, textNode r⟩, by simp, hdd.symm, ?_⟩
      have : d' = d := by
        have hp := h.order
        refine Classical.byContradiction fun hne => ?_
        have hp := List.pairwise_iff_getElem.1 hp
        obtain ⟨i, hi, rfl⟩ := List.getElem_of_mem hd
        obtain ⟨j, hj, rfl⟩ := List.getElem_of_mem hd'
        rcases Nat.lt_trichotomy i j with hij | hij | hij
        · have := hp i j hi hj hij; omega
        · subst hij; exact hne rfl
        · have := hp j i hj hi hij; omega
      rw [this]; exact hk'
    · refine ⟨it', ?_, hid', ht'⟩
      simp only [List.mem_append, List.mem_cons] at hit' ⊢
      rcases hit' with hit' | rfl | hit'
      · exact Or.inl hit'
      · exact absurd (hid'.symm.trans hid) hdd
      · exact Or.inr (Or.inr hit')

/-- Leave delimiters out of the stack. -/
theorem EInv.sub {bs as bs' as' : List Delim} {its : List Item} {S : List α} (h : EInv D Ok smart R bs as its S)
    (hs : (bs'.reverse ++ as').Sublist (bs.reverse ++ as)) : EInv D Ok smart R bs' as' its S :=
  ⟨h.seg, h.inc, h.order.sublist hs, fun d hd => h.delims d (hs.mem hd), fun d hd => h.good d (hs.mem hd)⟩

/-- Optional items. -/
def keepIf (n id : Nat) (c : Char) : List Item := if n = 0 then [] else [⟨id, textNode (List.replicate n c)⟩]

theorem keepIf_seg {n id : Nat} {c : Char} {s : List α} (hid : id ≠ 0) (hc : c = '*' ∨ c = '_') (hn : s.length = n)
    (hs : ∀ x ∈ s, D id c x) : Seg D smart R (keepIf n id c) s := by
  unfold keepIf
  split
  · rename_i h; rw [h, List.length_eq_zero_iff] at hn; subst hn; exact .nil
  · rw [← hn]; exact Seg.one hid (.run (by omega) hc hs)

theorem dropEnd_replicate (n k : Nat) (c : Char) : dropEnd k (List.replicate n c) = List.replicate (n - k) c := by
  simp [dropEnd]

/-- The items after a match. -/
theorem wrap_items {a m b : List Item} {op cl : Delim} {use : Nat} {k : Kind} {c : Char} (hc : op.cc = c) (hc' : cl.cc = c)
    (ho : op.node ≠ cl.node)
    (ha : ∀ x ∈ a, x.id ≠ op.node ∧ x.id ≠ cl.node) (hm : ∀ x ∈ m, x.id ≠ op.node ∧ x.id ≠ cl.node)
    (hb : ∀ x ∈ b, x.id ≠ op.node ∧ x.id ≠ cl.node) (h1 : op.node ≠ 0) (h2 : cl.node ≠ 0) :
    (let items := setLiteral op.node (dropEnd use)
        (a ++ ⟨op.node, textNode (List.replicate op.numdelims c)⟩ ::
          (m ++ ⟨cl.node, textNode (List.replicate cl.numdelims c)⟩ :: b))
     let items := setLiteral cl.node (dropEnd use) items
     let items := wrapBetween k op.node cl.node items
     let items := if op.numdelims - use == 0 then removeId op.node items else items
     if cl.numdelims - use == 0 then removeId cl.node items else items) =
    a ++ (keepIf (op.numdelims - use) op.node c ++ ⟨0, mkNode k (m.map (·.node))⟩ ::
      (keepIf (cl.numdelims - use) cl.node c ++ b)) := by
  dsimp only
  have e1 : setLiteral cl.node (dropEnd use) (setLiteral op.node (dropEnd use)
        (a ++ ⟨op.node, textNode (List.replicate op.numdelims c)⟩ ::
          (m ++ ⟨cl.node, textNode (List.replicate cl.numdelims c)⟩ :: b))) =
      a ++ ⟨op.node, textNode (List.replicate (op.numdelims - use) c)⟩ ::
          (m ++ ⟨cl.node, textNode (List.replicate (cl.numdelims - use) c)⟩ :: b) := by
    have i1 : setLiteral op.node (dropEnd use)
        (a ++ ⟨op.node, textNode (List.replicate op.numdelims c)⟩ ::
          (m ++ ⟨cl.node, textNode (List.replicate cl.numdelims c)⟩ :: b)) =
        a ++ ⟨op.node, textNode (List.replicate (op.numdelims - use) c)⟩ ::
          (m ++ ⟨cl.node, textNode (List.replicate cl.numdelims c)⟩ :: b) := by
      rw [setLiteral_append, setLiteral_text, setLiteral_none (fun x hx => (ha x hx).1), dropEnd_replicate, setLiteral_none]
      intro x hx
      simp only [List.mem_append, List.mem_cons] at hx
      rcases hx with hx | rfl | hx
      · exact (hm x hx).1
      · exact fun e => ho e.symm
      · exact (hb x hx).1
    have i2 : ∀ y : List Item, (∀ x ∈ y, x.id ≠ cl.node) → setLiteral cl.node (dropEnd use)
        (y ++ ⟨cl.node, textNode (List.replicate cl.numdelims c)⟩ :: b) =
        y ++ ⟨cl.node, textNode (List.replicate (cl.numdelims - use) c)⟩ :: b := by
      intro y hy
      rw [setLiteral_append, setLiteral_text, setLiteral_none hy, dropEnd_replicate, setLiteral_none fun x hx => (hb x hx).2]
    rw [i1]
    have i3 := i2 (a ++ ⟨op.node, textNode (List.replicate (op.numdelims - use) c)⟩ :: m) (by
      intro x hx
      simp only [List.mem_append, List.mem_cons] at hx
      rcases hx with hx | rfl | hx
      · exact (ha x hx).2
      · exact ho
      · exact (hm x hx).2)
    simpa using i3
  rw [e1]
  have e2 : wrapBetween k op.node cl.node (a ++ ⟨op.node, textNode (List.replicate (op.numdelims - use) c)⟩ ::
          (m ++ ⟨cl.node, textNode (List.replicate (cl.numdelims - use) c)⟩ :: b)) =
      a ++ ⟨op.node, textNode (List.replicate (op.numdelims - use) c)⟩ :: ⟨0, mkNode k (m.map (·.node))⟩ ::
          ⟨cl.node, textNode (List.replicate (cl.numdelims - use) c)⟩ :: b := by
    unfold wrapBetween
    rw [splitAtId_none (fun x hx => (ha x hx).1) rfl]
    dsimp only
    rw [spanToId_none (fun x hx => (hm x hx).2) rfl]
    simp
  rw [e2]
  have r1 : ∀ x : List Item, (if (op.numdelims - use == 0) = true then removeId op.node x else x) =
      if op.numdelims - use = 0 then removeId op.node x else x := by intro x; simp
  have r2 : ∀ x : List Item, (if (cl.numdelims - use == 0) = true then removeId cl.node x else x) =
      if cl.numdelims - use = 0 then removeId cl.node x else x := by intro x; simp
  rw [r1, r2]
  have f1 : a.filter (fun it => it.id != op.node) = a := removeId_none fun x hx => (ha x hx).1
  have f2 : a.filter (fun it => it.id != cl.node) = a := removeId_none fun x hx => (ha x hx).2
  have f3 : b.filter (fun it => it.id != op.node) = b := removeId_none fun x hx => (hb x hx).1
  have f4 : b.filter (fun it => it.id != cl.node) = b := removeId_none fun x hx => (hb x hx).2
  unfold keepIf
  split <;> split <;>
    simp [removeId, List.filter_append, List.filter_cons, f1, f2, f3, f4, ho, ho.symm, h1.symm, h2.symm]

/-- What an opener is. -/
theorem findOpener_match (closer : Delim) (bottom : Option Nat) : ∀ (ds : List Delim) (odd : Bool) op below,
    (findOpener closer bottom ds odd).1 = some (op, below) →
      ∃ skipped, ds = skipped ++ op :: below ∧ op.cc = closer.cc ∧ op.canOpen = true ∧ isOddMatch op closer = false := by
  intro ds
  induction ds with
  | nil => intro odd op below h; simp [findOpener] at h
  | cons d ds ih =>
    intro odd op below h
    rw [findOpener] at h
    split at h
    · simp at h
    · dsimp only at h
      split at h
      · rename_i hc
        simp only [Option.some.injEq, Prod.mk.injEq] at h
        obtain ⟨rfl, rfl⟩ := h
        simp only [Bool.and_eq_true, beq_iff_eq, Bool.not_eq_true'] at hc
        exact ⟨[], rfl, hc.1.1, hc.1.2, hc.2⟩
      · obtain ⟨sk, rfl, h1, h2⟩ := ih _ op below h
        exact ⟨d :: sk, rfl, h1, h2⟩

theorem keepIf_mem {n id : Nat} {c : Char} {x : Item} (h : x ∈ keepIf n id c) : x.id = id := by
  unfold keepIf at h
  split at h
  · simp at h
  · simp at h; subst h; rfl

theorem keepIf_inc (n id : Nat) (c : Char) : Inc (keepIf n id c) := by
  unfold keepIf Inc
  split <;> simp

/-- A match of an opener and a closer. -/
theorem EInv.wrap (hR : EmphRel D Ok smart R) {sk below rest : List Delim} {op cl : Delim} {its : List Item} {S : List α}
    (h : EInv D Ok smart R (sk ++ op :: below) (cl :: rest) its S) (hc : cl.cc = '*' ∨ cl.cc = '_') (he : op.cc = cl.cc)
    (hop : op.canOpen = true) (hcc : cl.canClose = true) (hodd : isOddMatch op cl = false) {use : Nat} (hu : use = if cl.numdelims ≥ 2 && op.numdelims ≥ 2 then 2 else 1) :
    EInv D Ok smart R
      (if op.numdelims - use == 0 then below else { op with numdelims := op.numdelims - use } :: below)
      (if cl.numdelims - use == 0 then rest else { cl with numdelims := cl.numdelims - use } :: rest)
      (let items := setLiteral op.node (dropEnd use) its
       let items := setLiteral cl.node (dropEnd use) items
       let items := wrapBetween (if use == 1 then .emph else .strong) op.node cl.node items
       let items := if op.numdelims - use == 0 then removeId op.node items else items
       if cl.numdelims - use == 0 then removeId cl.node items else items) S := by
  obtain ⟨o0, ito, hito, hido, hto⟩ := h.delims op (by simp)
  obtain ⟨c0, itc, hitc, hidc, htc⟩ := h.delims cl (by simp)
  have hord := h.order
  have hlt : op.node < cl.node := by
    rw [List.pairwise_append] at hord
    exact hord.2.2 op (by simp) cl (by simp)
  have hto' : 1 ≤ op.numdelims ∧ ito = ⟨op.node, textNode (List.replicate op.numdelims cl.cc)⟩ := by
    rcases hto with ⟨_, h1, h2⟩ | ⟨h1, _⟩ | ⟨h1, _⟩
    · exact ⟨h1, by rw [← he, ← h2, ← hido]⟩
    · rw [← he, h1] at hc; exact absurd hc (by decide)
    · rw [← he, h1] at hc; exact absurd hc (by decide)
  have htc' : 1 ≤ cl.numdelims ∧ itc = ⟨cl.node, textNode (List.replicate cl.numdelims cl.cc)⟩ := by
    rcases htc with ⟨_, h1, h2⟩ | ⟨h1, _⟩ | ⟨h1, _⟩
    · exact ⟨h1, by rw [← h2, ← hidc]⟩
    · rw [h1] at hc; exact absurd hc (by decide)
    · rw [h1] at hc; exact absurd hc (by decide)
  obtain ⟨no, rfl⟩ := hto'
  obtain ⟨nc, rfl⟩ := htc'
  have hul : use ≤ op.numdelims ∧ use ≤ cl.numdelims ∧ (use = 1 ∨ use = 2) := by
    rw [hu]
    split
    · rename_i hh; simp at hh; omega
    · omega
  obtain ⟨a, r, rfl⟩ := List.append_of_mem hito
  have hcr := inc_right h.inc o0 hitc c0 hlt
  obtain ⟨m, b, rfl⟩ := List.append_of_mem hcr
  have hinc := h.inc
  have uo := inc_unique hinc o0
  have hinc' : Inc ((a ++ ⟨op.node, textNode (List.replicate op.numdelims cl.cc)⟩ :: m) ++
      ⟨cl.node, textNode (List.replicate cl.numdelims cl.cc)⟩ :: b) := by simpa using hinc
  have uc := inc_unique hinc' c0
  have ha : ∀ x ∈ a, x.id ≠ op.node ∧ x.id ≠ cl.node := fun x hx => ⟨uo.1 x hx, uc.1 x (by simp [hx])⟩
  have hm : ∀ x ∈ m, x.id ≠ op.node ∧ x.id ≠ cl.node := fun x hx => ⟨uo.2 x (by simp [hx]), uc.1 x (by simp [hx])⟩
  have hb : ∀ x ∈ b, x.id ≠ op.node ∧ x.id ≠ cl.node := fun x hx => ⟨uo.2 x (by simp [hx]), uc.2 x hx⟩
  have key := wrap_items (a := a) (m := m) (b := b) (use := use) (k := if use == 1 then Kind.emph else .strong)
    he rfl (by omega) ha hm hb o0 c0
  rw [key]
  obtain ⟨s1, so, s2, rfl, g1, g2, g3⟩ := h.seg.split rfl o0
  obtain ⟨s3, sc, s4, rfl, g4, g5, g6⟩ := g3.split rfl c0
  obtain ⟨lo, xo⟩ := tok_run no (by exact hc) g2
  obtain ⟨lc, xc⟩ := tok_run nc hc g5
  have hw : R [mkNode (if use == 1 then Kind.emph else .strong) (m.map (·.node))]
      (so.drop (op.numdelims - use) ++ s3 ++ sc.take use) :=
    hR.wrap hc he (h.good op (by simp)) (h.good cl (by simp)) o0 c0 hlt hop hcc hodd hul.2.2
      (by rw [List.length_drop]; omega) (by rw [List.length_take]; omega) (fun x hx => xo x (List.mem_of_mem_drop hx))
      (fun x hx => xc x (List.mem_of_mem_take hx)) (g4.rel hR)
  have hseg := g1.append ((keepIf_seg (R := R) (smart := smart) (s := so.take (op.numdelims - use)) (n := op.numdelims - use) o0 hc
      (by rw [List.length_take]; omega) (fun x hx => xo x (List.mem_of_mem_take hx))).append
    ((Seg.single (D := D) (smart := smart) hw).append
      ((keepIf_seg (R := R) (s := sc.drop use) (n := cl.numdelims - use) c0 hc
        (by rw [List.length_drop]; omega) (fun x hx => xc x (List.mem_of_mem_drop hx))).append g6)))
  refine ⟨?_, ?_, ?_, ?_, ?_⟩
  · have e1 : so = so.take (op.numdelims - use) ++ so.drop (op.numdelims - use) := (List.take_append_drop _ _).symm
    have e2 : sc = sc.take use ++ sc.drop use := (List.take_append_drop _ _).symm
    have : s1 ++ (so ++ (s3 ++ (sc ++ s4))) = s1 ++ (so.take (op.numdelims - use) ++
        (so.drop (op.numdelims - use) ++ s3 ++ sc.take use ++ (sc.drop use ++ s4))) := by
      simp only [List.append_assoc, ← List.append_assoc (so.take _), List.take_append_drop, ← List.append_assoc (sc.take _)]
    rw [this]
    simpa using hseg
  · rw [inc_append, inc_cons, inc_append, inc_cons] at hinc
    obtain ⟨i1, ⟨i2, i3, ⟨i4, i5⟩, i6⟩, i7⟩ := hinc
    have k1 : ∀ x ∈ keepIf (op.numdelims - use) op.node cl.cc, x.id = op.node := fun x hx => keepIf_mem hx
    have k2 : ∀ x ∈ keepIf (cl.numdelims - use) cl.node cl.cc, x.id = cl.node := fun x hx => keepIf_mem hx
    rw [inc_append, inc_append, inc_cons, inc_append]
    refine ⟨i1, ⟨keepIf_inc _ _ _, ⟨?_, keepIf_inc _ _ _, i5, ?_⟩, ?_⟩, ?_⟩
    · intro y _ hh; exact absurd rfl hh
    · intro x hx y hy _ hy0
      rw [k2 x hx]; exact i4 y hy c0 hy0
    · intro x hx y hy _ hy0
      rw [k1 x hx]
      simp only [List.mem_cons, List.mem_append] at hy
      rcases hy with rfl | hy | hy
      · exact absurd rfl hy0
      · rw [k2 y hy]; exact hlt
      · exact i2 y (by simp [hy]) o0 hy0
    · intro x hx y hy hx0 hy0
      simp only [List.mem_cons, List.mem_append] at hy
      rcases hy with hy | rfl | hy | hy
      · rw [k1 y hy]; exact i7 x hx _ List.mem_cons_self hx0 o0
      · exact absurd rfl hy0
      · rw [k2 y hy]
        exact i7 x hx _ (List.mem_cons_of_mem _ (List.mem_append_right _ List.mem_cons_self)) hx0 c0
      · exact i7 x hx y (by simp [hy]) hx0 hy0
  · simp only [List.reverse_append, List.reverse_cons, List.append_assoc, List.singleton_append, List.cons_append, List.nil_append] at hord
    rw [List.pairwise_append, List.pairwise_cons, List.pairwise_append, List.pairwise_cons] at hord
    obtain ⟨i1, ⟨i2, i3, ⟨i4, i5⟩, i6⟩, i7⟩ := hord
    have hbr : ∀ x ∈ below.reverse, ∀ y ∈ rest, x.node < y.node := fun x hx y hy => i7 x hx y (by simp [hy])
    split <;> split <;> simp only [List.reverse_cons, List.append_assoc, List.singleton_append, List.pairwise_append,
      List.pairwise_cons, List.mem_cons, List.cons_append, List.nil_append, List.mem_append]
    · exact ⟨i1, i5, hbr⟩
    · refine ⟨i1, ⟨fun y hy => i4 y hy, i5⟩, ?_⟩
      rintro x hx y (rfl | hy)
      · exact i7 x hx cl (by simp)
      · exact hbr x hx y hy
    · refine ⟨i1, ⟨fun y hy => i2 y (by simp [hy]), i5⟩, ?_⟩
      rintro x hx y (rfl | hy)
      · exact i7 x hx op (by simp)
      · exact hbr x hx y hy
    · refine ⟨i1, ⟨?_, fun y hy => i4 y hy, i5⟩, ?_⟩
      · rintro y (rfl | hy)
        · exact hlt
        · exact i2 y (by simp [hy])
      · rintro x hx y (rfl | rfl | hy)
        · exact i7 x hx op (by simp)
        · exact i7 x hx cl (by simp)
        · exact hbr x hx y hy
  · have hbelow : ∀ d ∈ below, DelimIn (a ++ (keepIf (op.numdelims - use) op.node cl.cc ++
        ⟨0, mkNode (if use == 1 then Kind.emph else .strong) (m.map (·.node))⟩ ::
        (keepIf (cl.numdelims - use) cl.node cl.cc ++ b))) d := by
      intro d hd
      obtain ⟨d0, it, hit, hid, ht⟩ := h.delims d (by simp [hd])
      refine ⟨d0, it, ?_, hid, ht⟩
      have : d.node < op.node := by
        simp only [List.reverse_append, List.reverse_cons, List.append_assoc, List.singleton_append, List.cons_append, List.nil_append] at hord
        rw [List.pairwise_append] at hord
        exact hord.2.2 d (by simp [hd]) op (by simp)
      have := inc_left h.inc o0 hit (by rw [hid]; exact d0) (by rw [hid]; exact this)
      simp [this]
    have hrest : ∀ d ∈ rest, DelimIn (a ++ (keepIf (op.numdelims - use) op.node cl.cc ++
        ⟨0, mkNode (if use == 1 then Kind.emph else .strong) (m.map (·.node))⟩ ::
        (keepIf (cl.numdelims - use) cl.node cl.cc ++ b))) d := by
      intro d hd
      obtain ⟨d0, it, hit, hid, ht⟩ := h.delims d (by simp [hd])
      refine ⟨d0, it, ?_, hid, ht⟩
      have : cl.node < d.node := by
        rw [List.pairwise_append, List.pairwise_cons] at hord
        exact hord.2.1.1 d hd
      have := inc_right hinc' c0 (by simpa using hit) (by rw [hid]; exact d0) (by rw [hid]; exact this)
      simp [this]
    intro d hd
    rw [List.mem_append, List.mem_reverse] at hd
    rcases hd with hd | hd
    · split at hd
      · exact hbelow d hd
      · rename_i hz
        rcases List.mem_cons.1 hd with rfl | hd
        · have hz' : op.numdelims - use ≠ 0 := by simpa using hz
          refine ⟨o0, ⟨op.node, textNode (List.replicate (op.numdelims - use) cl.cc)⟩, ?_, rfl, Or.inl ⟨by rw [he]; exact hc, by dsimp only; omega, by rw [he]⟩⟩
          unfold keepIf
          rw [if_neg hz']
          simp
        · exact hbelow d hd
    · split at hd
      · exact hrest d hd
      · rename_i hz
        rcases List.mem_cons.1 hd with rfl | hd
        · have hz' : cl.numdelims - use ≠ 0 := by simpa using hz
          refine ⟨c0, ⟨cl.node, textNode (List.replicate (cl.numdelims - use) cl.cc)⟩, ?_, rfl, Or.inl ⟨hc, by dsimp only; omega, rfl⟩⟩
          unfold keepIf
          rw [if_neg hz']
          simp
        · exact hrest d hd
  · intro d hd
    rw [List.mem_append, List.mem_reverse] at hd
    rcases hd with hd | hd
    · split at hd
      · exact h.good d (by simp [hd])
      · rcases List.mem_cons.1 hd with rfl | hd
        · exact hR.num (h.good op (by simp))
        · exact h.good d (by simp [hd])
    · split at hd
      · exact h.good d (by simp [hd])
      · rcases List.mem_cons.1 hd with rfl | hd
        · exact hR.num (h.good cl (by simp))
        · exact h.good d (by simp [hd])

theorem EInv.move {bs rest : List Delim} {cl : Delim} {its : List Item} {S : List α}
    (h : EInv D Ok smart R bs (cl :: rest) its S) : EInv D Ok smart R (cl :: bs) rest its S :=
  h.sub (by simp)

theorem EInv.drop {bs rest : List Delim} {cl : Delim} {its : List Item} {S : List α}
    (h : EInv D Ok smart R bs (cl :: rest) its S) : EInv D Ok smart R bs rest its S :=
  h.sub (by simp)

theorem emphStep_inv (hR : EmphRel D Ok smart R) {st : EmphState} {cl : Delim} {rest : List Delim} {S : List α}
    (h : EInv D Ok smart R st.before (cl :: rest) st.items S) :
    EInv D Ok smart R (emphStep st cl rest).before (emphStep st cl rest).after (emphStep st cl rest).items S := by
  unfold emphStep
  by_cases hc : cl.canClose = true
  rotate_left
  · rw [if_pos (by simpa using hc)]
    exact h.move
  rw [if_neg (by simp [hc])]
  have hf := findOpener_match cl (st.openersBottom cl.cc) st.before st.oddMatch
  revert hf
  generalize findOpener cl (st.openersBottom cl.cc) st.before st.oddMatch = fo
  obtain ⟨found, odd⟩ := fo
  intro hf
  dsimp only at hf ⊢
  have nf : ∀ items, EInv D Ok smart R st.before (cl :: rest) items S → ∀ st' : EmphState,
      st' = (if odd then
        { st with before := cl :: st.before, after := rest, items := items, oddMatch := odd }
      else
        { before := if cl.canOpen then cl :: st.before else st.before
          after := rest
          items := items
          openersBottom := fun ch => if ch == cl.cc then st.before.head?.map (·.node) else st.openersBottom ch
          oddMatch := odd }) →
      EInv D Ok smart R st'.before st'.after st'.items S := by
    intro items h st' e
    subst e
    split
    · exact h.move
    · dsimp only
      split
      · exact h.move
      · exact h.drop
  have hcl : cl ∈ st.before.reverse ++ cl :: rest := by simp
  split
  · rename_i hcc
    simp only [Bool.or_eq_true, beq_iff_eq] at hcc
    cases found with
    | none => exact nf _ h _ rfl
    | some ob =>
      obtain ⟨op, below⟩ := ob
      obtain ⟨sk, e, he, hop, hodd⟩ := hf op below rfl
      rw [e] at h
      exact h.wrap hR hcc he hop hc hodd rfl
  · rename_i hns
    simp only [Bool.or_eq_true, beq_iff_eq, not_or] at hns
    have quote : ∀ d ∈ st.before.reverse ++ cl :: rest, d.cc = cl.cc → d.cc = '\'' ∨ d.cc = '"' := by
      intro d hd hcc
      obtain ⟨_, it, _, _, ht⟩ := h.delims d hd
      rcases ht with ⟨h1, _⟩ | ⟨h1, _⟩ | ⟨h1, _⟩
      · rw [hcc] at h1
        rcases h1 with h1 | h1
        · exact absurd h1 hns.1
        · exact absurd h1 hns.2
      · exact Or.inl h1
      · exact Or.inr h1
    have setS : ∀ {its : List Item} {d : Delim} {r : Char}, EInv D Ok smart R st.before (cl :: rest) its S →
        d ∈ st.before.reverse ++ cl :: rest → d.cc = '\'' → r = rsquo ∨ r = lsquo →
        EInv D Ok smart R st.before (cl :: rest) (setLiteral d.node (fun _ => [r]) its) S := by
      intro its d r h hd hq hr
      refine h.set hd ?_ (Or.inr (Or.inl ⟨hq, ?_⟩))
      · intro t s ht hs
        rcases ht with ⟨h1, _⟩ | ⟨_, rfl | rfl⟩ | ⟨h1, _⟩
        · rw [hq] at h1; exact absurd h1 (by decide)
        · exact tok_single (Or.inl rfl) hr hs
        · exact tok_single (Or.inr rfl) hr hs
        · rw [hq] at h1; exact absurd h1 (by decide)
      · rcases hr with rfl | rfl
        · exact Or.inl rfl
        · exact Or.inr rfl
    have setD : ∀ {its : List Item} {d : Delim} {r : Char}, EInv D Ok smart R st.before (cl :: rest) its S →
        d ∈ st.before.reverse ++ cl :: rest → d.cc = '"' → r = ldquo ∨ r = rdquo →
        EInv D Ok smart R st.before (cl :: rest) (setLiteral d.node (fun _ => [r]) its) S := by
      intro its d r h hd hq hr
      refine h.set hd ?_ (Or.inr (Or.inr ⟨hq, ?_⟩))
      · intro t s ht hs
        rcases ht with ⟨h1, _⟩ | ⟨h1, _⟩ | ⟨_, rfl | rfl⟩
        · rw [hq] at h1; exact absurd h1 (by decide)
        · rw [hq] at h1; exact absurd h1 (by decide)
        · exact tok_double (Or.inl rfl) hr hs
        · exact tok_double (Or.inr rfl) hr hs
      · rcases hr with rfl | rfl
        · exact Or.inl rfl
        · exact Or.inr rfl
    split
    · rename_i hq
      simp only [beq_iff_eq] at hq
      have h1 := setS h hcl hq (Or.inl rfl)
      cases found with
      | none => exact nf _ h1 _ rfl
      | some ob =>
        obtain ⟨op, below⟩ := ob
        obtain ⟨sk, e, he, _⟩ := hf op below rfl
        exact (setS h1 (by rw [e]; simp) (he.trans hq) (Or.inr rfl)).move
    · rename_i hq
      simp only [beq_iff_eq] at hq
      have hq' : cl.cc = '"' := by
        rcases quote cl hcl rfl with h | h
        · exact absurd h hq
        · exact h
      have h1 := setD h hcl hq' (Or.inr rfl)
      cases found with
      | none => exact nf _ h1 _ rfl
      | some ob =>
        obtain ⟨op, below⟩ := ob
        obtain ⟨sk, e, he, _⟩ := hf op below rfl
        exact (setD h1 (by rw [e]; simp) (he.trans hq') (Or.inl rfl)).move

theorem emphLoop_inv (hR : EmphRel D Ok smart R) {S : List α} : ∀ (fuel : Nat) (st : EmphState) (its : List Item),
    EInv D Ok smart R st.before st.after st.items S → emphLoop fuel st = .ok its → Seg D smart R its S ∧ Inc its := by
  intro fuel
  induction fuel with
  | zero => intro st its _ e; simp [emphLoop] at e
  | succ k ih =>
    intro st its h e
    rw [emphLoop] at e
    cases ha : st.after with
    | nil =>
      rw [ha] at e
      simp only [Except.ok.injEq] at e
      subst e
      exact ⟨h.seg, h.inc⟩
    | cons cl rest =>
      rw [ha] at e
      dsimp only at e
      rw [ha] at h
      exact ih _ _ (emphStep_inv hR h) e

/-- What `processEmphasis` keeps. -/
theorem processEmphasis_inv (hR : EmphRel D Ok smart R) {ds : List Delim} {its its' : List Item} {S : List α}
    (h : EInv D Ok smart R [] ds its S) (e : processEmphasis ds its = .ok its') : Seg D smart R its' S ∧ Inc its' :=
  emphLoop_inv hR _ _ _ h e

end CM
