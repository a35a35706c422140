import Verif.Spec.Doc
import Verif.Proofs.BlockRun
import Verif.Proofs.InlineRun
import Verif.Proofs.RegexLang
/-
The tree that the block phase builds: an invariant of all its steps.
-/
namespace CM
open Spec

/-! ### Every node of a tree -/

theorem everyNodeList_iff {P : NodeData → List NodeData → Prop} {ts : List Tree} :
    EveryNodeList P ts ↔ ∀ t ∈ ts, EveryNode P t := by
  induction ts with
  | nil => simp [EveryNodeList]
  | cons t ts ih => simp [EveryNodeList, ih]

theorem everyNode_iff {P : NodeData → List NodeData → Prop} {d : NodeData} {cs : List Tree} :
    EveryNode P (.node d cs) ↔ P d (cs.map Tree.data) ∧ ∀ t ∈ cs, EveryNode P t := by
  simp only [EveryNode, everyNodeList_iff]

mutual
theorem EveryNode.mono {P Q : NodeData → List NodeData → Prop} (h : ∀ d ks, P d ks → Q d ks) :
    ∀ {t : Tree}, EveryNode P t → EveryNode Q t
  | .node _ _, ht => ⟨h _ _ ht.1, EveryNodeList.mono h ht.2⟩
theorem EveryNodeList.mono {P Q : NodeData → List NodeData → Prop} (h : ∀ d ks, P d ks → Q d ks) :
    ∀ {ts : List Tree}, EveryNodeList P ts → EveryNodeList Q ts
  | [], _ => trivial
  | _ :: _, ht => ⟨EveryNode.mono h ht.1, EveryNodeList.mono h ht.2⟩
end

/-! ### Forgetting the flags -/

/-- A node without the flags that closing a list changes. -/
def normData (d : NodeData) : NodeData :=
  { d with lastLineBlank := false, lastLineChecked := false,
           listData := d.listData.map fun l => { l with tight := false } }

mutual
def normTree : Tree → Tree
  | .node d cs => .node (normData d) (normList cs)
def normList : List Tree → List Tree
  | [] => []
  | t :: ts => normTree t :: normList ts
end

theorem normList_eq_map (ts : List Tree) : normList ts = ts.map normTree := by
  induction ts with
  | nil => rfl
  | cons t ts ih => simp [normList, ih]

theorem data_normTree (t : Tree) : (normTree t).data = normData t.data := by
  cases t; rfl

theorem normData_checked (d : NodeData) (b : Bool) : normData { d with lastLineChecked := b } = normData d := rfl
theorem normData_blank (d : NodeData) (b : Bool) : normData { d with lastLineBlank := b } = normData d := rfl
theorem normData_loosen (d : NodeData) : normData (loosen d) = normData d := by
  simp only [normData, loosen, Option.map_map]
  rfl

mutual
theorem norm_ends : ∀ t : Tree, normTree (endsWithBlankLine t).2 = normTree t
  | .node d cs => by
    simp only [endsWithBlankLine]
    split
    · rfl
    · split
      · simp only [normTree]; rw [norm_endsLast cs, normData_checked]
      · simp only [normTree]; rw [normData_checked]
theorem norm_endsLast : ∀ ts : List Tree, normList (endsWithBlankLast ts).2 = normList ts
  | [] => rfl
  | [t] => by simp only [endsWithBlankLast, normList]; rw [norm_ends t]
  | t :: u :: r => by
    have := norm_endsLast (u :: r)
    simp only [endsWithBlankLast]
    rw [normList, this]
    rfl
end

theorem norm_subitems (b : Bool) : ∀ ts : List Tree, normList (checkSubitems b ts).2 = normList ts
  | [] => rfl
  | t :: ts => by
    simp only [checkSubitems]
    split
    · simp only [normList]; rw [norm_ends]
    · simp only [normList]; rw [norm_ends, norm_subitems b ts]

theorem norm_items : ∀ ts : List Tree, normList (checkItems ts).2 = normList ts
  | [] => rfl
  | t :: ts => by
    have h1 := norm_ends t
    simp only [checkItems]
    split
    · simp only [normList]; rw [h1]
    · rcases he : (endsWithBlankLine t).2 with ⟨d, cs⟩
      rw [he] at h1
      simp only [normList]
      rw [norm_items ts, ← h1]
      simp only [normTree]
      rw [norm_subitems]

theorem norm_finalizeList (d : NodeData) (cs : List Tree) :
    normTree (finalizeList d cs) = .node (normData d) (normList cs) := by
  have h := norm_items cs
  simp only [finalizeList]
  split
  · simp only [normTree]
    rw [normData_loosen, ← h]
    congr 1
    split
    · rename_i he; rw [he]
    · rename_i di ci r he; rw [he]; simp only [normList, normTree]; rw [normData_loosen]
  · simp only [normTree]; rw [h]

theorem norm_markLast : ∀ ts : List Tree, normList (markLastChild ts) = normList ts
  | [] => rfl
  | [.node d cs] => rfl
  | t :: u :: r => by
    have := norm_markLast (u :: r)
    simp only [markLastChild]
    rw [normList, this]; rfl

/-- `P` does not look at the flags. -/
def Flagless (P : NodeData → List NodeData → Prop) : Prop :=
  ∀ d ks, P (normData d) (ks.map normData) ↔ P d ks

mutual
theorem everyNode_norm {P : NodeData → List NodeData → Prop} (hP : Flagless P) :
    ∀ t : Tree, EveryNode P (normTree t) ↔ EveryNode P t
  | .node d cs => by
    simp only [normTree, EveryNode]
    rw [everyNodeList_norm hP cs, ← hP d]
    have : (normList cs).map Tree.data = (cs.map Tree.data).map normData := by
      rw [normList_eq_map, List.map_map, List.map_map]
      apply List.map_congr_left
      intro t _
      exact data_normTree t
    rw [this]
theorem everyNodeList_norm {P : NodeData → List NodeData → Prop} (hP : Flagless P) :
    ∀ ts : List Tree, EveryNodeList P (normList ts) ↔ EveryNodeList P ts
  | [] => Iff.rfl
  | t :: ts => by
    simp only [normList, EveryNodeList]
    rw [everyNode_norm hP t, everyNodeList_norm hP ts]
end

/-! ### Lines of text -/

/-- Concatenations of lines (`T` says which), each after some spaces and followed by a newline,
possibly without an initial segment. -/
inductive Lines (T : Str → Prop) : Str → Prop
  | nil : Lines T []
  | line {x l : Str} (k : Nat) : Lines T x → T l → Lines T (x ++ (List.replicate k ' ' ++ (l ++ ['\n'])))
  | drop {x : Str} (n : Nat) : Lines T x → Lines T (x.drop n)

theorem Lines.mem {T : Str → Prop} {x : Str} (h : Lines T x) : ∀ ch ∈ x, ch = ' ' ∨ ch = '\n' ∨ ∃ l, T l ∧ ch ∈ l := by
  induction h with
  | nil => intro ch h; simp at h
  | @line x l k hx hl ih =>
    intro ch h
    simp only [List.mem_append, List.mem_replicate, List.mem_singleton] at h
    rcases h with h | h | h | h
    · exact ih ch h
    · exact Or.inl h.2
    · exact Or.inr (Or.inr ⟨l, hl, h⟩)
    · exact Or.inr (Or.inl h)
  | drop n hx ih => intro ch h; exact ih ch (List.mem_of_mem_drop h)

theorem Lines.strs {T : Str → Prop} {G : Char → Prop} (hT : ∀ l, T l → Strs G l) (h1 : G ' ') (h2 : G '\n')
    {x : Str} (h : Lines T x) : Strs G x := by
  intro ch hc
  rcases h.mem ch hc with rfl | rfl | ⟨l, hl, hm⟩
  · exact h1
  · exact h2
  · exact hT l hl ch hm

/-! ### Nodes of the block phase -/

/-- Characters that the two phases may write. -/
structure CharsOk (G : Char → Prop) : Prop where
  smart : SmartGood G
  ascii : ∀ ch ∈ "\\[]! \n".toList, G ch
  entity : ∀ m, Strs G m → Strs G (htmlUnescape m)
  title : ∀ m, Strs G m → Strs G (unescapeString m)

theorem CharsOk.space {G : Char → Prop} (h : CharsOk G) : G ' ' := h.ascii ' ' (by decide)
theorem CharsOk.nl {G : Char → Prop} (h : CharsOk G) : G '\n' := h.ascii '\n' (by decide)

/-- `k` may be a child of `d`. -/
def Fits (d k : NodeData) : Prop :=
  (wide d.t ∧ k.t ∈ flowKinds) ∨ (d.t = .list ∧ k.t = .item ∧ SameMarker d k)

/-- What holds of a block from the moment it is made. -/
structure DataOk (T : Str → Prop) (G : Char → Prop) (d : NodeData) : Prop where
  kind : d.t ∈ blockKinds
  level : d.t = .heading → ∃ n, d.level = some n ∧ 1 ≤ n ∧ n ≤ 6
  marker : d.t = .list ∨ d.t = .item → ∃ l, d.listData = some l ∧ MarkerOk l
  nomarker : d.t ≠ .list → d.t ≠ .item → d.listData = none
  para : d.t = .paragraph → ∃ x, d.stringContent = some x ∧ Lines T x ∧
    ((∃ l, T l ∧ '[' ∈ l) ∨ ∃ l ch, T l ∧ ch ∈ l ∧ ch ∈ x ∧ ch ≠ ' ' ∧ ch ≠ '\t')
  head : d.t = .heading → ∃ x, d.stringContent = some x ∧ (Lines T x ∨ ∃ l, T l ∧ x = atxContent l)
  chars : ∀ x, d.stringContent = some x ∨ d.literal = some x ∨ d.info = some x → Strs G x
  clean : d.destination = none ∧ d.title = none ∧ d.onEnter = none ∧ d.onExit = none
  fence : (d.isFenced = true → (d.fenceChar = some '`' ∨ d.fenceChar = some '~') ∧ 3 ≤ d.fenceLength ∧
    d.fenceOffset ≤ 3) ∧ (d.isFenced = false → d.fenceChar = none)
  start : 1 ≤ firstLine d ∧ 1 ≤ firstColumn d

/-- A closed block with its children. -/
structure BlockOk (T : Str → Prop) (G : Char → Prop) (d : NodeData) (ks : List NodeData) : Prop where
  data : DataOk T G d
  closed : d.isOpen = false
  fits : ∀ k ∈ ks, Fits d k
  items : d.t = .list → ks ≠ []
  span : firstLine d ≤ lastLine d
  inside : ∀ k ∈ ks, firstLine d ≤ firstLine k ∧ lastLine k ≤ lastLine d
  order : ks.Pairwise fun a b => lastLine a < firstLine b
  done : d.t = .codeBlock ∨ d.t = .htmlBlock → ∃ x, d.literal = some x

theorem sameMarker_norm (a b : NodeData) : SameMarker (normData a) (normData b) ↔ SameMarker a b := by
  constructor
  · rintro ⟨l, m, h1, h2, h3⟩
    simp only [normData, Option.map_eq_some_iff] at h1 h2
    obtain ⟨l', h1, rfl⟩ := h1
    obtain ⟨m', h2, rfl⟩ := h2
    exact ⟨l', m', h1, h2, h3⟩
  · rintro ⟨l, m, h1, h2, h3⟩
    refine ⟨{ l with tight := false }, { m with tight := false }, ?_, ?_, h3⟩
    · simp only [normData, h1]; rfl
    · simp only [normData, h2]; rfl

theorem fits_norm (d k : NodeData) : Fits (normData d) (normData k) ↔ Fits d k := by
  simp only [Fits, sameMarker_norm]
  exact Iff.rfl

theorem dataOk_norm (T : Str → Prop) (G : Char → Prop) (d : NodeData) : DataOk T G (normData d) ↔ DataOk T G d := by
  constructor
  · rintro ⟨h1, h2, h3, h4, h5, h6, h7, h8, h9, h10⟩
    refine ⟨h1, h2, ?_, ?_, h5, h6, h7, h8, h9, h10⟩
    · intro ht
      obtain ⟨l, hl, hm⟩ := h3 ht
      simp only [normData, Option.map_eq_some_iff] at hl
      obtain ⟨l', hl, rfl⟩ := hl
      exact ⟨l', hl, hm⟩
    · intro a b
      have := h4 a b
      simpa [normData] using this
  · rintro ⟨h1, h2, h3, h4, h5, h6, h7, h8, h9, h10⟩
    refine ⟨h1, h2, ?_, ?_, h5, h6, h7, h8, h9, h10⟩
    · intro ht
      obtain ⟨l, hl, hm⟩ := h3 ht
      refine ⟨{ l with tight := false }, ?_, hm⟩
      simp only [normData, hl]; rfl
    · intro a b
      have := h4 a b
      simp [normData, this]

theorem flagless_blockOk (T : Str → Prop) (G : Char → Prop) : Flagless (BlockOk T G) := by
  intro d ks
  constructor
  · rintro ⟨h1, h2, h3, h4, h5, h6, h7, h8⟩
    refine ⟨(dataOk_norm T G d).1 h1, h2, ?_, ?_, h5, ?_, ?_, h8⟩
    · intro k hk; exact (fits_norm d k).1 (h3 _ (List.mem_map_of_mem hk))
    · intro ht he; exact h4 ht (by rw [he]; rfl)
    · intro k hk; exact h6 (normData k) (List.mem_map_of_mem hk)
    · exact (List.pairwise_map.1 h7)
  · rintro ⟨h1, h2, h3, h4, h5, h6, h7, h8⟩
    refine ⟨(dataOk_norm T G d).2 h1, h2, ?_, ?_, h5, ?_, ?_, h8⟩
    · intro k hk
      obtain ⟨k', hk', rfl⟩ := List.mem_map.1 hk
      exact (fits_norm d k').2 (h3 _ hk')
    · intro ht he; exact h4 ht (by simpa using he)
    · intro k hk
      obtain ⟨k', hk', rfl⟩ := List.mem_map.1 hk
      exact h6 k' hk'
    · exact (List.pairwise_map.2 h7)

/-- An open block, on line `L`. -/
structure OpenOk (T : Str → Prop) (G : Char → Prop) (L : Nat) (b : OpenBlk) : Prop where
  data : DataOk T G b.data
  content : ∃ x, b.data.stringContent = some x ∧ (Lines T x ∨ b.data.t = .heading)
  fresh : b.data.literal = none ∧ b.data.info = none
  pos : ∃ sp, b.data.sourcepos = some sp
  kids : ∀ t ∈ b.children, EveryNode (BlockOk T G) t
  fits : ∀ t ∈ b.children, Fits b.data t.data
  start : firstLine b.data ≤ L
  inside : ∀ t ∈ b.children, firstLine b.data ≤ firstLine t.data ∧ lastLine t.data < L
  order : (b.children.map Tree.data).Pairwise fun a b => lastLine a < firstLine b

/-- `d` may be the next child of `par`. -/
structure Under (par : OpenBlk) (d : NodeData) : Prop where
  fits : Fits par.data d
  start : firstLine par.data ≤ firstLine d
  order : ∀ t ∈ par.children, lastLine t.data < firstLine d

/-- The open blocks, tip first. -/
inductive SpineOk (T : Str → Prop) (G : Char → Prop) (L : Nat) : List OpenBlk → Prop
  | doc {b : OpenBlk} : b.data.t = .document ∧ firstLine b.data = 1 → OpenOk T G L b → SpineOk T G L [b]
  | cons {b par : OpenBlk} {up : List OpenBlk} : OpenOk T G L b → Under par b.data →
      SpineOk T G L (par :: up) → SpineOk T G L (b :: par :: up)

/-- The reference map. -/
def RefsOk (G : Char → Prop) (m : RefMap) : Prop :=
  ∀ k d, m.get k = some d → Strs G d.title ∧ ∃ u, d.destination = normalizeUri u

/-- The invariant of the block phase; `L` is the number of the current line. -/
structure Inv (T : Str → Prop) (G : Char → Prop) (L : Nat) (c : Core) : Prop where
  spine : SpineOk T G L c.spine
  tip : ∀ b ∈ c.spine.head?, b.data.t = .list → b.children ≠ []
  refs : RefsOk G c.refmap

theorem OpenOk.mono {T : Str → Prop} {G : Char → Prop} {L L' : Nat} {b : OpenBlk} (h : OpenOk T G L b)
    (hl : L ≤ L') : OpenOk T G L' b :=
  ⟨h.data, h.content, h.fresh, h.pos, h.kids, h.fits, Nat.le_trans h.start hl,
    fun t ht => ⟨(h.inside t ht).1, Nat.lt_of_lt_of_le (h.inside t ht).2 hl⟩, h.order⟩

theorem SpineOk.mono {T : Str → Prop} {G : Char → Prop} {L L' : Nat} (hl : L ≤ L') {sp : List OpenBlk}
    (h : SpineOk T G L sp) : SpineOk T G L' sp := by
  induction h with
  | doc h1 h2 => exact .doc h1 (h2.mono hl)
  | cons h1 h2 _ ih => exact .cons (h1.mono hl) h2 ih

theorem Inv.mono {T : Str → Prop} {G : Char → Prop} {L L' : Nat} (hl : L ≤ L') {c : Core} (h : Inv T G L c) :
    Inv T G L' c := ⟨h.spine.mono hl, h.tip, h.refs⟩

/-! ### Reference definitions -/

theorem get_append_some {m : RefMap} {k : Str} {d : RefDef} (h : m.get k = some d) (e : Str × RefDef) :
    RefMap.get (m ++ [e]) k = some d := by
  simp only [RefMap.get, List.find?_append, Option.map_eq_some_iff] at h ⊢
  obtain ⟨a, h1, h2⟩ := h
  exact ⟨a, by rw [h1]; rfl, h2⟩

theorem get_append_none {m : RefMap} {k : Str} (h : m.get k = none) (e : Str × RefDef) :
    RefMap.get (m ++ [e]) k = if e.1 == k then some e.2 else none := by
  simp only [RefMap.get, List.find?_append, Option.map_eq_none_iff] at h ⊢
  rw [h, Option.none_or, List.find?_cons, List.find?_nil]
  cases e.1 == k <;> rfl

/-- What a reference definition does to the map. -/
theorem parseReference_refs {G : Char → Prop} (hG : CharsOk G) {x : Str} (hx : Strs G x) {m : RefMap}
    (hm : RefsOk G m) : RefsOk G (parseReference x m).2 ∧
      ∀ k d, m.get k = some d → (parseReference x m).2.get k = some d := by
  have hS : Src G ⟨x, [], false⟩ := ⟨hG.smart, fun ch h => hG.ascii ch (by
      simp only [String.toList] at h ⊢
      revert h; revert ch; decide), hx,
    fun s hs => hG.entity s (strs_infix hx hs), fun s hs => hG.title s (strs_infix hx hs),
    fun k d h => by simp [RefMap.get] at h⟩
  have key : ∀ (e : Nat) (norm dest title : Str), (∃ u, dest = normalizeUri u) → Strs G title →
      RefsOk G ((match m.get norm with
        | some _ => (e, m)
        | none => (e, m ++ [(norm, (⟨dest, title⟩ : RefDef))]))).2 ∧
      ∀ k d, m.get k = some d → RefMap.get ((match m.get norm with
        | some _ => (e, m)
        | none => (e, m ++ [(norm, (⟨dest, title⟩ : RefDef))]))).2 k = some d := by
    intro e norm dest title hd ht
    cases hg : m.get norm with
    | some v => exact ⟨hm, fun _ _ h => h⟩
    | none =>
      refine ⟨?_, ?_⟩
      · intro k d h
        cases hk : m.get k with
        | none =>
          rw [get_append_none hk] at h
          cases hb : (norm == k) with
          | false => simp only [hb] at h; simp at h
          | true =>
            simp only [hb, if_true, Option.some.injEq] at h
            subst h
            exact ⟨ht, hd⟩
        | some v =>
          rw [get_append_some hk] at h
          exact hm k d (hk.trans h)
      · intro k d h
        exact get_append_some h _
  have triv : RefsOk G m ∧ ∀ k d, m.get k = some d → m.get k = some d := ⟨hm, fun _ _ h => h⟩
  simp only [parseReference]
  split
  · exact triv
  · split
    · exact triv
    · split
      · exact triv
      · rename_i dest bt hdest
        have hd := (parseLinkDestination_spec hdest).2
        split
        · exact triv
        · rename_i e he
          split
          · exact triv
          · refine key e _ dest _ hd ?_
            split
            · rename_i t p' hf
              split at hf
              · exact (parseLinkTitle_spec hS hf).2
              · cases hf
            · exact strs_nil

theorem refLoop_spec {G : Char → Prop} (hG : CharsOk G) : ∀ (fuel : Nat) (x : Str) (m : RefMap) (h : Bool)
    (x' : Str) (m' : RefMap) (h' : Bool), Strs G x → RefsOk G m → refLoop fuel x m h = .ok (x', m', h') →
    RefsOk G m' ∧ (∀ k d, m.get k = some d → m'.get k = some d) ∧ (∃ n, x' = x.drop n) ∧
      (x' = x ∨ '[' ∈ x) := by
  intro fuel
  induction fuel with
  | zero => intro x m h x' m' h' _ _ e; simp [refLoop] at e
  | succ fuel ih =>
    intro x m h x' m' h' hx hm e
    simp only [refLoop] at e
    by_cases hp : (peekAt x 0 == some '[') = true
    · rw [if_pos hp] at e
      have hmem : '[' ∈ x := by
        simp only [peekAt, beq_iff_eq] at hp
        exact List.mem_of_getElem? hp
      have hr := parseReference_refs hG hx hm
      cases hpr : parseReference x m with
      | mk n m1 =>
        rw [hpr] at e hr
        simp only at e hr
        by_cases hn : (n == 0) = true
        · rw [if_pos hn] at e
          cases e
          exact ⟨hr.1, hr.2, ⟨0, rfl⟩, Or.inl rfl⟩
        · rw [if_neg hn] at e
          obtain ⟨h1, h2, ⟨k, h3⟩, h4⟩ := ih _ _ _ _ _ _ (strs_drop hx n) hr.1 e
          exact ⟨h1, fun k d hk => h2 k d (hr.2 k d hk), ⟨n + k, by rw [h3, List.drop_drop]⟩, Or.inr hmem⟩
    · rw [if_neg hp] at e
      cases e
      exact ⟨hm, fun _ _ h => h, ⟨0, rfl⟩, Or.inl rfl⟩

/-! ### Closing -/

theorem firstLine_close (l len : Nat) (d : NodeData) : firstLine (closeData l len d) = firstLine d := by
  simp only [firstLine, closeData, Option.map_map]; rfl

theorem firstColumn_close (l len : Nat) (d : NodeData) : firstColumn (closeData l len d) = firstColumn d := by
  simp only [firstColumn, closeData, Option.map_map]; rfl

theorem lastLine_close (l len : Nat) {d : NodeData} (h : ∃ sp, d.sourcepos = some sp) :
    lastLine (closeData l len d) = l := by
  obtain ⟨sp, h⟩ := h
  simp only [lastLine, closeData, h]; rfl

theorem DataOk.close {T : Str → Prop} {G : Char → Prop} {d : NodeData} (h : DataOk T G d) (l len : Nat) :
    DataOk T G (closeData l len d) :=
  ⟨h.kind, h.level, h.marker, h.nomarker, h.para, h.head, h.chars, h.clean, h.fence,
    by rw [firstLine_close, firstColumn_close]; exact h.start⟩

theorem sameMarker_congr {par a b : NodeData} (h : a.listData = b.listData) : SameMarker par a ↔ SameMarker par b := by
  simp only [SameMarker, h]

theorem fits_congr {d d' k : NodeData} (ht : d'.t = d.t) (hl : d'.listData = d.listData) :
    Fits d' k ↔ Fits d k := by
  simp only [Fits, SameMarker, ht, hl]

theorem fits_congr' {d k k' : NodeData} (ht : k'.t = k.t) (hl : k'.listData = k.listData) :
    Fits d k' ↔ Fits d k := by
  simp only [Fits, SameMarker, ht, hl]

section Closing
variable {T : Str → Prop} {G : Char → Prop}

theorem blockOk_of {L l len : Nat} {b : OpenBlk} (ho : OpenOk T G L b) (hl : firstLine b.data ≤ l)
    (hkids : ∀ t ∈ b.children, lastLine t.data ≤ l) (hlist : b.data.t = .list → b.children ≠ [])
    {d : NodeData} (ht : d.t = b.data.t) (hpos : d.sourcepos = (closeData l len b.data).sourcepos)
    (hld : d.listData = b.data.listData) (hopen : d.isOpen = false) (hd : DataOk T G d)
    (hdone : d.t = .codeBlock ∨ d.t = .htmlBlock → ∃ x, d.literal = some x) :
    EveryNode (BlockOk T G) (.node d b.children) ∧ firstLine d = firstLine b.data ∧ lastLine d = l := by
  have h1 : firstLine d = firstLine b.data := by
    rw [← firstLine_close l len b.data]; simp only [firstLine, hpos]
  have h2 : lastLine d = l := by
    rw [← lastLine_close l len ho.pos]; simp only [lastLine, hpos]
  refine ⟨everyNode_iff.2 ⟨⟨hd, hopen, ?_, ?_, ?_, ?_, ho.order, hdone⟩, ho.kids⟩, h1, h2⟩
  · intro k hk
    obtain ⟨t, ht', rfl⟩ := List.mem_map.1 hk
    exact (fits_congr ht hld).2 (ho.fits t ht')
  · intro h he
    exact hlist (ht ▸ h) (by simpa using he)
  · rw [h1, h2]; exact hl
  · intro k hk
    obtain ⟨t, ht', rfl⟩ := List.mem_map.1 hk
    rw [h1, h2]
    exact ⟨(ho.inside t ht').1, hkids t ht'⟩

theorem splitFirstLine_spec {s a r : Str} (h : splitFirstLine s = some (a, r)) : s = a ++ '\n' :: r := by
  simp only [splitFirstLine] at h
  split at h
  · cases h
  · rename_i c rest hd
    simp only [Option.some.injEq, Prod.mk.injEq] at h
    obtain ⟨rfl, rfl⟩ := h
    have h1 := List.takeWhile_append_dropWhile (p := fun x => x != '\n') (l := s)
    have h2 : c = '\n' := by
      have := List.head_dropWhile_not (p := fun x => x != '\n') (l := s) (by rw [hd]; simp)
      simp only [hd, List.head_cons] at this
      simpa using this
    rw [hd, h2] at h1
    exact h1.symm

/-- The result of closing a block. -/
structure ClosedAs (T : Str → Prop) (G : Char → Prop) (l : Nat) (d : NodeData) (t : Tree) : Prop where
  ok : EveryNode (BlockOk T G) t
  kind : t.data.t = d.t
  first : firstLine t.data = firstLine d
  last : lastLine t.data = l
  same : ∀ par, SameMarker par d → SameMarker par t.data

theorem close_ok (hG : CharsOk G) (hT : ∀ l, T l → Strs G l) {L l len : Nat} {b : OpenBlk}
    (ho : OpenOk T G L b) (hl : firstLine b.data ≤ l)
    (hkids : ∀ t ∈ b.children, lastLine t.data ≤ l) (hlist : b.data.t = .list → b.children ≠ [])
    {m m' : RefMap} (hm : RefsOk G m) {t : Option Tree}
    (h : finalizeBlock (closeData l len b.data) b.children m = .ok (t, m')) :
    RefsOk G m' ∧ (∀ k d, m.get k = some d → m'.get k = some d) ∧ (t = none → b.data.t = .paragraph) ∧
      ∀ t', t = some t' → ClosedAs T G l b.data t' := by
  obtain ⟨x, hx, hlines⟩ := ho.content
  have hxs : Strs G x := ho.data.chars x (Or.inl hx)
  -- closing without any change
  have plain : t = some (.node (closeData l len b.data) b.children) → m' = m →
      (b.data.t ≠ .codeBlock ∧ b.data.t ≠ .htmlBlock) →
      RefsOk G m' ∧ (∀ k d, m.get k = some d → m'.get k = some d) ∧ (t = none → b.data.t = .paragraph) ∧
        ∀ t', t = some t' → ClosedAs T G l b.data t' := by
    rintro rfl rfl hk
    refine ⟨hm, fun _ _ h => h, (fun h => by cases h), ?_⟩
    rintro t' h
    simp only [Option.some.injEq] at h
    subst h
    obtain ⟨h1, h2, h3⟩ := blockOk_of (len := len) ho hl hkids hlist (d := closeData l len b.data) rfl rfl rfl rfl
      (ho.data.close l len) (by
        rintro (h | h)
        · exact absurd h hk.1
        · exact absurd h hk.2)
    exact ⟨h1, rfl, h2, h3, fun par h => h⟩
  simp only [finalizeBlock] at h
  have ht : (closeData l len b.data).t = b.data.t := rfl
  have hsc : (closeData l len b.data).stringContent = some x := hx
  rw [ht] at h
  cases hk : b.data.t
  case list =>
    rw [hk] at h
    simp only [Except.ok.injEq, Prod.mk.injEq] at h
    obtain ⟨rfl, rfl⟩ := h
    refine ⟨hm, fun _ _ h => h, (fun h => by cases h), ?_⟩
    rintro t' h
    simp only [Option.some.injEq] at h
    subst h
    obtain ⟨h1, h2, h3⟩ := blockOk_of (len := len) ho hl hkids hlist (d := closeData l len b.data) rfl rfl rfl rfl
      (ho.data.close l len) (by
        rintro (h | h)
        · rw [ht, hk] at h; cases h
        · rw [ht, hk] at h; cases h)
    have hn := norm_finalizeList (closeData l len b.data) b.children
    have hnd : normData (finalizeList (closeData l len b.data) b.children).data = normData (closeData l len b.data) := by
      rw [← data_normTree, hn]; rfl
    refine ⟨?_, ?_, ?_, ?_, ?_⟩
    · rw [← everyNode_norm (flagless_blockOk T G), hn]
      exact (everyNode_norm (flagless_blockOk T G) (.node _ _)).2 h1
    · have := congrArg NodeData.t hnd; exact this
    · have := congrArg firstLine hnd; exact this.trans h2
    · have := congrArg lastLine hnd; exact this.trans h3
    · intro par hs
      rw [← sameMarker_norm, hnd, sameMarker_norm]
      exact hs
  case codeBlock =>
    rw [hk] at h
    simp only [finalizeCode, hsc] at h
    have hmake : ∀ d' : NodeData, d'.t = b.data.t → d'.sourcepos = (closeData l len b.data).sourcepos →
        d'.listData = b.data.listData → d'.isOpen = false → DataOk T G d' → (∃ x, d'.literal = some x) →
        t = some (.node d' b.children) → m' = m →
      RefsOk G m' ∧ (∀ k d, m.get k = some d → m'.get k = some d) ∧ (t = none → b.data.t = .paragraph) ∧
        ∀ t', t = some t' → ClosedAs T G l b.data t' := by
      rintro d' e1 e2 e3 e4 e5 e6 rfl rfl
      refine ⟨hm, fun _ _ h => h, (fun h => by cases h), ?_⟩
      rintro t' h
      simp only [Option.some.injEq] at h
      subst h
      obtain ⟨h1, h2, h3⟩ := blockOk_of (len := len) ho hl hkids hlist e1 e2 e3 e4 e5 (fun _ => e6)
      exact ⟨h1, e1, h2, h3, fun par h => (sameMarker_congr e3).2 h⟩
    have hc := ho.data.close l len
    rw [← hk]
    by_cases hf : (closeData l len b.data).isFenced = true
    · rw [if_pos hf] at h
      cases hsp : splitFirstLine x with
      | none => rw [hsp] at h; simp [bind, Except.bind] at h
      | some ar =>
        obtain ⟨first, rest⟩ := ar
        rw [hsp] at h
        simp only [bind, Except.bind, pure, Except.pure, Except.ok.injEq, Prod.mk.injEq] at h
        have he := splitFirstLine_spec hsp
        refine hmake _ ?_ ?_ ?_ ?_ ?_ ?_ h.1.symm h.2.symm
        · rfl
        · rfl
        · rfl
        · rfl
        · refine ⟨hc.kind, hc.level, hc.marker, hc.nomarker, ?_, ?_, ?_, hc.clean, hc.fence, hc.start⟩
          · intro h; rw [show (closeData l len b.data).t = .codeBlock from hk] at h; cases h
          · intro h; rw [show (closeData l len b.data).t = .codeBlock from hk] at h; cases h
          · rintro y (h | h | h)
            · cases h
            · simp only [Option.some.injEq] at h; subst h
              rw [he] at hxs
              intro ch hch; exact hxs ch (by simp [hch])
            · simp only [Option.some.injEq] at h; subst h
              refine hG.title _ (strs_strip ?_)
              rw [he] at hxs
              intro ch hch; exact hxs ch (by simp [hch])
        · exact ⟨_, rfl⟩
    · rw [if_neg hf] at h
      simp only [bind, Except.bind, pure, Except.pure, Except.ok.injEq, Prod.mk.injEq] at h
      refine hmake _ ?_ ?_ ?_ ?_ ?_ ?_ h.1.symm h.2.symm
      · rfl
      · rfl
      · rfl
      · rfl
      · refine ⟨hc.kind, hc.level, hc.marker, hc.nomarker, ?_, ?_, ?_, hc.clean, hc.fence, hc.start⟩
        · intro h; rw [show (closeData l len b.data).t = .codeBlock from hk] at h; cases h
        · intro h; rw [show (closeData l len b.data).t = .codeBlock from hk] at h; cases h
        · rintro y (h | h | h)
          · cases h
          · simp only [Option.some.injEq] at h; subst h
            exact sub_strs _ _ (fun _ _ => strs_single hG.nl) hxs
          · exact hc.chars y (Or.inr (Or.inr h))
      · exact ⟨_, rfl⟩
  case htmlBlock =>
    rw [hk] at h
    simp only [finalizeHtml, hsc, bind, Except.bind, pure, Except.pure, Except.ok.injEq, Prod.mk.injEq] at h
    obtain ⟨rfl, rfl⟩ := h
    refine ⟨hm, fun _ _ h => h, (fun h => by cases h), ?_⟩
    rintro t' h
    simp only [Option.some.injEq] at h
    subst h
    have hc := ho.data.close l len
    obtain ⟨h1, h2, h3⟩ := blockOk_of (len := len) ho hl hkids hlist
      (d := { closeData l len b.data with
        literal := some (reTrailNl.sub (fun _ => []) x), stringContent := none }) rfl rfl rfl rfl (by
        refine ⟨hc.kind, hc.level, hc.marker, hc.nomarker, ?_, ?_, ?_, hc.clean, hc.fence, hc.start⟩
        · intro h; rw [show (closeData l len b.data).t = .htmlBlock from hk] at h; cases h
        · intro h; rw [show (closeData l len b.data).t = .htmlBlock from hk] at h; cases h
        · rintro y (h | h | h)
          · cases h
          · simp only [Option.some.injEq] at h; subst h
            exact sub_strs _ _ (fun _ _ => strs_nil) hxs
          · exact hc.chars y (Or.inr (Or.inr h))) (fun _ => ⟨_, rfl⟩)
    exact ⟨h1, rfl, h2, h3, fun par h => h⟩
  case paragraph =>
    rw [hk] at h
    simp only [finalizeParagraph, hsc] at h
    cases hr : refLoop (x.length + 1) x m false with
    | error e => rw [hr] at h; simp [bind, Except.bind] at h
    | ok r =>
      obtain ⟨x', m1, has⟩ := r
      obtain ⟨r1, r2, ⟨n, r3⟩, r4⟩ := refLoop_spec hG _ _ _ _ _ _ _ hxs hm hr
      rw [hr] at h
      simp only [bind, Except.bind] at h
      by_cases hb : (has && isBlank x') = true
      · rw [if_pos hb] at h
        simp only [pure, Except.pure, Except.ok.injEq, Prod.mk.injEq, Option.map_none] at h
        obtain ⟨rfl, rfl⟩ := h
        exact ⟨r1, r2, fun _ => rfl, (fun t' h => by cases h)⟩
      · rw [if_neg hb] at h
        simp only [pure, Except.pure, Except.ok.injEq, Prod.mk.injEq, Option.map_some] at h
        obtain ⟨rfl, rfl⟩ := h
        refine ⟨r1, r2, (fun h => by cases h), ?_⟩
        rintro t' h
        simp only [Option.some.injEq] at h
        subst h
        have hc := ho.data.close l len
        obtain ⟨y, p1, p2, p3⟩ := hc.para hk
        obtain rfl : x = y := by rw [hsc] at p1; simpa using p1
        obtain ⟨h1, h2, h3⟩ := blockOk_of (len := len) ho hl hkids hlist
          (d := { closeData l len b.data with stringContent := some x' }) rfl rfl rfl rfl (by
            refine ⟨hc.kind, hc.level, hc.marker, hc.nomarker, ?_, ?_, ?_, hc.clean, hc.fence, hc.start⟩
            · intro _
              refine ⟨x', rfl, ?_, ?_⟩
              · rw [r3]; exact .drop n p2
              · rcases r4 with rfl | r4
                · exact p3
                · left
                  rcases p2.mem _ r4 with h | h | h
                  · exact absurd h (by decide)
                  · exact absurd h (by decide)
                  · exact h
            · intro h; rw [show (closeData l len b.data).t = .paragraph from hk] at h; cases h
            · rintro z (h | h | h)
              · simp only [Option.some.injEq] at h; subst h
                rw [r3]; exact strs_drop hxs n
              · exact hc.chars z (Or.inr (Or.inl h))
              · exact hc.chars z (Or.inr (Or.inr h))) (by
            rintro (h | h)
            · rw [show (closeData l len b.data).t = .paragraph from hk] at h; cases h
            · rw [show (closeData l len b.data).t = .paragraph from hk] at h; cases h)
        exact ⟨h1, rfl, h2, h3, fun par h => h⟩
  all_goals
    rw [hk] at h
    simp only [Except.ok.injEq, Prod.mk.injEq] at h
    rw [← hk]
    exact plain h.1.symm h.2.symm (by rw [hk]; simp)

end Closing

/-! ### Markers -/

theorem rstripBy_append {p : Char → Bool} {a b : Str} (hb : ∀ c ∈ b, p c = true)
    (ha : ∀ c, a.getLast? = some c → p c = false) : rstripBy p (a ++ b) = a := by
  simp only [rstripBy, List.reverse_append]
  rw [List.dropWhile_append_of_pos (by intro c hc; exact hb c (by simpa using hc))]
  cases h : a.reverse with
  | nil => simp only [List.reverse_eq_nil_iff] at h; subst h; rfl
  | cons x xs =>
    have hx : a.getLast? = some x := by
      rw [← List.head?_reverse, h]; rfl
    rw [List.dropWhile_cons_of_neg (by rw [ha x hx]; simp), ← h, List.reverse_reverse]

theorem lstripBy_of_head {p : Char → Bool} {a : Str} (ha : ∀ c, a.head? = some c → p c = false) :
    lstripBy p a = a := by
  cases a with
  | nil => rfl
  | cons x xs => exact List.dropWhile_cons_of_neg (by rw [ha x rfl]; simp)

theorem den_lit1 {n : Nat} {c : Char} {m t : Str} : Den n (.lit1 c) m t ↔ m = [c] := by
  simp only [Re.lit1, Den]
  constructor
  · rintro ⟨x, hx, rfl⟩; simp at hx; rw [hx]
  · rintro rfl; exact ⟨c, by simp, rfl⟩

/-- The text of an ATX marker. -/
theorem atx_marker {s m : Str} (h : reATXHeadingMarker.matchPrefix s = some m) :
    ∃ k, 1 ≤ k ∧ k ≤ 6 ∧ strip m = List.replicate k '#' := by
  obtain ⟨t, -, h⟩ := Re.matchPrefix_den h
  obtain ⟨m1, m2, rfl, h1, h2⟩ := h
  obtain ⟨a, b, c⟩ := (den_between_chr (by omega)).1 h1
  have hm1 := eq_replicate_of_all c
  have hm2 : ∀ c ∈ m2, isPySpace c = true := by
    rcases h2 with h2 | h2
    · intro c hc
      have := (den_plus_chr.1 h2).2 c hc
      simp only [isSpTab, Bool.or_eq_true, beq_iff_eq] at this
      rcases this with rfl | rfl <;> decide
    · obtain ⟨rfl, _⟩ := h2; simp
  refine ⟨m1.length, a, b, ?_⟩
  have hne : m1 ≠ [] := by rintro rfl; simp at a
  rw [strip, lstripBy_of_head, rstripBy_append hm2]
  · exact hm1
  · intro c hc
    have : c ∈ m1 := List.mem_of_getLast? hc
    rw [hm1] at this
    rw [List.eq_of_mem_replicate this]; decide
  · intro c hc
    have : c ∈ m1 := by
      cases m1 with
      | nil => exact absurd rfl hne
      | cons x xs => simp at hc; subst hc; simp
    rw [hm1] at this
    rw [List.eq_of_mem_replicate this]; decide

theorem atx_level {s m : Str} (h : reATXHeadingMarker.matchPrefix s = some m) :
    1 ≤ (strip m).length ∧ (strip m).length ≤ 6 := by
  obtain ⟨k, h1, h2, h3⟩ := atx_marker h
  rw [h3, List.length_replicate]; exact ⟨h1, h2⟩

/-- The text of a code fence. -/
theorem fence_marker {s m : Str} (h : reCodeFence.matchPrefix s = some m) :
    3 ≤ m.length ∧ (m = List.replicate m.length '`' ∨ m = List.replicate m.length '~') := by
  obtain ⟨t, -, h⟩ := Re.matchPrefix_den h
  rcases h with ⟨m1, m2, rfl, h1, h2⟩ | h
  · obtain ⟨rfl, _⟩ := h2
    obtain ⟨a, b⟩ := den_atLeast_chr.1 h1
    simp only [List.append_nil]
    exact ⟨a, Or.inl (eq_replicate_of_all b)⟩
  · obtain ⟨a, b⟩ := den_atLeast_chr.1 h
    exact ⟨a, Or.inr (eq_replicate_of_all b)⟩

theorem fence_head {s m : Str} (h : reCodeFence.matchPrefix s = some m) :
    m.head? = some '`' ∨ m.head? = some '~' := by
  obtain ⟨h1, h2⟩ := fence_marker h
  rcases h2 with h2 | h2
  · left; rw [h2]; cases hl : m.length with
    | zero => omega
    | succ n => rfl
  · right; rw [h2]; cases hl : m.length with
    | zero => omega
    | succ n => rfl

theorem pyDigitVal_le (c : Char) : pyDigitVal c ≤ 9 := by
  simp only [pyDigitVal]
  split
  · omega
  · omega

theorem pyInt_lt (s : Str) : pyInt s < 10 ^ s.length := by
  have : ∀ (s : Str) (a : Nat), s.foldl (fun a c => a * 10 + pyDigitVal c) a < (a + 1) * 10 ^ s.length := by
    intro s
    induction s with
    | nil => intro a; simp
    | cons c cs ih =>
      intro a
      simp only [List.foldl_cons, List.length_cons]
      have h1 := ih (a * 10 + pyDigitVal c)
      have h2 := pyDigitVal_le c
      have h3 : (a * 10 + pyDigitVal c + 1) * 10 ^ cs.length ≤ ((a + 1) * 10) * 10 ^ cs.length :=
        Nat.mul_le_mul_right _ (by omega)
      rw [Nat.pow_succ, Nat.mul_comm (10 ^ cs.length) 10, ← Nat.mul_assoc]
      omega
  have := this s 0
  simpa [pyInt] using this

/-- The text of an ordered list marker. -/
theorem ordered_marker {s m : Str} (h : reOrderedListMarker.matchPrefix s = some m) :
    ∃ ds c, m = ds ++ [c] ∧ 1 ≤ ds.length ∧ ds.length ≤ 9 ∧ (∀ x ∈ ds, isPyDigit x = true) ∧
      (c = '.' ∨ c = ')') := by
  obtain ⟨t, -, h⟩ := Re.matchPrefix_den h
  obtain ⟨m1, m2, rfl, h1, c, hc, rfl⟩ := h
  obtain ⟨a, b, d⟩ := (den_between_chr (by omega)).1 h1
  exact ⟨m1, c, rfl, a, b, d, by simpa using hc⟩

theorem markerOk_of {k : Kind} {s m : Str} {l : ListData}
    (h : listMarker k s = some (m, l.type, l.bulletChar, l.start, l.delimiter)) : MarkerOk l := by
  unfold listMarker at h
  split at h
  · cases h
  · rename_i c _
    split at h
    · rename_i hb
      simp only [Option.some.injEq, Prod.mk.injEq] at h
      obtain ⟨-, h1, h2, h3, h4⟩ := h
      left
      refine ⟨h1.symm, ?_, h3.symm, h4.symm⟩
      simp only [isBulletChar, Bool.or_eq_true, beq_iff_eq] at hb
      rw [← h2]
      rcases hb with (rfl | rfl) | rfl <;> simp
    · split at h
      · cases h
      · rename_i m' hm
        split at h
        · simp only [Option.some.injEq, Prod.mk.injEq] at h
          obtain ⟨-, h1, h2, h3, h4⟩ := h
          obtain ⟨ds, c, rfl, a, b, _, d⟩ := ordered_marker hm
          right
          refine ⟨h1.symm, h2.symm, ⟨_, h3.symm, ?_⟩, ?_⟩
          · rw [List.dropLast_concat]
            have h1 := pyInt_lt ds
            have h2 : 10 ^ ds.length ≤ 10 ^ 9 := Nat.pow_le_pow_right (by omega) b
            omega
          · rw [← h4, List.getLast?_concat]
            rcases d with rfl | rfl <;> simp
        · cases h

/-! ### Steps keep the invariant -/

section Steps
variable {T : Str → Prop} {G : Char → Prop}

theorem SpineOk.head_ok {L : Nat} {b : OpenBlk} {r : List OpenBlk} (h : SpineOk T G L (b :: r)) :
    OpenOk T G L b := by
  cases h with
  | doc _ h => exact h
  | cons h _ _ => exact h

theorem SpineOk.replace {L : Nat} {b b' : OpenBlk} {r : List OpenBlk} (h : SpineOk T G L (b :: r))
    (ho : OpenOk T G L b') (hdoc : b.data.t = .document → b'.data.t = .document)
    (hf : ∀ d, Fits d b.data → Fits d b'.data) (hl : firstLine b'.data = firstLine b.data) :
    SpineOk T G L (b' :: r) := by
  cases h with
  | doc h1 h2 => exact .doc ⟨hdoc h1.1, hl.trans h1.2⟩ ho
  | cons h1 h2 h3 => exact .cons ho ⟨hf _ h2.fits, hl ▸ h2.start, hl ▸ h2.order⟩ h3

/-- A leaf has no children. -/
theorem OpenOk.leaf {L : Nat} {b : OpenBlk} (h : OpenOk T G L b) (hw : ¬ wide b.data.t) (hl : b.data.t ≠ .list) :
    b.children = [] := by
  cases hc : b.children with
  | nil => rfl
  | cons t ts =>
    have := h.fits t (by rw [hc]; simp)
    rcases this with ⟨h, _⟩ | ⟨h, _⟩
    · exact absurd h hw
    · exact absurd h hl

/-- The parent of a block that was closed on line `l`. -/
theorem closed_parent {L L' l : Nat} {b par : OpenBlk} {up : List OpenBlk} {t : Option Tree}
    (h : SpineOk T G L (b :: par :: up)) (hL : L ≤ L') (hl : l < L')
    (hnone : t = none → b.data.t = .paragraph) (ht : ∀ t', t = some t' → ClosedAs T G l b.data t') :
    SpineOk T G L' ({ par with children := par.children ++ t.toList } :: up) ∧
      (par.data.t = .list → par.children ++ t.toList ≠ []) := by
  cases h with
  | cons h1 h2 h3 =>
    have ho := h3.head_ok.mono hL
    cases t with
    | none =>
      simp only [Option.toList_none, List.append_nil]
      refine ⟨h3.mono hL, ?_⟩
      intro hlist
      have := hnone rfl
      rcases h2.fits with ⟨hw, _⟩ | ⟨_, hi, _⟩
      · rw [hlist] at hw; rcases hw with h | h | h <;> cases h
      · rw [this] at hi; cases hi
    | some t =>
      have hc := ht t rfl
      refine ⟨SpineOk.replace (h3.mono hL) ?_ id (fun _ h => h) rfl, by simp⟩
      have hfit : Fits par.data t.data := by
        rcases h2.fits with ⟨hw, hk⟩ | ⟨hl, hi, hs⟩
        · exact Or.inl ⟨hw, by rw [hc.kind]; exact hk⟩
        · exact Or.inr ⟨hl, by rw [hc.kind]; exact hi, hc.same _ hs⟩
      refine ⟨ho.data, ho.content, ho.fresh, ho.pos, ?_, ?_, ho.start, ?_, ?_⟩
      · intro x hx
        rcases List.mem_append.1 hx with hx | hx
        · exact ho.kids x hx
        · simp at hx; subst hx; exact hc.ok
      · intro x hx
        rcases List.mem_append.1 hx with hx | hx
        · exact ho.fits x hx
        · simp at hx; subst hx; exact hfit
      · intro x hx
        rcases List.mem_append.1 hx with hx | hx
        · exact ho.inside x hx
        · simp at hx; subst hx
          rw [hc.first, hc.last]
          exact ⟨h2.start, hl⟩
      · simp only [Option.toList_some, List.map_append, List.map_cons, List.map_nil]
        rw [List.pairwise_append]
        refine ⟨ho.order, by simp, ?_⟩
        intro a ha x hx
        simp at hx; subst hx
        obtain ⟨t', ht', rfl⟩ := List.mem_map.1 ha
        rw [hc.first]
        exact h2.order t' ht'

/-- A new block on the current line. -/
theorem openOk_new {L : Nat} {d : NodeData} (hd : DataOk T G d)
    (hc : ∃ x, d.stringContent = some x ∧ (Lines T x ∨ d.t = .heading)) (hf : d.literal = none ∧ d.info = none)
    (hp : ∃ sp, d.sourcepos = some sp) (hl : firstLine d = L) : OpenOk T G L ⟨d, []⟩ :=
  ⟨hd, hc, hf, hp, by simp, by simp, Nat.le_of_eq hl, by simp, by simp⟩

theorem under_new {L : Nat} {par : OpenBlk} {d : NodeData} (ho : OpenOk T G L par) (hf : Fits par.data d)
    (hl : firstLine d = L) : Under par d :=
  ⟨hf, hl ▸ ho.start, fun t ht => hl ▸ (ho.inside t ht).2⟩

theorem fits_of_canContain {p d : NodeData} (h : canContain p.t d.t = true) (hk : d.t ∈ flowKinds) : Fits p d := by
  left
  refine ⟨?_, hk⟩
  have hni : d.t ≠ .item := by rintro h; rw [h] at hk; simp [flowKinds] at hk
  unfold canContain at h
  split at h
  · exact Or.inl (by assumption)
  · exact Or.inr (Or.inl (by assumption))
  · exact Or.inr (Or.inr (by assumption))
  · simp at h; exact absurd h hni
  · cases h

theorem strs_atxContent {s : Str} (h : Strs G s) : Strs G (atxContent s) :=
  sub_strs _ _ (fun _ _ => strs_nil) (sub_strs _ _ (fun _ _ => strs_nil) h)

theorem firstLine_atLine (t : Kind) (l c : Nat) : firstLine (atLine t l c) = l := rfl
theorem firstColumn_atLine (t : Kind) (l c : Nat) : firstColumn (atLine t l c) = c + 1 := rfl

/-- The data of a new block. -/
theorem newBlock_ok (hT : ∀ l, T l → Strs G l) (hsuf : ∀ l n, T l → T (l.drop n))
    {c : Core} (ht : T c.text) (hL : 1 ≤ c.line) {d : NodeData} (h : NewBlock c d) :
    DataOk T G d ∧ (∃ x, d.stringContent = some x ∧ (Lines T x ∨ d.t = .heading)) ∧
      (d.literal = none ∧ d.info = none) ∧ (∃ sp, d.sourcepos = some sp) ∧ firstLine d = c.line ∧
      d.t ∈ flowKinds ∧ d.t ≠ .list := by
  have hpos : ∀ col, 1 ≤ c.line ∧ 1 ≤ col + 1 := fun col => ⟨hL, by omega⟩
  cases h with
  | quote col hc hq =>
    refine ⟨⟨(by show Kind.blockQuote ∈ blockKinds; decide), (fun h => by cases h), (fun h => by rcases h with h | h <;> cases h), fun _ _ => rfl,
      (fun h => by cases h), (fun h => by cases h), ?_, ⟨rfl, rfl, rfl, rfl⟩, ⟨(fun h => by cases h), fun _ => rfl⟩,
      hpos col⟩, ⟨[], rfl, Or.inl .nil⟩, ⟨rfl, rfl⟩, ⟨_, rfl⟩, rfl, (by show Kind.blockQuote ∈ flowKinds; decide), (fun h => by cases h)⟩
    rintro x (h | h | h)
    · simp only [atLine, Option.some.injEq] at h; subst h; exact strs_nil
    · cases h
    · cases h
  | atx col m k hc hm =>
    refine ⟨⟨(by show Kind.heading ∈ blockKinds; decide), fun _ => ⟨_, rfl, (atx_level hm).1, (atx_level hm).2⟩, (fun h => by rcases h with h | h <;> cases h), fun _ _ => rfl,
      (fun h => by cases h), fun _ => ⟨_, rfl, Or.inr ⟨_, hsuf _ k ht, rfl⟩⟩, ?_, ⟨rfl, rfl, rfl, rfl⟩, ⟨(fun h => by cases h), fun _ => rfl⟩,
      hpos col⟩, ⟨_, rfl, Or.inr rfl⟩, ⟨rfl, rfl⟩, ⟨_, rfl⟩, rfl, (by show Kind.heading ∈ flowKinds; decide), (fun h => by cases h)⟩
    rintro x (h | h | h)
    · simp only [Option.some.injEq] at h; subst h; exact strs_atxContent (hT _ (hsuf _ k ht))
    · cases h
    · cases h
  | fenced col m k hc hm hk =>
    refine ⟨⟨(by show Kind.codeBlock ∈ blockKinds; decide), (fun h => by cases h), (fun h => by rcases h with h | h <;> cases h), fun _ _ => rfl,
      (fun h => by cases h), (fun h => by cases h), ?_, ⟨rfl, rfl, rfl, rfl⟩,
      ⟨fun _ => ⟨fence_head hm, (fence_marker hm).1, hk⟩, (fun h => by cases h)⟩,
      hpos col⟩, ⟨[], rfl, Or.inl .nil⟩, ⟨rfl, rfl⟩, ⟨_, rfl⟩, rfl, (by show Kind.codeBlock ∈ flowKinds; decide), (fun h => by cases h)⟩
    rintro x (h | h | h)
    · simp only [atLine, Option.some.injEq] at h; subst h; exact strs_nil
    · cases h
    · cases h
  | html col i hc h1 h7 =>
    refine ⟨⟨(by show Kind.htmlBlock ∈ blockKinds; decide), (fun h => by cases h), (fun h => by rcases h with h | h <;> cases h), fun _ _ => rfl,
      (fun h => by cases h), (fun h => by cases h), ?_, ⟨rfl, rfl, rfl, rfl⟩, ⟨(fun h => by cases h), fun _ => rfl⟩,
      hpos col⟩, ⟨[], rfl, Or.inl .nil⟩, ⟨rfl, rfl⟩, ⟨_, rfl⟩, rfl, (by show Kind.htmlBlock ∈ flowKinds; decide), (fun h => by cases h)⟩
    rintro x (h | h | h)
    · simp only [atLine, Option.some.injEq] at h; subst h; exact strs_nil
    · cases h
    · cases h
  | thematic col hc hm =>
    refine ⟨⟨(by show Kind.thematicBreak ∈ blockKinds; decide), (fun h => by cases h), (fun h => by rcases h with h | h <;> cases h), fun _ _ => rfl,
      (fun h => by cases h), (fun h => by cases h), ?_, ⟨rfl, rfl, rfl, rfl⟩, ⟨(fun h => by cases h), fun _ => rfl⟩,
      hpos col⟩, ⟨[], rfl, Or.inl .nil⟩, ⟨rfl, rfl⟩, ⟨_, rfl⟩, rfl, (by show Kind.thematicBreak ∈ flowKinds; decide), (fun h => by cases h)⟩
    rintro x (h | h | h)
    · simp only [atLine, Option.some.injEq] at h; subst h; exact strs_nil
    · cases h
    · cases h
  | indented col hc =>
    refine ⟨⟨(by show Kind.codeBlock ∈ blockKinds; decide), (fun h => by cases h), (fun h => by rcases h with h | h <;> cases h), fun _ _ => rfl,
      (fun h => by cases h), (fun h => by cases h), ?_, ⟨rfl, rfl, rfl, rfl⟩, ⟨(fun h => by cases h), fun _ => rfl⟩,
      hpos col⟩, ⟨[], rfl, Or.inl .nil⟩, ⟨rfl, rfl⟩, ⟨_, rfl⟩, rfl, (by show Kind.codeBlock ∈ flowKinds; decide), (fun h => by cases h)⟩
    rintro x (h | h | h)
    · simp only [atLine, Option.some.injEq] at h; subst h; exact strs_nil
    · cases h
    · cases h

/-- A new list or item. -/
theorem newList_ok {c : Core} (hL : 1 ≤ c.line) {col : Nat} {l : ListData} (hl : MarkerAt c col l)
    {k : Kind} (hk : k = .list ∨ k = .item) : DataOk T G { atLine k c.line col with listData := some l } := by
  have hm : MarkerOk l := by
    obtain ⟨k, m, h, _⟩ := hl.marker
    exact markerOk_of h
  refine ⟨?_, ?_, fun _ => ⟨l, rfl, hm⟩, ?_, ?_, ?_, ?_, ⟨rfl, rfl, rfl, rfl⟩, ⟨(fun h => by cases h), fun _ => rfl⟩,
    ⟨hL, Nat.succ_pos _⟩⟩
  · show k ∈ blockKinds
    rcases hk with rfl | rfl <;> decide
  · intro h; rcases hk with rfl | rfl <;> cases h
  · intro h1 h2; rcases hk with rfl | rfl
    · exact absurd rfl h1
    · exact absurd rfl h2
  · intro h; rcases hk with rfl | rfl <;> cases h
  · intro h; rcases hk with rfl | rfl <;> cases h
  · rintro x (h | h | h)
    · simp only [atLine, Option.some.injEq] at h; subst h; exact strs_nil
    · cases h
    · cases h

theorem dataOk_flag {d : NodeData} (flag : Bool) (h : DataOk T G d) : DataOk T G { d with lastLineBlank := flag } :=
  ⟨h.kind, h.level, h.marker, h.nomarker, h.para, h.head, h.chars, h.clean, h.fence, h.start⟩

/-- Flags do not matter. -/
theorem openOk_flag {L : Nat} {b : OpenBlk} {cs : List Tree} (flag : Bool) (h : OpenOk T G L b)
    (hn : normList cs = normList b.children) :
    OpenOk T G L ⟨{ b.data with lastLineBlank := flag }, cs⟩ := by
  rw [normList_eq_map, normList_eq_map] at hn
  have hmem : ∀ t ∈ cs, ∃ t' ∈ b.children, normTree t = normTree t' := by
    intro t ht
    have : normTree t ∈ b.children.map normTree := by rw [← hn]; exact List.mem_map_of_mem ht
    obtain ⟨t', h1, h2⟩ := List.mem_map.1 this
    exact ⟨t', h1, h2.symm⟩
  refine ⟨dataOk_flag flag h.data, h.content, h.fresh, h.pos, ?_, ?_, h.start, ?_, ?_⟩
  · intro t ht
    obtain ⟨t', h1, h2⟩ := hmem t ht
    rw [← everyNode_norm (flagless_blockOk T G), h2, everyNode_norm (flagless_blockOk T G)]
    exact h.kids t' h1
  · intro t ht
    obtain ⟨t', h1, h2⟩ := hmem t ht
    have h3 : normData t.data = normData t'.data := by rw [← data_normTree, ← data_normTree, h2]
    rw [← fits_norm, h3]
    exact (fits_norm b.data t'.data).2 (h.fits t' h1)
  · intro t ht
    obtain ⟨t', h1, h2⟩ := hmem t ht
    have h3 : normData t.data = normData t'.data := by rw [← data_normTree, ← data_normTree, h2]
    have h4 : firstLine t.data = firstLine t'.data := by have := congrArg firstLine h3; exact this
    have h5 : lastLine t.data = lastLine t'.data := by have := congrArg lastLine h3; exact this
    rw [h4, h5]
    exact h.inside t' h1
  · have e : ∀ ts : List Tree, (ts.map Tree.data).Pairwise (fun a b => lastLine a < firstLine b) ↔
        (ts.map normTree).Pairwise (fun a b => lastLine a.data < firstLine b.data) := by
      intro ts
      rw [List.pairwise_map, List.pairwise_map]
      have : ∀ a b : Tree, (lastLine (normTree a).data < firstLine (normTree b).data) ↔
          (lastLine a.data < firstLine b.data) := by
        intro a b; rw [data_normTree, data_normTree]; exact Iff.rfl
      simp only [this]
    rw [e, hn, ← e]
    exact h.order

theorem under_flag {par : OpenBlk} {d : NodeData} (f1 f2 : Bool) (h : Under par d) :
    Under ⟨{ par.data with lastLineBlank := f1 }, par.children⟩ { d with lastLineBlank := f2 } :=
  ⟨h.fits, h.start, h.order⟩

theorem spine_flag {L : Nat} (flag : Bool) {sp : List OpenBlk} (h : SpineOk T G L sp) :
    SpineOk T G L (sp.map fun x => { x with data := { x.data with lastLineBlank := flag } }) := by
  induction h with
  | doc h1 h2 => exact .doc h1 (openOk_flag flag h2 rfl)
  | cons h1 h2 _ ih => exact .cons (openOk_flag flag h1 rfl) (under_flag flag flag h2) ih

theorem lines_add {c : Core} (hsuf : ∀ l n, T l → T (l.drop n)) (ht : T c.text) {x : Str} (hx : Lines T x)
    (k off : Nat) : Lines T (x ++ lineText c k off) := .line k hx (hsuf _ off ht)

/-- Every step keeps the invariant, and only adds to the reference map. -/
theorem step_inv (hG : CharsOk G) (hT : ∀ l, T l → Strs G l) (hsuf : ∀ l n, T l → T (l.drop n))
    {c c' : Core} (h : Inv T G c.line c) (ht : T c.text) (hL : 1 ≤ c.line) (hs : Step c c') :
    Inv T G c.line c' ∧ ∀ k d, c.refmap.get k = some d → c'.refmap.get k = some d := by
  have hsp := h.spine
  have htip := h.tip
  have hrf := h.refs
  have mono0 : ∀ k d, c.refmap.get k = some d → c.refmap.get k = some d := fun _ _ h => h
  cases hs with
  | @close l b par up t m e1 e2 e3 e4 =>
    rw [e1] at hsp htip
    have ho := hsp.head_ok
    obtain ⟨r1, r2, r3, r4⟩ := close_ok hG hT ho e2 (fun t ht => by have := (ho.inside t ht).2; omega)
      (htip b rfl) hrf e4
    obtain ⟨q1, q2⟩ := closed_parent hsp (Nat.le_refl _) (by omega) r3 r4
    refine ⟨⟨q1, ?_, r1⟩, r2⟩
    intro b' hb'
    simp only [List.head?_cons, Option.mem_def, Option.some.injEq] at hb'
    subst hb'
    exact q2
  | @push b r d e1 e2 e3 =>
    obtain ⟨n1, n2, n3, n4, n5, n6, n7⟩ := newBlock_ok hT hsuf ht hL e3
    rw [e1] at hsp
    refine ⟨⟨?_, ?_, hrf⟩, mono0⟩
    · show SpineOk T G c.line (⟨d, []⟩ :: c.spine)
      rw [e1]
      exact .cons (openOk_new n1 n2 n3 n4 n5) (under_new hsp.head_ok (fits_of_canContain e2 n6) n5) hsp
    · intro b' hb'
      simp only [List.head?_cons, Option.mem_def, Option.some.injEq] at hb'
      subst hb'
      intro h; exact absurd h n7
  | @paragraph b r ch off e1 e2 e3 e4 e5 =>
    rw [e1] at hsp
    have hmem : ch ∈ c.text := List.mem_of_getElem? e3
    have hx : Lines T (lineText c 0 off) := by
      have := lines_add hsuf ht .nil 0 off
      simpa using this
    have hin : ch ∈ lineText c 0 off := by
      simp only [lineText, List.replicate_zero, List.nil_append, List.mem_append]
      left
      have : (c.text.drop off)[0]? = some ch := by rw [List.getElem?_drop]; simpa using e3
      exact List.mem_of_getElem? this
    refine ⟨⟨?_, ?_, hrf⟩, mono0⟩
    · show SpineOk T G c.line (_ :: c.spine)
      rw [e1]
      refine .cons (openOk_new ?_ ⟨_, rfl, Or.inl hx⟩ ⟨rfl, rfl⟩ ⟨_, rfl⟩ rfl)
        (under_new hsp.head_ok (fits_of_canContain e2 (by simp [setContent, atLine, flowKinds])) rfl) hsp
      refine ⟨(by show Kind.paragraph ∈ blockKinds; decide), (fun h => by cases h), (fun h => by rcases h with h | h <;> cases h), fun _ _ => rfl,
        fun _ => ⟨_, rfl, hx, Or.inr ⟨_, ch, ht, hmem, hin, e4, e5⟩⟩, (fun h => by cases h), ?_, ⟨rfl, rfl, rfl, rfl⟩,
        ⟨(fun h => by cases h), fun _ => rfl⟩, ⟨hL, Nat.succ_pos _⟩⟩
      rintro x (h | h | h)
      · simp only [setContent, Option.some.injEq] at h; subst h
        exact hx.strs hT hG.space hG.nl
      · cases h
      · cases h
    · intro b' hb'
      simp only [List.head?_cons, Option.mem_def, Option.some.injEq] at hb'
      subst hb'
      intro h; cases h
  | @pushItem b r col l e1 e2 e3 e4 =>
    rw [e1] at hsp
    have hs : SameMarker b.data { atLine .item c.line col with listData := some l } := by
      unfold listsMatch at e3
      split at e3
      · cases e3
      · rename_i a ha
        simp only [Bool.and_eq_true, beq_iff_eq] at e3
        exact ⟨a, l, ha, rfl, e3.1.1, e3.1.2, e3.2⟩
    refine ⟨⟨?_, ?_, hrf⟩, mono0⟩
    · show SpineOk T G c.line (_ :: c.spine)
      rw [e1]
      refine .cons (openOk_new (newList_ok hL e4 (Or.inr rfl)) ⟨[], rfl, Or.inl .nil⟩ ⟨rfl, rfl⟩ ⟨_, rfl⟩ rfl)
        (under_new hsp.head_ok (Or.inr ⟨e2, rfl, hs⟩) rfl) hsp
    · intro b' hb'
      simp only [List.head?_cons, Option.mem_def, Option.some.injEq] at hb'
      subst hb'
      intro h; cases h
  | @pushList b r col l e1 e2 e3 =>
    rw [e1] at hsp
    have hlist : OpenOk T G c.line ⟨{ atLine .list c.line col with listData := some l }, []⟩ :=
      openOk_new (newList_ok hL e3 (Or.inl rfl)) ⟨[], rfl, Or.inl .nil⟩ ⟨rfl, rfl⟩ ⟨_, rfl⟩ rfl
    refine ⟨⟨?_, ?_, hrf⟩, mono0⟩
    · show SpineOk T G c.line (_ :: _ :: c.spine)
      rw [e1]
      refine .cons (openOk_new (newList_ok hL e3 (Or.inr rfl)) ⟨[], rfl, Or.inl .nil⟩ ⟨rfl, rfl⟩ ⟨_, rfl⟩ rfl)
        (under_new hlist (Or.inr ⟨rfl, rfl, l, l, rfl, rfl, rfl, rfl, rfl⟩) rfl)
        (.cons hlist (under_new hsp.head_ok (fits_of_canContain e2 (by simp [setContent, atLine, flowKinds])) rfl) hsp)
    · intro b' hb'
      simp only [List.head?_cons, Option.mem_def, Option.some.injEq] at hb'
      subst hb'
      intro h; cases h
  | @addLine b r x k off e1 e2 e3 =>
    rw [e1] at hsp htip
    have ho := hsp.head_ok
    have hnh : b.data.t ≠ .heading := by rintro h; rw [h] at e2; cases e2
    obtain ⟨y, hy, hl⟩ := ho.content
    obtain rfl : x = y := by rw [e3] at hy; simpa using hy
    have hx : Lines T x := hl.resolve_right hnh
    have hx' := lines_add hsuf ht hx k off
    refine ⟨⟨?_, ?_, hrf⟩, mono0⟩
    · refine hsp.replace ?_ (fun h => h) (fun _ h => h) rfl
      have hd := ho.data
      refine ⟨⟨hd.kind, hd.level, hd.marker, hd.nomarker, ?_, ?_, ?_, hd.clean, hd.fence, hd.start⟩,
        ⟨_, rfl, Or.inl hx'⟩, ho.fresh, ho.pos, ho.kids, ho.fits, ho.start, ho.inside, ho.order⟩
      · intro hp
        obtain ⟨y, p1, p2, p3⟩ := hd.para hp
        obtain rfl : x = y := by rw [e3] at p1; simpa using p1
        refine ⟨_, rfl, hx', ?_⟩
        rcases p3 with p3 | ⟨l, ch, q1, q2, q3, q4⟩
        · exact Or.inl p3
        · exact Or.inr ⟨l, ch, q1, q2, List.mem_append_left _ q3, q4⟩
      · intro h; exact absurd h hnh
      · rintro z (h | h | h)
        · simp only [setContent, Option.some.injEq] at h; subst h
          exact hx'.strs hT hG.space hG.nl
        · exact hd.chars z (Or.inr (Or.inl h))
        · exact hd.chars z (Or.inr (Or.inr h))
    · intro b' hb'
      simp only [List.head?_cons, Option.mem_def, Option.some.injEq] at hb'
      subst hb'
      exact htip b rfl
  | @flags b r blank flag e1 =>
    rw [e1] at hsp htip
    refine ⟨⟨?_, ?_, hrf⟩, mono0⟩
    · show SpineOk T G c.line (flagSpine blank flag b r)
      refine spine_flag flag ?_
      cases blank with
      | false => exact hsp
      | true =>
        refine hsp.replace (b' := { b with children := markLastChild b.children }) ?_ id (fun _ h => h) rfl
        exact openOk_flag b.data.lastLineBlank hsp.head_ok (norm_markLast _)
    · intro b' hb'
      simp only [flagSpine, List.map_cons, List.head?_cons, Option.mem_def, Option.some.injEq] at hb'
      subst hb'
      intro h
      have hne := htip b rfl (by cases blank <;> exact h)
      cases blank with
      | false => exact hne
      | true =>
        simp only [if_true]
        intro he
        have := norm_markLast b.children
        rw [he] at this
        rw [normList_eq_map, normList_eq_map] at this
        simp at this
        exact hne this
  | @refs b r x m has e1 e2 e3 e4 =>
    rw [e1] at hsp htip
    have ho := hsp.head_ok
    have hd := ho.data
    have hxs : Strs G x := hd.chars x (Or.inl e3)
    obtain ⟨r1, r2, ⟨n, r3⟩, r4⟩ := refLoop_spec hG _ _ _ _ _ _ _ hxs hrf e4
    refine ⟨⟨?_, ?_, r1⟩, r2⟩
    · refine hsp.replace ?_ (fun h => h) (fun _ h => h) rfl
      refine ⟨⟨hd.kind, hd.level, hd.marker, hd.nomarker, ?_, ?_, ?_, hd.clean, hd.fence, hd.start⟩,
        ⟨_, rfl, Or.inl .nil⟩, ho.fresh, ho.pos, ho.kids, ho.fits, ho.start, ho.inside, ho.order⟩
      · intro hp
        refine ⟨_, rfl, .nil, Or.inl ?_⟩
        obtain ⟨y, p1, p2, p3⟩ := hd.para e2
        obtain rfl : x = y := by rw [e3] at p1; simpa using p1
        rcases r4 with r4 | r4
        · rcases p3 with p3 | ⟨_, ch, _, _, q3, _⟩
          · exact p3
          · rw [← r4] at q3; simp at q3
        · rcases p2.mem _ r4 with h | h | h
          · exact absurd h (by decide)
          · exact absurd h (by decide)
          · exact h
      · intro h; rw [show b.data.t = .paragraph from e2] at h; cases h
      · rintro z (h | h | h)
        · simp only [Option.some.injEq] at h; subst h; exact strs_nil
        · exact hd.chars z (Or.inr (Or.inl h))
        · exact hd.chars z (Or.inr (Or.inr h))
    · intro b' hb'
      simp only [List.head?_cons, Option.mem_def, Option.some.injEq] at hb'
      subst hb'
      intro h; rw [show b.data.t = .paragraph from e2] at h; cases h
  | @setext b r x x' m has lvl e1 e2 e3 e4 e5 e6 e7 e8 =>
    rw [e1] at hsp htip
    have ho := hsp.head_ok
    have hd := ho.data
    have hxs : Strs G x := hd.chars x (Or.inl e3)
    obtain ⟨r1, r2, ⟨n, r3⟩, r4⟩ := refLoop_spec hG _ _ _ _ _ _ _ hxs hrf e4
    obtain ⟨y, p1, p2, p3⟩ := hd.para e2
    obtain rfl : x = y := by rw [e3] at p1; simpa using p1
    have hlines : Lines T x' := by rw [r3]; exact .drop n p2
    have hlvl : 1 ≤ lvl ∧ lvl ≤ 6 := by omega
    refine ⟨⟨?_, ?_, r1⟩, r2⟩
    · refine hsp.replace ?_ (fun h => by rw [e2] at h; cases h) ?_ rfl
      · refine ⟨⟨(by show Kind.heading ∈ blockKinds; decide), fun _ => ⟨lvl, rfl, hlvl⟩, (fun h => by rcases h with h | h <;> cases h), fun _ _ => rfl,
          (fun h => by cases h), fun _ => ⟨x', rfl, Or.inl hlines⟩, ?_, ⟨rfl, rfl, rfl, rfl⟩,
          ⟨(fun h => by cases h), fun _ => rfl⟩, hd.start⟩, ⟨_, rfl, Or.inr rfl⟩, ⟨rfl, rfl⟩, ho.pos,
          by simp, by simp, ho.start, by simp, by simp⟩
        rintro z (h | h | h)
        · simp only [setextData, Option.some.injEq] at h; subst h
          rw [r3]; exact strs_drop hxs n
        · cases h
        · cases h
      · rintro d (⟨h1, h2⟩ | ⟨_, h2, _⟩)
        · exact Or.inl ⟨h1, (by show Kind.heading ∈ flowKinds; decide)⟩
        · rw [e2] at h2; cases h2
    · intro b' hb'
      simp only [List.head?_cons, Option.mem_def, Option.some.injEq] at hb'
      subst hb'
      intro h; cases h

theorem steps_inv (hG : CharsOk G) (hT : ∀ l, T l → Strs G l) (hsuf : ∀ l n, T l → T (l.drop n))
    {c c' : Core} (h : Inv T G c.line c) (ht : T c.text) (hL : 1 ≤ c.line) (hs : Steps c c') :
    Inv T G c.line c' ∧ ∀ k d, c.refmap.get k = some d → c'.refmap.get k = some d := by
  induction hs with
  | refl => exact ⟨h, fun _ _ h => h⟩
  | tail hs hstep ih =>
    obtain ⟨e1, e2, _⟩ := steps_core_line hs
    have := step_inv hG hT hsuf (by rw [e1]; exact ih.1) (by rw [e2]; exact ht) (by rw [e1]; exact hL) hstep
    rw [e1] at this
    exact ⟨this.1, fun k d hk => this.2 k d (ih.2 k d hk)⟩

theorem lineSteps_inv (hG : CharsOk G) (hT : ∀ l, T l → Strs G l) (hsuf : ∀ l n, T l → T (l.drop n))
    {c c' : Core} (h : Inv T G c.line c) (ht : T c.text) (hL : 1 ≤ c.line) (hs : LineSteps c c') :
    Inv T G (c.line + 1) c' ∧ ∀ k d, c.refmap.get k = some d → c'.refmap.get k = some d := by
  cases hs with
  | steps hs =>
    have := steps_inv hG hT hsuf h ht hL hs
    exact ⟨this.1.mono (by omega), this.2⟩
  | @final c1 _ hs hf =>
    obtain ⟨h1, h2⟩ := steps_inv hG hT hsuf h ht hL hs
    obtain ⟨e1, e2, _⟩ := steps_core_line hs
    cases hf with
    | @close b par up t m f1 f2 f3 f4 =>
      have hsp := h1.spine
      have htip := h1.tip
      rw [f1] at hsp htip
      have ho := hsp.head_ok
      obtain ⟨r1, r2, r3, r4⟩ := close_ok hG hT ho f2
        (fun t ht => by have := (ho.inside t ht).2; omega) (htip b rfl) h1.refs f4
      obtain ⟨q1, q2⟩ := closed_parent hsp (Nat.le_succ _) (by omega) r3 r4
      refine ⟨⟨q1, ?_, r1⟩, fun k d hk => r2 k d (h2 k d hk)⟩
      intro b' hb'
      simp only [List.head?_cons, Option.mem_def, Option.some.injEq] at hb'
      subst hb'
      exact q2

theorem docNode_ok : OpenOk T G 1 ⟨docNode, []⟩ := by
  refine ⟨⟨by decide, (fun h => by cases h), (fun h => by rcases h with h | h <;> cases h), fun _ _ => rfl,
    (fun h => by cases h), (fun h => by cases h), ?_, ⟨rfl, rfl, rfl, rfl⟩, ⟨(fun h => by cases h), fun _ => rfl⟩,
    by decide⟩, ⟨[], rfl, Or.inl .nil⟩, ⟨rfl, rfl⟩, ⟨_, rfl⟩, by simp, by simp, by decide, by simp, by simp⟩
  rintro x (h | h | h)
  · simp only [docNode, Option.some.injEq] at h; subst h; exact strs_nil
  · cases h
  · cases h

theorem reaches_inv (hG : CharsOk G) (hT : ∀ l, T l → Strs G l) (hsuf : ∀ l n, T l → T (l.drop n))
    (hnil : T []) {ls : List Str} {c : Core} (h : Reaches ls c)
    (hls : ∀ ln ∈ ls, T (replaceChar (Char.ofNat 0) (Char.ofNat 0xFFFD) ln)) :
    Inv T G (c.line + 1) c ∧ T c.text := by
  induction h with
  | nil =>
    refine ⟨⟨.doc ⟨rfl, rfl⟩ docNode_ok, ?_, ?_⟩, hnil⟩
    · intro b hb
      simp only [startCore, List.head?_cons, Option.mem_def, Option.some.injEq] at hb
      subst hb
      intro h; cases h
    · intro k d h
      simp [startCore, RefMap.get] at h
  | @line ls c c' ln _ hs ih =>
    obtain ⟨ih1, ih2⟩ := ih (fun l hl => hls l (List.mem_append_left _ hl))
    have ht : T (nextLine c ln).text := hls ln (by simp)
    have hi : Inv T G (nextLine c ln).line (nextLine c ln) := ⟨ih1.spine, ih1.tip, ih1.refs⟩
    obtain ⟨h1, _⟩ := lineSteps_inv hG hT hsuf hi ht (Nat.succ_pos _) hs
    obtain ⟨e1, e2, _⟩ := lineSteps_core_line hs
    refine ⟨?_, ?_⟩
    · show Inv T G (c'.line + 1) _
      rw [e1]
      exact ⟨h1.spine, h1.tip, h1.refs⟩
    · show T c'.text
      rw [e2]; exact ht

theorem inputLines_ne_nil (s : Str) : inputLines s ≠ [] := by
  unfold inputLines
  dsimp only
  split
  · rename_i h
    simp only [beq_iff_eq] at h
    obtain ⟨a, rfl⟩ := List.getLast?_eq_some_iff.1 h
    have key : ∀ a : Str, (splitLineEndings (a ++ ['\n'])).dropLast ≠ [] := by
      intro a
      have : 2 ≤ (splitLineEndings (a ++ ['\n'])).length := by
        suffices ∀ n (a : Str), a.length ≤ n → 2 ≤ (splitLineEndings (a ++ ['\n'])).length from
          this a.length a (Nat.le_refl _)
        intro n
        induction n with
        | zero => intro a ha; cases a with
          | nil => decide
          | cons => simp at ha
        | succ n ih =>
          intro a ha
          cases a with
          | nil => decide
          | cons x xs =>
            have hih := ih xs (by simpa using ha)
            by_cases hr : x = '\r'
            · subst hr
              cases xs with
              | nil => decide
              | cons y ys =>
                by_cases hy : y = '\n'
                · subst hy
                  rw [List.cons_append, List.cons_append, split_crlf]
                  have := ih ys (by simp at ha; omega)
                  simp only [List.length_cons]; omega
                · rw [List.cons_append, split_cr _ (by simpa using hy)]
                  simp only [List.length_cons]; omega
            · by_cases hn : x = '\n'
              · subst hn
                rw [List.cons_append, split_lf]
                simp only [List.length_cons]; omega
              · rw [List.cons_append, split_other hn hr]
                split
                · rename_i e; rw [e] at hih; simp at hih
                · rename_i e; rw [e] at hih; simpa using hih
      intro e
      have := congrArg List.length e
      simp at this
      omega
    exact key a
  · exact split_ne_nil s

/-- The result of the block phase. -/
theorem blockPhase_tree (hG : CharsOk G) (hT : ∀ l, T l → Strs G l) (hsuf : ∀ l n, T l → T (l.drop n))
    (hnil : T []) (p : PState) (s : Str)
    (hls : ∀ ln ∈ inputLines s, T (replaceChar (Char.ofNat 0) (Char.ofNat 0xFFFD) ln)) :
    ∃ p' d cs, blockPhase p s = .ok p' ∧ p'.spine = [] ∧ p'.doc = some (.node d cs) ∧
      EveryNode (BlockOk T G) (.node d cs) ∧ d.t = .document ∧ firstLine d = 1 ∧
      lastLine d = (inputLines s).length ∧ RefsOk G p'.refmap := by
  obtain ⟨p', c, c2, b, h1, h2, h3, h4, h5, h6, h7, h8, h9⟩ := blockPhase_ok p s
  obtain ⟨i1, i2⟩ := reaches_inv hG hT hsuf hnil h2 hls
  have hi : Inv T G ({ c with line := c.line + 1 } : Core).line { c with line := c.line + 1 } :=
    ⟨i1.spine, i1.tip, i1.refs⟩
  obtain ⟨j1, j2⟩ := steps_inv hG hT hsuf hi i2 (Nat.succ_pos _) (Relation.ReflTransGen.mono (fun _ _ h => Closing.step h) _ _ h3)
  have hsp := j1.spine
  rw [h4] at hsp
  have ho := hsp.head_ok
  have hll := h2.line_eq
  have hlen : 1 ≤ (inputLines s).length := List.length_pos_iff.2 (inputLines_ne_nil s)
  have hfirst : firstLine b.data = 1 := by cases hsp with | doc h _ => exact h.2
  obtain ⟨q1, q2, q3⟩ := blockOk_of (l := (inputLines s).length) (len := c2.prevLen) ho (by omega)
    (fun t ht => by have := (ho.inside t ht).2; simp only at this; omega) (fun h => by rw [h5] at h; cases h)
    (d := closeData (inputLines s).length c2.prevLen b.data) rfl rfl rfl rfl (ho.data.close _ _)
    (by
      show b.data.t = _ ∨ b.data.t = _ → _
      rw [h5]; rintro (h | h) <;> cases h)
  exact ⟨p', _, _, h1, h7, h8, q1, h5, q2.trans hfirst, q3, by rw [h9]; exact j1.refs⟩

end Steps

end CM
