import Verif.Proofs.Join
/-
Runs over the lines of a document (C57), and one document after the other.
-/
namespace CM
open Spec

/-- Related open blocks, the last of which are the container and what it is in. -/
theorem SpineRel.parts {X : Sim} {P : List OpenBlk} {b : OpenBlk} : ∀ {S : List OpenBlk}, SpineRel X (P ++ [b]) S →
    ∃ P' b' O cs, S = P' ++ b' :: O ∧ List.Forall₂ (fun a a' => erase X.φ a = erase X.ψ a') P P' ∧ erL X.φ b.children = erL X.ψ cs ∧
      b'.children = X.A ++ cs ∧ { b'.data with lastLineBlank := false } = X.β ∧ O.map unflag = X.o ∧
      ∀ x ∈ b' :: O, X.flag b.data.lastLineBlank x.data.lastLineBlank := by
  induction P with
  | nil =>
    intro S h
    rw [List.nil_append] at h
    cases h with
    | @base _ b' O cs h1 h2 h3 h4 h5 h6 => exact ⟨[], b', O, cs, rfl, .nil, h2, h3, h4, h5, h6⟩
    | cons _ h => cases h
  | cons a P ih =>
    intro S h
    rw [List.cons_append] at h
    generalize hr : P ++ [b] = r at h
    cases h with
    | base => simp at hr
    | cons h1 h2 =>
      rw [← hr] at h2
      obtain ⟨P', b', O, cs, rfl, e1, e2⟩ := ih h2
      exact ⟨_ :: P', b', O, cs, rfl, .cons h1 e1, e2⟩

/-- What closing the blocks of the first run says about the second. -/
structure Follow (X : Sim) (p q : PState) (P : List OpenBlk) (b : OpenBlk) (cs : List Tree) (P' : List OpenBlk) (b' : OpenBlk) (O : List OpenBlk)
    (cs' : List Tree) : Prop where
  spine : q.spine = P' ++ b' :: O
  same : List.Forall₂ (fun a a' => erase X.φ a = erase X.ψ a') P P'
  data : { b'.data with lastLineBlank := false } = X.β
  outer : O.map unflag = X.o
  flag : ∀ x ∈ b' :: O, X.flag b.data.lastLineBlank x.data.lastLineBlank
  blocks : erL X.φ cs = erL X.ψ cs'
  refmap : q.refmap = []
  close : ∀ f : PState, f.spine = q.spine → f.refmap = [] → f.lastLineLength = q.lastLineLength →
    closeN q.lineNumber P'.length f = .ok { f with spine := { b' with children := X.A ++ cs' } :: O }

theorem follow_of {X : Sim} (hX : X.Ok) {p q : PState} (h : Sp X p q) {P : List OpenBlk} {b : OpenBlk} {cs : List Tree} (hc : Closes p P b cs)
    (hr : X.ref [] = []) : ∃ P' b' O cs', Follow X p q P b cs P' b' O cs' := by
  have hsp := h.spine
  rw [hc.spine] at hsp
  obtain ⟨P', b', O, cs0, e1, e2, e3, e4, e5, e6, e7⟩ := hsp.parts
  have hlen : P'.length = P.length := (List.Forall₂.length_eq e2).symm
  have hq : q.refmap = [] := by rw [h.refmap, hc.refmap, hr]
  obtain ⟨q', g1, g2⟩ := closeN_sp hX p.lineNumber h.line h.low P.length h (by rw [hc.spine]; simp) _ hc.close
  obtain ⟨S, m, f1, f2, f3, f4, f5⟩ := closeN_run _ g1 (by rw [e1, ← hlen]; simp)
  have hd : q.spine.drop P.length = b' :: O := by rw [e1, ← hlen, List.drop_left]
  rw [hd] at f3 f4
  have hm : m = [] := by
    have := g2.refmap
    rw [f1] at this
    exact this.trans (by rw [← hr]; exact congrArg X.ref hc.refmap)
  have hsp' := g2.spine
  rw [f1] at hsp'
  have hsp' : SpineRel X [{ b with children := cs }] S := hsp'
  generalize hB : ({ b with children := cs } : OpenBlk) = B at hsp'
  cases hsp' with
  | cons _ h => cases h
  | @base _ c O' cs' k1 k2 k3 k4 k5 k6 =>
    obtain rfl : O' = O := by simpa using f3
    have hcd : c.data = b'.data := by simpa using f4
    have hc' : c = { b' with children := X.A ++ cs' } := by
      obtain ⟨c1, c2⟩ := c
      have hcd : c1 = b'.data := hcd
      have k3 : c2 = X.A ++ cs' := k3
      rw [hcd, k3]
    refine ⟨P', b', O', cs', e1, e2, e5, e6, e7, ?_, hq, ?_⟩
    · rw [← k2, ← hB]
    · intro f s1 s2 s3
      have := f5 f s1 (s2.trans hq.symm) s3
      rw [hlen, this, hm, hc', ← s2]

/-- The shape of related open blocks. -/
theorem shape_er {φ ψ : Pos → Pos} {k : BKind} {f : Bool} {P P' : List OpenBlk} (h : List.Forall₂ (fun a a' => erase φ a = erase ψ a') P P')
    (hs : Shape k f P) : Shape k f P' := by
  have hd : ∀ {a a' : OpenBlk}, erase φ a = erase ψ a' → a'.data.t = a.data.t ∧ a'.data.isFenced = a.data.isFenced ∧ a'.data.listData = a.data.listData ∧
      a'.data.lastLineChecked = a.data.lastLineChecked ∧ a'.data.htmlBlockType = a.data.htmlBlockType := by
    intro a a' h
    have h1 : er φ a.data = er ψ a'.data := congrArg Prod.fst h
    exact ⟨(congrArg NodeData.t h1 :).symm, (congrArg NodeData.isFenced h1 :).symm, (congrArg NodeData.listData h1 :).symm, (congrArg NodeData.lastLineChecked h1 :).symm,
      (congrArg NodeData.htmlBlockType h1 :).symm⟩
  have nil : P = [] → P' = [] := by rintro rfl; cases h; rfl
  have one : ∀ x, P = [x] → ∃ x', P' = [x'] ∧ erase φ x = erase ψ x' := by
    rintro x rfl
    cases h with
    | cons h1 h2 => cases h2; exact ⟨_, rfl, h1⟩
  have app : ∀ {A B : List OpenBlk}, P = A ++ B → ∃ A' B', P' = A' ++ B' ∧ List.Forall₂ (fun a a' => erase φ a = erase ψ a') B B' := by
    rintro A B rfl
    exact ⟨P'.take A.length, P'.drop A.length, (List.take_append_drop _ _).symm, by
      have := List.forall₂_drop A.length h
      rwa [List.drop_left] at this⟩
  cases k with
  | para =>
    simp only [Shape] at hs ⊢
    by_cases hf : f = true
    · rw [if_pos hf] at hs ⊢; exact nil hs
    · rw [if_neg hf] at hs ⊢
      obtain ⟨x, h1, h2⟩ := hs
      obtain ⟨x', h3, h4⟩ := one x h1
      exact ⟨x', h3, (hd h4).1.trans h2⟩
  | heading =>
    rcases hs with hs | ⟨x, h1, h2⟩
    · exact .inl (nil hs)
    · obtain ⟨x', h3, h4⟩ := one x h1
      exact .inr ⟨x', h3, (hd h4).1.trans h2⟩
  | rule =>
    rcases hs with hs | ⟨x, h1, h2⟩
    · exact .inl (nil hs)
    · obtain ⟨x', h3, h4⟩ := one x h1
      exact .inr ⟨x', h3, (hd h4).1.trans h2⟩
  | fenced => exact nil hs
  | html => exact nil hs
  | tag =>
    simp only [Shape] at hs ⊢
    by_cases hf : f = true
    · rw [if_pos hf] at hs ⊢; exact nil hs
    · rw [if_neg hf] at hs ⊢
      obtain ⟨x, h1, h2, h2'⟩ := hs
      obtain ⟨x', h3, h4⟩ := one x h1
      exact ⟨x', h3, (hd h4).1.trans h2, by rw [(hd h4).2.2.2.2]; exact h2'⟩
  | indented =>
    obtain ⟨x, h1, h2, h2'⟩ := hs
    obtain ⟨x', h3, h4⟩ := one x h1
    exact ⟨x', h3, (hd h4).1.trans h2, (hd h4).2.1.trans h2'⟩
  | quote =>
    simp only [Shape] at hs ⊢
    by_cases hf : f = true
    · rw [if_pos hf] at hs ⊢; exact nil hs
    · rw [if_neg hf] at hs ⊢
      obtain ⟨Q, x, h1, h2⟩ := hs
      obtain ⟨Q', R, h3, h4⟩ := app h1
      cases h4 with
      | cons h4 h5 => cases h5; exact ⟨Q', _, h3, (hd h4).1.trans h2⟩
  | list ty bu dl =>
    obtain ⟨Q, i, l, ld, li, h1, h2, h3, h4, h5, h6, h7, h8, h9, h10⟩ := hs
    obtain ⟨Q', R, k1, k2⟩ := app h1
    cases k2 with
    | cons a1 a2 =>
      cases a2 with
      | cons b1 b2 =>
        cases b2
        exact ⟨Q', _, _, ld, li, k1, (hd a1).1.trans h2, (hd a1).2.2.1.trans h3, h4, (hd b1).1.trans h5, (hd b1).2.2.1.trans h6, h7, h8, h9, (hd b1).2.2.2.1.trans h10⟩

theorem flags_er {φ ψ : Pos → Pos} {f : Bool} {P P' : List OpenBlk} (h : List.Forall₂ (fun a a' => erase φ a = erase ψ a') P P')
    (hs : ∀ x ∈ P, x.data.lastLineBlank = f) : ∀ x ∈ P', x.data.lastLineBlank = f := by
  induction h with
  | nil => intro x hx; cases hx
  | cons h1 _ ih =>
    intro x hx
    rcases List.mem_cons.1 hx with rfl | hx
    · have h2 : er φ _ = er ψ _ := congrArg Prod.fst h1
      rw [← hs _ List.mem_cons_self]
      exact (congrArg NodeData.lastLineBlank h2 :).symm
    · exact ih (fun y hy => hs y (List.mem_cons_of_mem _ hy)) x hx

/-- The tip of the second run is not a paragraph if that of the first is not. -/
theorem tip_er {φ ψ : Pos → Pos} {p q : PState} {P P' : List OpenBlk} {b b' : OpenBlk} {O : List OpenBlk}
    (h : List.Forall₂ (fun a a' => erase φ a = erase ψ a') P P') (hp : p.spine = P ++ [b]) (hq : q.spine = P' ++ b' :: O) (hb : b'.data.t ≠ .paragraph)
    (ht : tipKind p ≠ some .paragraph) : tipKind q ≠ some .paragraph := by
  cases h with
  | nil => rw [tip_of hq]; simpa using hb
  | cons h1 _ =>
    have h2 : er φ _ = er ψ _ := congrArg Prod.fst h1
    rw [tip_of hp] at ht
    rw [tip_of hq]
    intro e
    apply ht
    rw [← e]
    exact congrArg some (congrArg NodeData.t h2 :)

/-! ### Runs documents -/

/-- The lines of a document are read as its blocks. -/
structure Runs (sm : Reading) (o : HtmlOpts) (ls : List Str) (bs : List Blk) (g : Bool) : Prop where
  one : ∀ l ∈ ls, OneLine l
  first : ∃ l0 rest, ls = l0 :: rest ∧ ∀ p0 p1 : PState, incorporateLine p0.reset l0 = .ok p1 → Kid p1.spine
  run : ∀ (p0 : PState) (n : Nat), ∃ p, (ls ++ List.replicate n []).foldlM incorporateLine p0.reset = .ok p ∧ p.lineNumber = ls.length + n ∧
    At sm o p bs g (decide (0 < n))

/-- The run of the joined document. -/
theorem same_more {X : Sim} (hX : X.Ok) (ho : X.o = []) : ∀ (ls : List Str) {p q : PState}, Sp X p q → Kid p.spine → Ready p →
    ERel (Sp X) (ls.foldlM incorporateLine p) (ls.foldlM incorporateLine q) := by
  intro ls
  induction ls with
  | nil => intro p q h _ _; exact .ok h
  | cons l ls ih =>
    intro p q h hk hr
    rw [List.foldlM_cons, List.foldlM_cons]
    exact ERel.bind (same_line hX ho h l (keeps_of_kid fun p' hp' => (kid_line hk hr hp').1)).run fun a b hab =>
      ih hab.1 (kid_line hk hr hab.2).1 (kid_line hk hr hab.2).2

theorem at_join {sm : Reading} {o : HtmlOpts} (ho : o.sourcepos = false) {β : NodeData} (hβ : β.t = .document) {A : List Tree} {N : Nat} {p q : PState}
    {xs ys : List Blk} {fs : List Bool} {g f g' f' : Bool} (hA : Shows sm o A xs) (hm : Marks A fs) (hg : fs.dropLast.any id = g) (hf : fs.getLast? = some f)
    (h : Sp (joinSim β A N) p q) (ha : At sm o p ys g' f') : At sm o q (xs ++ ys) (g || g' || f) f' := by
  obtain ⟨P, b, cs, fs', ha⟩ := ha
  have hX : (joinSim β A N).Ok := joinSim_ok hβ
  obtain ⟨P', b', O, cs', hfo⟩ := follow_of hX h ha.toCloses rfl
  have hO : O = [] := by
    have := hfo.outer
    simpa [joinSim, concatSim] using this
  subst hO
  have hb' : b'.data.t = .document := by
    have := hfo.data
    have : b'.data.t = β.t := (congrArg NodeData.t this :)
    rw [this, hβ]
  have hfs' : fs' ≠ [] := by intro e; have := ha.last; rw [e] at this; cases this
  refine ⟨P', b', A ++ cs', fs ++ fs', ⟨hfo.spine, hb', hfo.refmap, hfo.close q rfl hfo.refmap rfl⟩, ?_, ?_, ?_, ?_, ?_, ?_, ?_⟩
  · intro x hx
    rw [hfo.spine] at hx
    rcases List.mem_append.1 hx with hx | hx
    · exact flags_er hfo.same (fun y hy => ha.flags y (by rw [ha.spine]; simp [hy])) x hx
    · have := hfo.flag x hx
      have this : b.data.lastLineBlank = x.data.lastLineBlank := this
      rw [← this]
      exact ha.flags b (by rw [ha.spine]; simp)
  · exact shows_append hA (shows_bare ho (bareL_rel hfo.blocks) ha.shows)
  · exact List.rel_append hm (marks_er hfo.blocks ha.marks)
  · rw [List.dropLast_append_of_ne_nil hfs', List.any_append, ha.gap, any_last hf, hg]
    cases g <;> cases g' <;> cases f <;> rfl
  · rw [List.getLast?_append_of_ne_nil _ hfs']; exact ha.last
  · obtain ⟨x, h1, h2⟩ := ha.shape
    refine ⟨x, ?_, shape_er hfo.same h2⟩
    rw [List.getLast?_append_of_ne_nil _ (by intro e; rw [e] at h1; cases h1)]; exact h1
  · intro hf'
    exact tip_er hfo.same ha.spine hfo.spine (by rw [hb']; decide) (ha.tip hf')

/-- One document after the other. -/
theorem runs_join {sm : Reading} {o : HtmlOpts} (ho : o.sourcepos = false) {as bs : List Str} {l : Str} {n : Nat} {xs ys : List Blk} {x : Blk} {g g' : Bool}
    (ha : Runs sm o as xs g) (hb : Runs sm o (l :: bs) ys g') (hx : xs.getLast? = some x) (hnul : Char.ofNat 0 ∉ l)
    (hfol : Follows x.kind (decide (0 < n)) l) : Runs sm o (as ++ List.replicate n [] ++ l :: bs) (xs ++ ys) (g || g' || decide (0 < n)) := by
  have hone := hb.one l (by simp)
  obtain ⟨l0, rest, rfl, hfirst⟩ := ha.first
  refine ⟨?_, ⟨l0, rest ++ List.replicate n [] ++ l :: bs, by simp, hfirst⟩, ?_⟩
  · intro y hy
    rcases List.mem_append.1 hy with hy | hy
    · rcases List.mem_append.1 hy with hy | hy
      · exact ha.one y hy
      · rw [List.eq_of_mem_replicate hy]; intro c hc; cases hc
    · exact hb.one y hy
  · intro p0 k
    obtain ⟨q, h1, h2, h3⟩ := ha.run p0 n
    obtain ⟨p, k1, k2, k3⟩ := hb.run p0 k
    obtain ⟨P, b, cs, fs, h3⟩ := h3
    obtain ⟨l1, r1, e, hfirst1⟩ := hb.first
    cases e
    obtain ⟨A, a1, a2, a3⟩ := join_first ho h3 (newParse_reset p0) hone hnul hx hfol (hfirst1 p0)
    have hX : (joinSim { b.data with lastLineBlank := false } A q.lineNumber).Ok := joinSim_ok h3.doc
    have hr : ERel (Sp (joinSim { b.data with lastLineBlank := false } A q.lineNumber)) ((l :: bs ++ List.replicate k []).foldlM incorporateLine p0.reset)
        ((l :: bs ++ List.replicate k []).foldlM incorporateLine q) := by
      rw [List.cons_append, List.foldlM_cons, List.foldlM_cons]
      refine ERel.bind a3.run fun a c hac => same_more hX rfl _ hac.1 (hfirst1 p0 a hac.2) ?_
      obtain ⟨p1, _, e1, _, _, e4⟩ := incorporateLine_ok (ready_reset p0).1 l
      rw [hac.2] at e1
      cases e1
      exact e4
    obtain ⟨q', g1, g2⟩ := hr p k1
    refine ⟨q', ?_, ?_, at_join (β := { b.data with lastLineBlank := false }) ho h3.doc a1 a2 h3.gap h3.last g2 k3⟩
    · rw [List.append_assoc (l0 :: rest ++ List.replicate n []), List.foldlM_append, h1]
      exact g1
    · rw [g2.line, k2]
      show _ + q.lineNumber = _
      rw [h2]
      simp only [List.length_append, List.length_cons, List.length_replicate]
      omega

end CM
