import Verif.Proofs.LazyLine
import Verif.Proofs.Every
/-
The last paragraph of the document that ends in the last line is the open block.
-/
set_option linter.unusedVariables false
namespace CM
open Spec

/-! ### Closed paragraphs -/

/-- A paragraph ends before line `N`. -/
def EndsBefore (N : Nat) (d : NodeData) : Prop := d.t = .paragraph → ∀ a n c, d.sourcepos = some (a, (n, c)) → n < N

theorem endsBefore_flagless (N : Nat) : Flagless fun d _ => EndsBefore N d := fun d _ => Iff.rfl

theorem endsBefore_norm {N : Nat} {cs cs' : List Tree} (h : normList cs = normList cs') (ha : ∀ t ∈ cs, All (EndsBefore N) t) :
    ∀ t ∈ cs', All (EndsBefore N) t := by
  rw [← everyNodeList_iff] at ha ⊢
  rw [← everyNodeList_norm (endsBefore_flagless N)] at ha ⊢
  rw [← h]; exact ha

theorem finalize_pos {d : NodeData} {cs : List Tree} {m m' : RefMap} {t : Tree} (h : finalizeBlock d cs m = .ok (some t, m')) :
    t.data.sourcepos = d.sourcepos := by
  simp only [finalizeBlock] at h
  split at h
  · simp only [Except.ok.injEq, Prod.mk.injEq, Option.some.injEq] at h
    obtain ⟨rfl, _⟩ := h
    have hn := norm_finalizeList d cs
    generalize finalizeList d cs = t at *
    obtain ⟨e, ks⟩ := t
    simp only [normTree, Tree.node.injEq] at hn
    exact (congrArg NodeData.sourcepos hn.1 : (normData e).sourcepos = (normData d).sourcepos)
  · cases e : finalizeCode d with
    | error _ => rw [e] at h; cases h
    | ok v =>
      rw [e] at h
      simp only [bind, Except.bind, pure, Except.pure, Except.ok.injEq, Prod.mk.injEq, Option.some.injEq] at h
      obtain ⟨rfl, _⟩ := h
      simp only [finalizeCode] at e
      split at e
      · cases e
      · split at e
        · split at e
          · cases e
          · cases e; rfl
        · cases e; rfl
  · cases e : finalizeHtml d with
    | error _ => rw [e] at h; cases h
    | ok v =>
      rw [e] at h
      simp only [bind, Except.bind, pure, Except.pure, Except.ok.injEq, Prod.mk.injEq, Option.some.injEq] at h
      obtain ⟨rfl, _⟩ := h
      simp only [finalizeHtml] at e
      split at e
      · cases e
      · cases e; rfl
  · cases e : finalizeParagraph d m with
    | error _ => rw [e] at h; cases h
    | ok v =>
      rw [e] at h
      simp only [bind, Except.bind, pure, Except.pure, Except.ok.injEq, Prod.mk.injEq, Option.map_eq_some_iff] at h
      obtain ⟨⟨d', hv, rfl⟩, _⟩ := h
      simp only [finalizeParagraph] at e
      split at e
      · cases e
      · rename_i x _
        cases hr : refLoop (x.length + 1) x m false with
        | error _ => rw [hr] at e; cases e
        | ok r =>
          rw [hr] at e
          simp only [bind, Except.bind] at e
          split at e
          · cases e; cases hv
          · cases e; cases hv; rfl
  · simp only [Except.ok.injEq, Prod.mk.injEq, Option.some.injEq] at h
    obtain ⟨rfl, _⟩ := h
    rfl

/-- All closed paragraphs end before line `N`. -/
def ClosedBefore (N : Nat) (sp : List OpenBlk) : Prop := ∀ b ∈ sp, ∀ t ∈ b.children, All (EndsBefore N) t

mutual
theorem endsBefore_mono {N M : Nat} (h : N ≤ M) : ∀ t : Tree, All (EndsBefore N) t → All (EndsBefore M) t
  | .node d cs => by
    intro ht
    have ih := endsBefore_monoL h cs
    exact everyNode_iff.2 ⟨fun hp a n c hs => Nat.lt_of_lt_of_le ((everyNode_iff.1 ht).1 hp a n c hs) h, ih (everyNode_iff.1 ht).2⟩
theorem endsBefore_monoL {N M : Nat} (h : N ≤ M) : ∀ ts : List Tree, (∀ t ∈ ts, All (EndsBefore N) t) → ∀ t ∈ ts, All (EndsBefore M) t
  | [] => fun _ => nofun
  | t :: ts => by
    intro ht u hu
    have i1 := endsBefore_mono h t
    have i2 := endsBefore_monoL h ts
    rcases List.mem_cons.1 hu with rfl | hu
    · exact i1 (ht u (by simp))
    · exact i2 (fun x hx => ht x (by simp [hx])) u hu
end

theorem ClosedBefore.mono {N M : Nat} (h : N ≤ M) {sp : List OpenBlk} (hc : ClosedBefore N sp) : ClosedBefore M sp := by
  exact fun b hb t ht => endsBefore_mono h t (hc b hb t ht)

theorem close_before {N l len : Nat} {b par : OpenBlk} {up : List OpenBlk} {m m' : RefMap} {t : Option Tree} (h : ClosedBefore N (b :: par :: up))
    (hl : b.data.t = .paragraph → l < N) (hf : finalizeBlock (closeData l len b.data) b.children m = .ok (t, m')) :
    ClosedBefore N ({ par with children := par.children ++ t.toList } :: up) := by
  intro x hx u hu
  rcases List.mem_cons.1 hx with rfl | hx
  · rcases List.mem_append.1 hu with hu | hu
    · exact h par (by simp) u hu
    · cases t with
      | none => simp at hu
      | some t =>
        simp only [Option.toList_some, List.mem_singleton] at hu
        subst hu
        obtain ⟨s1, s2⟩ := finalize_sig hf
        have s3 := finalize_pos hf
        obtain ⟨d, cs⟩ := u
        refine everyNode_iff.2 ⟨?_, endsBefore_norm s2.symm (h b (by simp))⟩
        intro hp a n c hs
        have hk : b.data.t = .paragraph := by
          have : (sig d).t = (sig (closeData l len b.data)).t := congrArg NodeData.t s1
          have : d.t = b.data.t := this
          rw [← this]; exact hp
        have s3 : d.sourcepos = b.data.sourcepos.map fun sp => (sp.1, (l, len)) := s3
        rw [hs] at s3
        cases hb : b.data.sourcepos with
        | none => rw [hb] at s3; cases s3
        | some sp =>
          rw [hb] at s3
          simp only [Option.map_some, Option.some.injEq, Prod.mk.injEq] at s3
          rw [s3.2.1]; exact hl hk
  · exact h x (by simp [hx]) u hu

theorem step_before {c c' : Core} (h : ClosedBefore c.line c.spine) (hs : Step c c') : ClosedBefore c.line c'.spine := by
  have new : ∀ (d : NodeData) (r : List OpenBlk), ClosedBefore c.line r → ClosedBefore c.line ((⟨d, []⟩ : OpenBlk) :: r) := by
    intro d r hr b hb
    rcases List.mem_cons.1 hb with rfl | hb
    · simp
    · exact hr b hb
  have swap : ∀ (d : NodeData) (b : OpenBlk) (r : List OpenBlk), ClosedBefore c.line (b :: r) → ClosedBefore c.line ({ b with data := d } :: r) := by
    intro d b r hr x hx
    rcases List.mem_cons.1 hx with rfl | hx
    · exact hr b (by simp)
    · exact hr x (by simp [hx])
  cases hs with
  | @close l b par up t m e1 e2 e3 e4 =>
    rw [e1] at h
    exact close_before h (fun _ => by omega) e4
  | push => exact new _ _ h
  | paragraph => exact new _ _ h
  | pushItem => exact new _ _ h
  | pushList => exact new _ _ (new _ _ h)
  | @addLine b r x k off e1 e2 e3 => rw [e1] at h; exact swap _ b r h
  | @flags b r blank flag e1 =>
    rw [e1] at h
    intro y hy
    simp only [flagSpine] at hy
    obtain ⟨z, hz, rfl⟩ := List.mem_map.1 hy
    show ∀ t ∈ z.children, _
    rcases List.mem_cons.1 hz with rfl | hz
    · cases blank with
      | false => exact h b (by simp)
      | true => exact endsBefore_norm (norm_markLast b.children).symm (h b (by simp))
    · exact h z (by simp [hz])
  | @refs b r x m has e1 e2 e3 e4 => rw [e1] at h; exact swap _ b r h
  | @setext b r x x' m has lvl e1 e2 e3 e4 e5 e6 e7 e8 =>
    rw [e1] at h
    exact new _ _ fun y hy => h y (by simp [hy])

theorem steps_before {c c' : Core} (h : ClosedBefore c.line c.spine) (hs : Steps c c') : ClosedBefore c.line c'.spine := by
  induction hs with
  | refl => exact h
  | tail hs hstep ih =>
    have e1 := (steps_core_line hs).1
    rw [← e1] at ih ⊢
    exact step_before ih hstep

theorem reaches_before {ls : List Str} {c : Core} (h : Reaches ls c) : ClosedBefore c.line c.spine := by
  induction h with
  | nil =>
    intro b hb
    simp only [startCore, List.mem_singleton] at hb
    subst hb
    simp
  | @line ls c c' ln hr hs ih =>
    have e := (lineSteps_core_line hs).1
    show ClosedBefore c'.line c'.spine
    rw [e]
    have h0 : ClosedBefore (nextLine c ln).line (nextLine c ln).spine := ClosedBefore.mono (Nat.le_succ _) ih
    cases hs with
    | steps hs => exact steps_before h0 hs
    | final hs hf =>
      have h1 := steps_before h0 hs
      cases hf with
      | close f1 f2 f3 f4 =>
        rw [f1] at h1
        refine close_before h1 ?_ f4
        intro h0
        rcases f3 with f3 | f3 <;> rw [f3.1] at h0 <;> cases h0

/-! ### Closing all blocks -/

/-- The tree of the open blocks, the outermost first. -/
inductive Built (len k : Nat) : List OpenBlk → Option Tree → Prop
  | tip {b : OpenBlk} {t : Option Tree} {m m' : RefMap} : finalizeBlock (closeData len k b.data) b.children m = .ok (t, m') → Built len k [b] t
  | cons {b c : OpenBlk} {cs : List OpenBlk} {t u : Option Tree} {m m' : RefMap} : Built len k (c :: cs) u →
      finalizeBlock (closeData len k b.data) (b.children ++ u.toList) m = .ok (t, m') → Built len k (b :: c :: cs) t

theorem built_more {len k : Nat} {par b : OpenBlk} {t : Option Tree} {m m' : RefMap} (h : finalizeBlock (closeData len k b.data) b.children m = .ok (t, m')) :
    ∀ (A : List OpenBlk) {u : Option Tree}, Built len k (A ++ [{ par with children := par.children ++ t.toList }]) u → Built len k (A ++ [par, b]) u
  | [], u, hb => by
    cases hb with
    | tip hf => exact .cons (.tip h) hf
  | [a], u, hb => by
    cases hb with
    | cons h1 h2 => exact .cons (built_more h [] h1) h2
  | a :: a' :: A, u, hb => by
    cases hb with
    | cons h1 h2 => exact .cons (built_more h (a' :: A) h1) h2

theorem finalizeAll_built {len : Nat} : ∀ (n : Nat) {p p' : PState} {b : OpenBlk} {r : List OpenBlk}, p.spine = b :: r → finalizeAll len n p = .ok p' →
    Built len p.lastLineLength p.spine.reverse p'.doc
  | 0, p, p', b, r, hs, h => by cases h
  | n + 1, p, p', b, r, hs, h => by
    rw [finalizeAll_cons (by rw [hs]; simp)] at h
    cases hf : finalizeTip len p with
    | error => rw [hf] at h; cases h
    | ok q =>
      rw [hf] at h
      have h : finalizeAll len n q = .ok p' := h
      unfold finalizeTip at hf
      rw [hs] at hf
      simp only at hf
      cases hb : finalizeBlock { b.data with isOpen := false, sourcepos := b.data.sourcepos.map fun sp => (sp.1, (len, p.lastLineLength)) } b.children p.refmap with
      | error e => rw [hb] at hf; cases hf
      | ok x =>
        obtain ⟨t, m⟩ := x
        rw [hb] at hf
        cases r with
        | nil =>
          cases hf
          cases n with
          | zero => cases h
          | succ n =>
            rw [finalizeAll_nil rfl] at h
            cases h
            rw [hs]
            exact .tip hb
        | cons par up =>
          cases hf
          have := finalizeAll_built n rfl h
          simp only [List.reverse_cons] at this
          rw [hs]
          simp only [List.reverse_cons, List.append_assoc]
          exact built_more hb up.reverse this

/-! ### The way to the last paragraph -/

theorem lastPara_norm {n : Nat} {t : Tree} {path : List NodeData} (h : LastPara n t path) : LastPara n (normTree t) (path.map normData) := by
  induction h with
  | @here d cs a c h1 h2 => exact .here (a := a) (c := c) h1 h2
  | @inside d cs t path h1 h2 h3 ih =>
    refine .inside h1 ?_ ih
    show (normList cs).getLast? = _
    rw [normList_eq_map, List.getLast?_map, h2]; rfl

theorem lastPara_before {n N : Nat} (hn : N ≤ n) {t : Tree} {path : List NodeData} (h : LastPara n t path) : ¬ All (EndsBefore N) t := by
  induction h with
  | @here d cs a c h1 h2 =>
    intro h
    have := (everyNode_iff.1 h).1 h1 a n c h2
    omega
  | @inside d cs t path h1 h2 h3 ih =>
    intro h
    exact ih ((everyNode_iff.1 h).2 t (List.mem_of_getLast? h2))

theorem norm_before {N : Nat} {t : Tree} (h : All (EndsBefore N) t) : All (EndsBefore N) (normTree t) :=
  (everyNode_norm (endsBefore_flagless N) t).2 h

/-- Blocks that are no paragraph, but for the last. -/
theorem built_path {len k n N : Nat} {bs : List OpenBlk} {t : Option Tree} (h : Built len k bs t) (hn : N ≤ n) (hcb : ClosedBefore N bs)
    (hk : ∀ b ∈ bs.dropLast, b.data.t ≠ .paragraph) : ∀ {u : Tree} {path : List NodeData}, t = some u → LastPara n (normTree u) path →
    (∃ b, bs.getLast? = some b ∧ b.data.t = .paragraph) ∧ List.Forall₂ Along bs.dropLast path := by
  have along : ∀ {b : OpenBlk} {cs : List Tree} {m m' : RefMap} {d : NodeData} {ks : List Tree},
      finalizeBlock (closeData len k b.data) cs m = .ok (some (.node d ks), m') → d.t = b.data.t ∧ Along b (normData d) ∧ normList ks = normList cs := by
    intro b cs m m' d ks hf
    obtain ⟨s1, s2⟩ := finalize_sig hf
    rw [sig_close] at s1
    have s1 : sig d = sig b.data := s1
    have e0 : (sig d).t = (sig b.data).t := congrArg NodeData.t s1
    have e1 : d.t = b.data.t := e0
    refine ⟨e1, ⟨e1.symm, ?_⟩, s2⟩
    intro _ i hi
    have e3 : (sig d).listData = (sig b.data).listData := congrArg NodeData.listData s1
    have e2 : (d.listData.map fun l => ({ l with tight := false } : ListData)) = b.data.listData.map fun l => { l with tight := false } := e3
    have hi : (d.listData.map fun l => ({ l with tight := false } : ListData)) = some i := hi
    rw [e2] at hi
    cases hb : b.data.listData with
    | none => rw [hb] at hi; cases hi
    | some j =>
      rw [hb] at hi
      simp only [Option.map_some, Option.some.injEq] at hi
      exact ⟨j, rfl, by rw [← hi], by rw [← hi]⟩
  induction h with
  | @tip b t m m' hf =>
    rintro ⟨d, ks⟩ path rfl hp
    obtain ⟨e1, e2, e3⟩ := along hf
    simp only [normTree] at hp
    cases hp with
    | here h1 h2 => exact ⟨⟨b, rfl, by rw [← e1]; exact h1⟩, .nil⟩
    | @inside _ _ T P h1 h2 h3 =>
      exfalso
      rw [e3, normList_eq_map, List.getLast?_map] at h2
      cases hl : b.children.getLast? with
      | none => rw [hl] at h2; cases h2
      | some v =>
        rw [hl] at h2
        simp only [Option.map_some, Option.some.injEq] at h2
        subst h2
        exact lastPara_before hn h3 (norm_before (hcb b (by simp) v (List.mem_of_getLast? hl)))
  | @cons b c cs t u m m' hb hf ih =>
    rintro ⟨d, ks⟩ path rfl hp
    obtain ⟨e1, e2, e3⟩ := along hf
    have hbk : b.data.t ≠ .paragraph := hk b (by simp [List.dropLast_cons_cons])
    simp only [normTree] at hp
    cases hp with
    | here h1 h2 => exact absurd (show b.data.t = .paragraph by rw [← e1]; exact h1) hbk
    | @inside _ _ T P h1 h2 h3 =>
      rw [e3, normList_eq_map, List.getLast?_map] at h2
      cases u with
      | none =>
        exfalso
        rw [Option.toList_none, List.append_nil] at h2
        cases hl : b.children.getLast? with
        | none => rw [hl] at h2; cases h2
        | some v =>
          rw [hl] at h2
          simp only [Option.map_some, Option.some.injEq] at h2
          subst h2
          exact lastPara_before hn h3 (norm_before (hcb b (by simp) v (List.mem_of_getLast? hl)))
      | some v =>
        rw [Option.toList_some, List.getLast?_concat] at h2
        simp only [Option.map_some, Option.some.injEq] at h2
        subst h2
        obtain ⟨⟨x, k1, k2⟩, k3⟩ := ih (fun y hy => hcb y (List.mem_cons_of_mem _ hy))
          (fun y hy => hk y (by rw [List.dropLast_cons_cons]; exact List.mem_cons_of_mem _ hy)) rfl h3
        refine ⟨⟨x, by rw [List.getLast?_cons_cons]; exact k1, k2⟩, ?_⟩
        rw [List.dropLast_cons_cons]
        exact .cons e2 k3

theorem inlinesList_last {smart : Bool} {m : RefMap} : ∀ {ts ts' : List Tree}, processInlinesList smart m ts = .ok ts' → ∀ {t' : Tree}, ts'.getLast? = some t' →
    ∃ t, ts.getLast? = some t ∧ processInlines smart m t = .ok t'
  | [], ts', h, t', ht => by cases h; cases ht
  | t :: ts, ts', h, t', ht => by
    simp only [processInlinesList, bind, Except.bind] at h
    cases h1 : processInlines smart m t with
    | error => rw [h1] at h; cases h
    | ok x =>
      rw [h1] at h
      simp only at h
      cases h2 : processInlinesList smart m ts with
      | error => rw [h2] at h; cases h
      | ok xs =>
        rw [h2] at h
        cases h
        cases ts with
        | nil =>
          cases h2
          simp only [List.getLast?_singleton, Option.some.injEq] at ht
          subst ht
          exact ⟨t, rfl, h1⟩
        | cons y ys =>
          cases xs with
          | nil =>
            simp only [processInlinesList, bind, Except.bind] at h2
            cases h3 : processInlines smart m y with
            | error => rw [h3] at h2; cases h2
            | ok z =>
              rw [h3] at h2
              simp only at h2
              cases h4 : processInlinesList smart m ys with
              | error => rw [h4] at h2; cases h2
              | ok zs => rw [h4] at h2; cases h2
          | cons z zs =>
            rw [List.getLast?_cons_cons] at ht
            obtain ⟨v, hv⟩ := inlinesList_last h2 ht
            exact ⟨v, by rw [List.getLast?_cons_cons]; exact hv.1, hv.2⟩

theorem lastPara_blocks {smart : Bool} {m : RefMap} {n : Nat} {t : Tree} {path : List NodeData} (h : LastPara n t path) :
    ∀ {u : Tree}, processInlines smart m u = .ok t → LastPara n u path := by
  induction h with
  | @here d cs a c h1 h2 =>
    rintro ⟨d0, ks⟩ hu
    have : d0 = d := by
      simp only [processInlines, bind, Except.bind] at hu
      split at hu
      · cases hu
      · split at hu
        · split at hu
          · cases hu
          · split at hu
            · cases hu
            · cases hu; rfl
        · cases hu; rfl
    subst this
    exact .here h1 h2
  | @inside d cs t path h1 h2 h3 ih =>
    rintro ⟨d0, ks⟩ hu
    simp only [processInlines, bind, Except.bind] at hu
    split at hu
    · cases hu
    · rename_i ks' hks
      split at hu
      · rename_i hk
        exfalso
        split at hu
        · cases hu
        · split at hu
          · cases hu
          · cases hu
            simp only [Bool.or_eq_true, beq_iff_eq] at hk
            rcases hk with hk | hk <;> rcases h1 with h1 | h1 | h1 | h1 <;> rw [h1] at hk <;> cases hk
      · cases hu
        obtain ⟨v, hv1, hv2⟩ := inlinesList_last hks h2
        exact .inside h1 hv1 (ih hv2)

/-- The open blocks of a text whose last paragraph ends in its last line. -/
theorem path_of_parse {smart : Bool} {s : Str} {as : List Str} {t : Tree} {path : List NodeData} {p : PState} (hs : TextLines s as) (ht : parse smart s = .ok t)
    (hl : LastPara as.length t path) (hp : as.foldlM incorporateLine PState.init.reset = .ok p) :
    tipKind p = some .paragraph ∧ ∃ d0 rest, path = d0 :: rest ∧ d0.t = .document ∧ List.Forall₂ Along (p.spine.reverse.drop 1).dropLast rest := by
  obtain ⟨q, f1, f2, f3⟩ := lines_ok as [] PState.init.reset (ready_reset PState.init).1 (ready_reset PState.init).2
  rw [hp] at f1
  cases f1
  rw [List.nil_append] at f3
  obtain ⟨r1, c1, c2, b1, i1, _, _, _, hb1, _, _, i2, _⟩ := blockPhase_ok PState.init s
  have j1 := i1
  unfold blockPhase at j1
  simp only [inputLines_of hs] at j1
  rw [hp] at j1
  have j1 : finalizeAll as.length (p.spine.length + 1) p = .ok r1 := j1
  rw [parse_blocks i1 i2] at ht
  have hu := lastPara_blocks hl ht
  have hcb : ClosedBefore as.length p.spine := by
    have := reaches_before f3
    rw [f3.line_eq] at this; exact this
  have hne := f2.good.chain.ne_nil
  cases hsp : p.spine with
  | nil => exact absurd (by simp [PState.ds, hsp]) hne
  | cons b r =>
    have hbt := finalizeAll_built _ hsp j1
    have hkp : ∀ x ∈ p.spine.reverse.dropLast, x.data.t ≠ .paragraph := by
      rw [hsp, List.reverse_cons, List.dropLast_concat]
      intro x hx
      have hch := f2.good.chain
      rw [PState.ds, hsp] at hch
      have : ∀ {d : NodeData} {ds : List NodeData}, Chain (d :: ds) → ∀ e ∈ ds, e.t ≠ .paragraph := by
        intro d ds h
        induction ds generalizing d with
        | nil => simp
        | cons e ds ih =>
          intro f hf
          rcases List.mem_cons.1 hf with rfl | hf
          · exact chain_par h
          · cases h with
            | cons _ _ _ h4 => exact ih h4 f hf
      exact this hch x.data (List.mem_map_of_mem (List.mem_reverse.1 hx))
    obtain ⟨⟨x, k1, k2⟩, k3⟩ := built_path hbt (Nat.le_refl as.length) (fun y hy => hcb y (List.mem_reverse.1 hy)) hkp i2 (lastPara_norm hu)
    have htip : tipKind p = some .paragraph := by
      rw [List.getLast?_reverse] at k1
      simp [tipKind, k1, k2]
    refine ⟨htip, ?_⟩
    obtain ⟨d, hd1, hd2⟩ := f2.good.chain.last_doc
    rw [PState.ds, List.getLast?_map, Option.map_eq_some_iff] at hd1
    obtain ⟨y, hy1, rfl⟩ := hd1
    rw [← List.head?_reverse] at hy1
    cases hrv : p.spine.reverse with
    | nil => rw [hrv] at hy1; cases hy1
    | cons y' ys =>
      rw [hrv] at hy1 k1 k3
      simp only [List.head?_cons, Option.some.injEq] at hy1
      subst hy1
      cases ys with
      | nil =>
        simp only [List.getLast?_singleton, Option.some.injEq] at k1
        subst k1
        rw [k2] at hd2; cases hd2
      | cons z zs =>
        rw [List.dropLast_cons_cons] at k3
        cases path with
        | nil => cases k3
        | cons e rest =>
          rw [List.map_cons] at k3
          cases k3 with
          | cons h1 h2 =>
            refine ⟨e, rest, rfl, h1.1.symm.trans hd2, ?_⟩
            rw [← hsp, hrv]
            simp only [List.drop_succ_cons, List.drop_zero]
            rw [List.forall₂_map_right_iff] at h2
            refine h2.imp ?_
            rintro b f ⟨g1, g2⟩
            refine ⟨g1, ?_⟩
            intro hi i hfi
            have : (normData f).listData = some { i with tight := false } := by simp [normData, hfi]
            obtain ⟨j, hj, hj1, hj2⟩ := g2 hi _ this
            exact ⟨j, hj, hj1, hj2⟩

end CM
