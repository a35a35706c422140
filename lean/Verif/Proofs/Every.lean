import Verif.Proofs.History
/-
A property of single nodes that holds of every block when it is made, and that looks only at what a block keeps,
holds of every node of the document.
-/
namespace CM
open Spec

/-- What a block keeps from the moment it is made. -/
def sig (d : NodeData) : NodeData :=
  { t := d.t, sourcepos := d.sourcepos.map fun sp => (sp.1, (0, 0)), level := d.level,
    listData := d.listData.map fun l => { l with tight := false },
    isFenced := d.isFenced, fenceLength := d.fenceLength, fenceChar := d.fenceChar, htmlBlockType := d.htmlBlockType }

theorem sig_norm (d : NodeData) : sig (normData d) = sig d := by
  simp [sig, normData, Option.map_map]; rfl

theorem sig_close (l len : Nat) (d : NodeData) : sig (closeData l len d) = sig d := by
  simp [sig, closeData, Option.map_map]; rfl

/-- `P` holds of every block when it is made; `W` says which text stands on which line. -/
structure Sound (P : NodeData → Prop) (W : Nat → Str → Prop) : Prop where
  congr : ∀ d d', sig d = sig d' → P d → P d'
  doc : P docNode
  new : ∀ c d, W c.line c.text → NewBlock c d → P d
  para : ∀ (c : Core) off ch, W c.line c.text → c.text[off]? = some ch → ch ≠ ' ' → ch ≠ '\t' →
    P (atLine .paragraph c.line off)
  list : ∀ c col l k, W c.line c.text → MarkerAt c col l → k = .list ∨ k = .item →
    P { atLine k c.line col with listData := some l }
  setext : ∀ (c : Core) d x col m, W c.line c.text → P d → d.t = .paragraph → firstLine d ≤ c.line →
    reSetextHeadingLine.matchPrefix (c.text.drop col) = some m →
    P (setextData d (if m.head? == some '=' then 1 else 2) x)

/-- `P` holds of the whole tree. -/
abbrev All (P : NodeData → Prop) : Tree → Prop := EveryNode fun d _ => P d

section
variable {P : NodeData → Prop} {W : Nat → Str → Prop}

theorem Sound.flagless (h : Sound P W) : Flagless fun d _ => P d :=
  fun d _ => ⟨h.congr _ _ (sig_norm d), h.congr _ _ (sig_norm d).symm⟩

theorem finalize_sig {d : NodeData} {cs : List Tree} {m m' : RefMap} {t : Tree}
    (h : finalizeBlock d cs m = .ok (some t, m')) : sig t.data = sig d ∧ normList t.children = normList cs := by
  simp only [finalizeBlock] at h
  split at h
  · simp only [Except.ok.injEq, Prod.mk.injEq, Option.some.injEq] at h
    obtain ⟨rfl, _⟩ := h
    have hn := norm_finalizeList d cs
    generalize finalizeList d cs = t at *
    obtain ⟨e, ks⟩ := t
    simp only [normTree, Tree.node.injEq] at hn
    exact ⟨by show sig e = _; rw [← sig_norm, hn.1, sig_norm], hn.2⟩
  · cases e : finalizeCode d with
    | error _ => rw [e] at h; cases h
    | ok v =>
      rw [e] at h
      simp only [bind, Except.bind, pure, Except.pure, Except.ok.injEq, Prod.mk.injEq, Option.some.injEq] at h
      obtain ⟨rfl, _⟩ := h
      simp only [finalizeCode] at e
      split at e
      · cases e
      · split at e
        · split at e
          · cases e
          · cases e; exact ⟨rfl, rfl⟩
        · cases e; exact ⟨rfl, rfl⟩
  · cases e : finalizeHtml d with
    | error _ => rw [e] at h; cases h
    | ok v =>
      rw [e] at h
      simp only [bind, Except.bind, pure, Except.pure, Except.ok.injEq, Prod.mk.injEq, Option.some.injEq] at h
      obtain ⟨rfl, _⟩ := h
      simp only [finalizeHtml] at e
      split at e
      · cases e
      · cases e; exact ⟨rfl, rfl⟩
  · cases e : finalizeParagraph d m with
    | error _ => rw [e] at h; cases h
    | ok v =>
      rw [e] at h
      simp only [bind, Except.bind, pure, Except.pure, Except.ok.injEq, Prod.mk.injEq, Option.map_eq_some_iff] at h
      obtain ⟨⟨d', hv, rfl⟩, _⟩ := h
      simp only [finalizeParagraph] at e
      split at e
      · cases e
      · rename_i x _
        cases hr : refLoop (x.length + 1) x m false with
        | error _ => rw [hr] at e; cases e
        | ok r =>
          rw [hr] at e
          simp only [bind, Except.bind] at e
          split at e
          · cases e; cases hv
          · cases e; cases hv; exact ⟨rfl, rfl⟩
  · simp only [Except.ok.injEq, Prod.mk.injEq, Option.some.injEq] at h
    obtain ⟨rfl, _⟩ := h
    exact ⟨rfl, rfl⟩

/-- An open block. -/
def OpenAll (P : NodeData → Prop) (b : OpenBlk) : Prop := P b.data ∧ ∀ t ∈ b.children, All P t

theorem all_norm (hS : Sound P W) {cs cs' : List Tree} (h : normList cs = normList cs')
    (ha : ∀ t ∈ cs, All P t) : ∀ t ∈ cs', All P t := by
  rw [← everyNodeList_iff] at ha ⊢
  rw [← everyNodeList_norm hS.flagless] at ha ⊢
  rw [← h]; exact ha

theorem close_all (hS : Sound P W) {b : OpenBlk} (hb : OpenAll P b) {l len : Nat} {m m' : RefMap} {t : Option Tree}
    (h : finalizeBlock (closeData l len b.data) b.children m = .ok (t, m')) : ∀ t' ∈ t.toList, All P t' := by
  intro t' ht'
  cases t with
  | none => simp at ht'
  | some u =>
    simp only [Option.toList_some, List.mem_singleton] at ht'
    subst ht'
    obtain ⟨h1, h2⟩ := finalize_sig h
    obtain ⟨e, ks⟩ := t'
    refine everyNode_iff.2 ⟨hS.congr _ _ ?_ hb.1, all_norm hS h2.symm hb.2⟩
    rw [show sig e = _ from h1, sig_close]

theorem closed_all (hS : Sound P W) {b par : OpenBlk} {up : List OpenBlk} {l len : Nat} {m m' : RefMap}
    {t : Option Tree} (hb : ∀ x ∈ b :: par :: up, OpenAll P x)
    (h : finalizeBlock (closeData l len b.data) b.children m = .ok (t, m')) :
    ∀ x ∈ ({ par with children := par.children ++ t.toList } : OpenBlk) :: up, OpenAll P x := by
  intro x hx
  rcases List.mem_cons.1 hx with rfl | hx
  · have hp := hb par (by simp)
    refine ⟨hp.1, ?_⟩
    intro u hu
    rcases List.mem_append.1 hu with hu | hu
    · exact hp.2 u hu
    · exact close_all hS (hb b (by simp)) h u hu
  · exact hb x (by simp [hx])

theorem step_all (hS : Sound P W) {c c' : Core} (h : ∀ b ∈ c.spine, OpenAll P b) (hw : W c.line c.text)
    (hs : Step c c') : ∀ b ∈ c'.spine, OpenAll P b := by
  have new : ∀ (d : NodeData) (r : List OpenBlk), P d → (∀ b ∈ r, OpenAll P b) →
      ∀ b ∈ (⟨d, []⟩ : OpenBlk) :: r, OpenAll P b := by
    intro d r hd hr b hb
    rcases List.mem_cons.1 hb with rfl | hb
    · exact ⟨hd, by simp⟩
    · exact hr b hb
  cases hs with
  | @close l b par up t m e1 e2 e3 e4 =>
    rw [e1] at h
    exact closed_all hS h e4
  | @push b r d e1 e2 e3 => exact new _ _ (hS.new c d hw e3) h
  | @paragraph b r ch off e1 e2 e3 e4 e5 =>
    exact new _ _ (hS.congr (atLine .paragraph c.line off) _ rfl (hS.para c off ch hw e3 e4 e5)) h
  | @pushItem b r col l e1 e2 e3 e4 => exact new _ _ (hS.list c col l .item hw e4 (Or.inr rfl)) h
  | @pushList b r col l e1 e2 e3 =>
    exact new _ _ (hS.list c col l .item hw e3 (Or.inr rfl)) (new _ _ (hS.list c col l .list hw e3 (Or.inl rfl)) h)
  | @addLine b r x k off e1 e2 e3 =>
    rw [e1] at h
    intro y hy
    rcases List.mem_cons.1 hy with rfl | hy
    · exact ⟨hS.congr b.data _ rfl (h b (by simp)).1, (h b (by simp)).2⟩
    · exact h y (by simp [hy])
  | @flags b r blank flag e1 =>
    rw [e1] at h
    have key : ∀ x, OpenAll P x → OpenAll P { x with data := { x.data with lastLineBlank := flag } } :=
      fun x hx => ⟨hS.congr x.data _ rfl hx.1, hx.2⟩
    intro y hy
    simp only [flagSpine] at hy
    obtain ⟨z, hz, rfl⟩ := List.mem_map.1 hy
    refine key z ?_
    rcases List.mem_cons.1 hz with rfl | hz
    · cases blank with
      | false => exact h b (by simp)
      | true => exact ⟨(h b (by simp)).1, all_norm hS (norm_markLast b.children).symm (h b (by simp)).2⟩
    · exact h z (by simp [hz])
  | @refs b r x m has e1 e2 e3 e4 =>
    rw [e1] at h
    intro y hy
    rcases List.mem_cons.1 hy with rfl | hy
    · exact ⟨hS.congr b.data _ rfl (h b (by simp)).1, (h b (by simp)).2⟩
    · exact h y (by simp [hy])
  | @setext b r x x' m has lvl e1 e2 e3 e4 e5 e6 e7 e8 =>
    rw [e1] at h
    obtain ⟨col, mm, e7, rfl⟩ := e7
    exact new _ _ (hS.setext c b.data x' col mm hw (h b (by simp)).1 e2 e8 e7) fun y hy => h y (by simp [hy])

theorem steps_all (hS : Sound P W) {c c' : Core} (h : ∀ b ∈ c.spine, OpenAll P b) (hw : W c.line c.text)
    (hs : Steps c c') : ∀ b ∈ c'.spine, OpenAll P b := by
  induction hs with
  | refl => exact h
  | tail hs hstep ih =>
    obtain ⟨e1, e2, _⟩ := steps_core_line hs
    exact step_all hS ih (by rw [e1, e2]; exact hw) hstep

theorem lineSteps_all (hS : Sound P W) {c c' : Core} (h : ∀ b ∈ c.spine, OpenAll P b) (hw : W c.line c.text)
    (hs : LineSteps c c') : ∀ b ∈ c'.spine, OpenAll P b := by
  cases hs with
  | steps hs => exact steps_all hS h hw hs
  | final hs hf =>
    have h1 := steps_all hS h hw hs
    cases hf with
    | close f1 f2 f3 f4 =>
      rw [f1] at h1
      exact closed_all hS h1 f4

theorem reaches_all (hS : Sound P W) {ls : List Str} {c : Core} (h : Reaches ls c)
    (hw : ∀ i ln, ls[i]? = some ln → W (i + 1) (cleaned ln)) : ∀ b ∈ c.spine, OpenAll P b := by
  induction h with
  | nil =>
    intro b hb
    simp only [startCore, List.mem_singleton] at hb
    subst hb
    exact ⟨hS.doc, by simp⟩
  | @line ls c c' ln hr hs ih =>
    have h1 := ih fun i l hl => hw i l (by
      rw [List.getElem?_append_left (List.getElem?_eq_some_iff.1 hl).1]; exact hl)
    refine lineSteps_all hS (c := nextLine c ln) (c' := c') h1 ?_ hs
    have := hw ls.length ln (by simp)
    show W (c.line + 1) _
    rw [hr.line_eq]; exact this

theorem closings_all (hS : Sound P W) {c c' : Core} (h : ∀ b ∈ c.spine, OpenAll P b)
    (hs : Relation.ReflTransGen Closing c c') : ∀ b ∈ c'.spine, OpenAll P b := by
  induction hs with
  | refl => exact h
  | tail _ hstep ih =>
    obtain ⟨l, b, par, up, t, m, h1, _, _, h4, rfl⟩ := hstep
    rw [h1] at ih
    exact closed_all hS ih h4

theorem blockPhase_all (hS : Sound P W) (p : PState) (s : Str)
    (hw : ∀ i ln, (inputLines s)[i]? = some ln → W (i + 1) (cleaned ln)) :
    ∃ p' t, blockPhase p s = .ok p' ∧ p'.doc = some t ∧ All P t := by
  obtain ⟨p', c, c2, b, h1, h2, h3, h4, h5, h6, h7, h8, h9⟩ := blockPhase_ok p s
  refine ⟨p', _, h1, h8, ?_⟩
  have := closings_all hS (c := { c with line := c.line + 1 }) (reaches_all (c := c) hS h2 hw) h3 b (by rw [h4]; simp)
  exact everyNode_iff.2 ⟨hS.congr _ _ (sig_close _ _ _).symm this.1, this.2⟩

end

theorem all_inline {P : NodeData → Prop} {G : Char → Prop} (hP : ∀ d, d.t ∈ inlineKinds → P d) {t : Tree}
    (h : InlineTree G t) : All P t := by
  induction h with
  | text h => exact ⟨hP _ (by show Kind.text ∈ _; decide), trivial⟩
  | code h => exact ⟨hP _ (by show Kind.code ∈ _; decide), trivial⟩
  | html h => exact ⟨hP _ (by show Kind.htmlInline ∈ _; decide), trivial⟩
  | soft => exact ⟨hP _ (by show Kind.softbreak ∈ _; decide), trivial⟩
  | hard => exact ⟨hP _ (by show Kind.linebreak ∈ _; decide), trivial⟩
  | emph h ih => exact everyNode_iff.2 ⟨hP _ (by show Kind.emph ∈ _; decide), ih⟩
  | strong h ih => exact everyNode_iff.2 ⟨hP _ (by show Kind.strong ∈ _; decide), ih⟩
  | link h1 h ih => exact everyNode_iff.2 ⟨hP _ (by show Kind.link ∈ _; decide), ih⟩
  | image h1 h ih => exact everyNode_iff.2 ⟨hP _ (by show Kind.image ∈ _; decide), ih⟩

mutual
theorem processInlines_all {P : NodeData → Prop} (hP : ∀ d, d.t ∈ inlineKinds → P d)
    (smart : Bool) {m : RefMap} (hm : RefsOk (fun _ => True) m) :
    ∀ t t' : Tree, All P t → processInlines smart m t = .ok t' → All P t'
  | .node d cs, t' => by
    intro h e
    have hb := everyNode_iff.1 h
    simp only [processInlines, bind, Except.bind] at e
    cases hc : processInlinesList smart m cs with
    | error er => rw [hc] at e; cases e
    | ok cs' =>
      rw [hc] at e
      have ih := processInlinesList_all hP smart hm cs cs' (everyNodeList_iff.2 hb.2) hc
      dsimp only at e
      by_cases hp : d.t = .paragraph ∨ d.t = .heading
      · rw [if_pos (by simpa using hp)] at e
        cases hx : d.stringContent with
        | none => rw [hx] at e; cases e
        | some x =>
          rw [hx] at e
          dsimp only at e
          have hin := parseInlines_ok (src_of charsOk_true (smart := smart) hm (x := strip x) fun _ _ => trivial)
          cases hi : parseInlines smart m x with
          | error er => rw [hi] at e; cases e
          | ok ts =>
            rw [hi] at e hin
            simp only [pure, Except.pure, Except.ok.injEq] at e
            subst e
            refine everyNode_iff.2 ⟨hb.1, fun t ht => ?_⟩
            rcases List.mem_append.1 ht with ht | ht
            · exact everyNodeList_iff.1 ih t ht
            · rcases hin with ⟨ts', e', hts⟩ | ⟨e', _⟩
              · simp only [Except.ok.injEq] at e'
                subst e'
                exact all_inline hP (hts t ht)
              · cases e'
      · rw [if_neg (by simpa [not_or] using hp)] at e
        simp only [pure, Except.pure, Except.ok.injEq] at e
        subst e
        exact ⟨hb.1, ih⟩
theorem processInlinesList_all {P : NodeData → Prop} (hP : ∀ d, d.t ∈ inlineKinds → P d)
    (smart : Bool) {m : RefMap} (hm : RefsOk (fun _ => True) m) :
    ∀ ts ts' : List Tree, EveryNodeList (fun d _ => P d) ts → processInlinesList smart m ts = .ok ts' →
      EveryNodeList (fun d _ => P d) ts'
  | [], ts' => by
    intro _ e
    simp only [processInlinesList, Except.ok.injEq] at e
    subst e; trivial
  | t :: ts, ts' => by
    intro h e
    simp only [processInlinesList, bind, Except.bind] at e
    cases h1 : processInlines smart m t with
    | error er => rw [h1] at e; cases e
    | ok t1 =>
      rw [h1] at e
      dsimp only at e
      cases h2 : processInlinesList smart m ts with
      | error er => rw [h2] at e; cases e
      | ok ts1 =>
        rw [h2] at e
        simp only [pure, Except.pure, Except.ok.injEq] at e
        subst e
        exact ⟨processInlines_all hP smart hm t t1 h.1 h1, processInlinesList_all hP smart hm ts ts1 h.2 h2⟩
end

/-- `P` holds of every node of the document. -/
theorem parse_all {P : NodeData → Prop} {W : Nat → Str → Prop} (hS : Sound P W)
    (hP : ∀ d, d.t ∈ inlineKinds → P d) {smart : Bool} {s : Str} {t : Tree}
    (hw : ∀ i ln, (inputLines s)[i]? = some ln → W (i + 1) (cleaned ln))
    (h : parse smart s = .ok t) : All P t := by
  obtain ⟨p1, t1, h1, h2, h3⟩ := blockPhase_all hS PState.init s hw
  obtain ⟨p1', d, cs, g1, g2, g3, g4, g5, g6, g7, g8⟩ := blockPhase_tree (T := fun _ => True) (G := fun _ => True)
    charsOk_true (fun _ _ _ _ => trivial) (fun _ _ _ => trivial) trivial PState.init s (fun _ _ => trivial)
  rw [h1] at g1
  simp only [Except.ok.injEq] at g1
  subst g1
  rw [parse_eq] at h
  simp only [parseWith, h1, bind, Except.bind, h2] at h
  cases hp : processInlines smart p1.refmap t1 with
  | error e => rw [hp] at h; cases h
  | ok t' =>
    rw [hp] at h
    simp only [pure, Except.pure, Except.map, Except.ok.injEq] at h
    subst h
    exact processInlines_all hP smart g8 _ _ h3 hp

end CM
