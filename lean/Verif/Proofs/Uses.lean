import Verif.Spec.Uses
import Verif.Proofs.Stream
import Verif.Proofs.SourceRun
/-
Definitions matter only where their labels stand in brackets (C81).
-/
namespace CM
open Spec

variable {m m' : RefMap} {sm : Bool}

/-! ### Inlines -/

theorem brInv_index {smart strict : Bool} {refs : Str → Option RefDef} {S : Str} {info : List (Nat × Nat)} {bs : List Bracket}
    {its : List Item} {w : List Nat} (h : BrInv smart strict refs S info bs its w) :
    ∀ b ∈ bs, S[b.index]? = some '[' ∧ b.index ∈ w := by
  induction h with
  | nil _ => intro b hb; cases hb
  | cons _ _ _ h3 _ ih =>
    intro b hb
    rcases List.mem_cons.1 hb with rfl | hb
    · rcases h3 with ⟨_, rfl, h⟩ | ⟨_, k, e, rfl, _, h⟩
      · exact ⟨h, by simp⟩
      · rw [e]; exact ⟨h, by simp⟩
    · exact ⟨(ih b hb).1, List.mem_append_left _ (ih b hb).2⟩

theorem sinv_index {c : Ctx} {info : List (Nat × Nat)} {st : IState} (h : SInv c false info st) :
    ∀ b ∈ st.brackets, c.subject[b.index]? = some '[' ∧ b.index < st.pos := by
  intro b hb
  obtain ⟨h1, h2⟩ := brInv_index h.br b hb
  refine ⟨h1, ?_⟩
  rw [List.mem_range'] at h2
  obtain ⟨i, hi, e⟩ := h2
  omega

/-- What stands between a bracket and another one. -/
theorem slice_brackets {S : Str} {i j : Nat} (hij : i < j) (hi : S[i]? = some '[') (hj : S[j]? = some ']') :
    ∃ z, slice S i (j + 1) = '[' :: (z ++ [']']) ∧ '[' :: (z ++ [']']) <:+: S := by
  have hl : j < S.length := by
    rcases Nat.lt_or_ge j S.length with h | h
    · exact h
    · rw [List.getElem?_eq_none h] at hj; cases hj
  have e : slice S i (j + 1) = '[' :: (((S.take j).drop (i + 1)) ++ [']']) := by
    unfold slice
    have h1 : S.take (j + 1) = S.take j ++ [']'] := by
      rw [List.take_succ, hj]; rfl
    have h2 : (S.take j).drop i = '[' :: (S.take j).drop (i + 1) := by
      apply drop_one
      rw [List.getElem?_take, if_pos hij, hi]
    rw [h1, List.drop_append_of_le_length (by simp; omega), h2, List.cons_append]
  refine ⟨_, e, ?_⟩
  rw [← e]
  exact (List.drop_suffix _ _).isInfix.trans (List.take_prefix _ _).isInfix

theorem parseCloseBracket_uses {s : Str} {info : List (Nat × Nat)} {st : IState} (h : ∀ k, Uses k s → m.get k = m'.get k)
    (hs : SInv ⟨s, m, sm⟩ false info st) (hj : s[st.pos]? = some ']') :
    parseCloseBracket ⟨s, m, sm⟩ st = parseCloseBracket ⟨s, m', sm⟩ st := by
  have hr : ∀ o ∈ st.brackets, ∀ b, referenceLink ⟨s, m, sm⟩ o (st.pos + 1) b = referenceLink ⟨s, m', sm⟩ o (st.pos + 1) b := by
    intro o ho b
    obtain ⟨h1, h2⟩ := sinv_index hs o ho
    obtain ⟨z, e1, e2⟩ := slice_brackets h2 h1 hj
    have hlab : ∀ n p, parseLinkLabel ⟨s, m, sm⟩ b = (n, p) → m.get (normalizeReference
        (if n > 2 then slice s b (b + n) else slice s o.index (st.pos + 1))) =
        m'.get (normalizeReference (if n > 2 then slice s b (b + n) else slice s o.index (st.pos + 1))) := by
      intro n p hp
      apply h
      split
      · rename_i hn
        rcases parseLinkLabel_shape ⟨s, m, sm⟩ b with ⟨q, hl⟩ | ⟨l, hl, ⟨x, hx, _⟩, hrest⟩
        · rw [hl] at hp; cases hp; cases hn
        · rw [hl] at hp
          cases hp
          have hrest : s.drop b = l ++ s.drop (b + l.length) := hrest
          have e : slice s b (b + l.length) = l := by
            unfold slice
            rw [List.drop_take, hrest]
            simp
          rw [e, hx]
          refine ⟨x, ?_, rfl⟩
          rw [← hx]
          refine List.IsInfix.trans ?_ (List.drop_suffix b s).isInfix
          rw [hrest]
          exact (List.prefix_append _ _).isInfix
      · rw [e1]; exact ⟨z, e2, rfl⟩
    unfold referenceLink
    rw [show parseLinkLabel ⟨s, m', sm⟩ b = parseLinkLabel ⟨s, m, sm⟩ b from rfl]
    cases hp : parseLinkLabel ⟨s, m, sm⟩ b with
    | mk n p =>
      simp only [hlab n p hp]
  unfold parseCloseBracket
  cases hb : st.brackets with
  | nil => rfl
  | cons o bs =>
    simp only [hb, hr o (by rw [hb]; simp)]
    rfl

theorem parseInline_uses {s : Str} {info : List (Nat × Nat)} {st : IState} (h : ∀ k, Uses k s → m.get k = m'.get k)
    (hs : SInv ⟨s, m, sm⟩ false info st) : parseInline ⟨s, m, sm⟩ st = parseInline ⟨s, m', sm⟩ st := by
  have hb : parseBackticks ⟨s, m, sm⟩ st = parseBackticks ⟨s, m', sm⟩ st := by
    simp only [parseBackticks, backtickLoop_refs s m m' sm]
    rfl
  by_cases hj : s[st.pos]? = some ']'
  · unfold parseInline
    rw [parseCloseBracket_uses h hs hj, hb]
    rfl
  · unfold parseInline
    rw [hb]
    rw [show Ctx.peek ⟨s, m', sm⟩ st.pos = Ctx.peek ⟨s, m, sm⟩ st.pos from rfl]
    cases hc : Ctx.peek ⟨s, m, sm⟩ st.pos with
    | none => rfl
    | some ch =>
      have hne : (ch == ']') = false := by
        rw [beq_eq_false_iff_ne]
        rintro rfl
        exact hj hc
      simp only [hne, Bool.false_eq_true, if_false]
      rfl

theorem inlineLoop_uses {s : Str} (h : ∀ k, Uses k s → m.get k = m'.get k) : ∀ (n : Nat) {info : List (Nat × Nat)} {st : IState},
    SInv ⟨s, m, sm⟩ false info st → inlineLoop ⟨s, m, sm⟩ n st = inlineLoop ⟨s, m', sm⟩ n st
  | 0, _, _, _ => rfl
  | n + 1, info, st, hs => by
    unfold inlineLoop
    rw [← parseInline_uses h hs]
    cases hp : parseInline ⟨s, m, sm⟩ st with
    | error => rfl
    | ok r =>
      cases r with
      | none => rfl
      | some r =>
        obtain ⟨info', hs'⟩ := parseInline_source hs (by intro h; cases h) hp
        exact inlineLoop_uses h n hs'

theorem uses_mono {k x y : Str} (h : Uses k x) (hx : x <:+: y) : Uses k y := by
  obtain ⟨z, h1, h2⟩ := h
  exact ⟨z, h1.trans hx, h2⟩

theorem parseInlines_uses {x : Str} (h : ∀ k, Uses k x → m.get k = m'.get k) : parseInlines sm m x = parseInlines sm m' x := by
  unfold parseInlines
  simp only [inlineLoop_uses (fun k hk => h k (uses_mono hk (strip_infix x))) _ (sinv_start ⟨strip x, m, sm⟩ false)]

mutual
theorem inlines_uses : ∀ t : Tree, (∀ k, UsesT k t → m.get k = m'.get k) → processInlines sm m t = processInlines sm m' t
  | .node d cs, h => by
    unfold processInlines
    rw [inlinesList_uses cs fun k hk => h k (by rw [UsesT]; exact .inr hk)]
    cases processInlinesList sm m' cs with
    | error => rfl
    | ok y =>
      simp only [bind, Except.bind]
      by_cases hp : (d.t == .paragraph || d.t == .heading) = true
      · rw [if_pos hp, if_pos hp]
        cases hc : d.stringContent with
        | none => rfl
        | some x =>
          simp only
          rw [parseInlines_uses fun k hk => h k (by rw [UsesT]; exact .inl ⟨by simpa using hp, x, hc, hk⟩)]
      · rw [if_neg hp, if_neg hp]
theorem inlinesList_uses : ∀ ts : List Tree, (∀ k, UsesL k ts → m.get k = m'.get k) →
    processInlinesList sm m ts = processInlinesList sm m' ts
  | [], _ => rfl
  | t :: ts, h => by
    rw [processInlinesList, processInlinesList, inlines_uses t fun k hk => h k (by rw [UsesL]; exact .inl hk),
      inlinesList_uses ts fun k hk => h k (by rw [UsesL]; exact .inr hk)]
end

theorem usesL_append {k : Str} : ∀ {a b : List Tree}, UsesL k (a ++ b) ↔ UsesL k a ∨ UsesL k b
  | [], b => by simp [UsesL]
  | t :: a, b => by rw [List.cons_append, UsesL, UsesL, usesL_append, or_assoc]

mutual
/-- The texts are still there after the inlines have been parsed. -/
theorem inlines_keep {k : Str} : ∀ {t u : Tree}, processInlines sm m t = .ok u → UsesT k t → UsesT k u
  | .node d cs, u, h, hk => by
    unfold processInlines at h
    cases h1 : processInlinesList sm m cs with
    | error => rw [h1] at h; cases h
    | ok x =>
      have ih := inlinesList_keep (k := k) h1
      rw [UsesT] at hk
      rw [h1] at h
      simp only [Except.bind, bind, pure, Except.pure] at h
      by_cases hp : (d.t == .paragraph || d.t == .heading) = true
      · rw [if_pos hp] at h
        cases hc : d.stringContent with
        | none => rw [hc] at h; cases h
        | some c =>
          rw [hc] at h
          cases h2 : parseInlines sm m c with
          | error => simp only [h2] at h; cases h
          | ok =>
            simp only [h2] at h
            cases h
            rw [UsesT, usesL_append]
            exact hk.imp_right fun h => .inl (ih h)
      · rw [if_neg hp] at h
        cases h
        rw [UsesT]
        exact hk.imp_right ih
theorem inlinesList_keep {k : Str} : ∀ {ts us : List Tree}, processInlinesList sm m ts = .ok us → UsesL k ts → UsesL k us
  | [], _, _, hk => by rw [UsesL] at hk; exact hk.elim
  | t :: cs, xs, h, hk => by
    rw [processInlinesList] at h
    cases h1 : processInlines sm m t with
    | error => rw [h1] at h; cases h
    | ok y =>
      cases h2 : processInlinesList sm m cs with
      | error => rw [h1, h2] at h; cases h
      | ok z =>
        rw [h1, h2] at h
        cases h
        rw [UsesL] at hk ⊢
        exact hk.imp (inlines_keep h1) (inlinesList_keep h2)
end

/-! ### Two texts -/

theorem uses_blocks {smart : Bool} {s1 s2 s : Str} {as bs : List Str} (h1 : TextLines s1 as) (h2 : TextLines s2 bs)
    (hs : TextLines s (as ++ [] :: bs)) {t1 t2 t : Tree} {p1 p2 : PState}
    (e1 : parseWith smart PState.init s1 = .ok (t1, p1)) (e2 : parseWith smart PState.init s2 = .ok (t2, p2))
    (e : parse smart s = .ok t) (hk : ∀ u, t1.children.getLast? = some u → u.data.t ∈ endKinds)
    (hu1 : ∀ k, UsesL k t1.children → p1.refmap.get k = none → p2.refmap.get k = none)
    (hu2 : ∀ k, UsesL k t2.children → p1.refmap.get k = none ∨ p1.refmap.get k = p2.refmap.get k) :
    bareL t.children = bareL t1.children ++ bareL t2.children := by
  obtain ⟨r1, c1, cs1, a1, a2, a3⟩ := text_blocks s1
  obtain ⟨r2, c2, cs2, b1, b2, b3⟩ := text_blocks s2
  obtain ⟨d1, xs1⟩ := t1
  obtain ⟨d2, xs2⟩ := t2
  obtain ⟨d, zs⟩ := t
  have hp1 : parse smart s1 = .ok (.node d1 xs1) := by unfold parse; rw [e1]; rfl
  have hp2 : parse smart s2 = .ok (.node d2 xs2) := by unfold parse; rw [e2]; rfl
  obtain ⟨r, d', cs, g1, g2, g3, g4, _, _, _, g8⟩ := merge_blocks h1 h2 hs a1 b1 a2 b2 a3 hp1 hk
  obtain ⟨_, q1, q1b, q1c⟩ := parseWith_from smart _ s1 e1
  obtain ⟨_, q2, q2b, q2c⟩ := parseWith_from smart _ s2 e2
  rw [a1] at q1b; cases q1b
  rw [b1] at q2b; cases q2b
  rw [← q1c, ← q2c] at hu1 hu2
  have f1 := parse_of_blocks a1 a2 a3 hp1
  have f2 := parse_of_blocks b1 b2 b3 hp2
  have n1 : processInlinesList smart (mergeRefs r1.refmap r2.refmap) cs1 = .ok xs1 := by
    rw [← f1]
    refine inlinesList_uses _ fun k hk => ?_
    rw [mergeRefs_get]
    have := hu1 k (inlinesList_keep f1 hk)
    cases h : r1.refmap.get k with
    | none => rw [this h]; rfl
    | some => rfl
  have n2 : processInlinesList smart (mergeRefs r1.refmap r2.refmap) cs2 = .ok xs2 := by
    rw [← f2]
    refine inlinesList_uses _ fun k hk => ?_
    rw [mergeRefs_get]
    rcases hu2 k (inlinesList_keep f2 hk) with h | h
    · rw [h]; rfl
    · rw [h]; cases r2.refmap.get k <;> rfl
  have i := parse_blocksWith (smart := smart) g1 g3 g4
  rw [e, g8, g2] at i
  unfold blocksWith at i
  rw [n1, n2] at i
  simp only [Except.map, Except.bind, Except.ok.injEq] at i
  exact i

/-! ### Lines that follow -/

theorem uses_stream {smart : Bool} {s1 s : Str} {as bs : List Str} (h1 : TextLines s1 as) (h : TextLines s (as ++ bs))
    {d1 d : NodeData} {xs1 xs : List Tree} {p1 p : PState} (e1 : parseWith smart PState.init s1 = .ok (.node d1 xs1, p1))
    (e : parseWith smart PState.init s = .ok (.node d xs, p))
    (hu : ∀ k, UsesL k xs1.dropLast → p1.refmap.get k = p.refmap.get k) : xs1.dropLast.map unblank <+: xs.map unblank := by
  obtain ⟨r1, r, d1', d', cs1, cs, a1, a2, a3, a4, a5, a6, a7⟩ := stream_blocks h1 h
  have hp1 : parse smart s1 = .ok (.node d1 xs1) := by unfold parse; rw [e1]; rfl
  have hp : parse smart s = .ok (.node d xs) := by unfold parse; rw [e]; rfl
  obtain ⟨_, q1, q1b, q1c⟩ := parseWith_from smart _ s1 e1
  obtain ⟨_, q2, q2b, q2c⟩ := parseWith_from smart _ s e
  rw [a1] at q1b; cases q1b
  rw [a2] at q2b; cases q2b
  rw [← q1c, ← q2c] at hu
  have f1 := parse_of_blocks a1 a3 a5 hp1
  have f := parse_of_blocks a2 a4 a6 hp
  have n1 : processInlinesList smart r1.refmap cs1.dropLast = .ok xs1.dropLast := by
    rcases List.eq_nil_or_concat cs1 with rfl | ⟨l, t, rfl⟩
    · cases f1; rfl
    · rw [List.concat_eq_append, inlines_append] at f1
      rw [List.concat_eq_append, List.dropLast_concat]
      cases j1 : processInlinesList smart r1.refmap l with
      | error => rw [j1] at f1; cases f1
      | ok x =>
        cases j2 : processInlinesList smart r1.refmap [t] with
        | error => rw [j1, j2] at f1; cases f1
        | ok y =>
          rw [j1, j2] at f1
          cases f1
          have := inlines_length j2
          match y, this with
          | [y], _ => simp
  have n2 : processInlinesList smart r.refmap cs1.dropLast = .ok xs1.dropLast := by
    rw [← n1]
    exact inlinesList_uses _ fun k hk => (hu k (inlinesList_keep n1 hk)).symm
  have n3 : processInlinesList smart r.refmap (cs1.dropLast ++ [.node { t := .thematicBreak } []]) =
      .ok (xs1.dropLast ++ [.node { t := .thematicBreak } []]) := by
    rw [inlines_append, n2]; rfl
  have := stream_inlines n3 f (by rw [List.dropLast_concat]; exact a7)
  rwa [List.dropLast_concat] at this

/-! ### Texts without brackets -/

mutual
theorem unused_tree {T : Str → Prop} {G : Char → Prop} (hT : ∀ l, T l → '[' ∉ l) {k : Str} : ∀ {t : Tree}, EveryNode (NodeOk T G) t → ¬ UsesT k t
  | .node d cs, h, hu => by
    rw [EveryNode] at h
    rw [UsesT] at hu
    rcases hu with ⟨h1, x, h2, z, h3, _⟩ | hu
    · have hm : '[' ∈ x := h3.subset (by simp)
      have hd : DataOk T G d := by
        rcases h.1 with h | h | h
        · exact h.data
        · exact h.data
        · have hk : d.t ∈ inlineKinds := by
            generalize cs.map Tree.data = ks at h
            cases h <;> exact List.mem_of_elem_eq_true rfl
          rcases h1 with h1 | h1 <;> rw [h1] at hk <;> exact absurd hk (by decide)
      have hl : Lines T x ∨ ∃ l, T l ∧ x = atxContent l := by
        rcases h1 with h1 | h1
        · obtain ⟨y, e, hy, _⟩ := hd.para h1
          rw [h2] at e; cases e; exact .inl hy
        · obtain ⟨y, e, hy⟩ := hd.head h1
          rw [h2] at e; cases e; exact hy
      rcases hl with hl | ⟨l, hl, rfl⟩
      · rcases hl.mem _ hm with h | h | ⟨l, hl, h⟩
        · revert h; decide
        · revert h; decide
        · exact hT l hl h
      · exact strs_atxContent (G := (· ≠ '[')) (fun c hc e => hT l hl (e ▸ hc)) _ hm rfl
    · exact unused_trees hT h.2 hu
theorem unused_trees {T : Str → Prop} {G : Char → Prop} (hT : ∀ l, T l → '[' ∉ l) {k : Str} : ∀ {ts : List Tree},
    EveryNodeList (NodeOk T G) ts → ¬ UsesL k ts
  | [], _, hu => by rw [UsesL] at hu; exact hu
  | t :: ts, h, hu => by
    rw [EveryNodeList] at h
    rw [UsesL] at hu
    exact hu.elim (unused_tree hT h.1) (unused_trees hT h.2)
end

theorem unused_text {smart : Bool} {s k : Str} {ls : List Str} {t : Tree} (hs : TextLines s ls) (hn : ∀ l ∈ ls, '[' ∉ l)
    (h : parse smart s = .ok t) : ¬ UsesL k t.children := by
  obtain ⟨d, cs⟩ := t
  have hd := (parse_doc h).2.2.2
  rw [EveryNode] at hd
  refine unused_trees (T := TextOf s) ?_ hd.2
  rintro l (rfl | ⟨ln, hln, n, rfl⟩) hm
  · cases hm
  · rw [inputLines_of hs] at hln
    rcases cleaned_mem _ (List.mem_of_mem_drop hm) with h | h
    · revert h; decide
    · exact hn ln hln h.1

/-! ### Finding the labels -/

/-- The parts of a text in brackets. -/
def bracketed (x : Str) : List Str :=
  ((List.range (x.length + 1)).flatMap fun i => (List.range (x.length + 1)).map fun n => (x.drop i).take n).filter fun w => w.head? == some '[' && w.getLast? == some ']' && decide (2 ≤ w.length)

theorem uses_of {k x : Str} (h : Uses k x) : k ∈ (bracketed x).map normalizeReference := by
  obtain ⟨z, h1, h2⟩ := h
  refine List.mem_map.2 ⟨_, ?_, h2⟩
  unfold bracketed
  rw [List.mem_filter]
  constructor
  · obtain ⟨a, b, e⟩ := h1
    have hl := congrArg List.length e
    simp only [List.length_append, List.length_cons] at hl
    refine List.mem_flatMap.2 ⟨a.length, List.mem_range.2 (by omega), List.mem_map.2 ⟨('[' :: (z ++ [']'])).length, ?_, ?_⟩⟩
    · rw [List.mem_range]; simp only [List.length_append, List.length_cons, List.length_nil] at hl ⊢; omega
    · rw [← e, List.append_assoc, List.drop_left, List.take_left]
  · have : ('[' :: (z ++ [']'])).getLast? = some ']' := by rw [← List.cons_append, List.getLast?_append]; rfl
    simp [this]

mutual
def labelsT : Tree → List Str
  | .node d cs => (if d.t == .paragraph || d.t == .heading then (bracketed (d.stringContent.getD [])).map normalizeReference else []) ++ labelsL cs
def labelsL : List Tree → List Str
  | [] => []
  | t :: ts => labelsT t ++ labelsL ts
end

mutual
theorem labelsT_of {k : Str} : ∀ {t : Tree}, UsesT k t → k ∈ labelsT t
  | .node d cs, h => by
    rw [UsesT] at h
    rw [labelsT]
    rcases h with ⟨h1, x, h2, h3⟩ | h
    · refine List.mem_append_left _ ?_
      rw [if_pos (by simpa using h1), h2]
      exact uses_of h3
    · exact List.mem_append_right _ (labelsL_of h)
theorem labelsL_of {k : Str} : ∀ {ts : List Tree}, UsesL k ts → k ∈ labelsL ts
  | [], h => by rw [UsesL] at h; exact h.elim
  | t :: ts, h => by
    rw [UsesL] at h
    rw [labelsL, List.mem_append]
    exact h.imp labelsT_of labelsL_of
end

end CM
