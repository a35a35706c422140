import Verif.Model.Inlines
import Verif.Proofs.RegexLen
import Verif.Proofs.RegexLang
/-
The inline phase run step by step: every loop ends, every child is a well-formed inline node, and
the only exception is the IndexError of `parseNewline` after an entity that decodes to nothing.
-/
set_option linter.unusedSimpArgs false
set_option linter.unusedVariables false
namespace CM
open Spec

/-! ### Well-formed inline trees -/

/-- Every character of `s` is good. -/
def Strs (G : Char → Prop) (s : Str) : Prop := ∀ ch ∈ s, G ch

/-- The trees the inline parser builds, with all text made of good characters and destinations made
by `normalize_uri`. -/
inductive InlineTree (G : Char → Prop) : Tree → Prop
  | text {s : Str} : Strs G s → InlineTree G (textNode s)
  | code {s : Str} : Strs G s → InlineTree G (codeNode s)
  | html {s : Str} : Strs G s → InlineTree G (htmlInlineNode s)
  | soft : InlineTree G (mkNode .softbreak [])
  | hard : InlineTree G (mkNode .linebreak [])
  | emph {cs : List Tree} : (∀ t ∈ cs, InlineTree G t) → InlineTree G (mkNode .emph cs)
  | strong {cs : List Tree} : (∀ t ∈ cs, InlineTree G t) → InlineTree G (mkNode .strong cs)
  | link {u title : Str} {cs : List Tree} : Strs G title → (∀ t ∈ cs, InlineTree G t) →
      InlineTree G (linkNode .link (normalizeUri u) title cs)
  | image {u title : Str} {cs : List Tree} : Strs G title → (∀ t ∈ cs, InlineTree G t) →
      InlineTree G (linkNode .image (normalizeUri u) title cs)

theorem InlineTree.text_inv {G : Char → Prop} {t : Tree} (h : InlineTree G t) :
    ∀ s, t = textNode s → Strs G s := by
  intro s e
  cases h <;> simp [textNode, codeNode, htmlInlineNode, mkNode, linkNode] at e
  subst e; assumption

/-- A child: well formed, and a plain text node if somebody refers to it. -/
structure ItemOk (G : Char → Prop) (it : Item) : Prop where
  tree : InlineTree G it.node
  txt : it.id ≠ 0 → ∃ s, it.node = textNode s

abbrev ItemsOk (G : Char → Prop) (its : List Item) : Prop := ∀ it ∈ its, ItemOk G it

/-! ### Strings -/

theorem strs_nil {G : Char → Prop} : Strs G [] := by intro c hc; simp at hc
theorem strs_take {G : Char → Prop} {s : Str} (h : Strs G s) (n : Nat) : Strs G (s.take n) :=
  fun c hc => h c (List.mem_of_mem_take hc)
theorem strs_drop {G : Char → Prop} {s : Str} (h : Strs G s) (n : Nat) : Strs G (s.drop n) :=
  fun c hc => h c (List.mem_of_mem_drop hc)
theorem strs_slice {G : Char → Prop} {s : Str} (h : Strs G s) (i j : Nat) : Strs G (slice s i j) :=
  strs_drop (strs_take h j) i
theorem strs_chop {G : Char → Prop} {s : Str} (h : Strs G s) : Strs G (chop s) :=
  fun c hc => strs_drop h 1 c ((List.dropLast_sublist _).mem hc)
theorem strs_append {G : Char → Prop} {s t : Str} (h : Strs G s) (h' : Strs G t) : Strs G (s ++ t) := by
  intro c hc; rcases List.mem_append.mp hc with hc | hc
  · exact h c hc
  · exact h' c hc
theorem strs_replicate {G : Char → Prop} {c : Char} (h : G c) (n : Nat) : Strs G (List.replicate n c) := by
  intro d hd; rw [(List.mem_replicate.mp hd).2]; exact h
theorem strs_single {G : Char → Prop} {c : Char} (h : G c) : Strs G [c] := by
  intro d hd; simp at hd; subst hd; exact h
theorem strs_rstrip {G : Char → Prop} {s : Str} (h : Strs G s) (p : Char → Bool) : Strs G (rstripBy p s) := by
  intro c hc
  have := (List.dropWhile_sublist p).mem (List.mem_reverse.mp hc)
  exact h c (List.mem_reverse.mp this)
theorem strs_lstrip {G : Char → Prop} {s : Str} (h : Strs G s) (p : Char → Bool) : Strs G (lstripBy p s) :=
  fun c hc => h c ((List.dropWhile_sublist p).mem hc)
theorem strs_strip {G : Char → Prop} {s : Str} (h : Strs G s) : Strs G (strip s) :=
  strs_rstrip (strs_lstrip h _) _
theorem strs_prefix {G : Char → Prop} {s m : Str} (h : Strs G s) (hm : m <+: s) : Strs G m :=
  fun c hc => h c (hm.sublist.mem hc)

theorem subLoop_strs {G : Char → Prop} (r : Re) (f : Str → Str) (n : Nat)
    (hf : ∀ m, Strs G m → Strs G (f m)) :
    ∀ fuel s, Strs G s → Strs G (r.subLoop f n fuel s) := by
  intro fuel
  induction fuel with
  | zero => intro s h; simpa [Re.subLoop] using h
  | succ k ih =>
    intro s h
    cases s with
    | nil => simpa [Re.subLoop] using h
    | cons c cs =>
      have hcs : Strs G cs := fun d hd => h d (by simp [hd])
      have hc : Strs G [c] := strs_single (h c (by simp))
      rw [Re.subLoop]
      cases hr : r.run n (c :: cs) some with
      | none => exact strs_append hc (ih cs hcs)
      | some t =>
        dsimp only
        split
        · refine strs_append (hf _ (strs_take h _)) (ih t ?_)
          intro d hd; exact h d ((Re.run_suffix hr).sublist.mem hd)
        · exact strs_append hc (ih cs hcs)

theorem sub_strs {G : Char → Prop} (r : Re) (f : Str → Str) (hf : ∀ m, Strs G m → Strs G (f m))
    {s : Str} (h : Strs G s) : Strs G (r.sub f s) := subLoop_strs r f _ hf _ s h

theorem sub_ne_nil (r : Re) (f : Str → Str) (hf : ∀ m, r.minLen ≤ m.length → 0 < m.length → f m ≠ [])
    {s : Str} (h : s ≠ []) : r.sub f s ≠ [] := by
  cases s with
  | nil => exact absurd rfl h
  | cons c cs =>
    unfold Re.sub
    rw [List.length_cons, Re.subLoop]
    cases hr : r.run (cs.length + 1) (c :: cs) some with
    | none => simp
    | some t =>
      dsimp only
      split
      · rename_i ht
        have hm := Re.all_minLen _ r _ _ (Re.run_some_mem hr)
        intro e
        have e' := (List.append_eq_nil_iff.mp e).1
        refine hf _ ?_ ?_ e'
        · rw [List.length_take]; simp only [List.length_cons] at *; omega
        · rw [List.length_take]; simp only [List.length_cons] at *; omega
      · simp

/-- `re.search`: the text before the match, and what is left after it. -/
theorem Re.searchFrom_spec (r : Re) (n : Nat) : ∀ s acc pre post,
    r.searchFrom n acc s = some (pre, post) →
      ∃ u v, pre = acc.reverse ++ u ∧ s = u ++ v ∧ r.run n v some = some post ∧
        ∀ u' v', s = u' ++ v' → u'.length < u.length → r.run n v' some = none := by
  intro s
  induction s with
  | nil =>
    intro acc pre post h
    simp only [searchFrom, Option.map_eq_some_iff] at h
    obtain ⟨t, ht, h⟩ := h
    simp only [Prod.mk.injEq] at h
    obtain ⟨rfl, rfl⟩ := h
    exact ⟨[], [], by simp, rfl, ht, by intro u' v' _ h; simp at h⟩
  | cons c cs ih =>
    intro acc pre post h
    rw [searchFrom] at h
    cases hr : r.run n (c :: cs) some with
    | some t =>
      rw [hr] at h
      simp only [Option.some.injEq, Prod.mk.injEq] at h
      obtain ⟨rfl, rfl⟩ := h
      exact ⟨[], c :: cs, by simp, rfl, hr, by intro u' v' _ h; simp at h⟩
    | none =>
      rw [hr] at h
      obtain ⟨u, v, e1, e2, e3, e4⟩ := ih _ _ _ h
      refine ⟨c :: u, v, by simp [e1], by simp [e2], e3, ?_⟩
      intro u' v' he hl
      cases u' with
      | nil => simp at he; rw [← he]; exact hr
      | cons d u' =>
        simp only [List.cons_append, List.cons.injEq] at he
        exact e4 u' v' he.2 (by simpa using hl)

theorem Re.search_spec {r : Re} {s pre post : Str} (h : r.search s = some (pre, post)) :
    ∃ m, s = pre ++ m ++ post ∧ r.minLen ≤ m.length ∧ r.run s.length (m ++ post) some = some post := by
  obtain ⟨u, v, e1, e2, e3, _⟩ := Re.searchFrom_spec r _ _ _ _ _ h
  obtain ⟨m, hm⟩ := Re.run_suffix e3
  have := Re.all_minLen _ r _ _ (Re.run_some_mem e3)
  refine ⟨m, ?_, ?_, ?_⟩
  · rw [e2, ← hm]; simp at e1; rw [e1]; simp
  · rw [← hm] at this; simp at this; omega
  · rw [hm]; exact e3

/-! ### Matching at a position -/

theorem match_spec {c : Ctx} {r : Re} {pos : Nat} {m : Str} {p : Nat} (h : c.match_ r pos = some (m, p)) :
    r.matchPrefix (c.subject.drop pos) = some m ∧ p = pos + m.length ∧ r.minLen ≤ m.length ∧
      m <+: c.subject.drop pos := by
  unfold Ctx.match_ Ctx.rest at h
  simp only [Option.map_eq_some_iff] at h
  obtain ⟨m', hm, h⟩ := h
  simp only [Prod.mk.injEq] at h
  obtain ⟨rfl, rfl⟩ := h
  exact ⟨hm, rfl, Re.matchPrefix_minLen hm, Re.matchPrefix_prefix hm⟩

theorem spnl_ge (c : Ctx) (pos : Nat) : pos ≤ c.spnl pos := by
  unfold Ctx.spnl
  split
  · rename_i h; have := (match_spec h).2.1; omega
  · exact Nat.le_refl _

theorem gobble_ge (c : Ctx) (pos : Nat) : pos ≤ c.gobble pos := by
  unfold Ctx.gobble
  split
  · rename_i h; have := (match_spec h).2.1; omega
  · exact Nat.le_refl _

/-! ### Emphasis -/

theorem setLiteral_ok {G : Char → Prop} {its : List Item} (h : ItemsOk G its) {id : Nat} (hid : id ≠ 0)
    {f : Str → Str} (hf : ∀ s, Strs G s → Strs G (f s)) : ItemsOk G (setLiteral id f its) := by
  intro it hit
  unfold setLiteral at hit
  obtain ⟨jt, hj, rfl⟩ := List.mem_map.mp hit
  by_cases e : jt.id = id
  · obtain ⟨s, hs⟩ := (h jt hj).txt (by rw [e]; exact hid)
    have hG := (h jt hj).tree.text_inv s hs
    cases jt with
    | mk i n =>
      simp only at hs e
      subst hs e
      simp only [beq_self_eq_true, if_true, textNode, Option.map_some]
      exact ⟨InlineTree.text (hf s hG), fun _ => ⟨f s, rfl⟩⟩
  · have : (jt.id == id) = false := by simpa using e
    rw [this]
    simpa using h jt hj

theorem removeId_ok {G : Char → Prop} {its : List Item} (h : ItemsOk G its) (id : Nat) :
    ItemsOk G (removeId id its) := fun it hit => h it (List.mem_filter.mp hit).1

theorem splitAtId_spec {id : Nat} : ∀ {its a b : List Item} {x : Item}, splitAtId id its = some (a, x, b) →
    its = a ++ x :: b ∧ x.id = id ∧ ∀ it ∈ a, it.id ≠ id := by
  intro its
  induction its with
  | nil => intro a b x h; simp [splitAtId] at h
  | cons it its ih =>
    intro a b x h
    rw [splitAtId] at h
    by_cases e : it.id = id
    · rw [if_pos (by simpa using e)] at h
      simp only [Option.some.injEq, Prod.mk.injEq] at h
      obtain ⟨rfl, rfl, rfl⟩ := h
      exact ⟨rfl, e, by simp⟩
    · rw [if_neg (by simpa using e)] at h
      simp only [Option.map_eq_some_iff] at h
      obtain ⟨⟨a', x', b'⟩, h1, h2⟩ := h
      simp only [Prod.mk.injEq] at h2
      obtain ⟨rfl, rfl, rfl⟩ := h2
      obtain ⟨e1, e2, e3⟩ := ih h1
      refine ⟨by simp [e1], e2, ?_⟩
      intro jt hj
      rcases List.mem_cons.mp hj with rfl | hj
      · exact e
      · exact e3 jt hj

theorem spanToId_append (id : Nat) (its : List Item) : (spanToId id its).1 ++ (spanToId id its).2 = its := by
  induction its with
  | nil => rfl
  | cons it its ih =>
    rw [spanToId]
    split
    · rfl
    · simp [ih]

theorem wrapBetween_ok {G : Char → Prop} {its : List Item} (h : ItemsOk G its) {k : Kind}
    (hk : ∀ cs, (∀ t ∈ cs, InlineTree G t) → InlineTree G (mkNode k cs)) (a b : Nat) :
    ItemsOk G (wrapBetween k a b its) := by
  unfold wrapBetween
  split
  · exact h
  · rename_i pre o post hs
    obtain ⟨e, _, _⟩ := splitAtId_spec hs
    have hp : ItemsOk G post := fun it hit => h it (by rw [e]; simp [hit])
    have hsp := spanToId_append b post
    dsimp only
    intro it hit
    simp only [List.mem_append, List.mem_cons, List.not_mem_nil, or_false] at hit
    rcases hit with (hit | rfl | rfl) | hit
    · exact h it (by rw [e]; simp [hit])
    · exact h _ (by rw [e]; simp)
    · refine ⟨hk _ ?_, fun h0 => absurd rfl h0⟩
      intro t ht
      obtain ⟨jt, hj, rfl⟩ := List.mem_map.mp ht
      exact (hp jt (by rw [← hsp]; simp [hj])).tree
    · exact hp it (by rw [← hsp]; simp [hit])

theorem findOpener_spec (closer : Delim) (bottom : Option Nat) : ∀ (ds : List Delim) (odd : Bool) op below,
    (findOpener closer bottom ds odd).1 = some (op, below) →
      ∃ skipped, ds = skipped ++ op :: below ∧ op.cc = closer.cc ∧ op.canOpen = true := by
  intro ds
  induction ds with
  | nil => intro odd op below h; simp [findOpener] at h
  | cons d ds ih =>
    intro odd op below h
    rw [findOpener] at h
    split at h
    · simp at h
    · dsimp only at h
      split at h
      · rename_i hc
        simp only [Option.some.injEq, Prod.mk.injEq] at h
        obtain ⟨rfl, rfl⟩ := h
        simp only [Bool.and_eq_true, beq_iff_eq] at hc
        exact ⟨[], rfl, hc.1.1, hc.1.2⟩
      · obtain ⟨sk, e, hh⟩ := ih _ _ _ h
        exact ⟨d :: sk, by simp [e], hh⟩

/-- The quotation marks that smart punctuation writes. -/
structure SmartGood (G : Char → Prop) : Prop where
  rs : G rsquo
  ls : G lsquo
  ld : G ldquo
  rd : G rdquo
  em : G emDash
  en : G enDash
  el : G ellipsis

def emphMeasure (ds : List Delim) : Nat := (ds.map fun d => d.numdelims + 1).sum

theorem emphStep_ok {G : Char → Prop} (hG : SmartGood G) {st : EmphState} {cl : Delim} {rest : List Delim}
    (ha : st.after = cl :: rest) (hi : ItemsOk G st.items)
    (hd : ∀ d ∈ st.before ++ st.after, d.node ≠ 0) :
    ItemsOk G (emphStep st cl rest).items ∧
    (∀ d ∈ (emphStep st cl rest).before ++ (emphStep st cl rest).after, d.node ≠ 0) ∧
    emphMeasure (emphStep st cl rest).after < emphMeasure st.after := by
  have hcl : cl.node ≠ 0 := hd cl (by simp [ha])
  have hb : ∀ d ∈ st.before, d.node ≠ 0 := fun d h => hd d (by simp [h])
  have hr : ∀ d ∈ rest, d.node ≠ 0 := fun d h => hd d (by simp [ha, h])
  have hm : emphMeasure rest < emphMeasure st.after := by
    rw [ha]; simp only [emphMeasure, List.map_cons, List.sum_cons]; omega
  have hmove : ∀ d ∈ (cl :: st.before) ++ rest, d.node ≠ 0 := by
    intro d h
    simp only [List.cons_append, List.mem_cons, List.mem_append] at h
    rcases h with rfl | h | h
    · exact hcl
    · exact hb d h
    · exact hr d h
  have hmove' : ∀ d ∈ st.before ++ rest, d.node ≠ 0 := fun d h => hmove d (by
    simp only [List.cons_append, List.mem_cons]; exact Or.inr h)
  have hconst : ∀ ch, G ch → ∀ s : Str, Strs G s → Strs G ((fun _ => [ch]) s) :=
    fun ch h s _ => strs_single h
  have hde : ∀ n, ∀ s : Str, Strs G s → Strs G (dropEnd n s) := fun n s h => strs_take h _
  unfold emphStep
  by_cases hc : cl.canClose = true
  rotate_left
  · rw [if_pos (by simpa using hc)]
    exact ⟨hi, hmove, hm⟩
  rw [if_neg (by simp [hc])]
  have hf := findOpener_spec cl (st.openersBottom cl.cc) st.before st.oddMatch
  revert hf
  generalize findOpener cl (st.openersBottom cl.cc) st.before st.oddMatch = fo
  obtain ⟨found, odd⟩ := fo
  intro hf
  dsimp only at hf ⊢
  -- the shared branch
  have nf : ∀ items, ItemsOk G items → ∀ st' : EmphState,
      st' = (if odd then
        { st with before := cl :: st.before, after := rest, items := items, oddMatch := odd }
      else
        { before := if cl.canOpen then cl :: st.before else st.before
          after := rest
          items := items
          openersBottom := fun ch => if ch == cl.cc then st.before.head?.map (·.node) else st.openersBottom ch
          oddMatch := odd }) →
      ItemsOk G st'.items ∧ (∀ d ∈ st'.before ++ st'.after, d.node ≠ 0) ∧
      emphMeasure st'.after < emphMeasure st.after := by
    intro items h st' e
    subst e
    split
    · exact ⟨h, hmove, hm⟩
    · refine ⟨h, ?_, hm⟩
      dsimp only
      split
      · exact hmove
      · exact hmove'
  split
  · cases found with
    | none => exact nf _ hi _ rfl
    | some ob =>
      obtain ⟨op, below⟩ := ob
      obtain ⟨sk, e, _⟩ := hf op below rfl
      have hop : op.node ≠ 0 := hb op (by simp [e])
      have hbelow : ∀ d ∈ below, d.node ≠ 0 := fun d h => hb d (by simp [e, h])
      dsimp only
      have hu : 1 ≤ (if cl.numdelims ≥ 2 && op.numdelims ≥ 2 then 2 else 1) := by split <;> omega
      revert hu
      generalize (if cl.numdelims ≥ 2 && op.numdelims ≥ 2 then 2 else 1) = use
      intro hu
      refine ⟨?_, ?_, ?_⟩
      · have h1 := setLiteral_ok hi hop (hde use)
        have h2 := setLiteral_ok h1 hcl (hde use)
        have h3 := wrapBetween_ok h2 (k := if use == 1 then Kind.emph else .strong) (by
            intro cs hcs
            split
            · exact InlineTree.emph hcs
            · exact InlineTree.strong hcs) op.node cl.node
        split <;> split
        · exact removeId_ok (removeId_ok h3 _) _
        · exact removeId_ok h3 _
        · exact removeId_ok h3 _
        · exact h3
      · intro d h
        rcases List.mem_append.mp h with h | h
        · split at h
          · exact hbelow d h
          · rcases List.mem_cons.mp h with rfl | h
            · exact hop
            · exact hbelow d h
        · split at h
          · exact hr d h
          · rcases List.mem_cons.mp h with rfl | h
            · exact hcl
            · exact hr d h
      · split
        · exact hm
        · rename_i h0
          rw [ha]
          simp only [emphMeasure, List.map_cons, List.sum_cons]
          have : cl.numdelims - use ≠ 0 := by simpa using h0
          omega
  · split
    · have h1 := setLiteral_ok hi hcl (hconst rsquo hG.rs)
      cases found with
      | none => exact nf _ h1 _ rfl
      | some ob =>
        obtain ⟨op, below⟩ := ob
        obtain ⟨sk, e, _⟩ := hf op below rfl
        have hop : op.node ≠ 0 := hb op (by simp [e])
        exact ⟨setLiteral_ok h1 hop (hconst lsquo hG.ls), hmove, hm⟩
    · have h1 := setLiteral_ok hi hcl (hconst rdquo hG.rd)
      cases found with
      | none => exact nf _ h1 _ rfl
      | some ob =>
        obtain ⟨op, below⟩ := ob
        obtain ⟨sk, e, _⟩ := hf op below rfl
        have hop : op.node ≠ 0 := hb op (by simp [e])
        exact ⟨setLiteral_ok h1 hop (hconst ldquo hG.ld), hmove, hm⟩

theorem emphLoop_ok {G : Char → Prop} (hG : SmartGood G) : ∀ (fuel : Nat) (st : EmphState),
    emphMeasure st.after < fuel → ItemsOk G st.items → (∀ d ∈ st.before ++ st.after, d.node ≠ 0) →
    ∃ its, emphLoop fuel st = .ok its ∧ ItemsOk G its := by
  intro fuel
  induction fuel with
  | zero => intro st h; omega
  | succ k ih =>
    intro st hm hi hd
    rw [emphLoop]
    cases ha : st.after with
    | nil => exact ⟨_, rfl, hi⟩
    | cons cl rest =>
      obtain ⟨h1, h2, h3⟩ := emphStep_ok hG ha hi hd
      exact ih _ (by omega) h1 h2

theorem processEmphasis_ok {G : Char → Prop} (hG : SmartGood G) {ds : List Delim} {its : List Item}
    (hi : ItemsOk G its) (hd : ∀ d ∈ ds, d.node ≠ 0) :
    ∃ its', processEmphasis ds its = .ok its' ∧ ItemsOk G its' :=
  emphLoop_ok hG _ _ (by simp [emphMeasure, emphFuel]) hi (by simpa using hd)

/-! ### Code spans -/

theorem search_spec {c : Ctx} {r : Re} {pos : Nat} {m : Str} {p : Nat} (hr : 0 < r.minLen)
    (h : c.search_ r pos = some (m, p)) : pos < p ∧ p ≤ c.subject.length := by
  unfold Ctx.search_ Ctx.rest at h
  simp only [Option.map_eq_some_iff] at h
  obtain ⟨⟨pre, post⟩, h1, h2⟩ := h
  simp only [Prod.mk.injEq] at h2
  obtain ⟨_, rfl⟩ := h2
  obtain ⟨m', e, hm, _⟩ := Re.search_spec h1
  have hl := congrArg List.length e
  simp only [List.length_append, List.length_drop] at hl ⊢
  omega

theorem backtickLoop_ok (c : Ctx) (ticks : Str) : ∀ (fuel pos : Nat), c.subject.length - pos < fuel →
    ∃ r, backtickLoop c ticks fuel pos = .ok r ∧ ∀ p, r = some p → pos < p := by
  intro fuel
  induction fuel with
  | zero => intro pos h; omega
  | succ k ih =>
    intro pos h
    rw [backtickLoop]
    cases hs : c.search_ reTicks pos with
    | none => exact ⟨none, rfl, by intro p h; simp at h⟩
    | some mp =>
      obtain ⟨m, p⟩ := mp
      obtain ⟨h1, h2⟩ := search_spec (by decide) hs
      dsimp only
      split
      · exact ⟨some p, rfl, by intro q h; simp at h; omega⟩
      · obtain ⟨r, e, hr⟩ := ih p (by omega)
        exact ⟨r, e, fun q hq => by have := hr q hq; omega⟩

/-! ### The state of the inline loop -/

/-- What the subject, the reference map and the entity table provide. -/
structure Src (G : Char → Prop) (c : Ctx) : Prop where
  smart : SmartGood G
  ascii : ∀ ch ∈ "\\[]! ".toList, G ch
  subject : Strs G c.subject
  entity : ∀ m, m <:+: c.subject → Strs G (htmlUnescape m)
  title : ∀ m, m <:+: c.subject → Strs G (unescapeString m)
  refs : ∀ k d, c.refmap.get k = some d → Strs G d.title ∧ ∃ u, d.destination = normalizeUri u

/-- A character reference that decodes to nothing. -/
def VoidRef (m : Str) : Prop := (∃ n t, Den n reENTITY m t) ∧ htmlUnescape m = []

/-- The last child is an empty text only directly after such a reference. -/
def LastOk (c : Ctx) (st : IState) : Prop :=
  ∀ i, st.children.getLast? = some ⟨i, textNode []⟩ → ∃ a m, c.subject.take st.pos = a ++ m ∧ VoidRef m

structure IInv (G : Char → Prop) (c : Ctx) (st : IState) : Prop where
  items : ItemsOk G st.children
  delims : ∀ d ∈ st.delims, d.node ≠ 0
  next : st.nextId ≠ 0
  last : LastOk c st

theorem itemsOk_snoc {G : Char → Prop} {its : List Item} (h : ItemsOk G its) {it : Item} (h' : ItemOk G it) :
    ItemsOk G (its ++ [it]) := by
  intro j hj
  rcases List.mem_append.mp hj with hj | hj
  · exact h j hj
  · simp at hj; subst hj; exact h'

/-- Append a node nobody refers to. -/
theorem push_ok {G : Char → Prop} {c : Ctx} {st : IState} (h : IInv G c st) {p : Nat} {t : Tree}
    (ht : InlineTree G t) (hne : t ≠ textNode []) : IInv G c ({ st with pos := p }.push t) := by
  refine ⟨itemsOk_snoc h.items ⟨ht, fun h0 => absurd rfl h0⟩, h.delims, h.next, ?_⟩
  intro i hi
  simp only [IState.push, List.getLast?_append, List.getLast?_singleton, Option.some_or, Option.some.injEq,
    Item.mk.injEq] at hi
  exact absurd hi.2 hne

theorem push_text {G : Char → Prop} {c : Ctx} {st : IState} (h : IInv G c st) {p : Nat} {s : Str}
    (hs : Strs G s) (hne : s ≠ []) : IInv G c ({ st with pos := p }.push (textNode s)) :=
  push_ok h (.text hs) (by simpa [textNode] using hne)

theorem infix_of_match {c : Ctx} {r : Re} {pos : Nat} {m : Str} {p : Nat} (h : c.match_ r pos = some (m, p)) :
    m <:+: c.subject :=
  (match_spec h).2.2.2.isInfix.trans (List.drop_suffix _ _).isInfix

theorem strs_infix {G : Char → Prop} {s m : Str} (h : Strs G s) (hm : m <:+: s) : Strs G m :=
  fun c hc => h c (hm.sublist.mem hc)

theorem chop_infix (s : Str) : chop s <:+: s :=
  (List.dropLast_prefix _).isInfix.trans (List.drop_suffix 1 s).isInfix

theorem slice_infix (s : Str) (i j : Nat) : slice s i j <:+: s :=
  (List.drop_suffix i _).isInfix.trans (List.take_prefix j s).isInfix

theorem parseBackticks_ok {G : Char → Prop} {c : Ctx} (hS : Src G c) {st : IState} (h : IInv G c st) :
    ∃ b st', parseBackticks c st = .ok (b, st') ∧ IInv G c st' ∧
      (b = true → st.pos < st'.pos) ∧ (b = false → st' = st) := by
  unfold parseBackticks
  cases hm : c.match_ reTicks st.pos with
  | none => exact ⟨false, st, rfl, h, by simp, fun _ => rfl⟩
  | some mp =>
    obtain ⟨ticks, p⟩ := mp
    obtain ⟨h1, h2, h3, h4⟩ := match_spec hm
    have h3' : 1 ≤ ticks.length := h3
    obtain ⟨r, e, hr⟩ := backtickLoop_ok c ticks (c.subject.length + 1) p (by omega)
    dsimp only
    rw [e]
    simp only [bind, Except.bind]
    cases r with
    | none =>
      refine ⟨_, _, rfl, push_text h (strs_infix hS.subject (infix_of_match hm)) ?_, ?_, by simp⟩
      · intro e; rw [e] at h3'; simp at h3'
      · intro _; simp only [IState.push]; omega
    | some q =>
      have := hr q rfl
      refine ⟨_, _, rfl, push_ok h (.code ?_) (by simp [codeNode, textNode]), ?_, by simp⟩
      · unfold codeLiteral
        have hb : Strs G (replaceChar '\n' ' ' (slice c.subject p (q - ticks.length))) := by
          intro ch hch
          unfold replaceChar at hch
          obtain ⟨d, hd, rfl⟩ := List.mem_map.mp hch
          split
          · exact hS.ascii _ (by decide)
          · exact strs_slice hS.subject _ _ d hd
        dsimp only
        split
        · exact strs_chop hb
        · exact hb
      · intro _; simp only [IState.push]; omega

theorem parseBackslash_ok {G : Char → Prop} {c : Ctx} (hS : Src G c) {st : IState} (h : IInv G c st) :
    IInv G c (parseBackslash c st) ∧ st.pos < (parseBackslash c st).pos := by
  unfold parseBackslash
  dsimp only
  have hbs : Strs G ['\\'] := strs_single (hS.ascii _ (by decide))
  cases hp : c.peek (st.pos + 1) with
  | none => exact ⟨push_text h hbs (by simp), by simp [IState.push]⟩
  | some ch =>
    dsimp only
    have hch : G ch := hS.subject ch (List.mem_of_getElem? hp)
    split
    · exact ⟨push_ok h .hard (by simp [mkNode, textNode]), by simp [IState.push]; omega⟩
    · split
      · exact ⟨push_text h (strs_single hch) (by simp), by simp [IState.push]; omega⟩
      · exact ⟨push_text h hbs (by simp), by simp [IState.push]⟩

theorem parseAutolink_ok {G : Char → Prop} {c : Ctx} (hS : Src G c) {st : IState} (h : IInv G c st) :
    IInv G c (parseAutolink c st).2 ∧
      ((parseAutolink c st).1 = true → st.pos < (parseAutolink c st).2.pos) ∧
      ((parseAutolink c st).1 = false → (parseAutolink c st).2 = st) := by
  unfold parseAutolink
  have key : ∀ (u m : Str) (p : Nat), m <:+: c.subject →
      IInv G c ({ st with pos := p }.push (linkNode .link (normalizeUri u) [] [textNode (chop m)])) := by
    intro u m p hm
    refine push_ok h (.link strs_nil ?_) (by simp [linkNode, textNode])
    intro t ht; simp at ht; subst ht
    exact .text (strs_infix hS.subject ((chop_infix m).trans hm))
  cases hm : c.match_ reEmailAutolink st.pos with
  | some mp =>
    obtain ⟨m, p⟩ := mp
    obtain ⟨h1, h2, h3, h4⟩ := match_spec hm
    have h3' : 5 ≤ m.length := h3
    exact ⟨key _ _ _ (infix_of_match hm), by simp only [IState.push]; omega, by simp⟩
  | none =>
    cases hm : c.match_ reAutolink st.pos with
    | some mp =>
      obtain ⟨m, p⟩ := mp
      obtain ⟨h1, h2, h3, h4⟩ := match_spec hm
      have h3' : 5 ≤ m.length := h3
      exact ⟨key _ _ _ (infix_of_match hm), by simp only [IState.push]; omega, by simp⟩
    | none => exact ⟨h, by simp, fun _ => rfl⟩

theorem parseHtmlTag_ok {G : Char → Prop} {c : Ctx} (hS : Src G c) {st : IState} (h : IInv G c st) :
    IInv G c (parseHtmlTag c st).2 ∧
      ((parseHtmlTag c st).1 = true → st.pos < (parseHtmlTag c st).2.pos) ∧
      ((parseHtmlTag c st).1 = false → (parseHtmlTag c st).2 = st) := by
  unfold parseHtmlTag
  cases hm : c.match_ reHtmlTag st.pos with
  | some mp =>
    obtain ⟨m, p⟩ := mp
    obtain ⟨h1, h2, h3, h4⟩ := match_spec hm
    have h3' : 3 ≤ m.length := Nat.le_trans (by decide) h3
    exact ⟨push_ok h (.html (strs_infix hS.subject (infix_of_match hm))) (by simp [htmlInlineNode, textNode]),
      by simp only [IState.push]; omega, by simp⟩
  | none => exact ⟨h, by simp, fun _ => rfl⟩

theorem handleDelim_ok {G : Char → Prop} {c : Ctx} (hS : Src G c) {st : IState} (h : IInv G c st) (cc : Char)
    (hpos : st.pos < c.subject.length) :
    IInv G c (handleDelim c cc st).2 ∧
      ((handleDelim c cc st).1 = true → st.pos < (handleDelim c cc st).2.pos) ∧
      ((handleDelim c cc st).1 = false → (handleDelim c cc st).2 = st) := by
  unfold handleDelim
  cases hm : scanDelims c cc st.pos with
  | none => exact ⟨h, by simp, fun _ => rfl⟩
  | some info =>
    have hn : info.numdelims ≠ 0 := by
      unfold scanDelims at hm
      dsimp only at hm
      split at hm
      · simp at hm
      · rename_i h0
        simp only [Option.some.injEq] at hm
        rw [← hm]; simpa using h0
    dsimp only
    refine ⟨⟨itemsOk_snoc h.items ⟨.text ?_, fun _ => ⟨_, rfl⟩⟩, ?_, by simp, ?_⟩, by intro _; omega, by simp⟩
    · split
      · exact strs_single hS.smart.rs
      · split
        · exact strs_single hS.smart.ld
        · exact strs_slice hS.subject _ _
    · intro d hd
      rcases List.mem_cons.mp hd with rfl | hd
      · exact h.next
      · exact h.delims d hd
    · intro i hi
      simp only [List.getLast?_append, List.getLast?_singleton, Option.some_or, Option.some.injEq,
        Item.mk.injEq, textNode, Tree.node.injEq, NodeData.mk.injEq, and_true, true_and] at hi
      exfalso
      have := hi.2
      split at this
      · simp at this
      · split at this
        · simp at this
        · have := congrArg List.length this
          simp only [slice, List.length_drop, List.length_take, List.length_nil] at this
          omega

theorem addBracket_ok {G : Char → Prop} {c : Ctx} {st : IState} (h : IInv G c st) (p : Nat) {s : Str}
    (hs : Strs G s) (hne : s ≠ []) (i : Nat) (b : Bool) : IInv G c (addBracket { st with pos := p } s i b) := by
  refine ⟨itemsOk_snoc h.items ⟨.text hs, fun _ => ⟨_, rfl⟩⟩, h.delims, by simp [addBracket], ?_⟩
  intro i hi
  simp only [addBracket, List.getLast?_append, List.getLast?_singleton, Option.some_or, Option.some.injEq,
    Item.mk.injEq, textNode, Tree.node.injEq, NodeData.mk.injEq, and_true, true_and] at hi
  exact absurd hi.2 hne

theorem parseOpenBracket_ok {G : Char → Prop} {c : Ctx} (hS : Src G c) {st : IState} (h : IInv G c st) :
    IInv G c (parseOpenBracket st) ∧ st.pos < (parseOpenBracket st).pos :=
  ⟨addBracket_ok h _ (strs_single (hS.ascii _ (by decide))) (by simp) _ _, by
    simp [parseOpenBracket, addBracket]⟩

theorem parseBang_ok {G : Char → Prop} {c : Ctx} (hS : Src G c) {st : IState} (h : IInv G c st) :
    IInv G c (parseBang c st) ∧ st.pos < (parseBang c st).pos := by
  unfold parseBang
  split
  · refine ⟨addBracket_ok h _ ?_ (by simp) _ _, by simp [addBracket]⟩
    intro ch hch
    exact hS.ascii ch (by revert ch; decide)
  · exact ⟨push_text h (strs_single (hS.ascii _ (by decide))) (by simp), by simp [IState.push]⟩

theorem parseLinkDestination_spec {c : Ctx} {pos : Nat} {d : Str} {p : Nat}
    (h : parseLinkDestination c pos = some (d, p)) : pos ≤ p ∧ ∃ u, d = normalizeUri u := by
  unfold parseLinkDestination at h
  cases hm : c.match_ reLinkDestinationBraces pos with
  | some mp =>
    obtain ⟨m, q⟩ := mp
    rw [hm] at h
    simp only [Option.some.injEq, Prod.mk.injEq] at h
    obtain ⟨rfl, rfl⟩ := h
    have := (match_spec hm).2.1
    exact ⟨by omega, _, rfl⟩
  | none =>
    rw [hm] at h
    dsimp only at h
    split at h
    · simp at h
    · split at h
      · simp at h
      · simp only [Option.some.injEq, Prod.mk.injEq] at h
        obtain ⟨rfl, rfl⟩ := h
        exact ⟨by omega, _, rfl⟩

theorem parseLinkTitle_spec {G : Char → Prop} {c : Ctx} (hS : Src G c) {pos : Nat} {t : Str} {p : Nat}
    (h : parseLinkTitle c pos = some (t, p)) : pos ≤ p ∧ Strs G t := by
  unfold parseLinkTitle at h
  simp only [Option.map_eq_some_iff] at h
  obtain ⟨⟨m, q⟩, hm, h⟩ := h
  simp only [Prod.mk.injEq] at h
  obtain ⟨rfl, rfl⟩ := h
  have := (match_spec hm).2.1
  exact ⟨by omega, hS.title _ ((chop_infix m).trans (infix_of_match hm))⟩

theorem inlineLink_spec {G : Char → Prop} {c : Ctx} (hS : Src G c) (pos : Nat) :
    pos ≤ (inlineLink c pos).2 ∧ ∀ d t, (inlineLink c pos).1 = some (d, t) →
      (∃ u, d = normalizeUri u) ∧ Strs G (t.getD []) := by
  unfold inlineLink
  split
  rotate_left
  · exact ⟨Nat.le_refl _, by intro d t h; simp at h⟩
  dsimp only
  cases hd : parseLinkDestination c (c.spnl (pos + 1)) with
  | none => exact ⟨Nat.le_refl _, by intro d t h; simp at h⟩
  | some dp =>
    obtain ⟨dest, p⟩ := dp
    obtain ⟨h1, h2⟩ := parseLinkDestination_spec hd
    have h0 := spnl_ge c (pos + 1)
    have h3 := spnl_ge c p
    dsimp only
    have key : ∀ (title : Option Str) (q : Nat), c.spnl p ≤ q → Strs G (title.getD []) →
        ∀ r : Option (Str × Option Str) × Nat,
        r = (if c.peek (c.spnl q) == some ')' then (some (dest, title), c.spnl q + 1) else (none, c.spnl q)) →
        pos ≤ r.2 ∧ ∀ d t, r.1 = some (d, t) → (∃ u, d = normalizeUri u) ∧ Strs G (t.getD []) := by
      intro title q k1 k2 r e
      have h4 := spnl_ge c q
      subst e
      split
      · refine ⟨by dsimp only; omega, ?_⟩
        intro d t h
        simp only [Option.some.injEq, Prod.mk.injEq] at h
        obtain ⟨rfl, rfl⟩ := h
        exact ⟨h2, k2⟩
      · exact ⟨by dsimp only; omega, by intro d t h; simp at h⟩
    cases hc : c.subject[c.spnl p - 1]? with
    | none => exact key none _ (Nat.le_refl _) strs_nil _ rfl
    | some ch =>
      by_cases hw : isWhitespaceChar ch = true
      · cases ht : parseLinkTitle c (c.spnl p) with
        | none => exact key none (c.spnl p) (Nat.le_refl _) strs_nil _ (by simp only [if_pos hw])
        | some tq =>
          obtain ⟨t1, t2⟩ := parseLinkTitle_spec hS ht
          exact key (some tq.1) tq.2 t1 t2 _ (by simp only [if_pos hw])
      · exact key none (c.spnl p) (Nat.le_refl _) strs_nil _ (by simp only [if_neg hw])

theorem referenceLink_spec {G : Char → Prop} {c : Ctx} (hS : Src G c) (op : Bracket) (save before : Nat)
    (hb : save ≤ before) :
    save ≤ (referenceLink c op save before).2 ∧ ∀ d t, (referenceLink c op save before).1 = some (d, t) →
      (∃ u, d = normalizeUri u) ∧ Strs G t := by
  unfold referenceLink
  have hp : before ≤ (parseLinkLabel c before).2 := by
    unfold parseLinkLabel
    split
    · exact Nat.le_refl _
    · rename_i h
      have := (match_spec h).2.1
      split <;> dsimp only <;> omega
  revert hp
  generalize parseLinkLabel c before = np
  obtain ⟨n, p⟩ := np
  intro hp
  dsimp only at hp ⊢
  have hq : save ≤ (if n == 0 then save else p) := by split <;> omega
  generalize (if n > 2 then slice c.subject before (before + n) else slice c.subject op.index save) = lab
  generalize (if n == 0 then save else p) = q at *
  by_cases hl : lab.isEmpty = true
  · rw [if_pos hl]; exact ⟨hq, by intro d t h; simp at h⟩
  · rw [if_neg hl]
    cases hd : c.refmap.get (normalizeReference lab) with
    | some d' =>
      refine ⟨hq, ?_⟩
      intro d t h
      simp only [Option.some.injEq, Prod.mk.injEq] at h
      obtain ⟨rfl, rfl⟩ := h
      obtain ⟨r1, r2⟩ := hS.refs _ _ hd
      exact ⟨r2, r1⟩
    | none => exact ⟨hq, by intro d t h; simp at h⟩

theorem closeLink_ok {G : Char → Prop} {c : Ctx} (hS : Src G c) {st : IState} (h : IInv G c st)
    (op : Bracket) (bs : List Bracket) {dest title : Str} (p : Nat) (hd : ∃ u, dest = normalizeUri u)
    (ht : Strs G title) :
    ∃ st', closeLink op bs dest title { st with pos := p } = .ok st' ∧ IInv G c st' ∧ st'.pos = p := by
  unfold closeLink
  have hab : ∀ d ∈ (splitDelims op.prevDelim st.delims).1, d.node ≠ 0 := by
    intro d hd
    simp only [splitDelims, List.mem_reverse] at hd
    exact h.delims d ((List.takeWhile_sublist _).mem hd)
  have hbe : ∀ d ∈ (splitDelims op.prevDelim st.delims).2, d.node ≠ 0 := by
    intro d hd
    simp only [splitDelims] at hd
    exact h.delims d (List.mem_of_mem_drop hd)
  have fin : ∀ pre post, ItemsOk G pre → ItemsOk G post → ∃ st', (do
      let inner ← processEmphasis (splitDelims op.prevDelim st.delims).1 post
      pure (f := Except PyErr) ({ st with
        pos := p
        children := pre ++ [(⟨0, linkNode (if op.image then .image else .link) dest title (inner.map Item.node)⟩ : Item)]
        delims := (splitDelims op.prevDelim st.delims).2
        brackets := if op.image then bs else deactivate bs } : IState)) = .ok st' ∧ IInv G c st' ∧ st'.pos = p := by
    intro pre post h1 h2
    obtain ⟨inner, e, hin⟩ := processEmphasis_ok hS.smart h2 hab
    rw [e]
    simp only [bind, Except.bind]
    refine ⟨_, rfl, ⟨itemsOk_snoc h1 ⟨?_, fun h0 => absurd rfl h0⟩, hbe, h.next, ?_⟩, rfl⟩
    · obtain ⟨u, rfl⟩ := hd
      have hin' : ∀ t ∈ inner.map (·.node), InlineTree G t := by
        intro t ht
        obtain ⟨j, hj, rfl⟩ := List.mem_map.mp ht
        exact (hin j hj).tree
      dsimp only
      split
      · exact .image ht hin'
      · exact .link ht hin'
    · intro i hi
      simp [linkNode, textNode] at hi
  dsimp only
  cases hs : splitAtId op.node st.children with
  | none => exact fin _ _ h.items (by intro it hit; simp at hit)
  | some axb =>
    obtain ⟨a, x, b⟩ := axb
    obtain ⟨e, _, _⟩ := splitAtId_spec hs
    exact fin a b (fun it hit => h.items it (by rw [e]; simp [hit])) (fun it hit => h.items it (by rw [e]; simp [hit]))

theorem parseCloseBracket_ok {G : Char → Prop} {c : Ctx} (hS : Src G c) {st : IState} (h : IInv G c st) :
    ∃ st', parseCloseBracket c st = .ok st' ∧ IInv G c st' ∧ st.pos < st'.pos := by
  unfold parseCloseBracket
  dsimp only
  have hb : Strs G (lit "]") := strs_single (hS.ascii _ (by decide))
  have hI : ∀ bs, IInv G c { st with brackets := bs } := fun bs => ⟨h.items, h.delims, h.next, h.last⟩
  cases hbr : st.brackets with
  | nil => exact ⟨_, rfl, push_text (hI []) hb (by simp), by simp [IState.push]⟩
  | cons opener bs =>
    dsimp only
    split
    · exact ⟨_, rfl, push_text (hI bs) hb (by simp), by simp [IState.push]⟩
    · have hil := inlineLink_spec hS (st.pos + 1)
      revert hil
      generalize inlineLink c (st.pos + 1) = il
      intro hil
      obtain ⟨res, p⟩ := il
      obtain ⟨hp, hr⟩ := hil
      dsimp only at hp hr
      cases res with
      | some dt =>
        obtain ⟨dest, title⟩ := dt
        obtain ⟨hd, ht⟩ := hr dest title rfl
        obtain ⟨st', e, h1, h2⟩ := closeLink_ok hS h opener bs p hd ht
        exact ⟨st', by simpa [hbr] using e, h1, by omega⟩
      | none =>
        dsimp only
        have hrl := referenceLink_spec hS opener (st.pos + 1) p hp
        revert hrl
        generalize referenceLink c opener (st.pos + 1) p = rl
        intro hrl
        obtain ⟨res, q⟩ := rl
        obtain ⟨hq, hr⟩ := hrl
        dsimp only at hq hr
        cases res with
        | some dt =>
          obtain ⟨dest, title⟩ := dt
          obtain ⟨hd, ht⟩ := hr dest title rfl
          obtain ⟨st', e, h1, h2⟩ := closeLink_ok hS h opener bs q hd ht
          exact ⟨st', by simpa [hbr] using e, h1, by omega⟩
        | none =>
          exact ⟨_, rfl, push_text (hI bs) hb (by simp), by simp [IState.push]⟩

theorem all_seq_lit1 {n : Nat} {a : Re} {ch : Char} {s t : Str} (h : t ∈ (Re.seq a (.lit1 ch)).all n s) :
    ∃ u, s = u ++ ch :: t ∧ ch :: t ∈ a.all n s := by
  simp only [Re.all, List.mem_flatMap] at h
  obtain ⟨v, hv, h⟩ := h
  obtain ⟨u, hu⟩ := Re.all_suffix n a s v hv
  cases v with
  | nil => simp [Re.lit1] at h
  | cons d v =>
    rw [Re.lit1, Re.all_chr_cons] at h
    split at h
    · rename_i hd
      simp only [List.mem_singleton] at h
      simp only [beq_iff_eq] at hd
      subst h hd
      exact ⟨u, hu.symm, hv⟩
    · simp at h

theorem reENTITY_last {s m : Str} (h : reENTITY.matchPrefix s = some m) : ∃ m', m = m' ++ [';'] := by
  obtain ⟨t, ht, rfl⟩ := Re.matchPrefix_append h
  have hh := Re.run_some_mem ht
  rw [show reENTITY = .seq (.lit1 '&') (.seq (.alts [
      .seqs [.lit1 '#', .chr (ciEq 'x'), .between 1 6 (.chr isHexCI)],
      .seqs [.lit1 '#', .between 1 7 (.chr isDig)],
      .seqs [.chr isAlphaCI, .between 1 31 (.chr isAlnumCI)]]) (.lit1 ';')) from rfl] at hh
  rw [Re.all] at hh
  obtain ⟨v, hv, hh⟩ := List.mem_flatMap.mp hh
  obtain ⟨w, hw⟩ := Re.all_suffix _ _ _ _ hv
  obtain ⟨u, hu, _⟩ := all_seq_lit1 hh
  rw [hu] at hw
  have : m ++ t = (w ++ u ++ [';']) ++ t := by rw [← hw]; simp
  exact ⟨w ++ u, List.append_cancel_right this⟩

theorem parseEntity_ok {G : Char → Prop} {c : Ctx} (hS : Src G c) {st : IState} (h : IInv G c st) :
    IInv G c (parseEntity c st).2 ∧
      ((parseEntity c st).1 = true → st.pos < (parseEntity c st).2.pos) ∧
      ((parseEntity c st).1 = false → (parseEntity c st).2 = st) := by
  unfold parseEntity
  cases hm : c.match_ reENTITY st.pos with
  | some mp =>
    obtain ⟨m, p⟩ := mp
    obtain ⟨h1, h2, h3, h4⟩ := match_spec hm
    have h3' : 4 ≤ m.length := h3
    refine ⟨⟨itemsOk_snoc h.items ⟨.text (hS.entity _ (infix_of_match hm)), fun h0 => absurd rfl h0⟩, h.delims, h.next, ?_⟩,
      by simp only [IState.push]; omega, by simp⟩
    intro i hi
    simp only [IState.push, List.getLast?_append, List.getLast?_singleton, Option.some_or, Option.some.injEq,
      Item.mk.injEq, textNode, Tree.node.injEq, NodeData.mk.injEq, true_and, and_true] at hi
    obtain ⟨t, ht⟩ := h4
    obtain ⟨t', -, hden⟩ := Re.matchPrefix_den h1
    refine ⟨c.subject.take st.pos, m, ?_, ⟨⟨_, _, hden⟩, hi.2⟩⟩
    simp only [IState.push]
    rw [h2, List.take_add, ← ht, List.take_left']
    rfl
  | none => exact ⟨h, by simp, fun _ => rfl⟩

theorem smartDashes_ne_nil {m : Str} (h : 2 ≤ m.length) : smartDashes m ≠ [] := by
  unfold smartDashes
  dsimp only
  intro e
  have := congrArg List.length e
  simp only [List.length_append, List.length_replicate, List.length_nil, smartCounts] at this
  split at this
  · rename_i h0; simp at h0; simp at this; omega
  · split at this
    · rename_i h0 h1; simp at h1; simp at this; omega
    · split at this <;> simp at this

theorem smartDashes_strs {G : Char → Prop} (hG : SmartGood G) (m : Str) : Strs G (smartDashes m) :=
  strs_append (strs_replicate hG.em _) (strs_replicate hG.en _)

theorem parseString_ok {G : Char → Prop} {c : Ctx} (hS : Src G c) {st : IState} (h : IInv G c st) :
    IInv G c (parseString c st).2 ∧
      ((parseString c st).1 = true → st.pos < (parseString c st).2.pos) ∧
      ((parseString c st).1 = false → (parseString c st).2 = st) := by
  unfold parseString
  cases hm : c.match_ reMain st.pos with
  | some mp =>
    obtain ⟨m, p⟩ := mp
    obtain ⟨h1, h2, h3, h4⟩ := match_spec hm
    have h3' : 1 ≤ m.length := h3
    have hne : m ≠ [] := by intro e; rw [e] at h3'; simp at h3'
    have hms := strs_infix hS.subject (infix_of_match hm)
    refine ⟨push_text h ?_ ?_, by simp only [IState.push]; omega, by simp⟩
    · split
      · exact sub_strs _ _ (fun m _ => smartDashes_strs hS.smart m)
          (sub_strs _ _ (fun _ _ => strs_single hS.smart.el) hms)
      · exact hms
    · split
      · refine sub_ne_nil _ _ ?_ (sub_ne_nil _ _ (by simp) hne)
        intro m hm _
        exact smartDashes_ne_nil hm
      · exact hne
  | none => exact ⟨h, by simp, fun _ => rfl⟩

theorem setLastLiteral_snoc (s : Str) (its : List Item) (i : Nat) (d : NodeData) (cs : List Tree) :
    setLastLiteral s (its ++ [⟨i, .node d cs⟩]) = its ++ [⟨i, .node { d with literal := some s } cs⟩] := by
  induction its with
  | nil => rfl
  | cons it its ih =>
    cases its with
    | nil => simp [setLastLiteral]
    | cons jt r => simpa [setLastLiteral] using ih

theorem parseNewline_ok {G : Char → Prop} {c : Ctx} (hS : Src G c) {st : IState} (h : IInv G c st) :
    (∃ st', parseNewline c st = .ok st' ∧ IInv G c st' ∧ st.pos < st'.pos) ∨
    (parseNewline c st = .error .indexError ∧ ∃ a m, c.subject.take st.pos = a ++ m ∧ VoidRef m) := by
  have hg := gobble_ge c (st.pos + 1)
  have hsoft : ∃ st', Except.ok (ε := PyErr) ({ st with pos := c.gobble (st.pos + 1) }.push (mkNode .softbreak [])) = .ok st' ∧
      IInv G c st' ∧ st.pos < st'.pos :=
    ⟨_, rfl, push_ok h .soft (by simp [mkNode, textNode]), by simp only [IState.push]; omega⟩
  unfold parseNewline
  dsimp only
  cases hl : st.children.getLast? with
  | none => exact Or.inl hsoft
  | some it =>
    obtain ⟨i, ⟨d, cs⟩⟩ := it
    have hmem := List.mem_of_getLast? hl
    have hok := h.items _ hmem
    obtain ⟨init, hinit⟩ := List.getLast?_eq_some_iff.mp hl
    dsimp only
    by_cases ht : d.t = .text
    · rw [if_pos (by simpa using ht)]
      have hd : ∃ s, Tree.node d cs = textNode s := by
        have := hok.tree
        generalize hT : (⟨i, .node d cs⟩ : Item).node = T at this
        cases this <;> simp only [textNode, codeNode, htmlInlineNode, mkNode, linkNode, Tree.node.injEq] at hT ⊢ <;>
          first
          | exact ⟨_, hT⟩
          | (rw [hT.1] at ht; simp at ht)
      obtain ⟨s, hs⟩ := hd
      have hG := hok.tree.text_inv s hs
      simp only [textNode, Tree.node.injEq] at hs
      obtain ⟨rfl, rfl⟩ := hs
      dsimp only
      cases hs : s.getLast? with
      | none =>
        right
        have : s = [] := by simpa using hs
        subst this
        exact ⟨rfl, h.last i hl⟩
      | some ch =>
        left
        dsimp only
        split
        · refine ⟨_, rfl, ?_, by simp only [IState.push]; omega⟩
          rw [hinit, setLastLiteral_snoc]
          have hrest : ItemsOk G init := fun it hit => h.items it (by rw [hinit]; simp [hit])
          have hx : ItemsOk G (init ++ [⟨i, textNode (stripFinalSpace s)⟩]) :=
            itemsOk_snoc hrest ⟨.text (strs_rstrip hG _), fun _ => ⟨_, rfl⟩⟩
          refine ⟨itemsOk_snoc hx ⟨?_, fun h0 => absurd rfl h0⟩, h.delims, h.next, ?_⟩
          · split
            · exact .hard
            · exact .soft
          · intro j hj
            simp only [IState.push, mkNode, textNode, List.getLast?_append, List.getLast?_singleton,
              Option.some_or, Option.some.injEq, Item.mk.injEq, Tree.node.injEq, NodeData.mk.injEq] at hj
            have := hj.2.1.1
            split at this <;> simp at this
        · exact hsoft
    · rw [if_neg (by simpa using ht)]
      exact Or.inl hsoft

/-! ### The inline loop -/

theorem fallback_ok {G : Char → Prop} {c : Ctx} {st : IState} (h : IInv G c st) {ch : Char} (hc : G ch)
    {r : Bool × IState} (hr : IInv G c r.2) (h1 : r.1 = true → st.pos < r.2.pos) (h2 : r.1 = false → r.2 = st) :
    IInv G c (fallback ch r) ∧ st.pos < (fallback ch r).pos := by
  unfold fallback
  cases hb : r.1 with
  | true => simp only [if_true]; exact ⟨hr, h1 hb⟩
  | false =>
    simp only [Bool.false_eq_true, if_false]
    rw [h2 hb]
    exact ⟨push_text h (strs_single hc) (by simp), by simp [IState.push]⟩

theorem parseInline_ok {G : Char → Prop} {c : Ctx} (hS : Src G c) {st : IState} (h : IInv G c st) :
    (parseInline c st = .ok none ∧ c.subject.length ≤ st.pos) ∨
    (∃ st', parseInline c st = .ok (some st') ∧ IInv G c st' ∧ st.pos < st'.pos ∧ st.pos < c.subject.length) ∨
    (parseInline c st = .error .indexError ∧ c.subject[st.pos]? = some '\n' ∧
      ∃ a m, c.subject.take st.pos = a ++ m ∧ VoidRef m) := by
  unfold parseInline
  cases hp : c.peek st.pos with
  | none => left; exact ⟨rfl, by simpa [Ctx.peek] using hp⟩
  | some ch =>
    right
    have hlt : st.pos < c.subject.length := by
      have := List.getElem?_eq_some_iff.mp hp
      exact this.1
    have hch : G ch := hS.subject ch (List.mem_of_getElem? hp)
    have step : ∀ st', IInv G c st' ∧ st.pos < st'.pos →
        ∀ r : Except PyErr (Option IState), r = .ok (some st') →
        (∃ st', r = .ok (some st') ∧ IInv G c st' ∧ st.pos < st'.pos ∧ st.pos < c.subject.length) ∨
        (r = .error .indexError ∧ c.subject[st.pos]? = some '\n' ∧
          ∃ a m, c.subject.take st.pos = a ++ m ∧ VoidRef m) :=
      fun st' hh r e => Or.inl ⟨st', e, hh.1, hh.2, hlt⟩
    dsimp only
    by_cases h20 : (ch == '\n') = true
    · rw [if_pos h20]
      have hnl := h20
      rcases parseNewline_ok hS h with ⟨st', e, h1, h2⟩ | ⟨e, h1⟩
      · exact step st' ⟨h1, h2⟩ _ (by rw [e]; rfl)
      · right
        rw [e]
        refine ⟨rfl, ?_, h1⟩
        simp only [beq_iff_eq] at hnl
        subst hnl; exact hp
    rw [if_neg h20]
    by_cases h21 : (ch == '\\') = true
    · rw [if_pos h21]
      exact step _ (parseBackslash_ok hS h) _ rfl
    rw [if_neg h21]
    by_cases h22 : (ch == '`') = true
    · rw [if_pos h22]
      obtain ⟨b, st', e, h1, h2, h3⟩ := parseBackticks_ok hS h
      exact step _ (fallback_ok (r := (b, st')) h hch h1 h2 h3) _ (by rw [e]; rfl)
    rw [if_neg h22]
    by_cases h23 : (ch == '*' || ch == '_') = true
    · rw [if_pos h23]
      obtain ⟨h1, h2, h3⟩ := handleDelim_ok hS h ch hlt
      exact step _ (fallback_ok h hch h1 h2 h3) _ rfl
    rw [if_neg h23]
    by_cases h24 : (ch == '\'' || ch == '"') = true
    · rw [if_pos h24]
      cases c.smart with
      | true =>
        obtain ⟨h1, h2, h3⟩ := handleDelim_ok hS h ch hlt
        exact step _ (fallback_ok h hch h1 h2 h3) _ rfl
      | false => exact step _ (fallback_ok (r := (false, st)) h hch h (by simp) (fun _ => rfl)) _ rfl
    rw [if_neg h24]
    by_cases h25 : (ch == '[') = true
    · rw [if_pos h25]
      exact step _ (parseOpenBracket_ok hS h) _ rfl
    rw [if_neg h25]
    by_cases h26 : (ch == '!') = true
    · rw [if_pos h26]
      exact step _ (parseBang_ok hS h) _ rfl
    rw [if_neg h26]
    by_cases h27 : (ch == ']') = true
    · rw [if_pos h27]
      obtain ⟨st', e, h1, h2⟩ := parseCloseBracket_ok hS h
      exact step st' ⟨h1, h2⟩ _ (by rw [e]; rfl)
    rw [if_neg h27]
    by_cases h28 : (ch == '<') = true
    · rw [if_pos h28]
      have ha := parseAutolink_ok hS h
      revert ha
      generalize parseAutolink c st = r
      intro ha
      obtain ⟨b, st'⟩ := r
      obtain ⟨h1, h2, h3⟩ := ha
      cases b with
      | true => exact step _ (fallback_ok (r := (true, st')) h hch h1 h2 h3) _ rfl
      | false =>
        have : st' = st := h3 rfl
        subst this
        obtain ⟨h1, h2, h3⟩ := parseHtmlTag_ok hS h
        exact step _ (fallback_ok h hch h1 h2 h3) _ rfl
    rw [if_neg h28]
    by_cases h29 : (ch == '&') = true
    · rw [if_pos h29]
      obtain ⟨h1, h2, h3⟩ := parseEntity_ok hS h
      exact step _ (fallback_ok h hch h1 h2 h3) _ rfl
    · rw [if_neg h29]
      obtain ⟨h1, h2, h3⟩ := parseString_ok hS h
      exact step _ (fallback_ok h hch h1 h2 h3) _ rfl

/-- A line ending directly after a character reference that decodes to nothing. -/
def VoidRefNl (s : Str) : Prop := ∃ a m b, s = a ++ m ++ '\n' :: b ∧ VoidRef m

theorem inlineLoop_ok {G : Char → Prop} {c : Ctx} (hS : Src G c) : ∀ (fuel : Nat) (st : IState),
    c.subject.length - st.pos < fuel → IInv G c st →
    (∃ st', inlineLoop c fuel st = .ok st' ∧ IInv G c st') ∨
    (inlineLoop c fuel st = .error .indexError ∧ VoidRefNl c.subject) := by
  intro fuel
  induction fuel with
  | zero => intro st h; omega
  | succ k ih =>
    intro st hf h
    rw [inlineLoop]
    rcases parseInline_ok hS h with ⟨e, _⟩ | ⟨st', e, h1, h2, h3⟩ | ⟨e, h1, a, m, h2, h3⟩
    · rw [e]; exact Or.inl ⟨st, rfl, h⟩
    · rw [e]
      simp only [bind, Except.bind]
      exact ih st' (by omega) h1
    · rw [e]
      refine Or.inr ⟨rfl, a, m, c.subject.drop (st.pos + 1), ?_, h3⟩
      obtain ⟨hlt, he⟩ := List.getElem?_eq_some_iff.mp h1
      rw [← h2, ← he, ← List.drop_eq_getElem_cons hlt, List.take_append_drop]

/-- The inline phase of one block. -/
theorem parseInlines_ok {G : Char → Prop} {smart : Bool} {refmap : RefMap} {content : Str}
    (hS : Src G ⟨strip content, refmap, smart⟩) :
    (∃ ts, parseInlines smart refmap content = .ok ts ∧ ∀ t ∈ ts, InlineTree G t) ∨
    (parseInlines smart refmap content = .error .indexError ∧ VoidRefNl (strip content)) := by
  unfold parseInlines
  dsimp only
  have h0 : IInv G ⟨strip content, refmap, smart⟩ ⟨0, [], [], [], 1⟩ :=
    ⟨by intro it h; simp at h, by intro d h; simp at h, by simp, by intro i h; simp at h⟩
  rcases inlineLoop_ok hS ((strip content).length + 1) _ (by simp) h0 with ⟨st, e, h⟩ | ⟨e, h⟩
  · left
    rw [e]
    simp only [bind, Except.bind]
    obtain ⟨its, e', h'⟩ := processEmphasis_ok hS.smart (ds := st.delims.reverse) h.items
      (by intro d hd; exact h.delims d (List.mem_reverse.mp hd))
    rw [e']
    refine ⟨_, rfl, ?_⟩
    intro t ht
    obtain ⟨it, hit, rfl⟩ := List.mem_map.mp ht
    exact (h' it hit).tree
  · right
    rw [e]
    exact ⟨rfl, h⟩

end CM
