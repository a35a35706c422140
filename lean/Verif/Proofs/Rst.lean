import Verif.Proofs.ParsedHtml
import Verif.Model.Rst
import Verif.Spec.Rst
/-
The reStructuredText renderer: when an event raises, and what it does to the indentation.
-/
set_option linter.unusedVariables false
namespace CM
open Spec

/-- The events that raise, whatever the state of the renderer. -/
def rstRaises (e : Event) : Prop :=
  match e.node.t with
  | .text | .code | .codeBlock => e.node.literal = none
  | .paragraph => e.parent = none
  | .image => e.node.destination = none
  | .item => e.node.listData = none
  | .heading => e.node.level = none ∨ e.first = none ∨ ∃ f, e.first = some f ∧ f.literal = none
  | _ => False

/-- The change of the indentation. -/
def rstDelta (e : Event) : Int :=
  let s : Int := if e.entering then 1 else -1
  match e.node.t with
  | .image => s * 4
  | .blockQuote => s * 4
  | .item => s * ((e.node.listData.map fun l => (itemTag l.type).length).getD 0 : Nat)
  | _ => 0

@[simp] theorem rlit_indent (ic s : Str) (st : RState) : (st.lit ic s).indentLength = st.indentLength := rfl
@[simp] theorem rcr_indent (ic : Str) (st : RState) : (st.cr ic).indentLength = st.indentLength := rfl

theorem rstEvent_ok (ic : Str) (st : RState) (e : Event) (h : ¬ rstRaises e) :
    ∃ st', rstEvent ic st e = .ok st' ∧ st'.indentLength = st.indentLength + rstDelta e := by
  unfold rstEvent rstRaises at *
  unfold rstDelta
  dsimp only
  cases ht : e.node.t <;> rw [ht] at h <;> dsimp only at h ⊢
  case heading =>
    simp only [not_or, not_exists, not_and] at h
    obtain ⟨h1, h2, h3⟩ := h
    unfold rstHeading
    obtain ⟨lv, hl⟩ := Option.ne_none_iff_exists'.1 h1
    obtain ⟨f, hf⟩ := Option.ne_none_iff_exists'.1 h2
    obtain ⟨l, hl2⟩ := Option.ne_none_iff_exists'.1 (h3 f hf)
    simp only [hl, hf, hl2]
    split <;> exact ⟨_, rfl, by simp⟩
  case paragraph =>
    obtain ⟨p, hp⟩ := Option.ne_none_iff_exists'.1 h
    simp only [hp]
    split <;> exact ⟨_, rfl, by simp⟩
  case text =>
    obtain ⟨p, hp⟩ := Option.ne_none_iff_exists'.1 h
    exact ⟨_, by rw [hp]; rfl, by simp⟩
  case code =>
    obtain ⟨p, hp⟩ := Option.ne_none_iff_exists'.1 h
    exact ⟨_, by rw [hp]; rfl, by simp⟩
  case codeBlock =>
    obtain ⟨p, hp⟩ := Option.ne_none_iff_exists'.1 h
    exact ⟨_, by rw [hp], by simp⟩
  case image =>
    obtain ⟨p, hp⟩ := Option.ne_none_iff_exists'.1 h
    simp only [hp]
    split
    · exact ⟨_, rfl, by simp [RState.indentBy]⟩
    · exact ⟨_, rfl, by simp [RState.indentBy]⟩
  case item =>
    obtain ⟨l, hp⟩ := Option.ne_none_iff_exists'.1 h
    simp only [hp]
    split
    · exact ⟨_, rfl, by simp [RState.indentBy]⟩
    · exact ⟨_, rfl, by simp [RState.indentBy]⟩
  case link => split <;> exact ⟨_, rfl, by simp⟩
  case list => split <;> exact ⟨_, rfl, by simp⟩
  case blockQuote => refine ⟨_, rfl, ?_⟩; unfold RState.indentBy; split <;> simp
  all_goals exact ⟨_, rfl, by simp⟩

theorem rstEvent_raises (ic : Str) (st : RState) (e : Event) (h : rstRaises e) :
    ∃ err, rstEvent ic st e = .error err := by
  unfold rstEvent rstRaises at *
  dsimp only
  cases ht : e.node.t <;> rw [ht] at h <;> dsimp only at h ⊢
  case heading =>
    unfold rstHeading
    rcases h with h | h | ⟨f, h, h'⟩
    · rw [h]; exact ⟨_, rfl⟩
    · rw [h]
      cases e.node.level <;> exact ⟨_, rfl⟩
    · rw [h]
      simp only [h']
      cases e.node.level <;> exact ⟨_, rfl⟩
  all_goals first | exact h.elim | (rw [h]; exact ⟨_, rfl⟩)

/-- Running a list of events. -/
theorem rstRun_ok (ic : Str) : ∀ (es : List Event) (st : RState), (∀ e ∈ es, ¬ rstRaises e) →
    ∃ st', es.foldlM (rstEvent ic) st = .ok st' ∧ st'.indentLength = st.indentLength + (es.map rstDelta).sum
  | [], st, _ => ⟨st, rfl, by simp⟩
  | e :: es, st, h => by
    obtain ⟨st1, h1, h2⟩ := rstEvent_ok ic st e (h e (by simp))
    obtain ⟨st2, h3, h4⟩ := rstRun_ok ic es st1 fun x hx => h x (by simp [hx])
    refine ⟨st2, ?_, ?_⟩
    · rw [List.foldlM_cons, h1]; exact h3
    · rw [h4, h2]; simp [Int.add_assoc]

theorem rstRun_raises (ic : Str) : ∀ (es : List Event) (st : RState), (∃ e ∈ es, rstRaises e) →
    ∃ err, es.foldlM (rstEvent ic) st = .error err
  | [], st, h => by simp at h
  | e :: es, st, h => by
    rw [List.foldlM_cons]
    by_cases he : rstRaises e
    · obtain ⟨err, h1⟩ := rstEvent_raises ic st e he
      exact ⟨err, by rw [h1]; rfl⟩
    · obtain ⟨st1, h1, h2⟩ := rstEvent_ok ic st e he
      have : ∃ e ∈ es, rstRaises e := by
        obtain ⟨x, hx, hr⟩ := h
        rcases List.mem_cons.1 hx with rfl | hx
        · exact absurd hr he
        · exact ⟨x, hx, hr⟩
      obtain ⟨err, h3⟩ := rstRun_raises ic es st1 this
      exact ⟨err, by rw [h1]; exact h3⟩

/-! ### The indentation is restored -/

mutual
theorem rst_delta : ∀ (p g : Option NodeData) (t : Tree), ((events p g t).map rstDelta).sum = 0
  | p, g, .node d cs => by
    unfold events
    dsimp only
    split
    · simp only [List.map_cons, List.map_append, List.sum_cons, List.sum_append, rstList_delta, List.map_nil,
        List.sum_nil]
      unfold rstDelta
      cases d.t <;> simp <;> omega
    · rename_i h
      simp only [List.map_cons, List.map_nil, List.sum_cons, List.sum_nil]
      unfold rstDelta
      cases ht : d.t <;> simp [ht, isContainer] at h ⊢
theorem rstList_delta : ∀ (p g : Option NodeData) (ts : List Tree), ((eventsList p g ts).map rstDelta).sum = 0
  | p, g, [] => by simp [eventsList]
  | p, g, t :: ts => by simp [eventsList, rst_delta p g t, rstList_delta p g ts]
end

/-! ### Parsed documents -/

/-- What the renderer needs of a node that is not a heading. -/
structure RstReady (d : NodeData) (ks : List NodeData) : Prop where
  lit : d.t = .text ∨ d.t = .code ∨ d.t = .codeBlock → d.literal ≠ none
  dest : d.t = .image → d.destination ≠ none
  item : d.t = .item → d.listData ≠ none
  level : d.t = .heading → d.level ≠ none
  own : d.t = .text ∨ d.t = .code ∨ d.t = .htmlInline → d.literal ≠ none
  none : d.t ∈ inlineKinds → ¬ (d.t = .text ∨ d.t = .code ∨ d.t = .htmlInline) → d.literal = none
  kids : d.t = .heading → ∀ k ∈ ks, k.t ∈ inlineKinds
  leaf : isContainer d.t = false → ks = []

theorem nodeOk_rst {T : Str → Prop} {G : Char → Prop} {d : NodeData} {ks : List NodeData} (h : NodeOk T G d ks) :
    RstReady d ks := by
  have block : ∀ ks' , BlockOk T G d ks' → (d.t = .heading → ∀ k ∈ ks, k.t ∈ inlineKinds) →
      (isContainer d.t = false → ks = []) → RstReady d ks := by
    intro ks' h hk' hleaf
    have hk := h.data.kind
    refine ⟨?_, ?_, ?_, ?_, ?_, ?_, hk', hleaf⟩
    · rintro (ht | ht | ht)
      · rw [ht] at hk; simp [blockKinds, flowKinds] at hk
      · rw [ht] at hk; simp [blockKinds, flowKinds] at hk
      · obtain ⟨x, hx⟩ := h.done (Or.inl ht); simp [hx]
    · intro ht; rw [ht] at hk; simp [blockKinds, flowKinds] at hk
    · intro ht; obtain ⟨x, hx, _⟩ := h.data.marker (Or.inr ht); simp [hx]
    · intro ht; obtain ⟨x, hx, _⟩ := h.data.level ht; simp [hx]
    · rintro (ht | ht | ht) <;> rw [ht] at hk <;> simp [blockKinds, flowKinds] at hk
    · intro ht; exfalso
      have : ∀ k ∈ blockKinds, k ∉ inlineKinds := by decide
      exact this _ hk ht
  cases h with
  | block h _ hne =>
    refine block _ h (fun hh => absurd hh hne) fun hc => ?_
    cases ks with
    | nil => rfl
    | cons k ks =>
      exfalso
      rcases h.fits k (by simp) with ⟨hf, _⟩ | ⟨hf, _⟩
      · rcases hf with hf | hf | hf <;> rw [hf] at hc <;> cases hc
      · rw [hf] at hc; cases hc
  | leaf h hp hk =>
    refine block _ h (fun _ => hk) fun hc => ?_
    rcases hp with hp | hp <;> rw [hp] at hc <;> cases hc
  | inline h =>
    cases h <;>
      refine ⟨?_, ?_, ?_, ?_, ?_, ?_, ?_, ?_⟩ <;>
      simp [textNode, codeNode, htmlInlineNode, mkNode, linkNode, Tree.data, isContainer]

theorem heading_raises {d : NodeData} {cs : List Tree} (hr : RstReady d (cs.map Tree.data))
    (hk : ∀ c ∈ cs, EveryNode RstReady c) (b : Bool) (p g : Option NodeData) (ht : d.t = .heading) :
    rstRaises ⟨b, d, p, g, cs.head?.map (·.data)⟩ ↔ ¬ HeadingHasText d (cs.map Tree.data) := by
  unfold rstRaises HeadingHasText
  rw [ht]
  have hl := hr.level ht
  cases cs with
  | nil => simp
  | cons c cs =>
    have hc : RstReady c.data (c.children.map Tree.data) := by
      have := hk c (by simp)
      cases c; exact (everyNode_iff.1 this).1
    have hi := hr.kids ht c.data (by simp)
    simp only [hl, List.head?_cons, Option.map_some, reduceCtorEq, Option.some.injEq, exists_eq_left', false_or,
      List.map_cons, forall_const, List.cons.injEq]
    constructor
    · rintro h ⟨k, r, ⟨rfl, _⟩, h2⟩; exact hc.own h2 h
    · intro h; exact hc.none hi fun h2 => h ⟨c.data, _, ⟨rfl, rfl⟩, h2⟩

mutual
theorem events_raise : ∀ (p g : Option NodeData) (t : Tree), EveryNode RstReady t →
    (t.data.t = .paragraph → p ≠ none) →
    ((∃ e ∈ events p g t, rstRaises e) ↔ ¬ HeadingsHaveText t)
  | p, g, .node d cs, h, hp => by
    obtain ⟨h1, h2⟩ := everyNode_iff.1 h
    have ih := eventsList_raise (some d) p cs (everyNodeList_iff.2 h2) (by simp)
    have hp : d.t = .paragraph → p ≠ none := hp
    have hset : HeadingsHaveText (.node d cs) ↔ HeadingHasText d (cs.map Tree.data) ∧ EveryNodeList HeadingHasText cs :=
      Iff.rfl
    have self : ∀ b, rstRaises ⟨b, d, p, g, cs.head?.map (·.data)⟩ ↔ ¬ HeadingHasText d (cs.map Tree.data) := by
      intro b
      by_cases hh : d.t = .heading
      · exact heading_raises h1 h2 b p g hh
      · have : HeadingHasText d (cs.map Tree.data) := fun h => absurd h hh
        simp only [this, not_true, iff_false]
        unfold rstRaises
        cases ht : d.t <;> dsimp only <;> first | exact fun h => h | skip
        case text => exact h1.lit (by simp [ht])
        case code => exact h1.lit (by simp [ht])
        case codeBlock => exact h1.lit (by simp [ht])
        case paragraph => exact hp ht
        case image => exact h1.dest ht
        case item => exact h1.item ht
        case heading => exact absurd ht hh
    unfold events
    dsimp only
    rw [hset]
    split
    · simp only [List.mem_cons, List.mem_append, List.not_mem_nil, or_false]
      constructor
      · rintro ⟨e, rfl | he | rfl, hr⟩ ⟨h3, h4⟩
        · exact (self _).1 hr h3
        · exact ih.1 ⟨e, he, hr⟩ h4
        · exact (self _).1 hr h3
      · intro hn
        by_cases h3 : HeadingHasText d (cs.map Tree.data)
        · obtain ⟨e, he, hr⟩ := ih.2 fun h4 => hn ⟨h3, h4⟩
          exact ⟨e, Or.inr (Or.inl he), hr⟩
        · exact ⟨_, Or.inl rfl, (self true).2 h3⟩
    · rename_i hc
      have : cs = [] := List.map_eq_nil_iff.1 (h1.leaf (by simpa using hc))
      subst this
      simp only [List.mem_singleton, exists_eq_left, self, EveryNodeList, and_true]
theorem eventsList_raise : ∀ (p g : Option NodeData) (ts : List Tree), EveryNodeList RstReady ts →
    (True → p ≠ none) →
    ((∃ e ∈ eventsList p g ts, rstRaises e) ↔ ¬ EveryNodeList HeadingHasText ts)
  | p, g, [], _, _ => by simp [eventsList, EveryNodeList]
  | p, g, t :: ts, h, hp => by
    have h1 := events_raise p g t h.1 (fun _ => hp trivial)
    have h2 := eventsList_raise p g ts h.2 hp
    have : EveryNodeList HeadingHasText (t :: ts) ↔ HeadingsHaveText t ∧ EveryNodeList HeadingHasText ts := Iff.rfl
    rw [this, not_and_or, ← h1, ← h2]
    simp only [eventsList, List.mem_append, or_and_right, exists_or]
end

end CM
