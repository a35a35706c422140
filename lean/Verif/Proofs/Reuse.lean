import Verif.Proofs.RstTree
import Verif.Proofs.Rst
import Verif.Model.Reuse
import Verif.Spec.Reuse
/-
Renderers that are used again.
-/
namespace CM
open Spec

theorem walkUntil_append {σ : Type} (step : σ → Event → Except PyErr σ) : ∀ (a b : List Event) (s : σ),
    walkUntil step s (a ++ b) =
      if (walkUntil step s a).1 = none then walkUntil step (walkUntil step s a).2 b else walkUntil step s a
  | [], b, s => by simp [walkUntil]
  | e :: a, b, s => by
    rw [List.cons_append, walkUntil, walkUntil]
    cases h : step s e with
    | error x => simp
    | ok s' => exact walkUntil_append step a b s'

theorem walkUntil_ok {σ : Type} (step : σ → Event → Except PyErr σ) : ∀ (es : List Event) (s s' : σ),
    es.foldlM step s = .ok s' ↔ walkUntil step s es = (none, s')
  | [], s, s' => by
    rw [List.foldlM_nil, walkUntil]
    constructor
    · intro h; cases h; rfl
    · intro h; cases h; rfl
  | e :: es, s, s' => by
    rw [List.foldlM_cons, walkUntil]
    cases h : step s e with
    | error x => simp [bind, Except.bind]
    | ok s1 => exact walkUntil_ok step es s1 s'

theorem noTitle_iff (d : NodeData) (ks : List NodeData) : noTitle d ks = false ↔ HeadingHasText d ks := by
  unfold noTitle HeadingHasText
  cases ks with
  | nil => simp
  | cons k ks =>
    simp only [Bool.and_eq_false_iff, Bool.not_eq_false', beq_eq_false_iff_ne, Bool.or_eq_true, beq_iff_eq, List.cons.injEq]
    constructor
    · rintro (h | h) h2
      · exact absurd h2 h
      · exact ⟨k, ks, ⟨rfl, rfl⟩, by rcases h with (h | h) | h <;> simp [h]⟩
    · intro h
      by_cases hd : d.t = .heading
      · obtain ⟨k', r, ⟨rfl, rfl⟩, h3⟩ := h hd
        right
        rcases h3 with h | h | h <;> simp [h]
      · exact Or.inl hd

theorem node_raises {d : NodeData} {cs : List Tree} {p : Option NodeData} (h1 : RstReady d (cs.map Tree.data))
    (h2 : ∀ c ∈ cs, EveryNode RstReady c) (hp : d.t = .paragraph → p ≠ none) (g : Option NodeData) (b : Bool) :
    rstRaises ⟨b, d, p, g, cs.head?.map (·.data)⟩ ↔ noTitle d (cs.map Tree.data) = true := by
  rw [← Bool.not_eq_false, noTitle_iff]
  by_cases hh : d.t = .heading
  · exact heading_raises h1 h2 b p g hh
  · have : HeadingHasText d (cs.map Tree.data) := fun h => absurd h hh
    simp only [this, not_true, iff_false]
    unfold rstRaises
    cases ht : d.t <;> dsimp only <;> first | exact fun h => h | skip
    case text => exact h1.lit (by simp [ht])
    case code => exact h1.lit (by simp [ht])
    case codeBlock => exact h1.lit (by simp [ht])
    case paragraph => exact hp ht
    case image => exact h1.dest ht
    case item => exact h1.item ht
    case heading => exact absurd ht hh

theorem enter_delta {d : NodeData} {ks : List NodeData} (h : RstReady d ks) (p g f : Option NodeData) :
    rstDelta ⟨true, d, p, g, f⟩ = (inner d : Int) := by
  unfold rstDelta inner
  cases ht : d.t <;> dsimp only <;> first | rfl | skip
  cases hl : d.listData with
  | none => exact absurd hl (h.item ht)
  | some l => simp [itemTag_eq]

theorem leave_delta {d : NodeData} {ks : List NodeData} (h : RstReady d ks) (p g f : Option NodeData) :
    rstDelta ⟨false, d, p, g, f⟩ = -(inner d : Int) := by
  unfold rstDelta inner
  cases ht : d.t <;> dsimp only <;> first | rfl | skip
  cases hl : d.listData with
  | none => exact absurd hl (h.item ht)
  | some l => simp [itemTag_eq]

theorem leaf_inner {d : NodeData} (h : isContainer d.t = false) : inner d = 0 := by
  unfold inner
  cases ht : d.t <;> rw [ht] at h <;> first | rfl | cases h

/-- What a run over part of a document leaves: the indentation of the heading that stopped it, or the one it began with. -/
def Stops (n : Nat) (r : Option PyErr × RState) : Option Nat → Prop
  | none => r.1 = none ∧ r.2.indentLength = n
  | some m => r.1 ≠ none ∧ r.2.indentLength = m

mutual
theorem rst_stops (ic : Str) : ∀ (t : Tree) (p g : Option NodeData) (st : RState) (n : Nat), EveryNode RstReady t →
    (t.data.t = .paragraph → p ≠ none) → st.indentLength = n →
    Stops n (walkUntil (rstEvent ic) st (events p g t)) (stopsAt n t)
  | .node d cs, p, g, st, n, h, hp, hn => by
    obtain ⟨h1, h2⟩ := everyNode_iff.1 h
    have hp : d.t = .paragraph → p ≠ none := hp
    have self := node_raises h1 h2 hp g
    unfold events
    rw [stopsAt]
    dsimp only
    cases ht : noTitle d (cs.map Tree.data) with
    | true =>
      obtain ⟨x, hx⟩ := rstEvent_raises ic st _ ((self true).2 ht)
      rw [if_pos rfl]
      split
      · rw [walkUntil, hx]; exact ⟨by simp, hn⟩
      · rw [walkUntil, hx]; exact ⟨by simp, hn⟩
    | false =>
      have hno : ∀ b, ¬ rstRaises ⟨b, d, p, g, cs.head?.map (·.data)⟩ := fun b hb => by
        rw [self b, ht] at hb; cases hb
      obtain ⟨s1, hs1, hi1⟩ := rstEvent_ok ic st _ (hno true)
      rw [enter_delta h1, hn] at hi1
      have hi1 : s1.indentLength = ((n + inner d : Nat) : Int) := by rw [hi1]; simp
      have hf : (if false = true then some n else stopsAtList (n + inner d) cs) = stopsAtList (n + inner d) cs := rfl
      rw [hf]
      by_cases hc : isContainer d.t = true
      · rw [if_pos hc]
        have ih := rstList_stops ic cs (some d) p s1 (n + inner d) (everyNodeList_iff.2 h2) (by simp) hi1
        rw [walkUntil, hs1]
        dsimp only
        rw [walkUntil_append]
        cases hst : stopsAtList (n + inner d) cs with
        | some m =>
          rw [hst] at ih
          rw [if_neg ih.1]
          exact ih
        | none =>
          rw [hst] at ih
          rw [if_pos ih.1]
          obtain ⟨s2, hs2, hi2⟩ := rstEvent_ok ic (walkUntil (rstEvent ic) s1 (eventsList (some d) p cs)).2 _ (hno false)
          rw [leave_delta h1, ih.2] at hi2
          rw [walkUntil, hs2]
          exact ⟨rfl, by show s2.indentLength = _; rw [hi2]; omega⟩
      · rw [if_neg hc]
        have : cs = [] := List.map_eq_nil_iff.1 (h1.leaf (by simpa using hc))
        subst this
        rw [leaf_inner (by simpa using hc)] at hi1
        rw [walkUntil, hs1]
        exact ⟨rfl, hi1⟩
theorem rstList_stops (ic : Str) : ∀ (ts : List Tree) (p g : Option NodeData) (st : RState) (n : Nat), EveryNodeList RstReady ts →
    p ≠ none → st.indentLength = n →
    Stops n (walkUntil (rstEvent ic) st (eventsList p g ts)) (stopsAtList n ts)
  | [], p, g, st, n, _, _, hn => ⟨rfl, hn⟩
  | t :: ts, p, g, st, n, h, hp, hn => by
    have h1 := rst_stops ic t p g st n h.1 (fun _ => hp) hn
    rw [eventsList, stopsAtList, walkUntil_append]
    cases hst : stopsAt n t with
    | some m =>
      rw [hst] at h1
      rw [if_neg h1.1]
      exact h1
    | none =>
      rw [hst] at h1
      rw [if_pos h1.1]
      exact rstList_stops ic ts p g _ n h.2 hp h1.2
end

/-- One call of `render`. -/
theorem rst_render {smart : Bool} {s : Str} {t : Tree} (h : parse smart s = .ok t) (r : RstRenderer) (n : Nat)
    (hn : r.indentLength = n) (hic : '\n' ∉ r.indentChar) :
    ((stopsAt n t = none ∧ r.render t = (.ok (layout r.indentChar true (rstPieces r.indentChar n false t)), r)) ∨
      ∃ m x, stopsAt n t = some m ∧ r.render t = (.error x, { r with indentLength := m })) := by
  obtain ⟨h1, _, _, h2⟩ := parse_doc h
  have hr : EveryNode RstReady t := EveryNode.mono (fun _ _ => nodeOk_rst) h2
  have key := rst_stops r.indentChar t none none ⟨[], ['\n'], r.indentLength⟩ n hr (by rw [h1]; exact fun h => by cases h) hn
  unfold RstRenderer.render
  cases hst : stopsAt n t with
  | none =>
    rw [hst] at key
    left
    refine ⟨rfl, ?_⟩
    generalize hR : walkUntil (rstEvent r.indentChar) ⟨[], ['\n'], r.indentLength⟩ (events none none t) = R at key ⊢
    obtain ⟨e, st⟩ := R
    obtain ⟨k1, k2⟩ := key
    dsimp only at k1 k2
    subst k1
    dsimp only
    have hw := rst_written r.indentChar t (p := none) (g := none) (n := n) hn ((walkUntil_ok _ _ _ _).2 hR)
    rw [k2, ← hn]
    have : st.buf = layout r.indentChar true (rstPieces r.indentChar n false t) := by
      rw [hw, putR_layout hic]; simp
    rw [this]
  | some m =>
    rw [hst] at key
    right
    generalize walkUntil (rstEvent r.indentChar) ⟨[], ['\n'], r.indentLength⟩ (events none none t) = R at key ⊢
    obtain ⟨e, st⟩ := R
    obtain ⟨k1, k2⟩ := key
    dsimp only at k1 k2
    cases e with
    | none => exact absurd rfl k1
    | some x => exact ⟨m, x, rfl, by dsimp only; rw [k2]⟩

mutual
/-- Where a document stops is relative to where it begins. -/
theorem stopsAt_shift (k : Nat) : ∀ (n : Nat) (t : Tree), stopsAt (k + n) t = (stopsAt n t).map (k + ·)
  | n, .node d cs => by
    rw [stopsAt, stopsAt]
    cases noTitle d (cs.map Tree.data) with
    | true => rfl
    | false =>
      show stopsAtList _ _ = (stopsAtList _ _).map _
      rw [Nat.add_assoc, stopsAtList_shift]
theorem stopsAtList_shift (k : Nat) : ∀ (n : Nat) (ts : List Tree), stopsAtList (k + n) ts = (stopsAtList n ts).map (k + ·)
  | n, [] => rfl
  | n, t :: ts => by
    rw [stopsAtList, stopsAtList, stopsAt_shift, stopsAtList_shift]
    cases stopsAt n t <;> rfl
end

theorem walkUntil_result {σ α : Type} (step : σ → Event → Except PyErr σ) (f : σ → α) : ∀ (es : List Event) (s : σ),
    (do return f (← es.foldlM step s) : Except PyErr α) =
      (match walkUntil step s es with | (none, st) => .ok (f st) | (some x, _) => .error x)
  | [], s => rfl
  | e :: es, s => by
    rw [List.foldlM_cons, walkUntil]
    cases h : step s e with
    | error x => rfl
    | ok s1 => exact walkUntil_result step f es s1

/-- A new renderer's first call. -/
theorem rst_render_fresh (ic : Str) (t : Tree) : (RstRenderer.render ⟨ic, 0⟩ t).1 = renderRst ic t := by
  unfold renderRst renderRstWith
  rw [walkUntil_result]
  unfold RstRenderer.render
  dsimp only
  generalize walkUntil _ _ _ = R
  obtain ⟨_ | x, st⟩ := R <;> rfl

theorem html_render_fresh (o : HtmlOpts) (t : Tree) : (HtmlRenderer.render ⟨o, 0⟩ t).1 = renderHtml o t := by
  unfold renderHtml renderWith
  rw [walkUntil_result]
  unfold HtmlRenderer.render
  dsimp only
  generalize walkUntil _ _ _ = R
  obtain ⟨_ | x, st⟩ := R <;> rfl

theorem html_render_ok {o : HtmlOpts} {k : Int} {t : Tree} {out : Str} (h : (HtmlRenderer.render ⟨o, k⟩ t).1 = .ok out) :
    (HtmlRenderer.render ⟨o, k⟩ t).2 = ⟨o, k⟩ := by
  unfold HtmlRenderer.render at h ⊢
  dsimp only at h ⊢
  generalize hR : walkUntil (htmlEvent o) ⟨[], ['\n'], k⟩ (events none none t) = R at h ⊢
  obtain ⟨_ | x, st⟩ := R
  · have h1 := runEvents_disable _ ((walkUntil_ok _ _ _ _).2 hR)
    rw [events_delta] at h1
    dsimp only
    rw [h1]; simp
  · cases h

theorem rst_render_ok {r : RstRenderer} {t : Tree} {out : Str} (h : (r.render t).1 = .ok out) : (r.render t).2 = r := by
  obtain ⟨ic, k⟩ := r
  unfold RstRenderer.render at h ⊢
  dsimp only at h ⊢
  generalize hR : walkUntil (rstEvent ic) ⟨[], ['\n'], k⟩ (events none none t) = R at h ⊢
  obtain ⟨_ | x, st⟩ := R
  · have h0 := (walkUntil_ok _ _ _ _).2 hR
    have hn : ∀ e ∈ events none none t, ¬ rstRaises e := fun e he hre => by
      obtain ⟨err, h3⟩ := rstRun_raises ic _ ⟨[], ['\n'], k⟩ ⟨e, he, hre⟩
      rw [h0] at h3; cases h3
    obtain ⟨st', h3, h4⟩ := rstRun_ok ic _ ⟨[], ['\n'], k⟩ hn
    rw [h0] at h3
    cases h3
    rw [rst_delta] at h4
    dsimp only at h4 ⊢
    rw [h4]; simp
  · cases h

end CM
