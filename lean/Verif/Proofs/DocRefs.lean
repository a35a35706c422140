import Verif.Proofs.Merge
import Verif.Proofs.RunDoc
import Verif.Proofs.PhraseHtml
import Verif.Proofs.RefsComplete
/-
Documents with definitions before or after them: C72.
-/
namespace CM
open Spec

theorem textLines_mk : ∀ {ls : List Str}, ls ≠ [] → (∀ l ∈ ls, OneLine l) → TextLines (ls.flatMap fun l => l ++ ['\n']) ls
  | [], h, _ => absurd rfl h
  | [l], _, h => by simpa using TextLines.lastLf (h l (by simp))
  | l :: m :: r, _, h => by
    have ih := textLines_mk (ls := m :: r) (by simp) fun x hx => h x (List.mem_cons_of_mem _ hx)
    have := TextLines.lf (h l (by simp)) (by simp) ih
    simpa using this

theorem forall₂_last {α β : Type} {R : α → β → Prop} : ∀ {xs : List α} {ys : List β}, List.Forall₂ R xs ys → ∀ {x}, xs.getLast? = some x →
    ∃ y, ys.getLast? = some y ∧ R x y
  | _, _, .nil, _, h => by cases h
  | _, _, .cons (l₁ := []) h .nil, _, e => by cases e; exact ⟨_, rfl, h⟩
  | _, _, .cons (l₁ := _ :: _) h (.cons h1 h2), _, e => by
    rw [List.getLast?_cons_cons] at e ⊢
    exact forall₂_last (.cons h1 h2) e

theorem doc_shows {smart : Bool} {o : HtmlOpts} (h1 : o.sourcepos = false) {I : (Str → Option RefDef) → Str → Str → Prop}
    (hI : ∀ m : RefMap, InlineHtml (smart, m) o (I m.get)) {m : RefMap} {refs : Str → Option RefDef} (hm : ∀ k, m.get k = refs k)
    {bs : List Str} {xs : List Blk} {g : Bool} (hdoc : Doc o.safe (I refs) bs xs g) {s : Str} {n : Nat}
    (hs : TextLines s (bs ++ List.replicate n [])) : ∃ r d cs ys, blockPhase PState.init s = .ok r ∧ r.refmap = [] ∧ r.doc = some (.node d cs) ∧
      d.t = .document ∧ (∀ t, cs.getLast? = some t → ∃ b, xs.getLast? = some b ∧ t.data.t = kindOf b.kind) ∧
      blocksWith smart m cs = .ok (bareL ys) ∧ ∀ d' zs, d'.t = .document → bareL zs = bareL ys →
        renderHtml o (.node d' zs) = .ok (docHtml xs) := by
  obtain rfl : m.get = refs := funext hm
  obtain ⟨r, d, cs, e1, e2, e3, e4, ys, e5, e6⟩ := runs_blocks (doc_runs h1 (hI m) hdoc
    fun l hl => textLines_oneLine hs l (List.mem_append_left _ hl)) hs
  refine ⟨r, d, cs, ys, e1, e2, e3, e4, ?_, ?_, fun d' zs hd' hz => ?_⟩
  · intro t ht
    obtain ⟨u, hu1, hu2⟩ := inlines_last smart m e5 ht
    obtain ⟨b, hb, hr⟩ := forall₂_last e6 hu1
    refine ⟨b, hb, (congrArg NodeData.t hu2).symm.trans ?_⟩
    rcases hr with ⟨h0, d, ts, rfl, h, _⟩ | ⟨_, h, _⟩
    · rw [h0]; exact h
    · exact h
  · have e5 : processInlinesList smart m cs = .ok ys := e5
    simp [blocksWith, e5, Except.map]
  · rw [html_bare h1 hd' e4 hz]
    exact rends_doc h1 e4 e6

/-- Definitions before a document. -/
theorem doc_before {smart : Bool} {o : HtmlOpts} (h1 : o.sourcepos = false) {I : (Str → Option RefDef) → Str → Str → Prop}
    (hI : ∀ m : RefMap, InlineHtml (smart, m) o (I m.get)) {s l0 r : Str} {ls bs : List Str} {ds : List (Str × Str × Str)}
    {xs : List Blk} {g : Bool} {n : Nat} (hf : StartsNoBlock false l0) (hl : ∀ l ∈ ls, StartsNoBlock true l)
    (hd : Definitions (joinLines (l0 :: ls) ++ ['\n']) ds r) (hne : ds ≠ []) (hr : isBlank r = true)
    (hdoc : Doc o.safe (I (firstDefinition ds)) bs xs g) (hb : bs ≠ [])
    (hs : TextLines s (l0 :: ls ++ [] :: (bs ++ List.replicate n []))) : toHtml smart o s = .ok (docHtml xs) := by
  have hone := textLines_oneLine hs
  have t1 := textLines_mk (ls := l0 :: ls) (by simp) fun l hl => hone l (List.mem_append_left _ hl)
  have t2 := textLines_mk (ls := bs ++ List.replicate n []) (by simp [hb]) fun l hl => hone l (List.mem_append_right _ (List.mem_cons_of_mem _ hl))
  obtain ⟨r1, d1, a1, a2, a3, a4⟩ := defs_blocks t1 hf hl hd hne hr
  obtain ⟨r2, d2, cs2, ys, b1, b2, b3, b4, bk, b5, b6⟩ := doc_shows h1 hI a4 hdoc t2
  have hp := parse_inlines (smart := smart) a1 a3 a2
  obtain ⟨q, d, cs, g1, g2, g3, g4, _, _, _, g8⟩ := merge_blocks t1 t2 hs a1 b1 a3 b3 a2 hp (by simp)
  have i := parse_blocksWith (smart := smart) g1 g3 g4
  rw [g8, g2, b2, show mergeRefs r1.refmap [] = r1.refmap from rfl, b5] at i
  unfold toHtml
  cases e : parse smart s with
  | error => rw [e] at i; cases i
  | ok t =>
    obtain ⟨d', zs⟩ := t
    rw [e] at i
    have i : bareL zs = bareL ys := by
      simpa [Except.map, Except.bind, blocksWith, processInlinesList, bareL, Tree.children] using i
    exact b6 d' zs (parse_doc e).1 i

/-- Definitions after a document. -/
theorem doc_after {smart : Bool} {o : HtmlOpts} (h1 : o.sourcepos = false) {I : (Str → Option RefDef) → Str → Str → Prop}
    (hI : ∀ m : RefMap, InlineHtml (smart, m) o (I m.get)) {s l0 r : Str} {ls bs : List Str} {ds : List (Str × Str × Str)}
    {xs : List Blk} {g : Bool} {n : Nat} (hf : StartsNoBlock false l0) (hl : ∀ l ∈ ls, StartsNoBlock true l)
    (hd : Definitions (joinLines (l0 :: ls) ++ ['\n']) ds r) (hne : ds ≠ []) (hr : isBlank r = true)
    (hdoc : Doc o.safe (I (firstDefinition ds)) bs xs g)
    (hs : TextLines s (bs ++ List.replicate n [] ++ [] :: l0 :: ls)) (hb : bs ≠ [])
    (hk : ∀ b, xs.getLast? = some b → b.kind ∈ [.para, .heading, .rule, .quote]) : toHtml smart o s = .ok (docHtml xs) := by
  have hone := textLines_oneLine hs
  have t1 := textLines_mk (ls := l0 :: ls) (by simp) fun l hl => hone l (List.mem_append_right _ (List.mem_cons_of_mem _ hl))
  have t2 := textLines_mk (ls := bs ++ List.replicate n []) (by simp [hb]) fun l hl => hone l (List.mem_append_left _ hl)
  obtain ⟨r1, d1, a1, a2, a3, a4⟩ := defs_blocks t1 hf hl hd hne hr
  obtain ⟨r2, d2, cs2, ys, b1, b2, b3, b4, bk, b5, b6⟩ := doc_shows h1 hI a4 hdoc t2
  obtain ⟨q, d, cs, g1, g2, g3, g4, _, _, _, g8⟩ := merge_blocks_of (smart := smart) t2 t1 hs b1 a1 b3 a3 (by
    intro t ht
    obtain ⟨b, hb, e⟩ := bk t ht
    rw [e]
    have := hk b hb
    revert this
    cases b.kind <;> simp [kindOf, endKinds])
  have i := parse_blocksWith (smart := smart) g1 g3 g4
  have hg : ∀ k, (mergeRefs [] r1.refmap).get k = r1.refmap.get k := by intro k; rw [mergeRefs_get]; simp [RefMap.get]
  rw [g8, g2, b2, blocksWith_refs hg, b5] at i
  unfold toHtml
  cases e : parse smart s with
  | error => rw [e] at i; cases i
  | ok t =>
    obtain ⟨d', zs⟩ := t
    rw [e] at i
    have i : bareL zs = bareL ys := by
      simpa [Except.map, Except.bind, blocksWith, processInlinesList, bareL, Tree.children] using i
    exact b6 d' zs (parse_doc e).1 i

end CM
