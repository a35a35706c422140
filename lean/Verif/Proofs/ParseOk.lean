import Verif.Proofs.BlockTree
/-
Both phases together: `Parser.parse` ends, its only exception is the IndexError after a character
reference that decodes to nothing, and the tree is well formed.
-/
set_option linter.unusedVariables false
namespace CM
open Spec

/-! ### Inline nodes with their children -/

/-- An inline node and the data of its children. -/
inductive InlineOk (G : Char → Prop) : NodeData → List NodeData → Prop
  | text {s : Str} : Strs G s → InlineOk G (textNode s).data []
  | code {s : Str} : Strs G s → InlineOk G (codeNode s).data []
  | html {s : Str} : Strs G s → InlineOk G (htmlInlineNode s).data []
  | soft : InlineOk G (mkNode .softbreak []).data []
  | hard : InlineOk G (mkNode .linebreak []).data []
  | emph {ks : List NodeData} : (∀ k ∈ ks, k.t ∈ inlineKinds) → InlineOk G (mkNode .emph []).data ks
  | strong {ks : List NodeData} : (∀ k ∈ ks, k.t ∈ inlineKinds) → InlineOk G (mkNode .strong []).data ks
  | link {u title : Str} {ks : List NodeData} : Strs G title → (∀ k ∈ ks, k.t ∈ inlineKinds) →
      InlineOk G (linkNode .link (normalizeUri u) title []).data ks
  | image {u title : Str} {ks : List NodeData} : Strs G title → (∀ k ∈ ks, k.t ∈ inlineKinds) →
      InlineOk G (linkNode .image (normalizeUri u) title []).data ks

theorem InlineTree.kind {G : Char → Prop} {t : Tree} (h : InlineTree G t) : t.data.t ∈ inlineKinds := by
  cases h <;> simp [textNode, codeNode, htmlInlineNode, mkNode, linkNode, Tree.data, inlineKinds]

theorem InlineTree.every {G : Char → Prop} {t : Tree} (h : InlineTree G t) : EveryNode (InlineOk G) t := by
  induction h with
  | text h => exact everyNode_iff.2 ⟨.text h, by simp⟩
  | code h => exact everyNode_iff.2 ⟨.code h, by simp⟩
  | html h => exact everyNode_iff.2 ⟨.html h, by simp⟩
  | soft => exact everyNode_iff.2 ⟨.soft, by simp⟩
  | hard => exact everyNode_iff.2 ⟨.hard, by simp⟩
  | emph h ih =>
    refine everyNode_iff.2 ⟨.emph ?_, ih⟩
    intro k hk; obtain ⟨t, ht, rfl⟩ := List.mem_map.1 hk; exact (h t ht).kind
  | strong h ih =>
    refine everyNode_iff.2 ⟨.strong ?_, ih⟩
    intro k hk; obtain ⟨t, ht, rfl⟩ := List.mem_map.1 hk; exact (h t ht).kind
  | link h1 h ih =>
    refine everyNode_iff.2 ⟨.link h1 ?_, ih⟩
    intro k hk; obtain ⟨t, ht, rfl⟩ := List.mem_map.1 hk; exact (h t ht).kind
  | image h1 h ih =>
    refine everyNode_iff.2 ⟨.image h1 ?_, ih⟩
    intro k hk; obtain ⟨t, ht, rfl⟩ := List.mem_map.1 hk; exact (h t ht).kind

/-- Any node of a parsed document. -/
inductive NodeOk (T : Str → Prop) (G : Char → Prop) (d : NodeData) (ks : List NodeData) : Prop
  | block : BlockOk T G d ks → d.t ≠ .paragraph → d.t ≠ .heading → NodeOk T G d ks
  | leaf : BlockOk T G d [] → d.t = .paragraph ∨ d.t = .heading → (∀ k ∈ ks, k.t ∈ inlineKinds) → NodeOk T G d ks
  | inline : InlineOk G d ks → NodeOk T G d ks

/-- The content of a paragraph or heading. -/
def Content (T : Str → Prop) (x : Str) : Prop := Lines T x ∨ ∃ l, T l ∧ x = atxContent l

/-! ### The inline phase of a tree -/

theorem src_of {G : Char → Prop} (hG : CharsOk G) {smart : Bool} {m : RefMap} (hm : RefsOk G m) {x : Str}
    (hx : Strs G x) : Src G ⟨x, m, smart⟩ :=
  ⟨hG.smart, fun ch h => hG.ascii ch (by
      simp only [String.toList] at h ⊢
      revert h; revert ch; decide), hx,
    fun s hs => hG.entity s (strs_infix hx hs), fun s hs => hG.title s (strs_infix hx hs), hm⟩

theorem strip_infix (x : Str) : strip x <:+: x := by
  have h1 : ∀ (p : Char → Bool) (y : Str), lstripBy p y <:+ y := fun p y => List.dropWhile_suffix p
  have h2 : ∀ (p : Char → Bool) (y : Str), rstripBy p y <+: y := by
    intro p y
    have := List.reverse_prefix.2 (List.dropWhile_suffix p (l := y.reverse))
    simpa [rstripBy] using this
  exact (h2 _ _).isInfix.trans (h1 _ _).isInfix

mutual
theorem processInlines_ok {T : Str → Prop} {G : Char → Prop} (hG : CharsOk G) (smart : Bool) {m : RefMap}
    (hm : RefsOk G m) : ∀ t : Tree, EveryNode (BlockOk T G) t →
    (∃ t', processInlines smart m t = .ok t' ∧ t'.data = t.data ∧ EveryNode (NodeOk T G) t') ∨
    (processInlines smart m t = .error .indexError ∧ ∃ x, Content T x ∧ VoidRefNl (strip x))
  | .node d cs => by
    intro h
    obtain ⟨h1, h2⟩ := everyNode_iff.1 h
    rcases processInlinesList_ok hG smart hm cs (everyNodeList_iff.2 h2) with ⟨cs', e, hd, hk⟩ | ⟨e, hx⟩
    · simp only [processInlines, e, bind, Except.bind]
      by_cases hp : d.t = .paragraph ∨ d.t = .heading
      · rw [if_pos (by rcases hp with hp | hp <;> rw [hp] <;> decide)]
        have hcs : cs = [] := by
          cases hc : cs with
          | nil => rfl
          | cons t ts =>
            have := h1.fits t.data (by rw [hc]; simp)
            rcases this with ⟨hw, _⟩ | ⟨hl, _⟩
            · rcases hw with h | h | h <;> rw [h] at hp <;> simp at hp
            · rw [hl] at hp; simp at hp
        subst hcs
        have hcs' : cs' = [] := by simpa using hd
        subst hcs'
        have hcont : ∃ x, d.stringContent = some x ∧ Content T x := by
          rcases hp with hp | hp
          · obtain ⟨x, a, b, _⟩ := h1.data.para hp; exact ⟨x, a, Or.inl b⟩
          · exact h1.data.head hp
        obtain ⟨x, hx, hc⟩ := hcont
        rw [hx]
        dsimp only
        have hxs : Strs G x := h1.data.chars x (Or.inl hx)
        rcases parseInlines_ok (src_of hG (smart := smart) hm (strs_infix hxs (strip_infix x))) with ⟨ts, e', hts⟩ | ⟨e', hv⟩
        · left
          rw [e']
          refine ⟨.node d ([] ++ ts), rfl, rfl, everyNode_iff.2 ⟨.leaf h1 hp ?_, ?_⟩⟩
          · intro k hk'
            obtain ⟨t, ht, rfl⟩ := List.mem_map.1 hk'
            exact (hts t (by simpa using ht)).kind
          · intro t ht
            exact EveryNode.mono (fun _ _ h => .inline h) (hts t (by simpa using ht)).every
        · right
          rw [e']
          exact ⟨rfl, x, hc, hv⟩
      · rw [if_neg (by simpa [not_or] using hp)]
        rw [not_or] at hp
        refine Or.inl ⟨_, rfl, rfl, everyNode_iff.2 ⟨.block ?_ hp.1 hp.2, everyNodeList_iff.1 hk⟩⟩
        rw [hd]; exact h1
    · right
      simp only [processInlines, e, bind, Except.bind]
      exact ⟨trivial, hx⟩
theorem processInlinesList_ok {T : Str → Prop} {G : Char → Prop} (hG : CharsOk G) (smart : Bool) {m : RefMap}
    (hm : RefsOk G m) : ∀ ts : List Tree, EveryNodeList (BlockOk T G) ts →
    (∃ ts', processInlinesList smart m ts = .ok ts' ∧ ts'.map Tree.data = ts.map Tree.data ∧
      EveryNodeList (NodeOk T G) ts') ∨
    (processInlinesList smart m ts = .error .indexError ∧ ∃ x, Content T x ∧ VoidRefNl (strip x))
  | [] => fun _ => Or.inl ⟨[], rfl, rfl, trivial⟩
  | t :: ts => by
    intro h
    obtain ⟨h1, h2⟩ := h
    rcases processInlines_ok hG smart hm t h1 with ⟨t', e, hd, hk⟩ | ⟨e, hx⟩
    · rcases processInlinesList_ok hG smart hm ts h2 with ⟨ts', e', hd', hk'⟩ | ⟨e', hx⟩
      · left
        simp only [processInlinesList, e, e', bind, Except.bind]
        exact ⟨_, rfl, by simp [hd, hd'], hk, hk'⟩
      · right
        simp only [processInlinesList, e, e', bind, Except.bind]
        exact ⟨trivial, hx⟩
    · right
      simp only [processInlinesList, e, bind, Except.bind]
      exact ⟨trivial, hx⟩
end

/-- The whole of `parse`. -/
theorem parseWith_ok {T : Str → Prop} {G : Char → Prop} (hG : CharsOk G) (hT : ∀ l, T l → Strs G l)
    (hsuf : ∀ l n, T l → T (l.drop n)) (hnil : T []) (smart : Bool) (p : PState) (s : Str)
    (hls : ∀ ln ∈ inputLines s, T (replaceChar (Char.ofNat 0) (Char.ofNat 0xFFFD) ln)) :
    (∃ t p', parseWith smart p s = .ok (t, p') ∧ p'.spine = [] ∧ p'.doc = some t ∧ t.data.t = .document ∧
      firstLine t.data = 1 ∧ lastLine t.data = (inputLines s).length ∧ EveryNode (NodeOk T G) t) ∨
    (parseWith smart p s = .error .indexError ∧ ∃ x, Content T x ∧ VoidRefNl (strip x)) := by
  obtain ⟨p', d, cs, h1, h2, h3, h4, h5, h6, h7, h8⟩ := blockPhase_tree hG hT hsuf hnil p s hls
  simp only [parseWith, h1, bind, Except.bind, h3]
  rcases processInlines_ok hG smart h8 _ h4 with ⟨t', e, hd, hk⟩ | ⟨e, hx⟩
  · left
    rw [e]
    have hd' : t'.data = d := hd
    exact ⟨t', _, rfl, h2, rfl, by rw [hd', h5], by rw [hd', h6], by rw [hd', h7], hk⟩
  · right
    rw [e]
    exact ⟨rfl, hx⟩

end CM
