import Verif.Proofs.SourceRun
import Verif.Proofs.History
import Verif.Proofs.Fold
/-
From the inline nodes of a paragraph to the nodes of a document (C29, C30, C45, C53).
-/
namespace CM
open Spec

mutual
theorem EverySubtree.mono {P Q : NodeData → List Tree → Prop} (h : ∀ d cs, P d cs → Q d cs) :
    ∀ t, EverySubtree P t → EverySubtree Q t
  | .node d cs, ht => by
    rw [EverySubtree] at ht ⊢
    exact ⟨h d cs ht.1, EverySubtreeList.mono h cs ht.2⟩
theorem EverySubtreeList.mono {P Q : NodeData → List Tree → Prop} (h : ∀ d cs, P d cs → Q d cs) :
    ∀ ts, EverySubtreeList P ts → EverySubtreeList Q ts
  | [], _ => by rw [EverySubtreeList]; trivial
  | t :: ts, ht => by
    rw [EverySubtreeList] at ht ⊢
    exact ⟨EverySubtree.mono h t ht.1, EverySubtreeList.mono h ts ht.2⟩
end

mutual
theorem everySubtree_and {P : NodeData → List NodeData → Prop} {Q : NodeData → List Tree → Prop} :
    ∀ t, EveryNode P t → EverySubtree Q t → EverySubtree (fun d cs => P d (cs.map Tree.data) ∧ Q d cs) t
  | .node d cs, h1, h2 => by
    rw [EveryNode] at h1
    rw [EverySubtree] at h2 ⊢
    exact ⟨⟨h1.1, h2.1⟩, everySubtreeList_and cs h1.2 h2.2⟩
theorem everySubtreeList_and {P : NodeData → List NodeData → Prop} {Q : NodeData → List Tree → Prop} :
    ∀ ts, EveryNodeList P ts → EverySubtreeList Q ts →
      EverySubtreeList (fun d cs => P d (cs.map Tree.data) ∧ Q d cs) ts
  | [], _, _ => by rw [EverySubtreeList]; trivial
  | t :: ts, h1, h2 => by
    rw [EveryNodeList] at h1
    rw [EverySubtreeList] at h2 ⊢
    exact ⟨everySubtree_and t h1.1 h2.1, everySubtreeList_and ts h1.2 h2.2⟩
end

theorem fits_block {d k : NodeData} (h : Fits d k) : k.t ∈ blockKinds := by
  rcases h with ⟨_, h⟩ | ⟨_, h, _⟩
  · simp only [blockKinds, List.mem_append]; exact Or.inr h
  · rw [h]; decide

theorem inline_not_block {k : Kind} (h : k ∈ inlineKinds) : k ∉ blockKinds := by
  cases k <;> revert h <;> decide

mutual
/-- What holds of the inlines of every paragraph and heading, and of all blocks, holds of all nodes. -/
theorem everySubtree_blocks {T : Str → Prop} {G : Char → Prop} {P : NodeData → List Tree → Prop}
    (hP : ∀ d cs, d.t ∈ blockKinds → P d cs) : ∀ t, t.data.t ∈ blockKinds →
      EverySubtree (fun d cs => NodeOk T G d (cs.map Tree.data) ∧
        (d.t = .paragraph ∨ d.t = .heading → EverySubtreeList P cs)) t → EverySubtree P t
  | .node d cs, hk, h => by
    rw [EverySubtree] at h ⊢
    refine ⟨hP d cs hk, ?_⟩
    rcases h.1.1 with hb | hb | hb
    · exact everySubtree_blocksList hP cs (fun t ht => fits_block (hb.fits t.data (List.mem_map_of_mem ht))) h.2
    · rename_i hp _; exact h.1.2 hp
    · exact absurd hk (inline_not_block (by
        generalize cs.map Tree.data = ks at hb
        cases hb <;> simp [textNode, codeNode, htmlInlineNode, mkNode, linkNode, Tree.data, inlineKinds]))
theorem everySubtree_blocksList {T : Str → Prop} {G : Char → Prop} {P : NodeData → List Tree → Prop}
    (hP : ∀ d cs, d.t ∈ blockKinds → P d cs) : ∀ ts, (∀ t ∈ ts, t.data.t ∈ blockKinds) →
      EverySubtreeList (fun d cs => NodeOk T G d (cs.map Tree.data) ∧
        (d.t = .paragraph ∨ d.t = .heading → EverySubtreeList P cs)) ts → EverySubtreeList P ts
  | [], _, _ => by rw [EverySubtreeList]; trivial
  | t :: ts, hk, h => by
    rw [EverySubtreeList] at h ⊢
    exact ⟨everySubtree_blocks hP t (hk t (by simp)) h.1, everySubtree_blocksList hP ts (fun x hx => hk x (by simp [hx])) h.2⟩
end

/-- The content of paragraphs and headings. -/
theorem parse_content {smart : Bool} {s : Str} {t : Tree} (h : parse smart s = .ok t) :
    EveryNode (fun d _ => (d.t = .paragraph ∨ d.t = .heading → ∃ x, d.stringContent = some x ∧ Content (TextOf s) x) ∧
      (d.t = .paragraph → ∃ x, d.stringContent = some x ∧
        ((∃ l, TextOf s l ∧ '[' ∈ l) ∨ ∃ l ch, TextOf s l ∧ ch ∈ l ∧ ch ∈ x ∧ ch ≠ ' ' ∧ ch ≠ '\t'))) t := by
  refine EveryNode.mono ?_ (parse_doc h).2.2.2
  intro d ks hn
  have block : DataOk (TextOf s) (· ≠ Char.ofNat 0) d → (d.t = .paragraph ∨ d.t = .heading →
      ∃ x, d.stringContent = some x ∧ Content (TextOf s) x) ∧ (d.t = .paragraph → ∃ x, d.stringContent = some x ∧
        ((∃ l, TextOf s l ∧ '[' ∈ l) ∨ ∃ l ch, TextOf s l ∧ ch ∈ l ∧ ch ∈ x ∧ ch ≠ ' ' ∧ ch ≠ '\t')) := by
    intro hd
    refine ⟨?_, fun hp => ?_⟩
    · rintro (hp | hp)
      · obtain ⟨x, h1, h2, _⟩ := hd.para hp; exact ⟨x, h1, .inl h2⟩
      · exact hd.head hp
    · obtain ⟨x, h1, _, h2⟩ := hd.para hp; exact ⟨x, h1, h2⟩
  rcases hn with hb | hb | hb
  · exact block hb.data
  · exact block hb.data
  · cases hb <;> simp [textNode, codeNode, htmlInlineNode, mkNode, linkNode, Tree.data]

/-- The characters of the content are those of the text. -/
theorem content_mem {s x : Str} (h : Content (TextOf s) x) : ∀ c ∈ x, c = ' ' ∨ c = '\n' ∨ c = Char.ofNat 0xFFFD ∨ c ∈ s := by
  have key : ∀ l, TextOf s l → Strs (fun c => c = ' ' ∨ c = '\n' ∨ c = Char.ofNat 0xFFFD ∨ c ∈ s) l := by
    intro l hl c hc
    rcases textOf_mem hl c hc with h | h
    · exact .inr (.inr (.inl h))
    · exact .inr (.inr (.inr h.1))
  rcases h with h | ⟨l, hl, rfl⟩
  · exact h.strs key (.inl rfl) (.inr (.inl rfl))
  · exact strs_atxContent (key l hl)

theorem textOf_cr {s l : Str} (h : TextOf s l) : '\r' ∉ l := by
  rcases h with rfl | ⟨ln, hln, n, rfl⟩
  · simp
  · intro hc
    rcases cleaned_mem _ (List.mem_of_mem_drop hc) with h | ⟨h1, h2⟩
    · revert h; decide
    · exact (inputLines_mem hln _ h1).2.2 rfl

theorem strip_nil {x : Str} (h : strip x = []) : Blank x := by
  obtain ⟨a, b, rfl, ha, hb, _⟩ := (strip_iff x []).1 h
  intro c hc
  simp only [List.append_nil, List.mem_append] at hc
  rcases hc with hc | hc
  · exact ha c hc
  · exact hb c hc

/-- Links in the nodes of a text: none in brackets, or none in brackets within another. -/
def LinksIn (S : Str) (L : Bool) (ts : List Tree) : Prop :=
  (∀ t ∈ ts, EverySubtree (fun d cs => d.t = .link → AutolinkOf S d cs ∨
    EverySubtreeList (fun e ds => e.t = .link → AutolinkOf S e ds) cs) t) ∧
  (L = false → ∀ t ∈ ts, EverySubtree (fun d cs => d.t = .link → AutolinkOf S d cs) t)

theorem linksIn_leaf {S : Str} {L : Bool} {d : NodeData} (hd : d.t ≠ .link) : LinksIn S L [.node d []] := by
  simp only [LinksIn, List.mem_singleton, forall_eq, EverySubtree, EverySubtreeList, and_true]
  exact ⟨fun h => absurd h hd, fun _ h => absurd h hd⟩

theorem linksIn_auto {S : Str} {L : Bool} {i : Nat} {u r : Str} {d : NodeData} (hd : S.drop i = '<' :: (u ++ '>' :: r))
    (hu : AutoUri u ∧ d.destination = some (normalizeUri u) ∨
      EmailAddress u ∧ d.destination = some (normalizeUri ("mailto:".toList ++ u))) :
    LinksIn S L [.node d [.node { t := .text, literal := some u } []]] := by
  have : AutolinkOf S d [.node { t := .text, literal := some u } []] :=
    ⟨u, ⟨S.take i, r, by
      have := List.take_append_drop i S
      rw [hd] at this
      simpa using this⟩, rfl, hu⟩
  simp only [LinksIn, List.mem_singleton, forall_eq, EverySubtree, EverySubtreeList, and_true, reduceCtorEq, false_implies]
  exact ⟨fun _ => .inl this, fun _ _ => this⟩

theorem linksIn_wrap {S : Str} {L : Bool} {d : NodeData} {ts : List Tree} (hd : d.t ≠ .link) (h : LinksIn S L ts) :
    LinksIn S L [.node d ts] := by
  simp only [LinksIn, List.mem_singleton, forall_eq, EverySubtree, everySubtreeList_iff] at h ⊢
  exact ⟨⟨fun h => absurd h hd, h.1⟩, fun hl => ⟨fun h => absurd h hd, h.2 hl⟩⟩

theorem source_links {smart strict : Bool} {refs : Str → Option RefDef} {S : Str} {L : Bool} {ts : List Tree} {i j : Nat}
    (h : Source smart strict refs S L ts i j) : LinksIn S L ts := by
  induction h with
  | nil => simp [LinksIn]
  | append _ _ h1 h2 =>
    refine ⟨fun t ht => ?_, fun hl t ht => ?_⟩
    · rcases List.mem_append.1 ht with ht | ht
      · exact h1.1 t ht
      · exact h2.1 t ht
    · rcases List.mem_append.1 ht with ht | ht
      · exact h1.2 hl t ht
      · exact h2.2 hl t ht
  | plain | smartPlain | escape | hardBreak | backslash | newline | code | ticks | ref | amp | html | less | delims |
    quote | single | double | bang | openB | openImg | closeB => exact linksIn_leaf (by simp)
  | lineEnd =>
    simp only [LinksIn, List.mem_cons, List.not_mem_nil, or_false, forall_eq_or_imp, forall_eq, EverySubtree, EverySubtreeList,
      and_true, reduceCtorEq, false_implies, true_and]
    constructor
    · intro h; split at h <;> cases h
    · intro _ h; split at h <;> cases h
  | uri hd hu => exact linksIn_auto hd (.inl ⟨hu, rfl⟩)
  | email hd hu => exact linksIn_auto hd (.inr ⟨hu, rfl⟩)
  | emph _ _ _ ih | strong _ _ _ ih => exact linksIn_wrap (by simp) ih
  | link _ _ _ _ ih =>
    simp only [LinksIn, List.mem_singleton, forall_eq, EverySubtree, everySubtreeList_iff, reduceCtorEq, false_implies,
      and_true]
    exact ⟨fun _ => .inr (ih.2 rfl), by simpa only [everySubtreeList_iff] using ih.1⟩
  | image _ _ _ _ _ ih => exact linksIn_wrap (by simp) ih

theorem parse_with {smart : Bool} {s : Str} {t : Tree} (h : parse smart s = .ok t) :
    ∃ p', parseWith smart PState.init s = .ok (t, p') := by
  unfold parse at h
  cases e : parseWith smart PState.init s with
  | error x => rw [e] at h; cases h
  | ok r =>
    rw [e] at h
    obtain ⟨t', p'⟩ := r
    simp only [bind, Except.bind, pure, Except.pure, Except.ok.injEq] at h
    subst h
    exact ⟨p', rfl⟩

end CM
