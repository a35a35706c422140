import Verif.Proofs.Entity
import Verif.Proofs.HtmlSafe
import Verif.Proofs.Uri
/-
The HTML renderer accepts every parsed document, and writes only characters of the document and of
its own constants.
-/
set_option linter.unusedVariables false
namespace CM
open Spec

/-- What the renderer needs of a node. -/
structure HtmlReady (G : Char → Prop) (d : NodeData) : Prop where
  list : d.t = .list → ∃ l, d.listData = some l
  dest : d.t = .link ∨ d.t = .image → ∃ u, d.destination = some u
  raw : d.t = .htmlInline ∨ d.t = .htmlBlock → ∃ x, d.literal = some x
  strs : ∀ x, d.literal = some x ∨ d.info = some x ∨ d.destination = some x ∨ d.title = some x ∨
    d.onEnter = some x ∨ d.onExit = some x → Strs G x

/-- Line feed and printable ASCII are good. -/
def AsciiGood (G : Char → Prop) : Prop := ∀ c : Char, c = '\n' ∨ (32 ≤ c.toNat ∧ c.toNat ≤ 126) → G c

theorem ascii_strs {G : Char → Prop} (hG : AsciiGood G) {s : Str}
    (h : (s.all fun c => c == '\n' || (32 ≤ c.toNat && c.toNat ≤ 126)) = true) : Strs G s := by
  intro c hc
  have := List.all_eq_true.1 h c hc
  simp only [Bool.or_eq_true, beq_iff_eq, Bool.and_eq_true, decide_eq_true_eq] at this
  exact hG c this

section
variable {G : Char → Prop}

theorem strs_natToStr (hG : AsciiGood G) (n : Nat) : Strs G (natToStr n) := by
  intro c hc
  have := natToStr_digits n c hc
  have h : Strs G "0123456789".toList := ascii_strs hG (by decide)
  exact h c this

theorem strs_flatMap {f : Char → Str} {s : Str} (h : ∀ c ∈ s, Strs G (f c)) : Strs G (s.flatMap f) := by
  intro c hc
  obtain ⟨d, hd, hc⟩ := List.mem_flatMap.1 hc
  exact h d hd c hc

theorem strs_escapeXml (hG : AsciiGood G) {s : Str} (h : Strs G s) : Strs G (escapeXml s) := by
  unfold escapeXml
  split
  · refine strs_flatMap fun c hc => ?_
    unfold replaceUnsafeChar
    split
    · exact ascii_strs hG (by decide)
    · split
      · exact ascii_strs hG (by decide)
      · split
        · exact ascii_strs hG (by decide)
        · split
          · exact ascii_strs hG (by decide)
          · exact strs_single (h c hc)
  · exact h

theorem strs_escapeXmlOpt (hG : AsciiGood G) {s : Option Str} (h : ∀ x, s = some x → Strs G x) :
    Strs G (escapeXmlOpt s) := by
  cases s with
  | none => exact strs_nil
  | some s => exact strs_escapeXml hG (h s rfl)

theorem splitWords_go_strs : ∀ (s cur : Str), Strs G cur → Strs G s → ∀ w ∈ splitWords.go cur s, Strs G w
  | [], cur, hc, _ => by
    intro w hw
    rw [splitWords.go] at hw
    split at hw
    · simp at hw
    · simp only [List.mem_singleton] at hw
      subst hw
      intro c h; exact hc c (by simpa using h)
  | c :: cs, cur, hc, hs => by
    have hcs : Strs G cs := fun x hx => hs x (by simp [hx])
    intro w hw
    rw [splitWords.go] at hw
    split at hw
    · split at hw
      · exact splitWords_go_strs cs [] strs_nil hcs w hw
      · rcases List.mem_cons.1 hw with rfl | hw
        · intro c h; exact hc c (by simpa using h)
        · exact splitWords_go_strs cs [] strs_nil hcs w hw
    · refine splitWords_go_strs cs (c :: cur) ?_ hcs w hw
      intro x hx
      rcases List.mem_cons.1 hx with rfl | hx
      · exact hs _ (by simp)
      · exact hc x hx

theorem splitWords_strs {s : Str} (h : Strs G s) : ∀ w ∈ splitWords s, Strs G w :=
  splitWords_go_strs s [] strs_nil h

/-- The buffer. -/
abbrev Clean (G : Char → Prop) (st : HState) : Prop := Strs G st.buf

theorem clean_lit {st : HState} (h : Clean G st) {s : Str} (hs : Strs G s) : Clean G (st.lit s) :=
  strs_append h hs

theorem clean_cr (hG : AsciiGood G) {st : HState} (h : Clean G st) : Clean G st.cr := by
  unfold HState.cr
  split
  · exact clean_lit h (strs_single (hG _ (Or.inl rfl)))
  · exact h

theorem clean_out (hG : AsciiGood G) {st : HState} (h : Clean G st) {s : Option Str}
    (hs : ∀ x, s = some x → Strs G x) : Clean G (st.out s) := clean_lit h (strs_escapeXmlOpt hG hs)

abbrev CleanAttrs (G : Char → Prop) (as : Attrs) : Prop := ∀ a ∈ as, Strs G a.1 ∧ Strs G a.2

theorem clean_tag (hG : AsciiGood G) {st : HState} (h : Clean G st) {name : Str} {as : Attrs} {b : Bool}
    (hn : Strs G name) (ha : CleanAttrs G as) : Clean G (st.tag name as b) := by
  unfold HState.tag
  split
  · exact h
  · have g : ∀ c, (c == '\n' || (32 ≤ c.toNat && c.toNat ≤ 126)) = true → G c := fun c hc => by
      simp only [Bool.or_eq_true, beq_iff_eq, Bool.and_eq_true, decide_eq_true_eq] at hc
      exact hG c hc
    refine strs_append h ?_
    unfold HState.tagText
    intro c hc
    simp only [List.mem_cons, List.mem_append, List.mem_flatMap] at hc
    rcases hc with rfl | (hc | ⟨a, ha', hc⟩) | hc | hc | hc
    · exact g _ (by decide)
    · exact hn c hc
    · rcases hc with rfl | hc | rfl | rfl | hc | rfl | hc
      · exact g _ (by decide)
      · exact (ha a ha').1 c hc
      · exact g _ (by decide)
      · exact g _ (by decide)
      · exact (ha a ha').2 c hc
      · exact g _ (by decide)
      · simp at hc
    · split at hc
      · simp only [List.mem_cons, List.not_mem_nil, or_false] at hc
        rcases hc with rfl | rfl <;> exact g _ (by decide)
      · simp at hc
    · subst hc; exact g _ (by decide)
    · simp at hc

theorem cleanAttrs_nil : CleanAttrs G [] := by intro a h; simp at h

theorem cleanAttrs_append {a b : Attrs} (ha : CleanAttrs G a) (hb : CleanAttrs G b) : CleanAttrs G (a ++ b) := by
  intro x hx; rcases List.mem_append.1 hx with hx | hx
  · exact ha x hx
  · exact hb x hx

theorem cleanAttrs_one {n v : Str} (hn : Strs G n) (hv : Strs G v) : CleanAttrs G [(n, v)] := by
  intro x hx; simp only [List.mem_singleton] at hx; subst hx; exact ⟨hn, hv⟩

theorem cleanAttrs_pos (hG : AsciiGood G) (o : HtmlOpts) (d : NodeData) : CleanAttrs G (htmlAttrs o d) := by
  unfold htmlAttrs
  split
  · split
    · refine cleanAttrs_one (ascii_strs hG (by decide)) ?_
      unfold sourceposText
      have hc : ∀ (c : Char) (n : Nat), (c = ':' ∨ c = '-') → Strs G (c :: natToStr n) := by
        intro c n h x hx
        rcases List.mem_cons.1 hx with rfl | hx
        · refine hG _ (Or.inr ?_)
          rcases h with rfl | rfl <;> decide
        · exact strs_natToStr hG n x hx
      exact strs_append (strs_append (strs_append (strs_natToStr hG _) (hc _ _ (Or.inl rfl))) (hc _ _ (Or.inr rfl)))
        (hc _ _ (Or.inl rfl))
    · exact cleanAttrs_nil
  · exact cleanAttrs_nil

/-- What the renderer needs of an event. -/
structure EventReady (G : Char → Prop) (e : Event) : Prop where
  node : HtmlReady G e.node
  parent : e.node.t = .paragraph → ∃ p, e.parent = some p
  grand : ∀ g, e.grandparent = some g → g.t = .list → ∃ l, g.listData = some l

theorem unsafeDest_ok (o : HtmlOpts) (u : Str) : ∃ b, unsafeDest o (some u) = .ok b := by
  unfold unsafeDest
  split
  · exact ⟨_, rfl⟩
  · exact ⟨_, rfl⟩

theorem litOpt_ok {st : HState} {s : Option Str} {x : Str} (h : s = some x) : st.litOpt s = .ok (st.lit x) := by
  rw [h]; rfl

/-- An event of a ready node never fails and writes good characters. -/
theorem htmlEvent_total (hG : AsciiGood G) (o : HtmlOpts) (hsb : Strs G o.softbreak) (st : HState) (e : Event)
    (he : EventReady G e) (hc : Clean G st) : ∃ st', htmlEvent o st e = .ok st' ∧ Clean G st' := by
  have hn := he.node
  have hpos := cleanAttrs_pos hG o e.node
  have S : ∀ s : Str, (s.all fun c => c == '\n' || (32 ≤ c.toNat && c.toNat ≤ 126)) = true → Strs G s :=
    fun s h => ascii_strs hG h
  have hlit : ∀ x, e.node.literal = some x → Strs G x := fun x h => hn.strs x (Or.inl h)
  have hdest : ∀ x, e.node.destination = some x → Strs G x := fun x h => hn.strs x (Or.inr (Or.inr (Or.inl h)))
  have htitle : ∀ x, e.node.title = some x → Strs G x :=
    fun x h => hn.strs x (Or.inr (Or.inr (Or.inr (Or.inl h))))
  have hcr := clean_cr hG hc
  unfold htmlEvent
  dsimp only
  cases ht : e.node.t <;> dsimp only
  case document => exact ⟨_, rfl, hc⟩
  case text => exact ⟨_, rfl, clean_out hG hc hlit⟩
  case softbreak => exact ⟨_, rfl, clean_lit hc hsb⟩
  case linebreak => exact ⟨_, rfl, clean_cr hG (clean_tag hG hc (S _ (by decide)) cleanAttrs_nil)⟩
  case link =>
    obtain ⟨u, hu⟩ := hn.dest (Or.inl ht)
    obtain ⟨b, hb⟩ := unsafeDest_ok o u
    simp only [htmlLink]
    by_cases hen : e.entering = true
    · rw [if_pos hen, hu, hb]
      refine ⟨_, rfl, clean_tag hG hc (S _ (by decide)) ?_⟩
      have h1 : CleanAttrs G (if b = true then htmlAttrs o e.node else
          htmlAttrs o e.node ++ [(lit "href", escapeXmlOpt (some u))]) := by
        split
        · exact hpos
        · exact cleanAttrs_append hpos (cleanAttrs_one (S _ (by decide)) (strs_escapeXmlOpt hG (hu ▸ hdest)))
      split
      · exact cleanAttrs_append h1 (cleanAttrs_one (S _ (by decide)) (strs_escapeXmlOpt hG htitle))
      · exact h1
    · rw [if_neg hen]
      exact ⟨_, rfl, clean_tag hG hc (S _ (by decide)) cleanAttrs_nil⟩
  case image =>
    obtain ⟨u, hu⟩ := hn.dest (Or.inr ht)
    obtain ⟨b, hb⟩ := unsafeDest_ok o u
    simp only [htmlImage]
    by_cases hen : e.entering = true
    · rw [if_pos hen]
      by_cases hz : (st.disableTags == 0) = true
      · simp only [hz, if_true, hu, hb, bind, Except.bind, pure, Except.pure]
        cases b with
        | true =>
          refine ⟨_, rfl, ?_⟩
          show Clean G (st.lit _)
          exact clean_lit hc (S _ (by decide))
        | false =>
          refine ⟨_, rfl, ?_⟩
          show Clean G (st.lit _)
          exact clean_lit hc (strs_append (strs_append (S _ (by decide)) (strs_escapeXmlOpt hG (hu ▸ hdest)))
            (S _ (by decide)))
      · simp only [hz, Bool.false_eq_true, if_false, bind, Except.bind, pure, Except.pure]
        exact ⟨_, rfl, hc⟩
    · rw [if_neg hen]
      split
      · refine ⟨_, rfl, ?_⟩
        split
        · exact clean_lit (clean_lit hc (strs_append (S _ (by decide)) (strs_escapeXmlOpt hG htitle))) (S _ (by decide))
        · exact clean_lit hc (S _ (by decide))
      · exact ⟨_, rfl, hc⟩
  case emph => exact ⟨_, rfl, clean_tag hG hc (by split <;> exact S _ (by decide)) cleanAttrs_nil⟩
  case strong => exact ⟨_, rfl, clean_tag hG hc (by split <;> exact S _ (by decide)) cleanAttrs_nil⟩
  case paragraph =>
    obtain ⟨p, hp⟩ := he.parent ht
    have htight : ∃ b, tightOf e.grandparent = .ok b := by
      unfold tightOf
      cases hg : e.grandparent with
      | none => exact ⟨_, rfl⟩
      | some g =>
        by_cases hl : g.t = .list
        · obtain ⟨l, hl'⟩ := he.grand g hg hl
          simp [hl, hl']
        · simp [hl]
    obtain ⟨b, hb⟩ := htight
    simp only [htmlParagraph_eq, hp, hb, bind, Except.bind, pure, Except.pure]
    split
    · exact ⟨_, rfl, hc⟩
    · split
      · exact ⟨_, rfl, clean_tag hG hcr (S _ (by decide)) hpos⟩
      · exact ⟨_, rfl, clean_cr hG (clean_tag hG hc (S _ (by decide)) cleanAttrs_nil)⟩
  case heading =>
    have hh : Strs G (headingTag e.node.level) := by
      unfold headingTag
      intro c hc'
      rcases List.mem_cons.1 hc' with rfl | hc'
      · exact hG _ (Or.inr (by decide))
      · revert hc'
        split
        · exact strs_natToStr hG _ c
        · exact S _ (by decide) c
    refine ⟨_, rfl, ?_⟩
    unfold htmlHeading
    split
    · exact clean_tag hG hcr hh hpos
    · refine clean_cr hG (clean_tag hG hc ?_ cleanAttrs_nil)
      intro c hc'
      rcases List.mem_cons.1 hc' with rfl | hc'
      · exact hG _ (Or.inr (by decide))
      · exact hh c hc'
  case code =>
    exact ⟨_, rfl, clean_tag hG (clean_out hG (clean_tag hG hc (S _ (by decide)) cleanAttrs_nil) hlit) (S _ (by decide))
      cleanAttrs_nil⟩
  case codeBlock =>
    refine ⟨_, rfl, ?_⟩
    unfold htmlCodeBlock
    refine clean_cr hG (clean_tag hG (clean_tag hG (clean_out hG (clean_tag hG (clean_tag hG hcr (S _ (by decide))
      cleanAttrs_nil) (S _ (by decide)) (cleanAttrs_append hpos ?_)) hlit) (S _ (by decide)) cleanAttrs_nil)
      (S _ (by decide)) cleanAttrs_nil)
    unfold codeClass
    split
    · exact cleanAttrs_nil
    · rename_i i hi
      split
      · exact cleanAttrs_nil
      · rename_i w ws hw
        exact cleanAttrs_one (S _ (by decide)) (strs_append (S _ (by decide))
          (strs_escapeXml hG (splitWords_strs (hn.strs i (Or.inr (Or.inl hi))) w (by rw [hw]; simp))))
  case thematicBreak => exact ⟨_, rfl, clean_cr hG (clean_tag hG hcr (S _ (by decide)) hpos)⟩
  case blockQuote =>
    split
    · exact ⟨_, rfl, clean_cr hG (clean_tag hG hcr (S _ (by decide)) hpos)⟩
    · exact ⟨_, rfl, clean_cr hG (clean_tag hG hcr (S _ (by decide)) cleanAttrs_nil)⟩
  case list =>
    obtain ⟨l, hl⟩ := hn.list ht
    simp only [htmlList, hl]
    split
    · refine ⟨_, rfl, clean_cr hG (clean_tag hG hcr ?_ ?_)⟩
      · split <;> exact S _ (by decide)
      · split
        · split
          · exact cleanAttrs_append hpos (cleanAttrs_one (S _ (by decide)) (strs_natToStr hG _))
          · exact hpos
        · exact hpos
    · refine ⟨_, rfl, clean_cr hG (clean_tag hG hcr ?_ cleanAttrs_nil)⟩
      split <;> exact S _ (by decide)
  case item =>
    split
    · exact ⟨_, rfl, clean_tag hG hc (S _ (by decide)) hpos⟩
    · exact ⟨_, rfl, clean_cr hG (clean_tag hG hc (S _ (by decide)) cleanAttrs_nil)⟩
  case htmlInline =>
    obtain ⟨x, hx⟩ := hn.raw (Or.inl ht)
    split
    · exact ⟨_, rfl, clean_lit hc (S _ (by decide))⟩
    · rw [litOpt_ok hx]; exact ⟨_, rfl, clean_lit hc (hlit x hx)⟩
  case htmlBlock =>
    obtain ⟨x, hx⟩ := hn.raw (Or.inr ht)
    by_cases hs : o.safe = true
    · simp only [hs, if_true, bind, Except.bind, pure, Except.pure]
      exact ⟨_, rfl, clean_cr hG (clean_lit hcr (S _ (by decide)))⟩
    · simp only [hs, Bool.false_eq_true, if_false, litOpt_ok hx, bind, Except.bind, pure, Except.pure]
      exact ⟨_, rfl, clean_cr hG (clean_lit hcr (hlit x hx))⟩
  case customInline =>
    split
    · cases hx : e.node.onEnter with
      | none => rename_i h; simp [hx, truthy] at h
      | some x => exact ⟨_, rfl, clean_lit hc (hn.strs x (by simp [hx]))⟩
    · split
      · cases hx : e.node.onExit with
        | none => rename_i h; simp [hx, truthy] at h
        | some x => exact ⟨_, rfl, clean_lit hc (hn.strs x (by simp [hx]))⟩
      · exact ⟨_, rfl, hc⟩
  case customBlock =>
    split
    · cases hx : e.node.onEnter with
      | none => rename_i h; simp [hx, truthy] at h
      | some x => exact ⟨_, rfl, clean_cr hG (clean_lit hcr (hn.strs x (by simp [hx])))⟩
    · split
      · cases hx : e.node.onExit with
        | none => rename_i h; simp [hx, truthy] at h
        | some x => exact ⟨_, rfl, clean_cr hG (clean_lit hcr (hn.strs x (by simp [hx])))⟩
      · exact ⟨_, rfl, clean_cr hG hcr⟩

theorem runEvents_total (hG : AsciiGood G) (o : HtmlOpts) (hsb : Strs G o.softbreak) : ∀ (es : List Event) (st : HState),
    (∀ e ∈ es, EventReady G e) → Clean G st → ∃ st', runEvents o st es = .ok st' ∧ Clean G st'
  | [], st, _, hc => ⟨st, rfl, hc⟩
  | e :: es, st, he, hc => by
    obtain ⟨st1, h1, h2⟩ := htmlEvent_total hG o hsb st e (he e (by simp)) hc
    obtain ⟨st2, h3, h4⟩ := runEvents_total hG o hsb es st1 (fun x hx => he x (by simp [hx])) h2
    refine ⟨st2, ?_, h4⟩
    rw [runEvents_cons, h1]; exact h3

mutual
theorem events_ready : ∀ (p g : Option NodeData) (t : Tree), EveryNode (fun d _ => HtmlReady G d) t →
    (∀ d, g = some d → d.t = .list → ∃ l, d.listData = some l) →
    (∀ d, p = some d → d.t = .list → ∃ l, d.listData = some l) →
    (t.data.t = .paragraph → ∃ d, p = some d) →
    ∀ e ∈ events p g t, EventReady G e
  | p, g, .node d cs, h, hg, hp, hpar => by
    obtain ⟨h1, h2⟩ := everyNode_iff.1 h
    intro e he
    unfold events at he
    dsimp only at he
    have self : ∀ b f, EventReady G ⟨b, d, p, g, f⟩ := fun b f => ⟨h1, fun ht => hpar ht, hg⟩
    split at he
    · simp only [List.mem_cons, List.mem_append, List.not_mem_nil, or_false] at he
      rcases he with rfl | he | rfl
      · exact self _ _
      · exact eventsList_ready (some d) p cs (everyNodeList_iff.2 h2) hp
          (by intro d' hd' ht; simp only [Option.some.injEq] at hd'; subst hd'; exact h1.list ht)
          (fun _ => ⟨d, rfl⟩) e he
      · exact self _ _
    · simp only [List.mem_singleton] at he
      subst he
      exact self _ _
theorem eventsList_ready : ∀ (p g : Option NodeData) (ts : List Tree), EveryNodeList (fun d _ => HtmlReady G d) ts →
    (∀ d, g = some d → d.t = .list → ∃ l, d.listData = some l) →
    (∀ d, p = some d → d.t = .list → ∃ l, d.listData = some l) →
    (True → ∃ d, p = some d) →
    ∀ e ∈ eventsList p g ts, EventReady G e
  | p, g, [], _, _, _, _ => by intro e he; simp [eventsList] at he
  | p, g, t :: ts, h, hg, hp, hpar => by
    intro e he
    rw [eventsList] at he
    rcases List.mem_append.1 he with he | he
    · exact events_ready p g t h.1 hg hp (fun _ => hpar trivial) e he
    · exact eventsList_ready p g ts h.2 hg hp hpar e he
end

/-- Rendering a tree of ready nodes. -/
theorem renderHtml_total (hG : AsciiGood G) (o : HtmlOpts) (hsb : Strs G o.softbreak) (t : Tree)
    (h : EveryNode (fun d _ => HtmlReady G d) t) (hp : t.data.t ≠ .paragraph) :
    ∃ out, renderHtml o t = .ok out ∧ Strs G out := by
  obtain ⟨st, h1, h2⟩ := runEvents_total hG o hsb (events none none t) ⟨[], ['\n'], 0⟩
    (events_ready none none t h (by simp) (by simp) (fun h => absurd h hp)) strs_nil
  refine ⟨st.buf, ?_, h2⟩
  unfold renderHtml renderWith
  unfold runEvents at h1
  rw [h1]; rfl

end

/-! ### Parsed documents -/

theorem normalizeUri_ascii (u : Str) : ∀ c ∈ normalizeUri u, 32 ≤ c.toNat ∧ c.toNat ≤ 126 := by
  intro c hc
  have : ∀ c ∈ uriAlphabet, 32 ≤ c.toNat ∧ c.toNat ≤ 126 := by decide
  exact this c (mem_normalizeUri_alphabet u c hc)

theorem strs_normalizeUri {G : Char → Prop} (hG : AsciiGood G) (u : Str) : Strs G (normalizeUri u) :=
  fun c hc => hG c (Or.inr (normalizeUri_ascii u c hc))

theorem nodeOk_ready {T : Str → Prop} {G : Char → Prop} (hG : AsciiGood G) {d : NodeData} {ks : List NodeData}
    (h : NodeOk T G d ks) : HtmlReady G d := by
  have block : ∀ ks, BlockOk T G d ks → HtmlReady G d := by
    intro ks h
    have hk := h.data.kind
    refine ⟨fun ht => (h.data.marker (Or.inl ht)).imp fun l hl => hl.1, ?_, ?_, ?_⟩
    · rintro (ht | ht) <;> rw [ht] at hk <;> simp [blockKinds, flowKinds] at hk
    · rintro (ht | ht)
      · rw [ht] at hk; simp [blockKinds, flowKinds] at hk
      · exact h.done (Or.inr ht)
    · obtain ⟨c1, c2, c3, c4⟩ := h.data.clean
      rintro x (hx | hx | hx | hx | hx | hx)
      · exact h.data.chars x (Or.inr (Or.inl hx))
      · exact h.data.chars x (Or.inr (Or.inr hx))
      · rw [c1] at hx; cases hx
      · rw [c2] at hx; cases hx
      · rw [c3] at hx; cases hx
      · rw [c4] at hx; cases hx
  cases h with
  | block h _ _ => exact block _ h
  | leaf h _ _ => exact block _ h
  | inline h =>
    have hu := fun u => strs_normalizeUri hG u
    cases h <;>
      refine ⟨(fun ht => by cases ht), ?_, ?_, ?_⟩ <;>
      first
      | (rintro (ht | ht) <;> first | exact ⟨_, rfl⟩ | cases ht; done)
      | (intro x hx
         simp only [textNode, codeNode, htmlInlineNode, mkNode, linkNode, Tree.data, Option.some.injEq, reduceCtorEq,
           or_false, false_or] at hx
         done)
      | (intro x hx
         simp only [textNode, codeNode, htmlInlineNode, mkNode, linkNode, Tree.data, Option.some.injEq, reduceCtorEq,
           or_false, false_or] at hx
         first
         | (subst hx; assumption)
         | (rcases hx with rfl | rfl
            · exact hu _
            · assumption))

end CM
