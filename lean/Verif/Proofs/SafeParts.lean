import Verif.Spec.SafeParts
import Verif.Proofs.HtmlTree
import Verif.Spec.Doc
/-
Two renderers, one in safe mode and one not, event by event.
-/
namespace CM
open Spec

/-- The options in safe mode or not. -/
abbrev HtmlOpts.mode (o : HtmlOpts) (b : Bool) : HtmlOpts := { o with safe := b }

/-- The two renderers have written the same parts, of which safe mode left these out. -/
structure SafePair (ls : List Left) (a b : HState) : Prop where
  last : (a.lastOut != ['\n']) = (b.lastOut != ['\n'])
  off : a.disableTags = b.disableTags
  parts : ∃ ps : List SafePart, a.buf = ps.flatMap SafePart.plain ∧ b.buf = ps.flatMap SafePart.safe ∧ leftOut ps = ls

theorem rawOmitted_eq : rawOmitted = omitted := rfl

variable {ls : List Left} {a b : HState}

theorem SafePair.lit (h : SafePair ls a b) (s : Str) : SafePair ls (a.lit s) (b.lit s) := by
  obtain ⟨ps, h1, h2, h3⟩ := h.parts
  exact ⟨rfl, h.off, ps ++ [.text s], by simp [HState.lit, h1, SafePart.plain], by simp [HState.lit, h2, SafePart.safe],
    by simp [leftOut, ← h3]⟩

theorem SafePair.out (h : SafePair ls a b) (s : Option Str) : SafePair ls (a.out s) (b.out s) := h.lit _

theorem SafePair.cr (h : SafePair ls a b) : SafePair ls a.cr b.cr := by
  unfold HState.cr
  rw [h.last]
  split
  · exact h.lit _
  · exact h

theorem SafePair.tag (h : SafePair ls a b) (n : Str) (at' : Attrs) (sc : Bool) : SafePair ls (a.tag n at' sc) (b.tag n at' sc) := by
  unfold HState.tag
  rw [h.off]
  split
  · exact h
  · obtain ⟨ps, h1, h2, h3⟩ := h.parts
    exact ⟨rfl, rfl, ps ++ [.text (HState.tagText n at' sc)], by simp [h1, SafePart.plain], by simp [h2, SafePart.safe],
      by simp [leftOut, ← h3]⟩

theorem SafePair.disable (h : SafePair ls a b) (k : Int) :
    SafePair ls { a with disableTags := a.disableTags + k } { b with disableTags := b.disableTags + k } :=
  ⟨h.last, by simp [h.off], h.parts⟩

/-- Both renderers go on, or both raise the same exception. -/
def SafeRuns (ls : List Left) (x y : Except PyErr HState) : Prop :=
  ∀ a b, x = .ok a → y = .ok b → SafePair ls a b

theorem SafePair.runs (h : SafePair ls a b) : SafeRuns ls (.ok a) (.ok b) := by
  intro a' b' e1 e2; cases e1; cases e2; exact h

theorem SafeRuns.bind {x y : Except PyErr HState} {f g : HState → Except PyErr HState} {ns : List Left} (h : SafeRuns ls x y)
    (hf : ∀ a b, x = .ok a → SafePair ls a b → SafeRuns ns (f a) (g b)) : SafeRuns ns (x.bind f) (y.bind g) := by
  intro a' b' e1 e2
  obtain ⟨a, h1, e1⟩ := ok_bind e1
  obtain ⟨b, h2, e2⟩ := ok_bind e2
  exact hf a b h1 (h a b h1 h2) a' b' e1 e2

theorem SafePair.litOpt (h : SafePair ls a b) (s : Option Str) : SafeRuns ls (a.litOpt s) (b.litOpt s) := by
  cases s with
  | none => intro a' b' e; cases e
  | some s => exact (h.lit s).runs

theorem SafePair.raw (h : SafePair ls a b) {s : Str} (hs : s ≠ ['\n']) : SafePair (ls ++ [.raw s]) (a.lit s) (b.lit rawOmitted) := by
  obtain ⟨ps, h1, h2, h3⟩ := h.parts
  refine ⟨?_, h.off, ps ++ [.left (.raw s)], by simp [HState.lit, h1, SafePart.plain, Left.plain],
    by simp [HState.lit, h2, SafePart.safe, Left.safe, rawOmitted_eq], by simp [leftOut, ← h3]⟩
  simp only [HState.lit]
  rw [show (s != ['\n']) = true by simpa using hs]
  rfl

theorem SafePair.rawBlock (h : SafePair ls a b) (s : Str) :
    SafePair (ls ++ [.raw (blockText s)]) (a.lit s).cr (b.lit rawOmitted).cr := by
  by_cases hs : s = ['\n']
  · subst hs
    obtain ⟨ps, h1, h2, h3⟩ := h.parts
    refine ⟨rfl, h.off, ps ++ [.left (.raw []), .text ['\n']], ?_, ?_, by simp [leftOut, ← h3, blockText]⟩
    · simp [HState.cr, HState.lit, h1, SafePart.plain, Left.plain]
    · rw [show (b.lit rawOmitted).cr = (b.lit rawOmitted).lit ['\n'] from rfl]
      simp [HState.lit, h2, SafePart.safe, Left.safe, rawOmitted_eq]
  · rw [show blockText s = s by simp [blockText, hs]]
    exact (h.raw hs).cr

/-- A tag with an address. -/
theorem SafePair.href (h : SafePair ls a b) (o : HtmlOpts) (d : NodeData) (u : Str) (at' : Attrs) :
    SafePair (ls ++ if 0 < a.disableTags then [] else [.link u])
      (a.tag (CM.lit "a") (htmlAttrs o d ++ [(CM.lit "href", escapeXml u)] ++ at') false)
      (b.tag (CM.lit "a") (htmlAttrs o d ++ at') false) := by
  by_cases hk : 0 < a.disableTags
  · rw [if_pos hk, tag_off hk, tag_off (h.off ▸ hk), List.append_nil]; exact h
  · have hk' : ¬ 0 < b.disableTags := h.off ▸ hk
    rw [if_neg hk]
    obtain ⟨ps, h1, h2, h3⟩ := h.parts
    refine ⟨by simp only [HState.tag, if_neg hk, if_neg hk'], by simp only [HState.tag, if_neg hk, if_neg hk']; exact h.off,
      ps ++ [.text ('<' :: 'a' :: attrsText (htmlAttrs o d)), .left (.link u), .text (attrsText at' ++ ['>'])], ?_, ?_, ?_⟩
    · simp [HState.tag, if_neg hk, h1, HState.tagText, SafePart.plain, Left.plain, attrsText, attr, CM.lit, escapeXml_text]
    · simp [HState.tag, if_neg hk', h2, HState.tagText, SafePart.safe, Left.safe, attrsText, CM.lit]
    · simp [leftOut, ← h3]

/-- Events of kinds that safe mode does not change. -/
def plainKind (k : Kind) : Bool :=
  !(k == .link || k == .image || k == .htmlInline || k == .htmlBlock)

theorem plain_runs (h : SafePair ls a b) (o : HtmlOpts) (e : Event) (hk : plainKind e.node.t = true) :
    SafeRuns ls (htmlEvent (o.mode false) a e) (htmlEvent (o.mode true) b e) := by
  unfold htmlEvent
  cases ht : e.node.t <;> simp only [ht]
  case document => exact h.runs
  case text => exact (h.out _).runs
  case softbreak => exact (h.lit _).runs
  case linebreak => exact (h.tag _ _ _).cr.runs
  case emph => exact (h.tag _ _ _).runs
  case strong => exact (h.tag _ _ _).runs
  case code => exact (((h.tag _ _ _).out _).tag _ _ _).runs
  case codeBlock => exact ((((((h.cr.tag _ _ _).tag _ _ _).out _).tag _ _ _).tag _ _ _).cr).runs
  case thematicBreak => exact (h.cr.tag _ _ _).cr.runs
  case heading =>
    unfold htmlHeading
    split
    · exact (h.cr.tag _ _ _).runs
    · exact (h.tag _ _ _).cr.runs
  case blockQuote =>
    split
    · exact (h.cr.tag _ _ _).cr.runs
    · exact (h.cr.tag _ _ _).cr.runs
  case item =>
    split
    · exact (h.tag _ _ _).runs
    · exact (h.tag _ _ _).cr.runs
  case customInline =>
    split
    · exact h.litOpt _
    · split
      · exact h.litOpt _
      · exact h.runs
  case customBlock =>
    split
    · exact (h.cr.litOpt _).bind fun _ _ _ h => h.cr.runs
    · split
      · exact (h.cr.litOpt _).bind fun _ _ _ h => h.cr.runs
      · exact h.cr.cr.runs
  case list =>
    unfold htmlList
    cases e.node.listData with
    | none => intro a' b' e; cases e
    | some l =>
      simp only
      split
      · exact (h.cr.tag _ _ _).cr.runs
      · exact (h.cr.tag _ _ _).cr.runs
  case paragraph =>
    unfold htmlParagraph
    cases e.parent with
    | none => intro a' b' e; cases e
    | some p =>
      have fin : ∀ tight : Bool, SafeRuns ls
          (if tight = true then .ok a else if e.entering = true then
            .ok (a.cr.tag (CM.lit "p") (htmlAttrs (o.mode false) e.node)) else .ok (a.tag (CM.lit "/p")).cr)
          (if tight = true then .ok b else if e.entering = true then
            .ok (b.cr.tag (CM.lit "p") (htmlAttrs (o.mode true) e.node)) else .ok (b.tag (CM.lit "/p")).cr) := by
        intro tight
        split
        · exact h.runs
        · split
          · exact (h.cr.tag _ _ _).runs
          · exact (h.tag _ _ _).cr.runs
      simp only [bind, Except.bind, pure, Except.pure]
      cases e.grandparent with
      | none => exact fin false
      | some g =>
        simp only
        by_cases hl : (g.t == Kind.list) = true
        · simp only [hl, if_true]
          cases g.listData with
          | none => intro a' b' e; cases e
          | some l => exact fin l.tight
        · simp only [hl, Bool.false_eq_true, if_false]
          exact fin false
  all_goals (rw [ht] at hk; cases hk)

/-- The event of a leaf or the first one of a container. -/
def eventLeft (off : Bool) (e : Event) : List Left := if e.entering then ownLeft potentiallyUnsafe off e.node else []

theorem link_runs (h : SafePair ls a b) (o : HtmlOpts) (e : Event) (ht : e.node.t = .link) :
    SafeRuns (ls ++ eventLeft (decide (0 < a.disableTags)) e) (htmlLink (o.mode false) e a) (htmlLink (o.mode true) e b) := by
  unfold htmlLink eventLeft ownLeft
  cases he : e.entering with
  | false => simpa using (h.tag _ _ _).runs
  | true =>
    simp only [if_true, bind, Except.bind, pure, Except.pure, ht, unsafeDest, Bool.false_eq_true, if_false]
    cases hd : e.node.destination with
    | none => intro a' b' _ e2; cases e2
    | some u =>
      simp only [Option.getD_some, escapeXmlOpt]
      cases hu : potentiallyUnsafe u with
      | false =>
        simp only [Bool.and_false, Bool.false_eq_true, if_false, List.append_nil]
        exact (h.tag _ _ _).runs
      | true =>
        have e1 : (if (!decide (0 < a.disableTags) && true) = true then [Left.link u] else []) =
            if 0 < a.disableTags then [] else [Left.link u] := by
          by_cases hk : 0 < a.disableTags <;> simp [hk]
        rw [e1]
        simp only [if_true]
        by_cases hti : truthy e.node.title = true
        · simp only [hti, if_true]
          exact (h.href o e.node u _).runs
        · simp only [hti, Bool.false_eq_true, if_false]
          have := (h.href o e.node u []).runs
          simp only [List.append_nil] at this
          exact this

theorem image_runs (h : SafePair ls a b) (o : HtmlOpts) (e : Event) (ht : e.node.t = .image) (hk : 0 ≤ a.disableTags) :
    SafeRuns (ls ++ eventLeft (decide (0 < a.disableTags)) e) (htmlImage (o.mode false) e a) (htmlImage (o.mode true) e b) := by
  unfold htmlImage eventLeft ownLeft
  have es : CM.lit "<img src=\"\" alt=\"" = CM.lit "<img src=\"" ++ CM.lit "\" alt=\"" := by decide
  have hw : ∃ r, CM.lit "<img src=\"" = '<' :: r := ⟨_, rfl⟩
  generalize CM.lit "<img src=\"\" alt=\"" = w0 at es ⊢
  generalize CM.lit "<img src=\"" = w1 at es hw ⊢
  generalize CM.lit "\" alt=\"" = w2 at es ⊢
  generalize CM.lit "\" title=\"" = w3
  generalize CM.lit "\" />" = w4
  subst es
  cases he : e.entering with
  | true =>
    simp only [if_true, bind, Except.bind, pure, Except.pure, ht, unsafeDest, Bool.false_eq_true, if_false, ← h.off]
    by_cases hz : a.disableTags = 0
    · simp only [hz, beq_self_eq_true, if_true]
      cases hd : e.node.destination with
      | none => intro a' b' _ e2; cases e2
      | some u =>
        simp only [Option.getD_some, escapeXmlOpt]
        cases hu : potentiallyUnsafe u with
        | false =>
          simp only [Bool.and_false, Bool.false_eq_true, if_false, List.append_nil]
          have := (h.lit (w1 ++ escapeXml u ++ w2)).disable 1
          exact this.runs
        | true =>
          obtain ⟨ps, h1, h2, h3⟩ := h.parts
          obtain ⟨r, hw⟩ := hw
          refine SafePair.runs ⟨?_, congrArg (· + 1) h.off, ps ++ [.text w1, .left (.image u), .text w2], ?_, ?_, ?_⟩
          · have key : ∀ x : Str, ('<' :: x != ['\n']) = true := fun x => by rw [bne_iff_ne]; simp
            simp [HState.lit, hw, key]
          · simp [HState.lit, h1, SafePart.plain, Left.plain, escapeXml_text]
          · simp [HState.lit, h2, SafePart.safe, Left.safe]
          · simp [leftOut, ← h3]
    · have hz' : (a.disableTags == 0) = false := by simpa using hz
      have hp : 0 < a.disableTags := by omega
      simp only [hz', Bool.false_eq_true, if_false, hp, decide_true, Bool.not_true, Bool.false_and, List.append_nil]
      have h' := h.disable 1
      rw [← h.off] at h'
      exact h'.runs
  | false =>
    have h' := h.disable (-1)
    simp only [Bool.false_eq_true, if_false, ← h.off, List.append_nil]
    have e1 : ∀ k : Int, k - 1 = k + -1 := fun k => by omega
    rw [e1]
    rw [← h.off] at h'
    by_cases hz : (a.disableTags + -1 == 0) = true
    · simp only [hz, if_true]
      split
      · exact ((h'.lit _).lit _).runs
      · exact (h'.lit _).runs
    · simp only [hz, Bool.false_eq_true, if_false]
      exact h'.runs

theorem event_runs (h : SafePair ls a b) (o : HtmlOpts) (e : Event) (hk : 0 ≤ a.disableTags)
    (hl : isContainer e.node.t = false → e.entering = true) (hn : e.node.t = .htmlInline → e.node.literal ≠ some ['\n']) :
    SafeRuns (ls ++ eventLeft (decide (0 < a.disableTags)) e) (htmlEvent (o.mode false) a e) (htmlEvent (o.mode true) b e) := by
  by_cases hp : plainKind e.node.t = true
  · have : eventLeft (decide (0 < a.disableTags)) e = [] := by
      unfold eventLeft ownLeft
      cases ht : e.node.t <;> rw [ht] at hp <;> first | cases hp; done | (split <;> rfl)
    rw [this, List.append_nil]
    exact plain_runs h o e hp
  · cases ht : e.node.t
    case link => unfold htmlEvent; simp only [ht]; exact link_runs h o e ht
    case image => unfold htmlEvent; simp only [ht]; exact image_runs h o e ht hk
    case htmlInline =>
      unfold htmlEvent eventLeft ownLeft
      simp only [ht, hl (by rw [ht]; rfl), if_true, Bool.false_eq_true, if_false]
      cases hlit : e.node.literal with
      | none => intro a' b' e1; cases e1
      | some s => exact (h.raw (fun e => hn ht (by rw [hlit]; exact congrArg some e))).runs
    case htmlBlock =>
      unfold htmlEvent eventLeft ownLeft
      simp only [ht, hl (by rw [ht]; rfl), if_true, Bool.false_eq_true, if_false]
      cases hlit : e.node.literal with
      | none => intro a' b' e1; cases e1
      | some s => exact (h.cr.rawBlock s).runs
    all_goals (rw [ht] at hp; exact absurd rfl hp)

/-- No raw HTML in a line is just a newline. -/
def RawOk (d : NodeData) : Prop := d.t = .htmlInline → d.literal ≠ some ['\n']

mutual
theorem events_runs (o : HtmlOpts) : ∀ (t : Tree) {p g : Option NodeData} {ls : List Left} {a b : HState}, 0 ≤ a.disableTags →
    EverySubtree (fun d _ => RawOk d) t → SafePair ls a b →
    SafeRuns (ls ++ treeLeft potentiallyUnsafe (decide (0 < a.disableTags)) t)
      (runEvents (o.mode false) a (events p g t)) (runEvents (o.mode true) b (events p g t))
  | .node d cs, p, g, ls, a, b, hk, hr, h => by
    rw [EverySubtree] at hr
    have hm : ∀ f : Option NodeData, ownLeft potentiallyUnsafe (decide (0 < a.disableTags)) d =
        eventLeft (decide (0 < a.disableTags)) ⟨true, d, p, g, f⟩ := fun f => rfl
    rw [events, treeLeft]
    by_cases hc : isContainer d.t = true
    · rw [if_pos hc, if_pos hc, hm (cs.head?.map (·.data)), ← List.append_assoc]
      simp only [runEvents_cons, runEvents_append, runEvents_nil]
      refine (event_runs h o ⟨true, d, p, g, cs.head?.map (·.data)⟩ hk (fun _ => rfl) hr.1).bind fun a1 b1 h1 c1 => ?_
      have hd := image_deeper hc h1
      have hz : decide (0 < a1.disableTags) = (decide (0 < a.disableTags) || d.t == .image) := by
        rw [hd, Bool.eq_iff_iff]
        by_cases hi : d.t = .image
        · simp [hi]; omega
        · simp [hi]
      have hk1 : 0 ≤ a1.disableTags := by rw [hd]; split <;> omega
      have := eventsList_runs o cs (p := some d) (g := p) hk1 hr.2 c1
      rw [hz] at this
      refine this.bind fun a2 b2 h2 c2 => ?_
      have k2 := (eventsList_written (o.mode false) cs hk1 h2).1
      have := event_runs c2 o ⟨false, d, p, g, cs.head?.map (·.data)⟩ (by rw [k2]; exact hk1)
        (fun hf => by rw [hc] at hf; cases hf) hr.1
      rw [show eventLeft (decide (0 < a2.disableTags)) ⟨false, d, p, g, cs.head?.map (·.data)⟩ = [] from rfl, List.append_nil] at this
      exact this.bind fun _ _ _ c => c.runs
    · rw [if_neg hc, if_neg hc, hm (cs.head?.map (·.data)), List.append_nil]
      simp only [runEvents_cons, runEvents_nil]
      exact (event_runs h o ⟨true, d, p, g, cs.head?.map (·.data)⟩ hk (fun _ => rfl) hr.1).bind fun _ _ _ c => c.runs
theorem eventsList_runs (o : HtmlOpts) : ∀ (ts : List Tree) {p g : Option NodeData} {ls : List Left} {a b : HState},
    0 ≤ a.disableTags → EverySubtreeList (fun d _ => RawOk d) ts → SafePair ls a b →
    SafeRuns (ls ++ treeLeftList potentiallyUnsafe (decide (0 < a.disableTags)) ts)
      (runEvents (o.mode false) a (eventsList p g ts)) (runEvents (o.mode true) b (eventsList p g ts))
  | [], p, g, ls, a, b, hk, hr, h => by
    rw [eventsList, treeLeftList, List.append_nil]
    exact h.runs
  | t :: ts, p, g, ls, a, b, hk, hr, h => by
    rw [EverySubtreeList] at hr
    rw [eventsList, treeLeftList, ← List.append_assoc, runEvents_append, runEvents_append]
    refine (events_runs o t hk hr.1 h).bind fun a1 b1 h1 c1 => ?_
    obtain ⟨k1, -⟩ := events_written (o.mode false) t hk h1
    have := eventsList_runs o ts (p := p) (g := g) (by omega) hr.2 c1
    rwa [k1] at this
end

theorem render_runs (o : HtmlOpts) (t : Tree) {x y : Str} (hr : EverySubtree (fun d _ => RawOk d) t)
    (hx : renderHtml (o.mode false) t = .ok x) (hy : renderHtml (o.mode true) t = .ok y) :
    ∃ ps, x = ps.flatMap SafePart.plain ∧ y = ps.flatMap SafePart.safe ∧ leftOut ps = treeLeft potentiallyUnsafe false t := by
  have h0 : SafePair [] ⟨[], ['\n'], 0⟩ ⟨[], ['\n'], 0⟩ := ⟨rfl, rfl, [], rfl, rfl, rfl⟩
  have e : ∀ b, renderHtml (o.mode b) t = (runEvents (o.mode b) ⟨[], ['\n'], 0⟩ (events none none t)).bind (fun st => .ok st.buf) :=
    fun _ => rfl
  rw [e] at hx hy
  obtain ⟨a, ha, hx⟩ := ok_bind hx
  obtain ⟨b, hb, hy⟩ := ok_bind hy
  cases hx; cases hy
  obtain ⟨ps, h1, h2, h3⟩ := (events_runs o t (p := none) (g := none) (by simp) hr h0 a b ha hb).parts
  exact ⟨ps, h1, h2, by rw [h3]; simp⟩

end CM
