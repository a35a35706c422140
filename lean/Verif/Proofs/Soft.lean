import Verif.Spec.Soft
import Verif.Model.Html
/-
Renderers that write something else for soft line breaks, event by event.
-/
namespace CM
open Spec

/-- The options with another `softbreak`. -/
abbrev HtmlOpts.soft (o : HtmlOpts) (x : Str) : HtmlOpts := { o with softbreak := x }

/-- What a renderer has written: parts that end with soft line breaks (with a newline directly after it or not), the part after them,
and the last output, if that was not a soft line break. -/
structure SoftRun where
  done : List (Str × Bool)
  cur : Str
  last : Option Str
  off : Int
  ok : last = none → cur = [] ∧ ∃ ds p, done = ds ++ [(p, false)]

namespace SoftRun

/-- The state of the renderer that writes `x` for soft line breaks. -/
def «at» (w : SoftRun) (x : Str) : HState := ⟨w.done.flatMap (fun p => p.1 ++ softText x p.2) ++ w.cur, w.last.getD x, w.off⟩

def lit (w : SoftRun) (s : Str) : SoftRun := { w with cur := w.cur ++ s, last := some s, ok := by intro h; cases h }
def soft (w : SoftRun) : SoftRun :=
  { w with done := w.done ++ [(w.cur, false)], cur := [], last := none, ok := fun _ => ⟨rfl, _, _, rfl⟩ }
def cr (w : SoftRun) : SoftRun :=
  match w.last with
  | none => { w with done := w.done.dropLast ++ (w.done.getLast?.map fun p => (p.1, true)).toList, cur := [], last := some ['\n'],
                     ok := by intro h; cases h }
  | some l => if l = ['\n'] then w else w.lit ['\n']
def tag (w : SoftRun) (name : Str) (a : Attrs) (b : Bool) : SoftRun :=
  if w.off > 0 then w
  else { w with cur := w.cur ++ HState.tagText name a b, last := some ['>'], ok := by intro h; cases h }
def add (w : SoftRun) (k : Int) : SoftRun := { w with off := w.off + k }

theorem at_lit (w : SoftRun) (s x : Str) : (w.at x).lit s = (w.lit s).at x := by simp [SoftRun.at, HState.lit, lit]

theorem at_soft (w : SoftRun) (x : Str) : (w.at x).lit x = w.soft.at x := by simp [SoftRun.at, HState.lit, soft, softText]

theorem at_cr (w : SoftRun) (x : Str) : (w.at x).cr = w.cr.at x := by
  unfold cr
  split
  · rename_i hn
    obtain ⟨h3, ds, p, h4⟩ := w.ok hn
    by_cases hx : x = ['\n']
    · subst hx
      simp [HState.cr, SoftRun.at, hn, h3, h4, softText]
    · simp [HState.cr, HState.lit, SoftRun.at, hn, h3, h4, softText, hx]
  · rename_i l hn
    by_cases hl : l = ['\n']
    · rw [if_pos hl]; simp [HState.cr, SoftRun.at, hn, hl]
    · rw [if_neg hl, ← at_lit]; simp [HState.cr, SoftRun.at, hn, hl]

theorem at_tag (w : SoftRun) (name : Str) (a : Attrs) (b : Bool) (x : Str) : (w.at x).tag name a b = (w.tag name a b).at x := by
  unfold tag
  by_cases hk : w.off > 0
  · rw [if_pos hk]; exact if_pos hk
  · rw [if_neg hk]
    refine (if_neg hk).trans ?_
    simp [SoftRun.at]

theorem at_add (w : SoftRun) (k : Int) (x : Str) : { w.at x with disableTags := (w.at x).disableTags + k } = (w.add k).at x := rfl

end SoftRun

/-- What is not changed by writing, other than of soft line breaks. -/
class KeptBy (Q : SoftRun → Prop) : Prop where
  lit : ∀ w s, Q w → Q (w.lit s)
  cr : ∀ w, Q w → Q w.cr
  tag : ∀ w name a b, Q w → Q (w.tag name a b)

/-- The renderers are in the same state, but for the soft line breaks. -/
def Together (Q : SoftRun → Prop) (g : Str → HState) : Prop := ∃ w : SoftRun, Q w ∧ ∀ x, g x = w.at x

/-- All of them go on, or all of them raise the same exception. -/
def AllRun (Q : SoftRun → Prop) (r : Str → Except PyErr HState) : Prop :=
  (∃ e, ∀ x, r x = .error e) ∨ ∃ w : SoftRun, Q w ∧ ∀ x, r x = .ok (w.at x)

variable {Q : SoftRun → Prop} {g : Str → HState}

theorem together_at {w : SoftRun} (h : Q w) : Together Q w.at := ⟨w, h, fun _ => rfl⟩

theorem Together.run (h : Together Q g) : AllRun Q fun x => .ok (g x) := by
  obtain ⟨w, h1, h2⟩ := h
  exact .inr ⟨w, h1, fun x => by dsimp only; rw [h2 x]⟩

theorem Together.lit [KeptBy Q] (h : Together Q g) (s : Str) : Together Q fun x => (g x).lit s := by
  obtain ⟨w, h1, h2⟩ := h
  exact ⟨_, KeptBy.lit w s h1, fun x => by dsimp only; rw [h2 x, SoftRun.at_lit]⟩

theorem Together.out [KeptBy Q] (h : Together Q g) (s : Option Str) : Together Q fun x => (g x).out s := h.lit _

theorem Together.cr [KeptBy Q] (h : Together Q g) : Together Q fun x => (g x).cr := by
  obtain ⟨w, h1, h2⟩ := h
  exact ⟨_, KeptBy.cr w h1, fun x => by dsimp only; rw [h2 x, SoftRun.at_cr]⟩

theorem Together.tag [KeptBy Q] (h : Together Q g) (name : Str) (a : Attrs) (b : Bool) : Together Q fun x => (g x).tag name a b := by
  obtain ⟨w, h1, h2⟩ := h
  exact ⟨_, KeptBy.tag w name a b h1, fun x => by dsimp only; rw [h2 x, SoftRun.at_tag]⟩

theorem Together.litOpt [KeptBy Q] (h : Together Q g) (s : Option Str) : AllRun Q fun x => (g x).litOpt s := by
  cases s with
  | none => exact .inl ⟨_, fun _ => rfl⟩
  | some s => exact (h.lit s).run

theorem AllRun.bind {R : SoftRun → Prop} {r : Str → Except PyErr HState} {f : Str → HState → Except PyErr HState} (h : AllRun Q r)
    (hf : ∀ w : SoftRun, Q w → AllRun R fun x => f x (w.at x)) : AllRun R fun x => (r x).bind (f x) := by
  rcases h with ⟨e, h⟩ | ⟨w, h1, h2⟩
  · exact .inl ⟨e, fun x => by dsimp only; rw [h x]; rfl⟩
  · rcases hf w h1 with ⟨e, h⟩ | ⟨v, h3, h4⟩
    · exact .inl ⟨e, fun x => by dsimp only; rw [h2 x]; exact h x⟩
    · exact .inr ⟨v, h3, fun x => by dsimp only; rw [h2 x]; exact h4 x⟩

theorem allRun_ite {c : Prop} [Decidable c] {r s : Str → Except PyErr HState} (h1 : c → AllRun Q r) (h2 : ¬ c → AllRun Q s) :
    AllRun Q fun x => if c then r x else s x := by
  by_cases h : c
  · simp only [if_pos h]; exact h1 h
  · simp only [if_neg h]; exact h2 h

theorem AllRun.mono {R : SoftRun → Prop} {r : Str → Except PyErr HState} (h : AllRun Q r) (hq : ∀ w, Q w → R w) : AllRun R r :=
  h.imp_right fun ⟨w, h1, h2⟩ => ⟨w, hq w h1, h2⟩

/-! ### Events -/

theorem attrs_soft (o : HtmlOpts) (x : Str) (d : NodeData) : htmlAttrs (o.soft x) d = htmlAttrs o d := rfl
theorem unsafeDest_soft (o : HtmlOpts) (x : Str) (d : Option Str) : unsafeDest (o.soft x) d = unsafeDest o d := rfl

theorem link_all [KeptBy Q] (h : Together Q g) (o : HtmlOpts) (e : Event) : AllRun Q fun x => htmlLink (o.soft x) e (g x) := by
  unfold htmlLink
  simp only [attrs_soft, unsafeDest_soft, bind, pure, Except.pure]
  refine allRun_ite (fun _ => ?_) (fun _ => (h.tag _ _ _).run)
  cases unsafeDest o e.node.destination with
  | error y => exact .inl ⟨y, fun _ => rfl⟩
  | ok bad => exact (h.tag _ _ _).run

theorem image_all [KeptBy Q] {w : SoftRun} (hw : Q w) (o : HtmlOpts) (e : Event) :
    AllRun (fun v => ∃ u, Q u ∧ v = u.add (if e.entering then 1 else -1)) fun x => htmlImage (o.soft x) e (w.at x) := by
  have more : ∀ (k : Int) {g : Str → HState}, Together Q g →
      Together (fun v => ∃ u, Q u ∧ v = u.add k) fun x => { g x with disableTags := (g x).disableTags + k } := by
    rintro k g ⟨w, h1, h2⟩
    exact ⟨w.add k, ⟨w, h1, rfl⟩, fun x => by dsimp only; rw [h2 x]; rfl⟩
  have h := together_at hw
  unfold htmlImage
  simp only [unsafeDest_soft, bind, pure, Except.pure]
  cases e.entering with
  | true =>
    simp only [if_true]
    refine allRun_ite (c := (w.off == 0) = true) (fun _ => ?_) (fun _ => (more 1 h).run)
    cases unsafeDest o e.node.destination with
    | error y => exact .inl ⟨y, fun _ => rfl⟩
    | ok bad =>
      cases bad
      · exact (more 1 (h.lit _)).run
      · exact (more 1 (h.lit _)).run
  | false =>
    simp only [Bool.false_eq_true, if_false]
    refine allRun_ite (c := (w.off - 1 == 0) = true) (fun _ => ?_) (fun _ => (more (-1) h).run)
    cases truthy e.node.title
    · exact (more (-1) (h.lit _)).run
    · exact (more (-1) ((h.lit _).lit _)).run

theorem paragraph_all [KeptBy Q] (h : Together Q g) (o : HtmlOpts) (e : Event) : AllRun Q fun x => htmlParagraph (o.soft x) e (g x) := by
  unfold htmlParagraph
  simp only [attrs_soft]
  cases e.parent with
  | none => exact .inl ⟨_, fun _ => rfl⟩
  | some p =>
    have fin : ∀ tight : Bool, AllRun Q fun x => if tight = true then .ok (g x) else
        if e.entering = true then .ok ((g x).cr.tag (lit "p") (htmlAttrs o e.node)) else .ok ((g x).tag (lit "/p")).cr :=
      fun tight => allRun_ite (fun _ => h.run) fun _ => allRun_ite (fun _ => (h.cr.tag _ _ _).run) fun _ => (h.tag _ _ _).cr.run
    simp only [bind, Except.bind, pure, Except.pure]
    cases e.grandparent with
    | none => exact fin false
    | some p =>
      by_cases hl : (p.t == .list) = true
      · simp only [hl, if_true]
        cases p.listData with
        | none => exact .inl ⟨_, fun _ => rfl⟩
        | some l => exact fin l.tight
      · simp only [hl]
        exact fin false

theorem list_all [KeptBy Q] (h : Together Q g) (o : HtmlOpts) (e : Event) : AllRun Q fun x => htmlList (o.soft x) e (g x) := by
  unfold htmlList
  simp only [attrs_soft]
  cases e.node.listData with
  | none => exact .inl ⟨_, fun _ => rfl⟩
  | some l => exact allRun_ite (fun _ => (h.cr.tag _ _ _).cr.run) fun _ => (h.cr.tag _ _ _).cr.run

/-- Events that are neither soft line breaks nor images. -/
theorem event_keeps [KeptBy Q] {w : SoftRun} (hw : Q w) (o : HtmlOpts) (e : Event) (hs : e.node.t ≠ .softbreak) (hi : e.node.t ≠ .image) :
    AllRun Q fun x => htmlEvent (o.soft x) (w.at x) e := by
  have h := together_at hw
  have fin : ∀ {r : Str → Except PyErr HState}, AllRun Q r → AllRun Q fun x => (r x).bind fun st => .ok st.cr :=
    fun h => AllRun.bind h fun v hv => (together_at hv).cr.run
  cases hk : e.node.t with
  | softbreak => exact absurd hk hs
  | image => exact absurd hk hi
  | document => simp only [htmlEvent, hk]; exact h.run
  | text => simp only [htmlEvent, hk]; exact (h.out _).run
  | linebreak => simp only [htmlEvent, hk]; exact (h.tag _ _ _).cr.run
  | link => simp only [htmlEvent, hk]; exact link_all h o e
  | emph => simp only [htmlEvent, hk]; exact (h.tag _ _ _).run
  | strong => simp only [htmlEvent, hk]; exact (h.tag _ _ _).run
  | paragraph => simp only [htmlEvent, hk]; exact paragraph_all h o e
  | heading =>
    simp only [htmlEvent, hk, htmlHeading, attrs_soft]
    cases e.entering
    · exact (h.tag _ _ _).cr.run
    · exact (h.cr.tag _ _ _).run
  | code => simp only [htmlEvent, hk]; exact (((h.tag _ _ _).out _).tag _ _ _).run
  | codeBlock =>
    simp only [htmlEvent, hk, htmlCodeBlock, attrs_soft]
    exact (((((h.cr.tag _ _ _).tag _ _ _).out _).tag _ _ _).tag _ _ _).cr.run
  | thematicBreak => simp only [htmlEvent, attrs_soft, hk]; exact (h.cr.tag _ _ _).cr.run
  | blockQuote =>
    simp only [htmlEvent, attrs_soft, hk]
    exact allRun_ite (fun _ => (h.cr.tag _ _ _).cr.run) fun _ => (h.cr.tag _ _ _).cr.run
  | list => simp only [htmlEvent, hk]; exact list_all h o e
  | item =>
    simp only [htmlEvent, attrs_soft, hk]
    exact allRun_ite (fun _ => (h.tag _ _ _).run) fun _ => (h.tag _ _ _).cr.run
  | htmlInline =>
    simp only [htmlEvent, hk]
    exact allRun_ite (c := o.safe = true) (fun _ => (h.lit _).run) fun _ => h.litOpt _
  | htmlBlock =>
    simp only [htmlEvent, hk]
    exact allRun_ite (c := o.safe = true) (fun _ => (h.cr.lit _).cr.run) fun _ => fin (h.cr.litOpt _)
  | customInline =>
    simp only [htmlEvent, hk]
    exact allRun_ite (fun _ => h.litOpt _) fun _ => allRun_ite (fun _ => h.litOpt _) fun _ => h.run
  | customBlock =>
    simp only [htmlEvent, hk]
    exact allRun_ite (fun _ => fin (h.cr.litOpt _)) fun _ => allRun_ite (fun _ => fin (h.cr.litOpt _)) fun _ => h.cr.cr.run

theorem event_soft (w : SoftRun) (o : HtmlOpts) (e : Event) (hs : e.node.t = .softbreak) (x : Str) :
    htmlEvent (o.soft x) (w.at x) e = .ok (w.soft.at x) := by
  simp only [htmlEvent, hs, SoftRun.at_soft]

theorem event_image [KeptBy Q] {w : SoftRun} (hw : Q w) (o : HtmlOpts) (e : Event) (hi : e.node.t = .image) :
    AllRun (fun v => ∃ u, Q u ∧ v = u.add (if e.entering then 1 else -1)) fun x => htmlEvent (o.soft x) (w.at x) e := by
  simp only [htmlEvent, hi]
  exact image_all hw o e

/-! ### How many parts -/

instance (n : Nat) : KeptBy fun w => w.done.length = n where
  lit _ _ h := h
  cr w h := by
    unfold SoftRun.cr
    split
    · rename_i hn
      obtain ⟨-, ds, p, h4⟩ := w.ok hn
      dsimp only
      rw [h4] at h ⊢
      simpa using h
    · split
      · exact h
      · exact h
  tag w name a b h := by
    unfold SoftRun.tag
    split <;> exact h

/-- Does the event write a soft line break? -/
def softOf (e : Event) : Nat := if e.node.t = .softbreak then 1 else 0

theorem event_all (w : SoftRun) (o : HtmlOpts) (e : Event) :
    AllRun (fun v => v.done.length = w.done.length + softOf e) fun x => htmlEvent (o.soft x) (w.at x) e := by
  by_cases hs : e.node.t = .softbreak
  · exact .inr ⟨w.soft, by simp [SoftRun.soft, softOf, hs], event_soft w o e hs⟩
  · rw [softOf, if_neg hs, Nat.add_zero]
    by_cases hi : e.node.t = .image
    · exact (event_image (Q := fun v => v.done.length = w.done.length) rfl o e hi).mono fun v ⟨u, hu, e⟩ => by rw [e]; exact hu
    · exact event_keeps (Q := fun v => v.done.length = w.done.length) rfl o e hs hi

theorem events_all (o : HtmlOpts) : ∀ (es : List Event) (w : SoftRun),
    AllRun (fun v => v.done.length = w.done.length + (es.map softOf).sum) fun x => es.foldlM (htmlEvent (o.soft x)) (w.at x)
  | [], w => (together_at (Q := fun v => v.done.length = w.done.length + 0) rfl).run
  | e :: es, w => by
    simp only [List.foldlM_cons, List.map_cons, List.sum_cons]
    refine AllRun.bind (event_all w o e) fun v hv => ?_
    rw [← Nat.add_assoc, ← hv]
    exact events_all o es v

mutual
theorem events_softs : ∀ (t : Tree) (p q : Option NodeData), ((events p q t).map softOf).sum = softs t
  | .node d cs, p, q => by
    rw [events, softs]
    by_cases hc : isContainer d.t = true
    · have hs : d.t ≠ .softbreak := by intro h; rw [h] at hc; revert hc; decide
      rw [if_pos hc, if_pos hc, if_neg hs]
      simp [softOf, hs, eventsList_softs cs]
    · rw [if_neg hc, if_neg hc]
      simp [softOf]
theorem eventsList_softs : ∀ (ts : List Tree) (p q : Option NodeData), ((eventsList p q ts).map softOf).sum = softsAll ts
  | [], _, _ => rfl
  | t :: ts, p, q => by
    rw [eventsList, softsAll, List.map_append, List.sum_append, events_softs, eventsList_softs]
end

/-! ### No newlines after them -/

/-- No newline directly after any soft line break so far, `n` of them, `k` images around. -/
def NoneDue (n : Nat) (k : Int) (w : SoftRun) : Prop := (∀ p ∈ w.done, p.2 = false) ∧ w.done.length = n ∧ w.off = k

/-- The last output was not a soft line break. -/
def Past (n : Nat) (k : Int) (w : SoftRun) : Prop := NoneDue n k w ∧ w.last ≠ none

theorem past_lit {n : Nat} {k : Int} {w : SoftRun} (h : NoneDue n k w) (s : Str) : Past n k (w.lit s) := ⟨h, by intro h; cases h⟩

theorem past_tag {n : Nat} {k : Int} {w : SoftRun} (h : NoneDue n k w) (hk : ¬ k > 0) (name : Str) (a : Attrs) (b : Bool) :
    Past n k (w.tag name a b) := by
  unfold SoftRun.tag
  rw [if_neg (by rw [h.2.2]; exact hk)]
  exact ⟨h, by intro h; cases h⟩

instance (n : Nat) (k : Int) : KeptBy (Past n k) where
  lit _ _ h := past_lit h.1 _
  cr w h := by
    unfold SoftRun.cr
    split
    · rename_i hn; exact absurd hn h.2
    · split
      · exact h
      · exact past_lit h.1 _
  tag w name a b h := by
    unfold SoftRun.tag
    split
    · exact h
    · exact ⟨h.1, by intro h; cases h⟩

theorem calm_tag {n : Nat} {k : Int} {w : SoftRun} (h : NoneDue n k w) (name : Str) (a : Attrs) (b : Bool) : NoneDue n k (w.tag name a b) := by
  unfold SoftRun.tag
  split <;> exact h

/-- A node that begins with something else than a newline, after a soft line break. -/
theorem event_begins {n : Nat} {k : Int} {w : SoftRun} (h : NoneDue n k w) (o : HtmlOpts) {e : Event} {alt : Bool} (he : e.entering = true)
    (hb : BeginsInline alt e.node.t) (hs : e.node.t ≠ .softbreak) (hi : e.node.t ≠ .image) (ha : alt = false → k = 0) :
    AllRun (Past n k) fun x => htmlEvent (o.soft x) (w.at x) e := by
  simp only [BeginsInline, List.mem_cons, List.not_mem_nil, or_false] at hb
  rcases hb with (hk | hk | hk | hk) | ⟨h0, (hk | hk | hk | hk | hk)⟩
  · simp only [htmlEvent, hk, HState.out, SoftRun.at_lit]
    exact (together_at (past_lit h _)).run
  · simp only [htmlEvent, hk, HState.out, SoftRun.at_lit, SoftRun.at_tag]
    exact (together_at (KeptBy.tag _ _ _ _ (past_lit (calm_tag h _ _ _) _))).run
  · simp only [htmlEvent, hk, SoftRun.at_lit]
    refine allRun_ite (c := o.safe = true) (fun _ => (together_at (past_lit h _)).run) fun _ => ?_
    cases e.node.literal with
    | none => exact .inl ⟨_, fun _ => rfl⟩
    | some s =>
      simp only [HState.litOpt, SoftRun.at_lit]
      exact (together_at (past_lit h _)).run
  · exact absurd hk hs
  all_goals have hk0 : ¬ k > 0 := by rw [ha h0]; decide
  · simp only [htmlEvent, hk, SoftRun.at_tag]
    exact (together_at (past_tag h hk0 _ _ _)).run
  · simp only [htmlEvent, hk, SoftRun.at_tag]
    exact (together_at (past_tag h hk0 _ _ _)).run
  · simp only [htmlEvent, hk, htmlLink, he, if_true, attrs_soft, unsafeDest_soft, bind, pure, Except.pure]
    cases unsafeDest o e.node.destination with
    | error y => exact .inl ⟨y, fun _ => rfl⟩
    | ok bad =>
      simp only [Except.bind, SoftRun.at_tag]
      exact (together_at (past_tag h hk0 _ _ _)).run
  · exact absurd hk hi
  · simp only [htmlEvent, hk, SoftRun.at_tag, SoftRun.at_cr]
    exact (together_at (KeptBy.cr _ (past_tag h hk0 _ _ _))).run

theorem image_begins {n : Nat} {w : SoftRun} (h : NoneDue n 0 w) (o : HtmlOpts) {e : Event} (he : e.entering = true)
    (hi : e.node.t = .image) : AllRun (Past n 1) fun x => htmlEvent (o.soft x) (w.at x) e := by
  have more : ∀ s, Together (Past n 1) fun x => { (w.at x).lit s with disableTags := ((w.at x).lit s).disableTags + 1 } :=
    fun s => ⟨(w.lit s).add 1, ⟨⟨h.1, h.2.1, by simp [SoftRun.add, SoftRun.lit, h.2.2]⟩, by intro h; cases h⟩,
      fun x => by dsimp only; rw [SoftRun.at_lit]; rfl⟩
  have h0 : ∀ x, (w.at x).disableTags = 0 := fun _ => h.2.2
  simp only [htmlEvent, hi, htmlImage, he, if_true, unsafeDest_soft, bind, pure, Except.pure, h0, beq_self_eq_true]
  cases unsafeDest o e.node.destination with
  | error y => exact .inl ⟨y, fun _ => rfl⟩
  | ok bad =>
    cases bad
    · have := (more (lit "<img src=\"" ++ escapeXmlOpt e.node.destination ++ lit "\" alt=\"")).run
      simpa [Except.bind, h0] using this
    · have := (more (lit "<img src=\"\" alt=\"")).run
      simpa [Except.bind, h0] using this

/-- The end of a node that ends with a tag, after a soft line break. -/
theorem event_ends {n : Nat} {k : Int} {w : SoftRun} (h : NoneDue n k w) (o : HtmlOpts) {e : Event} {alt : Bool} (he : e.entering = false)
    (hb : EndsInline alt e.node.t) (hi : e.node.t ≠ .image) (ha : alt = false → k = 0) :
    AllRun (Past n k) fun x => htmlEvent (o.soft x) (w.at x) e := by
  obtain ⟨h0, hb⟩ := hb
  have hk0 : ¬ k > 0 := by rw [ha h0]; decide
  simp only [List.mem_cons, List.not_mem_nil, or_false] at hb
  rcases hb with hk | hk | hk | hk | hk
  · simp only [htmlEvent, hk, SoftRun.at_tag]
    exact (together_at (past_tag h hk0 _ _ _)).run
  · simp only [htmlEvent, hk, SoftRun.at_tag]
    exact (together_at (past_tag h hk0 _ _ _)).run
  · simp only [htmlEvent, hk, htmlLink, he, Bool.false_eq_true, if_false, SoftRun.at_tag]
    exact (together_at (past_tag h hk0 _ _ _)).run
  · exact absurd hk hi
  · simp only [htmlEvent, hk, htmlHeading, he, Bool.false_eq_true, if_false, SoftRun.at_tag, SoftRun.at_cr]
    exact (together_at (KeptBy.cr _ (past_tag h hk0 _ _ _))).run

theorem image_ends {n : Nat} {w : SoftRun} (h : NoneDue n 1 w) (o : HtmlOpts) {e : Event} (he : e.entering = false)
    (hi : e.node.t = .image) : AllRun (Past n 0) fun x => htmlEvent (o.soft x) (w.at x) e := by
  have h0 : ∀ x, (w.at x).disableTags = 1 := fun _ => h.2.2
  have less : ∀ {v : SoftRun}, Past n 1 v → Past n 0 (v.add (-1)) :=
    fun hv => ⟨⟨hv.1.1, hv.1.2.1, by simp [SoftRun.add, hv.1.2.2]⟩, hv.2⟩
  simp only [htmlEvent, hi, htmlImage, he, Bool.false_eq_true, if_false, pure, Except.pure, h0]
  cases truthy e.node.title with
  | false =>
    refine .inr ⟨_, less (past_lit h (lit "\" />")), fun x => ?_⟩
    rw [← SoftRun.at_add, ← SoftRun.at_lit]
    simp [HState.lit, h0]
  | true =>
    refine .inr ⟨_, less (past_lit (past_lit h (lit "\" title=\"" ++ escapeXmlOpt e.node.title)).1 (lit "\" />")), fun x => ?_⟩
    rw [← SoftRun.at_add, ← SoftRun.at_lit, ← SoftRun.at_lit]
    simp [HState.lit, h0]

mutual
theorem tree_calm (o : HtmlOpts) : ∀ (t : Tree) (alt : Bool) (p q : Option NodeData) (n : Nat) (k : Int) (w : SoftRun), SoftInside alt t → NoneDue n k w →
    (alt = false → k = 0) → 0 ≤ k → (w.last ≠ none ∨ BeginsInline alt t.data.t) →
    AllRun (fun v => NoneDue (n + softs t) k v ∧ (v.last ≠ none ∨ t.data.t = .softbreak))
      fun x => (events p q t).foldlM (htmlEvent (o.soft x)) (w.at x)
  | .node d cs, alt, p, q, n, k, w, ht, hw, ha, hk, hl => by
    by_cases hc : isContainer d.t = true
    · have hs : d.t ≠ .softbreak := by intro h; rw [h] at hc; revert hc; decide
      rw [SoftInside, if_pos hc] at ht
      simp only [events, hc, if_true, List.foldlM_cons, List.foldlM_append, List.foldlM_nil, softs, if_neg hs, Nat.zero_add]
      by_cases hi : d.t = .image
      · have enter : AllRun (Past n (k + 1)) fun x =>
            htmlEvent (o.soft x) (w.at x) ⟨true, d, p, q, cs.head?.map (·.data)⟩ := by
          by_cases hn : w.last = none
          · have hb := hl.resolve_left (fun h => h hn)
            have h0 : alt = false := by
              have hb : BeginsInline alt d.t := hb
              rw [hi] at hb
              rcases hb with hb | hb
              · exact absurd hb (by decide)
              · exact hb.1
            have hk0 := ha h0
            subst hk0
            exact image_begins hw o rfl hi
          · refine (event_image (Q := Past n k) ⟨hw, hn⟩ o _ hi).mono ?_
            rintro v ⟨u, hu, rfl⟩
            exact ⟨⟨hu.1.1, hu.1.2.1, by simp [SoftRun.add, hu.1.2.2]⟩, hu.2⟩
        refine AllRun.bind enter fun v hv => ?_
        refine AllRun.bind (list_calm o cs _ _ _ _ n (k + 1) v ht hv.1 (by simp [hi]) (by omega) (.inl hv.2)) fun u hu => ?_
        have leave : AllRun (Past (n + softsAll cs) k) fun x =>
            htmlEvent (o.soft x) (u.at x) ⟨false, d, p, q, cs.head?.map (·.data)⟩ := by
          by_cases hn : u.last = none
          · have hk0 := ha (hu.2.resolve_left (fun h => h hn)).1
            subst hk0
            exact image_ends hu.1 o rfl hi
          · refine (event_image (Q := Past (n + softsAll cs) (k + 1)) ⟨hu.1, hn⟩ o _ hi).mono ?_
            rintro v ⟨r, hr, rfl⟩
            exact ⟨⟨hr.1.1, hr.1.2.1, by show r.off + -1 = k; rw [hr.1.2.2]; omega⟩, hr.2⟩
        have := AllRun.bind (f := fun _ st => Except.ok st) leave fun r hr => (together_at hr).run
        exact AllRun.mono this fun v hv => ⟨hv.1, .inl hv.2⟩
      · have enter : AllRun (Past n k) fun x => htmlEvent (o.soft x) (w.at x) ⟨true, d, p, q, cs.head?.map (·.data)⟩ := by
          by_cases hn : w.last = none
          · exact event_begins hw o rfl (hl.resolve_left (fun h => h hn)) hs hi ha
          · exact event_keeps (Q := Past n k) ⟨hw, hn⟩ o _ hs hi
        have hi' : (alt || d.t == .image) = alt := by simp [hi]
        rw [hi'] at ht
        refine AllRun.bind enter fun v hv => ?_
        refine AllRun.bind (list_calm o cs _ _ _ _ n k v ht hv.1 ha hk (.inl hv.2)) fun u hu => ?_
        have leave : AllRun (Past (n + softsAll cs) k) fun x =>
            htmlEvent (o.soft x) (u.at x) ⟨false, d, p, q, cs.head?.map (·.data)⟩ := by
          by_cases hn : u.last = none
          · exact event_ends hu.1 o rfl (hu.2.resolve_left (fun h => h hn)) hi ha
          · exact event_keeps (Q := Past (n + softsAll cs) k) ⟨hu.1, hn⟩ o _ hs hi
        have := AllRun.bind (f := fun _ st => Except.ok st) leave fun r hr => (together_at hr).run
        exact AllRun.mono this fun v hv => ⟨hv.1, .inl hv.2⟩
    · have hi : d.t ≠ .image := by intro h; rw [h] at hc; exact hc rfl
      simp only [events, if_neg hc, List.foldlM_cons, List.foldlM_nil, softs, Nat.add_zero]
      by_cases hs : d.t = .softbreak
      · rw [if_pos hs]
        refine .inr ⟨w.soft, ⟨⟨?_, by simp [SoftRun.soft, hw.2.1], hw.2.2⟩, .inr hs⟩, fun x => ?_⟩
        · intro p hp
          rcases List.mem_append.1 hp with h | h
          · exact hw.1 p h
          · rw [List.mem_singleton.1 h]
        · dsimp only; rw [event_soft w o _ hs x]; rfl
      · rw [if_neg hs]
        have run : AllRun (Past n k) fun x => htmlEvent (o.soft x) (w.at x) ⟨true, d, p, q, cs.head?.map (·.data)⟩ := by
          by_cases hn : w.last = none
          · exact event_begins hw o rfl (hl.resolve_left (fun h => h hn)) hs hi ha
          · exact event_keeps (Q := Past n k) ⟨hw, hn⟩ o _ hs hi
        have := AllRun.bind (f := fun _ st => Except.ok st) run fun r hr => (together_at hr).run
        exact AllRun.mono this fun v hv => ⟨hv.1, .inl hv.2⟩
theorem list_calm (o : HtmlOpts) : ∀ (ts : List Tree) (alt : Bool) (c : Prop) (p q : Option NodeData) (n : Nat) (k : Int) (w : SoftRun),
    SoftInsideAll alt c ts → NoneDue n k w → (alt = false → k = 0) → 0 ≤ k →
    (w.last ≠ none ∨ (∃ u, ts.head? = some u ∧ BeginsInline alt u.data.t) ∨ ts = [] ∧ c) →
    AllRun (fun v => NoneDue (n + softsAll ts) k v ∧ (v.last ≠ none ∨ c))
      fun x => (eventsList p q ts).foldlM (htmlEvent (o.soft x)) (w.at x)
  | [], _, c, _, _, n, k, w, _, hw, _, _, hl => by
    have hl : w.last ≠ none ∨ c := hl.imp_right fun h => by
      rcases h with ⟨_, h, _⟩ | h
      · cases h
      · exact h.2
    exact (together_at (Q := fun v => NoneDue (n + 0) k v ∧ (v.last ≠ none ∨ c)) ⟨hw, hl⟩).run
  | t :: ts, alt, c, p, q, n, k, w, ht, hw, ha, hk, hl => by
    rw [SoftInsideAll] at ht
    simp only [eventsList, List.foldlM_append, softsAll]
    rw [← Nat.add_assoc]
    refine AllRun.bind (tree_calm o t alt p q n k w ht.1 hw ha hk (hl.imp_right ?_)) fun v hv => ?_
    · rintro (⟨u, hu, hb⟩ | ⟨h, _⟩)
      · cases hu; exact hb
      · cases h
    · exact list_calm o ts alt c p q _ k v ht.2.2 hv.1 ha hk (hv.2.imp_right ht.2.1)
end

/-! ### Custom inlines for soft line breaks -/

theorem event_first (o : HtmlOpts) (st : HState) (b : Bool) (d : NodeData) (p q f f' : Option NodeData) :
    htmlEvent o st ⟨b, d, p, q, f⟩ = htmlEvent o st ⟨b, d, p, q, f'⟩ := rfl

theorem event_other (o : HtmlOpts) (x : Str) (st : HState) {e : Event} (h : e.node.t ≠ .softbreak) :
    htmlEvent (o.soft x) st e = htmlEvent o st e := by
  cases hk : e.node.t with
  | softbreak => exact absurd hk h
  | _ => simp only [htmlEvent, hk] <;> rfl

mutual
theorem custom_tree (o : HtmlOpts) {x : Str} (hx : x ≠ []) : ∀ (t : Tree) (p q : Option NodeData) (st : HState),
    (events p q (customSofts x t)).foldlM (htmlEvent o) st = (events p q t).foldlM (htmlEvent (o.soft x)) st
  | .node d cs, p, q, st => by
    rw [customSofts]
    by_cases hs : d.t = .softbreak
    · rw [if_pos hs]
      simp [events, eventsList, isContainer, htmlEvent, hs, hx, HState.litOpt, truthy, bind, Except.bind, pure, Except.pure]
    · rw [if_neg hs]
      by_cases hc : isContainer d.t = true
      · simp only [events, hc, if_true, List.foldlM_cons, List.foldlM_append, List.foldlM_nil, custom_list o hx cs]
        rw [event_other o x st (e := ⟨true, d, p, q, _⟩) hs, event_first o st true d p q _ (cs.head?.map (·.data))]
        congr 1; funext s; congr 1; funext s'
        rw [event_other o x s' (e := ⟨false, d, p, q, _⟩) hs, event_first o s' false d p q _ (cs.head?.map (·.data))]
      · simp only [events, if_neg hc, List.foldlM_cons, List.foldlM_nil]
        rw [event_other o x st (e := ⟨true, d, p, q, _⟩) hs, event_first o st true d p q _ (cs.head?.map (·.data))]
theorem custom_list (o : HtmlOpts) {x : Str} (hx : x ≠ []) : ∀ (ts : List Tree) (p q : Option NodeData) (st : HState),
    (eventsList p q (customSoftsAll x ts)).foldlM (htmlEvent o) st = (eventsList p q ts).foldlM (htmlEvent (o.soft x)) st
  | [], _, _, _ => rfl
  | t :: ts, p, q, st => by
    simp only [customSoftsAll, eventsList, List.foldlM_append, custom_tree o hx t, custom_list o hx ts]
end

/-! ### Checking the condition -/

instance (alt : Bool) (k : Kind) : Decidable (BeginsInline alt k) := by unfold BeginsInline; infer_instance
instance (alt : Bool) (k : Kind) : Decidable (EndsInline alt k) := by unfold EndsInline; infer_instance

def nextOk (alt c : Bool) : List Tree → Bool
  | [] => c
  | u :: _ => decide (BeginsInline alt u.data.t)

mutual
def softInside (alt : Bool) : Tree → Bool
  | .node d cs => !isContainer d.t || softInsideAll (alt || d.t == .image) (decide (EndsInline alt d.t)) cs
def softInsideAll (alt c : Bool) : List Tree → Bool
  | [] => true
  | t :: ts => softInside alt t && (t.data.t != .softbreak || nextOk alt c ts) && softInsideAll alt c ts
end

mutual
theorem softInside_of {alt : Bool} : ∀ {t : Tree}, softInside alt t = true → SoftInside alt t
  | .node d cs, h => by
    rw [softInside] at h
    rw [SoftInside]
    split
    · rename_i hc
      rw [hc] at h
      exact softInsideAll_of of_decide_eq_true (by simpa using h)
    · trivial
theorem softInsideAll_of {alt c : Bool} {C : Prop} (hc : c = true → C) : ∀ {ts : List Tree}, softInsideAll alt c ts = true → SoftInsideAll alt C ts
  | [], _ => by rw [SoftInsideAll]; trivial
  | t :: ts, h => by
    rw [softInsideAll, Bool.and_eq_true, Bool.and_eq_true] at h
    rw [SoftInsideAll]
    refine ⟨softInside_of h.1.1, fun hs => ?_, softInsideAll_of hc h.2⟩
    have := h.1.2
    rw [hs] at this
    cases ts with
    | nil => exact .inr ⟨rfl, hc (by simpa [nextOk] using this)⟩
    | cons u us => exact .inl ⟨u, rfl, by simpa [nextOk] using this⟩
end

end CM
