import Verif.Proofs.SmartDoc
import Verif.Proofs.Compose

/-! HTML of documents that differ in smart punctuation. -/

namespace CM
open Spec

theorem smartHtml_append {a b c d : Str} (h : SmartHtml a b) (g : SmartHtml c d) : SmartHtml (a ++ c) (b ++ d) := by
  induction h with
  | nil => exact g
  | step hp _ ih => rw [List.append_assoc, List.append_assoc]; exact .step hp ih

theorem smartHtml_refl : ∀ s : Str, SmartHtml s s
  | [] => .nil
  | c :: s => .step (.text (.same c)) (smartHtml_refl s)

theorem smartHtml_piece {p q : Str} (h : SmartHtmlPiece p q) : SmartHtml p q := by
  have := SmartHtml.step h .nil
  simpa using this

theorem flatMap_id {s : Str} (h : ∀ c ∈ s, replaceUnsafeChar c = [c]) : escapeXml s = s := by
  rw [escapeXml_eq_flatMap]
  induction s with
  | nil => rfl
  | cons c s ih =>
    rw [List.flatMap_cons, h c (by simp), ih (fun d hd => h d (by simp [hd]))]
    rfl

theorem escape_append (s t : Str) : escapeXml (s ++ t) = escapeXml s ++ escapeXml t := by
  simp only [escapeXml_eq_flatMap, List.flatMap_append]

theorem smartHtml_escapePiece {p q : Str} (h : SmartPiece p q) : SmartHtml (escapeXml p) (escapeXml q) := by
  cases h with
  | same c => exact smartHtml_refl _
  | dots => exact smartHtml_piece (.text .dots)
  | dashes n a b h1 h2 =>
    rw [flatMap_id (s := List.replicate n '-') (by intro c hc; rw [(List.mem_replicate.1 hc).2]; decide),
      flatMap_id (by
        intro c hc
        rcases List.mem_append.1 hc with hc | hc <;> rw [(List.mem_replicate.1 hc).2] <;> decide)]
    exact smartHtml_piece (.text (.dashes n a b h1 h2))
  | single c hc =>
    have e : escapeXml [c] = [c] := by rcases hc with rfl | rfl <;> decide
    rw [e]
    exact smartHtml_piece (.text (.single c hc))
  | double c hc =>
    have e : escapeXml [c] = [c] := by rcases hc with rfl | rfl <;> decide
    have e' : escapeXml ['"'] = "&quot;".toList := by decide
    rw [e, e']
    exact smartHtml_piece (.quot c hc)

theorem smartHtml_escape {x y : Str} (h : Smartened x y) : SmartHtml (escapeXml x) (escapeXml y) := by
  induction h with
  | nil => exact .nil
  | step hp _ ih =>
    rw [escape_append, escape_append]
    exact smartHtml_append (smartHtml_escapePiece hp) ih

theorem smartText_single {x y : Str} (h : Smartened x y) : x = ['\n'] ↔ y = ['\n'] := by
  cases h with
  | nil => simp
  | @step p q x y hp hr =>
    have hn := hr.nil_iff
    cases hp with
    | same c => simp [hn]
    | dots => simp
    | dashes n a b h1 h2 =>
      have hn0 : ¬ (List.replicate n '-' ++ x = ['\n']) := by
        intro h
        obtain ⟨k, rfl⟩ : ∃ k, n = k + 1 := ⟨n - 1, by omega⟩
        cases h
      have hn1 : ¬ (List.replicate a '—' ++ List.replicate b '–' ++ y = ['\n']) := by
        intro h
        cases a with
        | succ a => cases h
        | zero =>
          cases b with
          | succ b => cases h
          | zero => exact absurd rfl ((SmartPiece.dashes n 0 0 h1 h2).ne_nil.2)
      simp only [hn0, hn1]
    | single c hc => rcases hc with rfl | rfl <;> simp
    | double c hc => rcases hc with rfl | rfl <;> simp

theorem unsafe_cases (c : Char) : replaceUnsafeChar c = [c] ∨ 4 ≤ (replaceUnsafeChar c).length := by
  unfold replaceUnsafeChar
  split
  · exact Or.inr (by decide)
  · split
    · exact Or.inr (by decide)
    · split
      · exact Or.inr (by decide)
      · split
        · exact Or.inr (by decide)
        · exact Or.inl rfl

theorem escape_nl {x : Str} : escapeXml x = ['\n'] ↔ x = ['\n'] := by
  constructor
  · intro h
    rw [escapeXml_eq_flatMap] at h
    cases x with
    | nil => cases h
    | cons c x =>
      rw [List.flatMap_cons] at h
      rcases unsafe_cases c with e | e
      · rw [e] at h
        rw [List.cons_append, List.nil_append, List.cons.injEq] at h
        obtain ⟨rfl, h⟩ := h
        cases x with
        | nil => rfl
        | cons d x =>
          rw [List.flatMap_cons] at h
          have h := congrArg List.length h
          rcases unsafe_cases d with e | e
          · rw [e] at h; simp at h
          · rw [List.length_append, List.length_nil] at h; omega
      · have h := congrArg List.length h
        rw [List.length_append] at h
        simp at h; omega
  · rintro rfl; decide

/-- States of the renderer for the two documents. -/
structure HRel (a b : HState) : Prop where
  buf : SmartHtml a.buf b.buf
  tags : b.disableTags = a.disableTags
  last : a.lastOut = ['\n'] ↔ b.lastOut = ['\n']

theorem HRel.lit {a b : HState} (h : HRel a b) (s : Str) : HRel (a.lit s) (b.lit s) :=
  ⟨smartHtml_append h.buf (smartHtml_refl s), h.tags, Iff.rfl⟩

theorem HRel.cr {a b : HState} (h : HRel a b) : HRel a.cr b.cr := by
  unfold HState.cr
  by_cases ha : a.lastOut = ['\n']
  · have hb := h.last.1 ha
    rw [if_neg (by simp [ha]), if_neg (by simp [hb])]
    exact h
  · have hb : ¬ b.lastOut = ['\n'] := fun e => ha (h.last.2 e)
    rw [if_pos (by simp [ha]), if_pos (by simp [hb])]
    exact h.lit _

theorem HRel.tag {a b : HState} (h : HRel a b) (n : Str) (at' : Attrs) (sc : Bool) : HRel (a.tag n at' sc) (b.tag n at' sc) := by
  unfold HState.tag
  by_cases hd : a.disableTags > 0
  · rw [if_pos hd, if_pos (by rw [h.tags]; exact hd)]; exact h
  · rw [if_neg hd, if_neg (by rw [h.tags]; exact hd)]
    exact ⟨smartHtml_append h.buf (smartHtml_refl _), h.tags, Iff.rfl⟩

theorem HRel.out {a b : HState} (h : HRel a b) (s : Option Str) : HRel (a.out s) (b.out s) := h.lit _

theorem HRel.litOpt {a b : HState} (h : HRel a b) (s : Option Str) : Both HRel (HState.litOpt s a) (HState.litOpt s b) := by
  cases s with
  | none => exact Or.inr ⟨_, rfl, rfl⟩
  | some s => exact Both.ok (h.lit s)

theorem HRel.disable {a b : HState} (h : HRel a b) (f : Int → Int) :
    HRel { a with disableTags := f a.disableTags } { b with disableTags := f b.disableTags } :=
  ⟨h.buf, by simp only [h.tags], h.last⟩

theorem Both.same {α β : Type} {R : β → β → Prop} {x : Except PyErr α} {f g : α → Except PyErr β} (h : ∀ a, Both R (f a) (g a)) :
    Both R (x >>= f) (x >>= g) := by
  cases x with
  | error e => exact Or.inr ⟨e, rfl, rfl⟩
  | ok a => exact h a

theorem htmlEvent_node (o : HtmlOpts) {en : Bool} {d : NodeData} {p g f p' g' f' : Option NodeData} (hp : p'.isSome = p.isSome)
    (hg : tightOf g' = tightOf g) {a b : HState} (h : HRel a b) :
    Both HRel (htmlEvent o a ⟨en, d, p, g, f⟩) (htmlEvent o b ⟨en, d, p', g', f'⟩) := by
  unfold htmlEvent
  simp only
  cases ht : d.t <;> simp only
  case document => exact Both.ok h
  case text => exact Both.ok (h.out _)
  case softbreak => exact Both.ok (h.lit _)
  case linebreak => exact Both.ok (h.tag _ _ _).cr
  case emph => exact Both.ok (h.tag _ _ _)
  case strong => exact Both.ok (h.tag _ _ _)
  case code => exact Both.ok (((h.tag _ _ _).out _).tag _ _ _)
  case codeBlock => exact Both.ok (((((h.cr.tag _ _ _).tag _ _ _).out _).tag _ _ _).tag _ _ _).cr
  case thematicBreak => exact Both.ok (h.cr.tag _ _ _).cr
  case heading =>
    unfold htmlHeading
    simp only
    cases en
    · exact Both.ok (h.tag _ _ _).cr
    · exact Both.ok (h.cr.tag _ _ _)
  case blockQuote => exact Both.ite (fun _ => Both.ok (h.cr.tag _ _ _).cr) fun _ => Both.ok (h.cr.tag _ _ _).cr
  case item => exact Both.ite (fun _ => Both.ok (h.tag _ _ _)) fun _ => Both.ok (h.tag _ _ _).cr
  case htmlInline => exact Both.ite (fun _ => Both.ok (h.lit _)) fun _ => h.litOpt _
  case htmlBlock =>
    have k : ∀ a b, HRel a b → Both HRel (Except.ok a.cr) (Except.ok b.cr) := fun _ _ h => Both.ok h.cr
    exact Both.ite (fun _ => Both.bind (Both.ok (h.cr.lit _)) k) fun _ => Both.bind (h.cr.litOpt _) k
  case customInline => exact Both.ite (fun _ => h.litOpt _) fun _ => Both.ite (fun _ => h.litOpt _) fun _ => Both.ok h
  case customBlock =>
    have k : ∀ a b, HRel a b → Both HRel (Except.ok a.cr) (Except.ok b.cr) := fun _ _ h => Both.ok h.cr
    exact Both.ite (fun _ => Both.bind (h.cr.litOpt _) k) fun _ => Both.ite (fun _ => Both.bind (h.cr.litOpt _) k) fun _ =>
      Both.bind (Both.ok h.cr) k
  case list =>
    unfold htmlList
    simp only
    cases d.listData with
    | none => exact Or.inr ⟨_, rfl, rfl⟩
    | some l => exact Both.ite (fun _ => Both.ok (h.cr.tag _ _ _).cr) fun _ => Both.ok (h.cr.tag _ _ _).cr
  case link =>
    unfold htmlLink
    simp only
    exact Both.ite (fun _ => Both.same fun _ => Both.ok (h.tag _ _ _)) fun _ => Both.ok (h.tag _ _ _)
  case image =>
    unfold htmlImage
    simp only
    refine Both.ite (fun _ => ?_) fun _ => ?_
    · have k : ∀ a b, HRel a b → Both HRel (Except.ok { a with disableTags := a.disableTags + 1 })
          (Except.ok { b with disableTags := b.disableTags + 1 }) := fun _ _ h => Both.ok (h.disable (· + 1))
      have ht := h.tags
      simp only [ht]
      exact Both.ite (fun _ => Both.same fun _ => Both.ite (fun _ => Both.bind (Both.ok (h.lit _)) k)
        fun _ => Both.bind (Both.ok (h.lit _)) k) fun _ => Both.bind (Both.ok h) k
    · rw [h.tags]
      have h' := h.disable (· - 1)
      rw [h.tags] at h'
      refine Both.ite (fun _ => ?_) fun _ => Both.ok h'
      cases truthy d.title
      · exact Both.ok (h'.lit _)
      · exact Both.ok ((h'.lit _).lit _)
  case paragraph =>
    rw [htmlParagraph_eq, htmlParagraph_eq]
    cases p with
    | none =>
      cases p' with
      | none => exact Or.inr ⟨_, rfl, rfl⟩
      | some _ => cases hp
    | some p =>
      cases p' with
      | none => cases hp
      | some p' =>
        simp only [hg]
        refine Both.same fun t => ?_
        refine Both.ite (fun _ => Both.ok h) fun _ => Both.ite (fun _ => Both.ok (h.cr.tag _ _ _)) fun _ => Both.ok (h.tag _ _ _).cr

/-! ### Events -/

def SmartOpt : Option NodeData → Option NodeData → Prop
  | none, none => True
  | some d, some e => SmartData d e
  | _, _ => False

/-- Events that differ only in the literal of a text. -/
structure SmartEvent (a b : Event) : Prop where
  en : b.entering = a.entering
  node : SmartData a.node b.node
  parent : SmartOpt a.parent b.parent
  grand : SmartOpt a.grandparent b.grandparent

theorem _root_.Spec.SmartData.t {d e : NodeData} (h : SmartData d e) : e.t = d.t := by
  rcases h with rfl | ⟨-, _, _, -, -, rfl⟩ <;> rfl

theorem _root_.Spec.SmartData.listData {d e : NodeData} (h : SmartData d e) : e.listData = d.listData := by
  rcases h with rfl | ⟨-, _, _, -, -, rfl⟩ <;> rfl

mutual
theorem events_smart : ∀ (t : Tree) {u : Tree} {p g p' g' : Option NodeData}, SmartTree t u → SmartOpt p p' → SmartOpt g g' →
    List.Forall₂ SmartEvent (events p g t) (events p' g' u)
  | .node d cs => by
    intro h hp hg
    cases h with
    | @node _ e _ ds hd hc =>
      simp only [events, hd.t]
      split
      · exact .cons ⟨rfl, hd, hp, hg⟩ (List.rel_append (eventsList_smart cs hc (p := some d) (p' := some e) hd hp)
          (.cons ⟨rfl, hd, hp, hg⟩ .nil))
      · exact .cons ⟨rfl, hd, hp, hg⟩ .nil
theorem eventsList_smart : ∀ (ts : List Tree) {us : List Tree} {p g p' g' : Option NodeData}, SmartTrees ts us → SmartOpt p p' →
    SmartOpt g g' → List.Forall₂ SmartEvent (eventsList p g ts) (eventsList p' g' us)
  | [] => by
    intro h _ _
    cases h
    exact .nil
  | t :: ts => by
    intro h hp hg
    cases h with
    | cons h1 h2 => exact List.rel_append (events_smart t h1 hp hg) (eventsList_smart ts h2 hp hg)
end

theorem htmlEvent_smart (o : HtmlOpts) {e e' : Event} (he : SmartEvent e e') {a b : HState} (h : HRel a b) :
    Both HRel (htmlEvent o a e) (htmlEvent o b e') := by
  obtain ⟨en, d, p, g, f⟩ := e
  obtain ⟨en', d', p', g', f'⟩ := e'
  have h1 : en' = en := he.en
  subst h1
  have hp : p'.isSome = p.isSome := by
    have := he.parent
    cases p <;> cases p' <;> first | rfl | exact this.elim
  have hg : tightOf g' = tightOf g := by
    have := he.grand
    cases g <;> cases g' <;> first | rfl | exact this.elim | skip
    rename_i g g'
    have h2 : SmartData g g' := this
    simp only [tightOf, h2.t, h2.listData]
  rcases he.node with h2 | ⟨ht, x, y, hx, hxy, h2⟩
  · replace h2 : d' = d := h2
    subst h2
    exact htmlEvent_node o hp hg h
  · replace h2 : d' = { d with literal := some y } := h2
    subst h2
    replace ht : d.t = .text := ht
    replace hx : d.literal = some x := hx
    simp only [htmlEvent, ht, hx]
    refine Both.ok ⟨smartHtml_append h.buf (smartHtml_escape hxy), h.tags, ?_⟩
    show escapeXml x = ['\n'] ↔ escapeXml y = ['\n']
    rw [escape_nl, escape_nl]
    exact smartText_single hxy

theorem foldl_smart (o : HtmlOpts) {es es' : List Event} (he : List.Forall₂ SmartEvent es es') : ∀ {a b : HState}, HRel a b →
    Both HRel (es.foldlM (htmlEvent o) a) (es'.foldlM (htmlEvent o) b) := by
  induction he with
  | nil => intro a b h; exact Both.ok h
  | cons h1 _ ih =>
    intro a b h
    simp only [List.foldlM_cons]
    exact Both.bind (htmlEvent_smart o h1 h) fun _ _ h => ih h

theorem renderHtml_smart (o : HtmlOpts) {t u : Tree} (h : SmartTree t u) : Both SmartHtml (renderHtml o t) (renderHtml o u) := by
  unfold renderHtml renderWith
  refine Both.bind (foldl_smart o (events_smart t h (p := none) (g := none) (p' := none) (g' := none) trivial trivial) ⟨.nil, rfl, Iff.rfl⟩) fun a b h => ?_
  exact Both.ok h.buf

theorem Both.swap {α β : Type} {R : α → β → Prop} {x : Except PyErr α} {y : Except PyErr β} (h : Both R x y) :
    Both (fun b a => R a b) y x := by
  rcases h with ⟨a, b, h1, h2, h3⟩ | ⟨e, h1, h2⟩
  · exact Or.inl ⟨b, a, h2, h1, h3⟩
  · exact Or.inr ⟨e, h2, h1⟩

theorem toHtml_smart (o : HtmlOpts) {s : Str} (h : Both (fun u v => SmartTree v u) (parse true s) (parse false s)) :
    Both SmartHtml (toHtml false o s) (toHtml true o s) := by
  unfold toHtml
  exact Both.bind h.swap fun t u h => renderHtml_smart o h

end CM
