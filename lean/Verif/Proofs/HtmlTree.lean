import Verif.Proofs.Render
import Verif.Spec.HtmlTree
/-
The HTML renderer writes the pieces of the tree (C61).
-/
set_option linter.unusedSimpArgs false
namespace CM
open Spec

theorem _root_.Spec.Written.trans {p : Str} {ps qs : List HPiece} {w v : Str} (h : Written p ps w) (h' : Written (p ++ w) qs v) :
    Written p (ps ++ qs) (w ++ v) := by
  induction h with
  | nil p => simpa using h'
  | text h ih => rw [List.cons_append, List.append_assoc]; exact .text (ih (by simpa using h'))
  | newline h ih => rw [List.cons_append, List.cons_append]; exact .newline (ih (by simpa using h'))
  | stay hp h ih => rw [List.cons_append]; exact .stay hp (ih h')

/-- The last piece written is a newline only if the text written is empty or ends in one. -/
def Settled (st : HState) : Prop := st.lastOut = ['\n'] → st.buf = [] ∨ ∃ q, st.buf = q ++ ['\n']

/-- From `st` to `st'` the pieces `ps` have been written. -/
def Writes (st : HState) (ps : List HPiece) (st' : HState) : Prop :=
  Settled st → Settled st' ∧ ∃ w, st'.buf = st.buf ++ w ∧ Written st.buf ps w

theorem Writes.refl (st : HState) : Writes st [] st := fun h => ⟨h, [], by simp, .nil _⟩

theorem Writes.trans {st st' st'' : HState} {ps qs : List HPiece} (h : Writes st ps st') (h' : Writes st' qs st'') :
    Writes st (ps ++ qs) st'' := by
  intro hs
  obtain ⟨h1, w, h2, h3⟩ := h hs
  obtain ⟨h4, v, h5, h6⟩ := h' h1
  exact ⟨h4, w ++ v, by rw [h5, h2, List.append_assoc], h3.trans (h2 ▸ h6)⟩

theorem Writes.cons {st st' st'' : HState} {p : HPiece} {qs : List HPiece} (h : Writes st [p] st') (h' : Writes st' qs st'') :
    Writes st (p :: qs) st'' := h.trans h'

theorem writes_lit (s : Str) (st : HState) : Writes st [.text s] (st.lit s) := by
  intro _
  refine ⟨fun h => ?_, s, rfl, by simpa using Written.text (.nil _)⟩
  simp only [HState.lit] at h ⊢
  exact .inr ⟨st.buf, by rw [h]⟩

theorem writes_cr (st : HState) : Writes st [.brk] st.cr := by
  intro hs
  unfold HState.cr
  by_cases h : st.lastOut = ['\n']
  · rw [if_neg (by simp [h])]; exact ⟨hs, [], by simp, .stay (hs h) (.nil _)⟩
  · rw [if_pos (by simp [h])]
    exact ⟨fun _ => .inr ⟨_, rfl⟩, ['\n'], rfl, .newline (.nil _)⟩

theorem writes_tag {name : Str} {attrs : Attrs} {sc : Bool} {st : HState} (h : st.disableTags = 0) {s : Str}
    (hs : HState.tagText name attrs sc = s) : Writes st [.text s] (st.tag name attrs sc) := by
  intro _
  subst hs
  rw [HState.tag, if_neg (by omega)]
  exact ⟨fun h => by simp at h, _, rfl, by simpa using Written.text (.nil _)⟩

theorem tag_off {name : Str} {attrs : Attrs} {sc : Bool} {st : HState} (h : 0 < st.disableTags) : st.tag name attrs sc = st := by
  rw [HState.tag, if_pos h]

@[simp] theorem disable_lit (s : Str) (st : HState) : (st.lit s).disableTags = st.disableTags := rfl
@[simp] theorem disable_out (s : Option Str) (st : HState) : (st.out s).disableTags = st.disableTags := rfl
@[simp] theorem disable_cr (st : HState) : st.cr.disableTags = st.disableTags := by unfold HState.cr; split <;> rfl
@[simp] theorem disable_tag (n : Str) (a : Attrs) (b : Bool) (st : HState) : (st.tag n a b).disableTags = st.disableTags := by
  unfold HState.tag; split <;> rfl

theorem escapeXml_text (s : Str) : escapeXml s = htmlText s := by
  have h1 : ∀ c, replaceUnsafeChar c = htmlChar c := by
    intro c
    unfold replaceUnsafeChar htmlChar
    simp only [beq_iff_eq, lit]
  unfold escapeXml htmlText
  split
  · rw [show replaceUnsafeChar = htmlChar from funext h1]
  · rename_i h
    induction s with
    | nil => rfl
    | cons c s ih =>
      simp only [List.any_cons, Bool.not_eq_true, Bool.or_eq_false_iff] at h ih
      rw [List.flatMap_cons, ← ih (by simpa using h.2)]
      have : htmlChar c = [c] := by
        simp only [beq_eq_false_iff_ne, ne_eq] at h
        obtain ⟨⟨⟨⟨h1, h2⟩, h3⟩, h4⟩, _⟩ := h
        rw [htmlChar, if_neg h1, if_neg h2, if_neg h3, if_neg h4]
      rw [this]; rfl

theorem escapeXmlOpt_text (s : Option Str) : escapeXmlOpt s = htmlText (s.getD []) := by
  cases s with
  | none => rfl
  | some s => exact escapeXml_text s

theorem writes_out (s : Option Str) (st : HState) : Writes st [.text (htmlText (s.getD []))] (st.out s) := by
  rw [HState.out, escapeXmlOpt_text]; exact writes_lit _ _

/-! ### Attributes -/

/-- The text of attributes. -/
def attrsText (as : Attrs) : Str := as.flatMap fun a => ' ' :: (a.1 ++ ('=' :: '"' :: (a.2 ++ ['"'])))

theorem attrsText_append (a b : Attrs) : attrsText (a ++ b) = attrsText a ++ attrsText b := by simp [attrsText]

theorem tagText_open {n : Str} {a : Attrs} {s : Str} (h : attrsText a = s) :
    HState.tagText n a false = '<' :: (n ++ s ++ ['>']) := by
  subst h; simp [HState.tagText, attrsText]

theorem tagText_void {n : Str} {a : Attrs} {s : Str} (h : attrsText a = s) :
    HState.tagText n a true = '<' :: (n ++ s ++ " />".toList) := by
  subst h; simp [HState.tagText, attrsText]

theorem attrsText_pos (o : HtmlOpts) (d : NodeData) : attrsText (htmlAttrs o d) = posAttr o d := by
  unfold htmlAttrs posAttr
  cases ho : o.sourcepos <;> cases hp : d.sourcepos with
  | none => rfl
  | some p => simp [attrsText, attr, sourceposText, lit, decimal, natToStr]

theorem attrsText_one (k v : Str) : attrsText [(k, v)] = ' ' :: (k ++ "=\"".toList ++ v ++ "\"".toList) := by
  simp [attrsText]

theorem truthy_some {t : Option Str} (h : truthy t = true) : ∃ c s, t = some (c :: s) := by
  cases t with
  | none => simp [truthy] at h
  | some s => cases s with
    | nil => simp [truthy] at h
    | cons c s => exact ⟨c, s, rfl⟩

theorem truthy_none {t : Option Str} (h : ¬ truthy t = true) : t = none ∨ t = some [] := by
  cases t with
  | none => exact .inl rfl
  | some s => cases s with
    | nil => exact .inr rfl
    | cons c s => simp [truthy] at h

theorem splitWords_first (s : Str) : splitWords s = [] ∧ firstWord s = [] ∨
    ∃ ws, splitWords s = firstWord s :: ws ∧ firstWord s ≠ [] := by
  have go1 : ∀ (s cur : Str), cur ≠ [] → ∃ ws, splitWords.go cur s = (cur.reverse ++ s.takeWhile fun c => !isPySpace c) :: ws := by
    intro s
    induction s with
    | nil => intro cur h; exact ⟨[], by simp [splitWords.go, h]⟩
    | cons c s ih =>
      intro cur h
      rw [splitWords.go]
      by_cases hc : isPySpace c = true
      · rw [if_pos hc, if_neg (by simpa using h)]
        exact ⟨splitWords.go [] s, by simp [hc]⟩
      · rw [if_neg hc]
        obtain ⟨ws, h⟩ := ih (c :: cur) (by simp)
        exact ⟨ws, by rw [h]; simp [hc]⟩
  induction s with
  | nil => exact .inl ⟨rfl, rfl⟩
  | cons c s ih =>
    by_cases hc : isPySpace c = true
    · have e1 : splitWords (c :: s) = splitWords s := by
        rw [splitWords, splitWords.go, if_pos hc, if_pos (by rfl)]; rfl
      have e2 : firstWord (c :: s) = firstWord s := by simp [firstWord, hc]
      rw [e1, e2]; exact ih
    · obtain ⟨ws, h⟩ := go1 s [c] (by simp)
      refine .inr ⟨ws, ?_, by simp [firstWord, hc]⟩
      rw [splitWords, splitWords.go, if_neg hc, h]; simp [firstWord, hc]

theorem attrsText_class (i : Option Str) : attrsText (codeClass i) = classAttr i := by
  cases i with
  | none => rfl
  | some s =>
    unfold codeClass classAttr
    rcases splitWords_first s with ⟨h1, h2⟩ | ⟨ws, h1, h2⟩
    · simp [h1, h2, attrsText]
    · simp only [h1, if_neg h2, attrsText_one, escapeXml_text, attr, lit]

/-! ### Trees -/

/-- The addresses that are left out. -/
def blockedBy (o : HtmlOpts) (u : Str) : Bool := o.safe && potentiallyUnsafe u

theorem unsafeDest_eq {o : HtmlOpts} {d : Option Str} {b : Bool} (h : unsafeDest o d = .ok b) : b = blockedBy o (d.getD []) := by
  unfold unsafeDest at h
  unfold blockedBy
  cases ho : o.safe with
  | false => simp [ho] at h; simp [h]
  | true =>
    cases d with
    | none => simp [ho] at h
    | some u => simp [ho] at h; simp [h]

/-- The neighbour is a tight list. -/
def tightNode : Option NodeData → Bool
  | some d => tightList d
  | none => false

theorem ok_bind {α β : Type} {x : Except PyErr α} {f : α → Except PyErr β} {b : β} (h : x.bind f = .ok b) :
    ∃ a, x = .ok a ∧ f a = .ok b := by
  cases x with
  | error => cases h
  | ok a => exact ⟨a, rfl, h⟩

theorem ok_container {o : HtmlOpts} {st st' : HState} {e e' : Event} {es : List Event}
    (h : runEvents o st (e :: (es ++ [e'])) = .ok st') :
    ∃ s1 s2, htmlEvent o st e = .ok s1 ∧ runEvents o s1 es = .ok s2 ∧ htmlEvent o s2 e' = .ok st' := by
  rw [runEvents_cons] at h
  obtain ⟨s1, h1, h⟩ := ok_bind h
  rw [runEvents_append] at h
  obtain ⟨s2, h2, h⟩ := ok_bind h
  rw [runEvents_cons] at h
  obtain ⟨s3, h3, h⟩ := ok_bind h
  rw [runEvents_nil] at h; cases h
  exact ⟨s1, s2, h1, h2, h3⟩

/-- A container, from its two events and the pieces of its children. -/
structure Around (o : HtmlOpts) (d : NodeData) (e e' : Event) (bare : Bool) : Prop where
  el : ∀ {st s1 s2 st' : HState} {kids : List HPiece}, st.disableTags = 0 → htmlEvent o st e = .ok s1 →
    s2.disableTags = s1.disableTags → Writes s1 kids s2 → htmlEvent o s2 e' = .ok st' →
    st'.disableTags = 0 ∧ Writes st (element o (blockedBy o) bare d kids) st'
  alt : ∀ {st s1 s2 st' : HState} {kids : List HPiece}, 0 < st.disableTags → htmlEvent o st e = .ok s1 →
    s2.disableTags = s1.disableTags → Writes s1 kids s2 → htmlEvent o s2 e' = .ok st' →
    st'.disableTags = st.disableTags ∧ Writes st (description o bare d kids) st'

theorem around_document {o : HtmlOpts} {d : NodeData} {p g f : Option NodeData} {bare : Bool} (hd : d.t = .document) :
    Around o d ⟨true, d, p, g, f⟩ ⟨false, d, p, g, f⟩ bare := by
  constructor <;> intro st s1 s2 st' kids hk h1 h2 hw h3 <;> simp only [htmlEvent, hd, Except.ok.injEq] at h1 h3 <;> subst h1 h3
  · exact ⟨by omega, by simp only [element, hd]; exact hw⟩
  · exact ⟨by omega, by simp only [description, hd]; exact hw⟩

theorem tagText_name (n : Str) : HState.tagText n [] false = '<' :: (n ++ [] ++ ['>']) := tagText_open rfl

theorem writes_close {st : HState} {n : Str} (h : st.disableTags = 0) : Writes st [closeTag n] (st.tag ('/' :: n)) :=
  writes_tag h (by simp [HState.tagText])

theorem writes_open {st : HState} {n : Str} (h : st.disableTags = 0) : Writes st [openTag n] (st.tag n) :=
  writes_tag h (tagText_open rfl)

theorem writes_openPos {st : HState} {n : Str} {o : HtmlOpts} {d : NodeData} (h : st.disableTags = 0) :
    Writes st [openTag n (posAttr o d)] (st.tag n (htmlAttrs o d)) :=
  writes_tag h (tagText_open (attrsText_pos o d))

theorem around_emph {o : HtmlOpts} {d : NodeData} {p g f : Option NodeData} {bare : Bool} (hd : d.t = .emph) :
    Around o d ⟨true, d, p, g, f⟩ ⟨false, d, p, g, f⟩ bare := by
  constructor <;> intro st s1 s2 st' kids hk h1 h2 hw h3 <;>
    simp only [htmlEvent, hd, Except.ok.injEq, if_true, if_false, Bool.false_eq_true] at h1 h3 <;> subst h1 h3
  · have hk2 : s2.disableTags = 0 := by simpa [hk] using h2
    exact ⟨by simpa, by simp only [element, hd]; exact (writes_open hk).trans (hw.trans (writes_close hk2))⟩
  · rw [tag_off hk] at h2 hw
    rw [tag_off (by omega)]
    exact ⟨h2, by simp only [description, hd]; exact hw⟩

theorem around_strong {o : HtmlOpts} {d : NodeData} {p g f : Option NodeData} {bare : Bool} (hd : d.t = .strong) :
    Around o d ⟨true, d, p, g, f⟩ ⟨false, d, p, g, f⟩ bare := by
  constructor <;> intro st s1 s2 st' kids hk h1 h2 hw h3 <;>
    simp only [htmlEvent, hd, Except.ok.injEq, if_true, if_false, Bool.false_eq_true] at h1 h3 <;> subst h1 h3
  · have hk2 : s2.disableTags = 0 := by simpa [hk] using h2
    exact ⟨by simpa, by simp only [element, hd]; exact (writes_open hk).trans (hw.trans (writes_close hk2))⟩
  · rw [tag_off hk] at h2 hw
    rw [tag_off (by omega)]
    exact ⟨h2, by simp only [description, hd]; exact hw⟩

theorem around_item {o : HtmlOpts} {d : NodeData} {p g f : Option NodeData} {bare : Bool} (hd : d.t = .item) :
    Around o d ⟨true, d, p, g, f⟩ ⟨false, d, p, g, f⟩ bare := by
  constructor <;> intro st s1 s2 st' kids hk h1 h2 hw h3 <;>
    simp only [htmlEvent, hd, Except.ok.injEq, if_true, if_false, Bool.false_eq_true] at h1 h3 <;> subst h1 h3
  · have hk2 : s2.disableTags = 0 := by simpa [hk] using h2
    exact ⟨by simpa, by
      simp only [element, hd]; exact (writes_openPos hk).trans (hw.trans ((writes_close hk2).trans (writes_cr _)))⟩
  · rw [tag_off hk] at h2 hw
    rw [tag_off (by omega)]
    exact ⟨by simpa using h2, by simp only [description, hd]; exact hw.trans (writes_cr _)⟩

theorem around_heading {o : HtmlOpts} {d : NodeData} {p g f : Option NodeData} (hd : d.t = .heading) :
    Around o d ⟨true, d, p, g, f⟩ ⟨false, d, p, g, f⟩ false := by
  have e : headingTag d.level = hTag d := by
    unfold headingTag hTag; cases d.level <;> rfl
  constructor <;> intro st s1 s2 st' kids hk h1 h2 hw h3 <;>
    simp only [htmlEvent, hd, htmlHeading, e, Except.ok.injEq, if_true, if_false, Bool.false_eq_true] at h1 h3 <;> subst h1 h3
  · have hk2 : s2.disableTags = 0 := by simpa [hk] using h2
    exact ⟨by simpa, by
      simp only [element, hd]; exact (writes_cr st).trans ((writes_openPos (by simpa)).trans (hw.trans ((writes_close hk2).trans (writes_cr _))))⟩
  · rw [tag_off (by simpa)] at h2 hw
    simp only [disable_cr] at h2
    rw [tag_off (by omega)]
    exact ⟨by simpa using h2, by
      simp only [description, hd, Bool.false_eq_true, if_false]; exact (writes_cr st).trans (hw.trans (writes_cr _))⟩

theorem around_blockQuote {o : HtmlOpts} {d : NodeData} {p g f : Option NodeData} {bare : Bool} (hd : d.t = .blockQuote) :
    Around o d ⟨true, d, p, g, f⟩ ⟨false, d, p, g, f⟩ bare := by
  constructor <;> intro st s1 s2 st' kids hk h1 h2 hw h3 <;>
    simp only [htmlEvent, hd, Except.ok.injEq, if_true, if_false, Bool.false_eq_true] at h1 h3 <;> subst h1 h3
  · have hk2 : s2.cr.disableTags = 0 := by simpa [hk] using h2
    exact ⟨by simpa using hk2, by
      simp only [element, hd]; exact (writes_cr st).trans ((writes_openPos (by simpa)).trans ((writes_cr _).trans
          (hw.trans ((writes_cr _).trans ((writes_close hk2).trans (writes_cr _))))))⟩
  · rw [tag_off (by simpa)] at h2 hw
    simp only [disable_cr] at h2
    rw [tag_off (by simp; omega)]
    exact ⟨by simpa using h2, by
      simp only [description, hd]; exact (writes_cr st).trans ((writes_cr _).trans (hw.trans ((writes_cr _).trans (writes_cr _))))⟩

theorem around_list {o : HtmlOpts} {d : NodeData} {p g f : Option NodeData} {bare : Bool} (hd : d.t = .list) :
    Around o d ⟨true, d, p, g, f⟩ ⟨false, d, p, g, f⟩ bare := by
  cases hl : d.listData with
  | none => constructor <;> intro st s1 s2 st' kids hk h1 <;> simp [htmlEvent, hd, htmlList, hl] at h1
  | some l =>
    have e : (if l.type == .bullet then lit "ul" else lit "ol") = listName d.listData := by
      rw [hl]; simp only [listName, beq_iff_eq]
    have e2 : attrsText (match l.start with
        | some n => if n != 1 then htmlAttrs o d ++ [(lit "start", natToStr n)] else htmlAttrs o d
        | none => htmlAttrs o d) = posAttr o d ++ startAttr (d.listData.bind (·.start)) := by
      rw [hl, Option.bind_some]
      cases l.start with
      | none => simp [startAttr, attrsText_pos]
      | some n =>
        by_cases hn : n = 1
        · subst hn; simp [startAttr, attrsText_pos]
        · have : startAttr (some n) = attr "start" (decimal n) := by
            unfold startAttr; split <;> simp_all
          simp only [bne_iff_ne, ne_eq, hn, not_false_eq_true, if_true, this]
          rw [attrsText_append, attrsText_pos, attrsText_one]; rfl
    constructor <;> intro st s1 s2 st' kids hk h1 h2 hw h3 <;>
      simp only [htmlEvent, hd, htmlList, hl, Except.ok.injEq, if_true, if_false, Bool.false_eq_true] at h1 h3
    · rw [e] at h1 h3
      subst h1 h3
      have hk2 : s2.cr.disableTags = 0 := by simpa [hk] using h2
      exact ⟨by simpa using hk2, by
        simp only [element, hd]; exact (writes_cr st).trans ((writes_tag (by simpa) (tagText_open e2)).trans ((writes_cr _).trans
            (hw.trans ((writes_cr _).trans ((writes_close hk2).trans (writes_cr _))))))⟩
    · subst h1 h3
      rw [tag_off (by simpa)] at h2 hw
      simp only [disable_cr] at h2
      rw [tag_off (by simp; omega)]
      exact ⟨by simpa using h2, by
        simp only [description, hd]; exact (writes_cr st).trans ((writes_cr _).trans (hw.trans ((writes_cr _).trans (writes_cr _))))⟩

theorem around_paragraph {o : HtmlOpts} {d : NodeData} {p g f : Option NodeData} (hd : d.t = .paragraph) :
    Around o d ⟨true, d, p, g, f⟩ ⟨false, d, p, g, f⟩ (tightNode g) := by
  cases p with
  | none => constructor <;> intro st s1 s2 st' kids hk h1 <;> simp [htmlEvent, hd, htmlParagraph] at h1
  | some p =>
    have e : ∀ {st s1 : HState} {b : Bool}, htmlEvent o st ⟨b, d, some p, g, f⟩ = .ok s1 →
        s1 = if tightNode g then st else if b then st.cr.tag (lit "p") (htmlAttrs o d) else (st.tag (lit "/p")).cr := by
      intro st s1 b h
      simp only [htmlEvent, hd, htmlParagraph, bind, Except.bind] at h
      cases g with
      | none => simp only [pure, Except.pure, Bool.false_eq_true, if_false] at h; cases b <;> simp_all [tightNode]
      | some g =>
        simp only at h
        by_cases hg : g.t = .list
        · cases hl : g.listData with
          | none => simp [hg, hl] at h
          | some l =>
            have : tightNode (some g) = l.tight := by simp [tightNode, tightList, hg, hl]
            rw [this]
            simp only [hg, hl, beq_self_eq_true, if_true, pure, Except.pure] at h
            cases ht : l.tight <;> cases b <;> simp_all
        · have : tightNode (some g) = false := by simp [tightNode, tightList, hg]
          rw [this]
          simp only [beq_iff_eq, hg, if_false, pure, Except.pure, Bool.false_eq_true] at h
          cases b <;> simp_all
    constructor <;> intro st s1 s2 st' kids hk h1 h2 hw h3 <;> have h1 := e h1 <;> have h3 := e h3 <;>
      simp only [if_true, if_false, Bool.false_eq_true] at h1 h3 <;> cases ht : tightNode g <;>
      simp only [ht, if_true, if_false, Bool.false_eq_true] at h1 h3 <;> subst h1 h3
    · have hk2 : s2.disableTags = 0 := by simpa [hk] using h2
      exact ⟨by simpa, by
        simp only [element, hd, if_false, Bool.false_eq_true]; exact (writes_cr st).trans ((writes_openPos (by simpa)).trans (hw.trans ((writes_close hk2).trans (writes_cr _))))⟩
    · exact ⟨by omega, by simp only [element, hd, if_true]; exact hw⟩
    · rw [tag_off (by simpa)] at h2 hw
      simp only [disable_cr] at h2
      rw [tag_off (by omega)]
      exact ⟨by simpa using h2, by
        simp only [description, hd, Bool.false_eq_true, if_false]; exact (writes_cr st).trans (hw.trans (writes_cr _))⟩
    · exact ⟨by omega, by simp only [description, hd, if_true]; exact hw⟩

theorem around_link {o : HtmlOpts} {d : NodeData} {p g f : Option NodeData} {bare : Bool} (hd : d.t = .link) :
    Around o d ⟨true, d, p, g, f⟩ ⟨false, d, p, g, f⟩ bare := by
  have e : ∀ {st s1 : HState}, htmlEvent o st ⟨true, d, p, g, f⟩ = .ok s1 → ∃ as, s1 = st.tag (lit "a") as ∧
      attrsText as = posAttr o d ++ (if blockedBy o (d.destination.getD []) then [] else attr "href" (htmlText (d.destination.getD []))) ++
        optAttr "title" d.title := by
    intro st s1 h
    simp only [htmlEvent, hd, htmlLink, if_true] at h
    obtain ⟨bad, hb, h⟩ := ok_bind h
    simp only [pure, Except.pure, Except.ok.injEq] at h
    refine ⟨_, h.symm, ?_⟩
    rw [← unsafeDest_eq hb]
    have e1 : attrsText (if bad = true then htmlAttrs o d else htmlAttrs o d ++ [(lit "href", escapeXmlOpt d.destination)]) =
        posAttr o d ++ (if bad = true then [] else attr "href" (htmlText (d.destination.getD []))) := by
      cases bad with
      | true => simp [attrsText_pos]
      | false =>
        simp only [Bool.false_eq_true, if_false, attrsText_append, attrsText_pos, attrsText_one, escapeXmlOpt_text]
        rfl
    split
    · rename_i ht
      obtain ⟨c, s, ht⟩ := truthy_some ht
      rw [attrsText_append, e1, attrsText_one, ht, escapeXmlOpt_text]; rfl
    · rename_i ht
      rw [e1]
      rcases truthy_none ht with ht | ht <;> rw [ht] <;> simp [optAttr]
  constructor <;> intro st s1 s2 st' kids hk h1 h2 hw h3 <;> obtain ⟨as, h1, ha⟩ := e h1 <;>
    simp only [htmlEvent, hd, htmlLink, Except.ok.injEq, if_false, Bool.false_eq_true] at h3 <;> subst h1 h3
  · have hk2 : s2.disableTags = 0 := by simpa [hk] using h2
    exact ⟨by simpa, by
      simp only [element, hd]; exact (writes_tag hk (tagText_open ha)).trans (hw.trans (writes_close hk2))⟩
  · rw [tag_off hk] at h2 hw
    rw [tag_off (by omega)]
    exact ⟨h2, by simp only [description, hd]; exact hw⟩

/-- Only the number of images around it changes. -/
theorem Writes.depth {st st' : HState} {ps : List HPiece} {k : Int} (h : Writes st ps st') :
    Writes st ps { st' with disableTags := k } := fun hs => h hs

theorem Writes.from {st st' : HState} {ps : List HPiece} {k : Int} (h : Writes { st with disableTags := k } ps st') :
    Writes st ps st' := fun hs => h hs

theorem around_image {o : HtmlOpts} {d : NodeData} {p g f : Option NodeData} {bare : Bool} (hd : d.t = .image) :
    Around o d ⟨true, d, p, g, f⟩ ⟨false, d, p, g, f⟩ bare := by
  constructor <;> intro st s1 s2 st' kids hk h1 h2 hw h3 <;>
    simp only [htmlEvent, hd, htmlImage, if_true, if_false, Bool.false_eq_true] at h1 h3
  · simp only [hk, beq_self_eq_true, if_true] at h1
    obtain ⟨bad, hb, h1⟩ := ok_bind h1
    have hb := unsafeDest_eq hb
    have w0 : s1.disableTags = 1 ∧ Writes st [.text ("<img src=\"".toList ++ (if blockedBy o (d.destination.getD []) then [] else
        htmlText (d.destination.getD [])) ++ "\" alt=\"".toList)] s1 := by
      rw [← hb]
      cases bad <;> simp only [bind, Except.bind, pure, Except.pure, Except.ok.injEq, if_true, if_false, Bool.false_eq_true] at h1 <;> subst h1
      · rw [escapeXmlOpt_text]; exact ⟨by simp [hk], (writes_lit _ _).depth⟩
      · exact ⟨by simp [hk], by simpa [lit] using (writes_lit _ st).depth⟩
    simp only [w0.1] at h2
    have h2 : s2.disableTags - 1 = 0 := by omega
    simp only [h2, beq_self_eq_true, if_true, Except.ok.injEq] at h3
    have w1 : st'.disableTags = 0 ∧ Writes s2 [.text ('"' :: (optAttr "title" d.title ++ " />".toList))] st' := by
      subst h3
      split
      · rename_i ht
        obtain ⟨c, s, ht⟩ := truthy_some ht
        refine ⟨rfl, fun _ => ⟨fun h => by simp [HState.lit, lit] at h, _, ?_, .text (.nil _)⟩⟩
        simp [HState.lit, lit, ht, optAttr, attr, escapeXmlOpt_text]
      · rename_i ht
        refine ⟨rfl, fun _ => ⟨fun h => by simp [HState.lit, lit] at h, _, ?_, .text (.nil _)⟩⟩
        rcases truthy_none ht with ht | ht <;> simp [HState.lit, lit, ht, optAttr]
    refine ⟨w1.1, ?_⟩
    simp only [element, hd]
    exact w0.2.cons (hw.trans w1.2)
  · have hk1 : (st.disableTags == 0) = false := by simp; omega
    simp only [hk1, Bool.false_eq_true, if_false, bind, Except.bind, pure, Except.pure, Except.ok.injEq] at h1
    subst h1
    simp only at h2
    have hk2 : (s2.disableTags - 1 == 0) = false := by simp; omega
    simp only [hk2, Bool.false_eq_true, if_false, Except.ok.injEq] at h3
    subst h3
    exact ⟨by simp; omega, by simp only [description, hd]; exact (Writes.from hw).depth⟩

theorem litOpt_writes {x : Option Str} {st s1 : HState} (h : st.litOpt x = .ok s1) :
    s1.disableTags = st.disableTags ∧ Writes st [.text (x.getD [])] s1 := by
  cases x with
  | none => cases h
  | some s => cases h; exact ⟨rfl, writes_lit _ _⟩

theorem writes_nothing (st : HState) : Writes st [.text []] st := fun h =>
  ⟨h, [], by simp, by simpa using Written.text (p := st.buf) (s := []) (.nil _)⟩

theorem getD_notTruthy {x : Option Str} (h : ¬ truthy x = true) : x.getD [] = [] := by
  rcases truthy_none h with h | h <;> rw [h] <;> rfl

/-- What a custom node writes. -/
theorem custom_writes {x : Option Str} {st s1 : HState} (h : (if truthy x = true then st.litOpt x else .ok st) = .ok s1) :
    s1.disableTags = st.disableTags ∧ Writes st [.text (x.getD [])] s1 := by
  split at h
  · exact litOpt_writes h
  · rename_i hx
    cases h
    rw [getD_notTruthy hx]
    exact ⟨rfl, writes_nothing st⟩

theorem customInline_event {o : HtmlOpts} {st s1 : HState} {e : Event} (he : e.node.t = .customInline) (h : htmlEvent o st e = .ok s1) :
    s1.disableTags = st.disableTags ∧ Writes st [.text ((if e.entering then e.node.onEnter else e.node.onExit).getD [])] s1 := by
  simp only [htmlEvent, he] at h
  cases hb : e.entering
  · simp only [hb, Bool.false_and, Bool.not_false, Bool.true_and, Bool.false_eq_true, if_false] at h ⊢
    exact custom_writes h
  · simp only [hb, Bool.true_and, Bool.not_true, Bool.false_and, Bool.false_eq_true, if_false, if_true] at h ⊢
    exact custom_writes h

theorem customBlock_event {o : HtmlOpts} {st s1 : HState} {e : Event} (he : e.node.t = .customBlock) (h : htmlEvent o st e = .ok s1) :
    s1.disableTags = st.disableTags ∧
      Writes st [.brk, .text ((if e.entering then e.node.onEnter else e.node.onExit).getD []), .brk] s1 := by
  simp only [htmlEvent, he] at h
  have key : ∀ {x : Option Str} {r : HState}, (if truthy x = true then st.cr.litOpt x else .ok st.cr) = .ok r → s1 = r.cr →
      s1.disableTags = st.disableTags ∧ Writes st [.brk, .text (x.getD []), .brk] s1 := by
    intro x r hx hr
    obtain ⟨h1, h2⟩ := custom_writes hx
    subst hr
    exact ⟨by simpa using h1, (writes_cr st).cons (h2.cons (writes_cr r))⟩
  cases hb : e.entering
  · simp only [hb, Bool.false_and, Bool.not_false, Bool.true_and, Bool.false_eq_true, if_false] at h ⊢
    by_cases ht : truthy e.node.onExit = true
    · rw [if_pos ht] at h
      obtain ⟨r, h1, h2⟩ := ok_bind h
      cases h2; exact key (by rw [if_pos ht]; exact h1) rfl
    · rw [if_neg ht] at h
      cases h; exact key (by rw [if_neg ht]) rfl
  · simp only [hb, Bool.true_and, Bool.not_true, Bool.false_and, Bool.false_eq_true, if_false, if_true] at h ⊢
    by_cases ht : truthy e.node.onEnter = true
    · rw [if_pos ht] at h
      obtain ⟨r, h1, h2⟩ := ok_bind h
      cases h2; exact key (by rw [if_pos ht]; exact h1) rfl
    · rw [if_neg ht] at h
      cases h; exact key (by rw [if_neg ht]) rfl

theorem around_customInline {o : HtmlOpts} {d : NodeData} {p g f : Option NodeData} {bare : Bool} (hd : d.t = .customInline) :
    Around o d ⟨true, d, p, g, f⟩ ⟨false, d, p, g, f⟩ bare := by
  constructor <;> intro st s1 s2 st' kids hk h1 h2 hw h3 <;> obtain ⟨h1, w1⟩ := customInline_event hd h1 <;>
    obtain ⟨h3, w3⟩ := customInline_event hd h3
  · refine ⟨by omega, ?_⟩
    simp only [element, hd]; exact w1.cons (hw.trans w3)
  · refine ⟨by omega, ?_⟩
    simp only [description, hd]; exact w1.cons (hw.trans w3)

theorem around_customBlock {o : HtmlOpts} {d : NodeData} {p g f : Option NodeData} {bare : Bool} (hd : d.t = .customBlock) :
    Around o d ⟨true, d, p, g, f⟩ ⟨false, d, p, g, f⟩ bare := by
  constructor <;> intro st s1 s2 st' kids hk h1 h2 hw h3 <;> obtain ⟨h1, w1⟩ := customBlock_event hd h1 <;>
    obtain ⟨h3, w3⟩ := customBlock_event hd h3
  · refine ⟨by omega, ?_⟩
    simp only [element, hd]; exact w1.trans (hw.trans w3)
  · refine ⟨by omega, ?_⟩
    simp only [description, hd]; exact w1.trans (hw.trans w3)

/-- Containers. -/
theorem around_container {o : HtmlOpts} {d : NodeData} {p g f : Option NodeData} (hc : isContainer d.t = true) :
    Around o d ⟨true, d, p, g, f⟩ ⟨false, d, p, g, f⟩ (d.t == .paragraph && tightNode g) := by
  cases hd : d.t <;> rw [hd] at hc <;> first
    | exact absurd hc (by decide)
    | exact around_document hd
    | exact around_emph hd
    | exact around_strong hd
    | exact around_item hd
    | exact around_blockQuote hd
    | exact around_list hd
    | exact around_link hd
    | exact around_image hd
    | exact around_customInline hd
    | exact around_customBlock hd
    | exact around_heading hd
    | exact around_paragraph hd

/-- Raw HTML. -/
theorem raw_writes {o : HtmlOpts} {d : NodeData} {st s1 : HState}
    (h : (if o.safe = true then .ok (st.lit rawOmitted) else st.litOpt d.literal) = .ok s1) :
    s1.disableTags = st.disableTags ∧ Writes st [.text (rawText o d)] s1 := by
  unfold rawText
  split at h
  · rename_i ho; cases h; rw [if_pos ho]; exact ⟨rfl, writes_lit _ _⟩
  · rename_i ho; rw [if_neg ho]; exact litOpt_writes h

theorem leaf_element {o : HtmlOpts} {d : NodeData} {p g f : Option NodeData} {st st' : HState} {bare : Bool} {kids : List HPiece}
    (hc : isContainer d.t = false) (hk : st.disableTags = 0) (h : htmlEvent o st ⟨true, d, p, g, f⟩ = .ok st') :
    st'.disableTags = 0 ∧ Writes st (element o (blockedBy o) bare d kids) st' := by
  cases hd : d.t <;> rw [hd] at hc <;> first | exact absurd hc (by decide) | skip
  all_goals simp only [htmlEvent, hd, element] at h ⊢
  · cases h
    refine ⟨by simpa [htmlCodeBlock], ?_⟩
    unfold htmlCodeBlock
    refine (writes_cr _).cons ((writes_open (by simpa)).cons ((writes_tag (by simpa) (tagText_open ?_)).cons
      ((writes_out _ _).cons ((writes_close (by simpa)).cons ((writes_close (by simpa)).cons (writes_cr _))))))
    rw [attrsText_append, attrsText_pos, attrsText_class]
  · have : ∃ r, (if o.safe = true then .ok (st.cr.lit rawOmitted) else st.cr.litOpt d.literal) = Except.ok (ε := PyErr) r ∧ st' = r.cr := by
      split at h
      · rename_i ho; cases h; exact ⟨_, if_pos ho, rfl⟩
      · rename_i ho
        obtain ⟨r, h1, h2⟩ := ok_bind h
        cases h2; exact ⟨r, by rw [if_neg ho]; exact h1, rfl⟩
    obtain ⟨r, h1, h2⟩ := this
    obtain ⟨h3, h4⟩ := raw_writes h1
    subst h2
    exact ⟨by simpa [hk] using h3, (writes_cr _).cons (h4.cons (writes_cr _))⟩
  · cases h; exact ⟨by simpa, (writes_cr _).cons ((writes_tag (by simpa) (tagText_void (attrsText_pos o d))).cons (writes_cr _))⟩
  · cases h; exact ⟨by simpa, writes_out _ _⟩
  · cases h; exact ⟨by simpa, writes_lit _ _⟩
  · cases h; exact ⟨by simpa, (writes_tag hk (tagText_void rfl)).cons (writes_cr _)⟩
  · cases h; exact ⟨by simpa, (writes_open hk).cons ((writes_out _ _).cons (writes_close (by simpa)))⟩
  · obtain ⟨h3, h4⟩ := raw_writes h
    exact ⟨by omega, h4⟩

theorem leaf_description {o : HtmlOpts} {d : NodeData} {p g f : Option NodeData} {st st' : HState} {bare : Bool} {kids : List HPiece}
    (hc : isContainer d.t = false) (hk : 0 < st.disableTags) (h : htmlEvent o st ⟨true, d, p, g, f⟩ = .ok st') :
    st'.disableTags = st.disableTags ∧ Writes st (description o bare d kids) st' := by
  cases hd : d.t <;> rw [hd] at hc <;> first | exact absurd hc (by decide) | skip
  all_goals simp only [htmlEvent, hd, description] at h ⊢
  · cases h
    refine ⟨by simp [htmlCodeBlock], ?_⟩
    unfold htmlCodeBlock
    simp only
    rw [tag_off (by simpa), tag_off (by simpa), tag_off (by simpa), tag_off (by simpa)]
    exact (writes_cr _).cons ((writes_out _ _).cons (writes_cr _))
  · have : ∃ r, (if o.safe = true then .ok (st.cr.lit rawOmitted) else st.cr.litOpt d.literal) = Except.ok (ε := PyErr) r ∧ st' = r.cr := by
      split at h
      · rename_i ho; cases h; exact ⟨_, if_pos ho, rfl⟩
      · rename_i ho
        obtain ⟨r, h1, h2⟩ := ok_bind h
        cases h2; exact ⟨r, by rw [if_neg ho]; exact h1, rfl⟩
    obtain ⟨r, h1, h2⟩ := this
    obtain ⟨h3, h4⟩ := raw_writes h1
    subst h2
    exact ⟨by simpa using h3, (writes_cr _).cons (h4.cons (writes_cr _))⟩
  · cases h; rw [tag_off (by simpa)]; exact ⟨by simp, (writes_cr _).cons (writes_cr _)⟩
  · cases h; exact ⟨by simp, writes_out _ _⟩
  · cases h; exact ⟨by simp, writes_lit _ _⟩
  · cases h; rw [tag_off hk]; exact ⟨by simp, writes_cr _⟩
  · cases h; rw [tag_off hk, tag_off (by simpa)]; exact ⟨by simp, writes_out _ _⟩
  · exact raw_writes h

theorem image_deeper {o : HtmlOpts} {d : NodeData} {p g f : Option NodeData} {st s1 : HState} (hc : isContainer d.t = true)
    (h : htmlEvent o st ⟨true, d, p, g, f⟩ = .ok s1) :
    s1.disableTags = st.disableTags + if d.t = .image then 1 else 0 := by
  have := runEvents_disable [⟨true, d, p, g, f⟩] (o := o) (st := st) (st' := s1) (by rw [runEvents_cons, h]; rfl)
  rw [this]
  by_cases hi : d.t = .image <;> simp [disableDelta, hi]

mutual
/-- The pieces of a tree are written. -/
theorem events_written (o : HtmlOpts) : ∀ (t : Tree) {p g : Option NodeData} {st st' : HState}, 0 ≤ st.disableTags →
    runEvents o st (events p g t) = .ok st' → st'.disableTags = st.disableTags ∧
      Writes st (htmlPieces o (blockedBy o) (decide (0 < st.disableTags)) (tightNode p) (tightNode g) t) st'
  | .node d cs, p, g, st, st', hk, h => by
    rw [events] at h
    rw [htmlPieces]
    by_cases hc : isContainer d.t = true
    · rw [if_pos hc] at h
      obtain ⟨s1, s2, h1, h2, h3⟩ := ok_container h
      have hd := image_deeper hc h1
      obtain ⟨k2, w2⟩ := eventsList_written o cs (by rw [hd]; split <;> omega) h2
      have hz : decide (0 < s1.disableTags) = (decide (0 < st.disableTags) || d.t == .image) := by
        rw [hd, Bool.eq_iff_iff]
        by_cases hi : d.t = .image
        · simp [hi]; omega
        · simp [hi]
      rw [hz] at w2
      by_cases hp : 0 < st.disableTags
      · simp only [hp, decide_true, if_true]
        rw [show tightList d = tightNode (some d) from rfl]
        exact (around_container hc).alt hp h1 k2 (by simpa [hp] using w2) h3
      · have h0 : st.disableTags = 0 := by omega
        simp only [hp, decide_false, Bool.false_eq_true, if_false]
        rw [show tightList d = tightNode (some d) from rfl, h0]
        exact (around_container hc).el h0 h1 k2 (by simpa [hp] using w2) h3
    · rw [if_neg hc] at h
      have hc : isContainer d.t = false := by simpa using hc
      rw [runEvents_cons] at h
      obtain ⟨s1, h1, h⟩ := ok_bind h
      rw [runEvents_nil] at h; cases h
      by_cases hp : 0 < st.disableTags
      · simp only [hp, decide_true, if_true]
        exact leaf_description hc hp h1
      · have h0 : st.disableTags = 0 := by omega
        simp only [hp, decide_false, Bool.false_eq_true, if_false]
        rw [h0]
        exact leaf_element hc h0 h1
theorem eventsList_written (o : HtmlOpts) : ∀ (ts : List Tree) {p g : Option NodeData} {st st' : HState}, 0 ≤ st.disableTags →
    runEvents o st (eventsList p g ts) = .ok st' → st'.disableTags = st.disableTags ∧
      Writes st (htmlPiecesList o (blockedBy o) (decide (0 < st.disableTags)) (tightNode p) (tightNode g) ts) st'
  | [], p, g, st, st', hk, h => by
    rw [eventsList, runEvents_nil] at h; cases h
    exact ⟨rfl, Writes.refl st⟩
  | t :: ts, p, g, st, st', hk, h => by
    rw [eventsList, runEvents_append] at h
    obtain ⟨s1, h1, h2⟩ := ok_bind h
    obtain ⟨k1, w1⟩ := events_written o t hk h1
    obtain ⟨k2, w2⟩ := eventsList_written o ts (by omega) h2
    rw [k1] at k2 w2
    exact ⟨k2, w1.trans w2⟩
end

theorem renderHtml_written {o : HtmlOpts} {t : Tree} {s : Str} (h : renderHtml o t = .ok s) :
    Written [] (htmlPieces o (blockedBy o) false false false t) s := by
  obtain ⟨st, h1, h2⟩ := ok_bind (x := renderWith o 0 t) (f := fun st => .ok st.buf) h
  cases h2
  obtain ⟨-, hw⟩ := events_written o t (p := none) (g := none) (by simp) h1
  obtain ⟨-, w, e, hw⟩ := hw (fun _ => .inl rfl)
  simp only [List.nil_append] at e
  rw [e]; exact hw

end CM
