import Verif.Proofs.Tokens
import Verif.Proofs.Protocol
import Verif.Props.Escape
import Verif.Spec.Render
/-
Lemmas for C07-C09: everything the renderer writes is a balanced sequence of allowed tokens.
-/
set_option linter.unusedSimpArgs false
namespace CM
open Spec

/-- What C09 asks of an attribute. -/
def urlOk (q : Prop) (o : HtmlOpts) (n v : Str) : Prop :=
  q → n = "href".toList ∨ n = "src".toList → o.safe = true → dangerous (xmlDecode v) = false

variable {q : Prop}

/-- White space written by `cr`. -/
def Ws (w : Str) : Prop := w = [] ∨ w = ['\n']

theorem Good.ws {P : Str → Str → Prop} {w : Str} (h : Ws w) : Good P w := by
  apply Good.text
  rcases h with rfl | rfl <;> simp

theorem cr_buf (st : HState) : ∃ w, Ws w ∧ st.cr.buf = st.buf ++ w := by
  unfold HState.cr
  by_cases h : (st.lastOut != ['\n']) = true
  · rw [if_pos h]; exact ⟨['\n'], Or.inr rfl, rfl⟩
  · rw [if_neg h]; exact ⟨[], Or.inl rfl, by simp⟩

theorem tag_buf {st : HState} (h : st.disableTags = 0) (n : Str) (as : Attrs) (sc : Bool) :
    (st.tag n as sc).buf = st.buf ++ HState.tagText n as sc := by
  unfold HState.tag; simp [h]

theorem tag_buf_disabled {st : HState} (h : st.disableTags > 0) (n : Str) (as : Attrs) (sc : Bool) :
    (st.tag n as sc).buf = st.buf := by
  unfold HState.tag; simp [h]

theorem escape_noquote (s : Str) : '"' ∉ escapeXml s := fun h => by
  have := C10_escapeXml_no_special s
  simp_all

theorem escapeOpt_noquote (s : Option Str) : '"' ∉ escapeXmlOpt s := by
  cases s with
  | none => simp [escapeXmlOpt]
  | some s => exact escape_noquote s

theorem escapeOpt_plain (s : Option Str) : ∀ c ∈ escapeXmlOpt s, c ≠ '<' ∧ c ≠ '>' ∧ c ≠ '"' := by
  intro c hc
  cases s with
  | none => simp [escapeXmlOpt] at hc
  | some s =>
    have h := C10_escapeXml_no_special s
    have hc' : c ∈ escapeXml s := hc
    refine ⟨?_, ?_, ?_⟩ <;> rintro rfl <;> simp_all

theorem digitChar_mem (n : Nat) : Nat.digitChar (n % 10) ∈ "0123456789".toList := by
  have h : n % 10 < 10 := Nat.mod_lt _ (by decide)
  generalize n % 10 = k at h
  have : ∀ k : Fin 10, Nat.digitChar k.val ∈ "0123456789".toList := by decide
  exact this ⟨k, h⟩

theorem toDigitsCore_mem (f n : Nat) (acc : Str) (h : ∀ c ∈ acc, c ∈ "0123456789".toList) :
    ∀ c ∈ Nat.toDigitsCore 10 f n acc, c ∈ "0123456789".toList := by
  induction f generalizing n acc with
  | zero => simpa [Nat.toDigitsCore] using h
  | succ f ih =>
    unfold Nat.toDigitsCore
    simp only
    have hc : ∀ c ∈ Nat.digitChar (n % 10) :: acc, c ∈ "0123456789".toList := by
      intro c hc
      rcases List.mem_cons.mp hc with rfl | hc
      · exact digitChar_mem n
      · exact h c hc
    split
    · exact hc
    · exact ih _ _ hc

theorem natToStr_digits (n : Nat) : ∀ c ∈ natToStr n, c ∈ "0123456789".toList :=
  toDigitsCore_mem _ _ _ (by simp)

theorem natToStr_noquote (n : Nat) : '"' ∉ natToStr n := fun h => by
  have := natToStr_digits n _ h
  revert this; decide

theorem sourcepos_noquote (p : (Nat × Nat) × (Nat × Nat)) : '"' ∉ sourceposText p := by
  unfold sourceposText
  simp [natToStr_noquote]

theorem AttrsOk.nil {P : Str → Str → Prop} : AttrsOk P [] := by intro a ha; simp at ha

theorem AttrsOk.append {P : Str → Str → Prop} {as bs : TokAttrs} (ha : AttrsOk P as) (hb : AttrsOk P bs) :
    AttrsOk P (as ++ bs) := by
  intro a h
  rcases List.mem_append.mp h with h | h
  · exact ha a h
  · exact hb a h

theorem AttrsOk.single {P : Str → Str → Prop} {n v : Str} (h1 : n ∈ attributeNames) (h2 : '"' ∉ v)
    (h3 : P n v) : AttrsOk P [(n, v)] := by
  intro a h
  simp only [List.mem_singleton] at h
  subst h; exact ⟨h1, h2, h3⟩

theorem urlOk_other (o : HtmlOpts) {n : Str} (h1 : n ≠ "href".toList) (h2 : n ≠ "src".toList) (v : Str) :
    urlOk q o n v := fun _ h => by rcases h with h | h <;> contradiction

theorem htmlAttrs_ok (o : HtmlOpts) (d : NodeData) : AttrsOk (urlOk q o) (htmlAttrs o d) := by
  unfold htmlAttrs
  cases o.sourcepos
  · exact AttrsOk.nil
  · simp only [if_true]
    cases d.sourcepos with
    | none => exact AttrsOk.nil
    | some p => exact AttrsOk.single (by decide) (sourcepos_noquote p) (urlOk_other o (by decide) (by decide) _)

/-- A destination the code did not reject. -/
theorem urlOk_of_unsafeDest {o : HtmlOpts} {dest : Option Str} (ha : q → ∀ u, dest = some u → Ascii u)
    (h : unsafeDest o dest = .ok false) (n : Str) : urlOk q o n (escapeXmlOpt dest) := by
  intro hq _ hs
  unfold unsafeDest at h
  simp only [hs, if_true] at h
  cases dest with
  | none => simp at h
  | some u =>
    simp only [Except.ok.injEq] at h
    show dangerous (xmlDecode (escapeXml u)) = false
    rw [C10_xmlDecode_escapeXml]
    cases hd : dangerous u with
    | false => rfl
    | true => rw [dangerous_unsafe (ha hq u rfl) hd] at h; simp at h

theorem heading_name {n : Nat} (h1 : 1 ≤ n) (h2 : n ≤ 6) : headingTag (some n) ∈ elementNames := by
  have : ∀ k : Fin 7, 1 ≤ k.val → headingTag (some k.val) ∈ elementNames := by decide
  exact this ⟨n, by omega⟩ h1

/-- What an element's opening and closing events write when tags are enabled. -/
def Brackets (P : Str → Str → Prop) (name : Str) (o : HtmlOpts) (e : Bool → Event) : Prop :=
  name ∈ elementNames ∧
  (∀ st st', st.disableTags = 0 → htmlEvent o st (e true) = .ok st' →
    ∃ w1 as w2, Ws w1 ∧ Ws w2 ∧ AttrsOk P as ∧
      st'.buf = st.buf ++ (w1 ++ (HState.tagText name as false ++ w2))) ∧
  (∀ st st', st.disableTags = 0 → htmlEvent o st (e false) = .ok st' →
    ∃ w1 w2, Ws w1 ∧ Ws w2 ∧
      st'.buf = st.buf ++ (w1 ++ (HState.tagText ('/' :: name) [] false ++ w2)))

/-- Nothing is written. -/
def Silent (o : HtmlOpts) (e : Bool → Event) : Prop :=
  ∀ b st st', htmlEvent o st (e b) = .ok st' → st' = st

/-- The event of a node in its context. -/
def evt (d : NodeData) (p g f : Option NodeData) (b : Bool) : Event := ⟨b, d, p, g, f⟩

theorem container_brackets {o : HtmlOpts} {d : NodeData} (hd : RenderableNode q o d) (p g f : Option NodeData)
    (hc : isContainer d.t = true) (hi : d.t ≠ .image) :
    Silent o (evt d p g f) ∨ ∃ name, Brackets (urlOk q o) name o (evt d p g f) := by
  obtain ⟨n1, n2, n3, n4, n5⟩ := hd
  have open1 : ∀ {st st' : HState} {nm : Str} {as : Attrs}, st.disableTags = 0 → AttrsOk (urlOk q o) as →
      st' = st.tag nm as → ∃ w1 as w2, Ws w1 ∧ Ws w2 ∧ AttrsOk (urlOk q o) as ∧
        st'.buf = st.buf ++ (w1 ++ (HState.tagText nm as false ++ w2)) := by
    rintro st _ nm as h0 ha rfl
    exact ⟨[], as, [], Or.inl rfl, Or.inl rfl, ha, by simp [tag_buf h0]⟩
  have open2 : ∀ {st st' : HState} {nm : Str} {as : Attrs}, st.disableTags = 0 → AttrsOk (urlOk q o) as →
      st' = st.cr.tag nm as → ∃ w1 as w2, Ws w1 ∧ Ws w2 ∧ AttrsOk (urlOk q o) as ∧
        st'.buf = st.buf ++ (w1 ++ (HState.tagText nm as false ++ w2)) := by
    rintro st _ nm as h0 ha rfl
    obtain ⟨w, hw, e⟩ := cr_buf st
    exact ⟨w, as, [], hw, Or.inl rfl, ha, by rw [tag_buf (by simpa using h0), e]; simp⟩
  have open3 : ∀ {st st' : HState} {nm : Str} {as : Attrs}, st.disableTags = 0 → AttrsOk (urlOk q o) as →
      st' = (st.cr.tag nm as).cr → ∃ w1 as w2, Ws w1 ∧ Ws w2 ∧ AttrsOk (urlOk q o) as ∧
        st'.buf = st.buf ++ (w1 ++ (HState.tagText nm as false ++ w2)) := by
    rintro st _ nm as h0 ha rfl
    obtain ⟨w, hw, e⟩ := cr_buf st
    obtain ⟨w2, hw2, e2⟩ := cr_buf (st.cr.tag nm as)
    exact ⟨w, as, w2, hw, hw2, ha, by rw [e2, tag_buf (by simpa using h0), e]; simp⟩
  have close1 : ∀ {st st' : HState} {nm : Str}, st.disableTags = 0 →
      st' = st.tag nm → ∃ w1 w2, Ws w1 ∧ Ws w2 ∧
        st'.buf = st.buf ++ (w1 ++ (HState.tagText nm [] false ++ w2)) := by
    rintro st _ nm h0 rfl
    exact ⟨[], [], Or.inl rfl, Or.inl rfl, by simp [tag_buf h0]⟩
  have close2 : ∀ {st st' : HState} {nm : Str}, st.disableTags = 0 →
      st' = (st.tag nm).cr → ∃ w1 w2, Ws w1 ∧ Ws w2 ∧
        st'.buf = st.buf ++ (w1 ++ (HState.tagText nm [] false ++ w2)) := by
    rintro st _ nm h0 rfl
    obtain ⟨w2, hw2, e2⟩ := cr_buf (st.tag nm)
    exact ⟨[], w2, Or.inl rfl, hw2, by rw [e2, tag_buf h0]; simp⟩
  have close3 : ∀ {st st' : HState} {nm : Str}, st.disableTags = 0 →
      st' = (st.cr.tag nm).cr → ∃ w1 w2, Ws w1 ∧ Ws w2 ∧
        st'.buf = st.buf ++ (w1 ++ (HState.tagText nm [] false ++ w2)) := by
    rintro st _ nm h0 rfl
    obtain ⟨w, hw, e⟩ := cr_buf st
    obtain ⟨w2, hw2, e2⟩ := cr_buf (st.cr.tag nm)
    exact ⟨w, w2, hw, hw2, by rw [e2, tag_buf (by simpa using h0), e]; simp⟩
  cases ht : d.t <;> simp only [ht, isContainer, Bool.false_eq_true, ne_eq, not_true_eq_false,
    not_false_eq_true] at hc hi n1 n2
  case document =>
    left; intro b st st' h
    simp [htmlEvent, evt, ht] at h; exact h.symm
  case emph =>
    right; refine ⟨lit "em", by decide, ?_, ?_⟩ <;> intro st st' h0 h <;> simp [htmlEvent, evt, ht] at h
    · exact open1 h0 AttrsOk.nil h.symm
    · exact close1 h0 h.symm
  case strong =>
    right; refine ⟨lit "strong", by decide, ?_, ?_⟩ <;> intro st st' h0 h <;> simp [htmlEvent, evt, ht] at h
    · exact open1 h0 AttrsOk.nil h.symm
    · exact close1 h0 h.symm
  case heading =>
    obtain ⟨n, hl, h1, h6⟩ := n3 ht
    right; refine ⟨headingTag d.level, by rw [hl]; exact heading_name h1 h6, ?_, ?_⟩ <;>
      intro st st' h0 h <;> simp [htmlEvent, evt, ht, htmlHeading] at h
    · exact open2 h0 (htmlAttrs_ok o d) h.symm
    · exact close2 h0 h.symm
  case blockQuote =>
    right; refine ⟨lit "blockquote", by decide, ?_, ?_⟩ <;> intro st st' h0 h <;>
      simp [htmlEvent, evt, ht] at h
    · exact open3 h0 (htmlAttrs_ok o d) h.symm
    · exact close3 h0 h.symm
  case item =>
    right; refine ⟨lit "li", by decide, ?_, ?_⟩ <;> intro st st' h0 h <;>
      simp [htmlEvent, evt, ht] at h
    · exact open1 h0 (htmlAttrs_ok o d) h.symm
    · exact close2 h0 h.symm
  case link =>
    right; refine ⟨lit "a", by decide, ?_, ?_⟩ <;> intro st st' h0 h <;>
      simp only [htmlEvent, evt, ht, htmlLink, if_true, if_false, Bool.false_eq_true, Except.ok.injEq] at h
    · cases hu : unsafeDest o d.destination with
      | error => simp [hu, bind, Except.bind] at h
      | ok bad =>
        simp only [hu, bind, Except.bind, pure, Except.pure, Except.ok.injEq] at h
        refine open1 h0 ?_ h.symm
        have hb : AttrsOk (urlOk q o) (if bad = true then htmlAttrs o d else
            htmlAttrs o d ++ [(lit "href", escapeXmlOpt d.destination)]) := by
          cases bad
          · refine (htmlAttrs_ok o d).append (AttrsOk.single (by decide) (escapeOpt_noquote _) ?_)
            intro hq hn hs
            exact urlOk_of_unsafeDest (fun hq u hh => n5 hq hs u hh) hu _ hq hn hs
          · exact htmlAttrs_ok o d
        have hfin : ∀ (b : Bool) (as : Attrs), AttrsOk (urlOk q o) as →
            AttrsOk (urlOk q o) (if b = true then as ++ [(lit "title", escapeXmlOpt d.title)] else as) := by
          intro b as ha
          cases b
          · exact ha
          · exact ha.append (AttrsOk.single (by decide) (escapeOpt_noquote _)
              (urlOk_other o (by decide) (by decide) _))
        exact hfin (truthy d.title) _ hb
    · exact close1 h0 h.symm
  case list =>
    cases hl : d.listData with
    | none =>
      left; intro b st st' h
      simp [htmlEvent, evt, ht, htmlList, hl] at h
    | some l =>
      right
      refine ⟨if l.type == .bullet then lit "ul" else lit "ol", ?_, ?_, ?_⟩
      · cases l.type <;> decide
      · intro st st' h0 h
        simp only [htmlEvent, evt, ht, htmlList, hl, if_true, Except.ok.injEq] at h
        refine open3 h0 ?_ h.symm
        cases l.start with
        | none => exact htmlAttrs_ok o d
        | some n =>
          simp only
          split
          · exact (htmlAttrs_ok o d).append (AttrsOk.single (by decide) (natToStr_noquote _)
              (urlOk_other o (by decide) (by decide) _))
          · exact htmlAttrs_ok o d
      · intro st st' h0 h
        simp only [htmlEvent, evt, ht, htmlList, hl, if_false, Bool.false_eq_true, Except.ok.injEq] at h
        exact close3 h0 h.symm
  case paragraph =>
    cases p with
    | none =>
      left; intro b st st' h
      simp [htmlEvent, evt, ht, htmlParagraph_eq] at h
    | some p =>
      cases hg : tightOf g with
      | error er =>
        left; intro b st st' h
        simp [htmlEvent, evt, ht, htmlParagraph_eq, hg, bind, Except.bind] at h
      | ok tight =>
        cases tight with
        | true =>
          left; intro b st st' h
          simp [htmlEvent, evt, ht, htmlParagraph_eq, hg, bind, Except.bind, pure, Except.pure] at h
          exact h.symm
        | false =>
          right; refine ⟨lit "p", by decide, ?_, ?_⟩ <;> intro st st' h0 h <;>
            simp [htmlEvent, evt, ht, htmlParagraph_eq, hg, bind, Except.bind, pure, Except.pure] at h
          · exact open2 h0 (htmlAttrs_ok o d) h.symm
          · exact close2 h0 h.symm

/-- Leaf nodes write balanced output. -/
theorem leaf_good {o : HtmlOpts} {d : NodeData} (hd : RenderableNode q o d) (hsb : ∀ c ∈ o.softbreak, c ≠ '<' ∧ c ≠ '>' ∧ c ≠ '"')
    (p g f : Option NodeData) (hc : isContainer d.t = false) {st st' : HState} (h0 : st.disableTags = 0)
    (h : htmlEvent o st (evt d p g f true) = .ok st') :
    ∃ out, Good (urlOk q o) out ∧ st'.buf = st.buf ++ out := by
  obtain ⟨n1, n2, n3, n4, n5⟩ := hd
  have code : ∀ (nm : Str) (as : Attrs) (s : Option Str), nm ∈ elementNames → AttrsOk (urlOk q o) as →
      ∃ out, Good (urlOk q o) out ∧ ∀ st : HState, st.disableTags = 0 →
        (((st.tag nm as).out s).tag ('/' :: nm)).buf = st.buf ++ out := by
    intro nm as s hn ha
    refine ⟨_, Good.elem hn ha (Good.text (escapeOpt_plain s)), ?_⟩
    intro st h0
    rw [tag_buf (by simpa using h0)]
    show ((st.tag nm as).buf ++ escapeXmlOpt s) ++ _ = _
    rw [tag_buf h0]; simp
  cases ht : d.t <;> simp only [ht, isContainer, Bool.true_eq_false] at hc
  case text =>
    simp [htmlEvent, evt, ht] at h; subst h
    exact ⟨_, Good.text (escapeOpt_plain d.literal), rfl⟩
  case softbreak =>
    simp [htmlEvent, evt, ht] at h; subst h
    exact ⟨_, Good.text hsb, rfl⟩
  case linebreak =>
    simp [htmlEvent, evt, ht] at h; subst h
    obtain ⟨w2, hw2, e2⟩ := cr_buf (st.tag (lit "br") [] true)
    refine ⟨_, (Good.void (n := lit "br") (by decide) AttrsOk.nil).append (Good.ws hw2), ?_⟩
    rw [e2, tag_buf h0]; simp
  case code =>
    simp [htmlEvent, evt, ht] at h; subst h
    obtain ⟨out, hg, e⟩ := code (lit "code") [] d.literal (by decide) AttrsOk.nil
    exact ⟨out, hg, e st h0⟩
  case thematicBreak =>
    simp [htmlEvent, evt, ht] at h; subst h
    obtain ⟨w1, hw1, e1⟩ := cr_buf st
    obtain ⟨w2, hw2, e2⟩ := cr_buf (st.cr.tag (lit "hr") (htmlAttrs o d) true)
    refine ⟨_, (Good.ws hw1).append ((Good.void (n := lit "hr") (by decide) (htmlAttrs_ok o d)).append
      (Good.ws hw2)), ?_⟩
    rw [e2, tag_buf (by simpa using h0), e1]; simp
  case codeBlock =>
    simp [htmlEvent, evt, ht, htmlCodeBlock] at h; subst h
    have hcl : AttrsOk (urlOk q o) (codeClass d.info) := by
      unfold codeClass
      split
      · exact AttrsOk.nil
      · split
        · exact AttrsOk.nil
        · exact AttrsOk.single (by decide) (by
            rw [List.mem_append, not_or]; exact ⟨by decide, escape_noquote _⟩) (urlOk_other o (by decide) (by decide) _)
    obtain ⟨out, hg, e⟩ := code (lit "code") (htmlAttrs o d ++ codeClass d.info) d.literal (by decide)
      ((htmlAttrs_ok o d).append hcl)
    obtain ⟨w1, hw1, e1⟩ := cr_buf st
    have hg2 := Good.elem (n := lit "pre") (by decide) (AttrsOk.nil (P := urlOk q o)) hg
    have e3 := e (st.cr.tag (lit "pre")) (by simpa using h0)
    obtain ⟨w2, hw2, e2⟩ := cr_buf (((((st.cr.tag (lit "pre")).tag (lit "code")
      (htmlAttrs o d ++ codeClass d.info)).out d.literal).tag (lit "/code")).tag (lit "/pre"))
    refine ⟨_, (Good.ws hw1).append (hg2.append (Good.ws hw2)), ?_⟩
    rw [e2, tag_buf (by simpa using h0), show lit "/code" = '/' :: lit "code" from rfl, e3,
      tag_buf (by simpa using h0), e1]
    simp; rfl
  case htmlInline =>
    have hs : o.safe = true := by
      cases hs : o.safe
      · exact absurd ht (n4 hs).1
      · rfl
    simp [htmlEvent, evt, ht, hs] at h; subst h
    exact ⟨_, Good.comment, rfl⟩
  case htmlBlock =>
    have hs : o.safe = true := by
      cases hs : o.safe
      · exact absurd ht (n4 hs).2
      · rfl
    simp [htmlEvent, evt, ht, hs, bind, Except.bind, pure, Except.pure] at h; subst h
    obtain ⟨w1, hw1, e1⟩ := cr_buf st
    obtain ⟨w2, hw2, e2⟩ := cr_buf (st.cr.lit rawOmitted)
    refine ⟨_, (Good.ws hw1).append (Good.comment.append (Good.ws hw2)), ?_⟩
    rw [e2]
    show st.cr.buf ++ rawOmitted ++ w2 = _
    rw [e1]; simp

/-! ### Inside an image: no quotation mark -/

theorem disabled_event {o : HtmlOpts} {e : Event} (hd : RenderableNode q o e.node) (hsb : '"' ∉ o.softbreak)
    {st st' : HState} (h0 : st.disableTags > 0) (h1 : st.disableTags + disableDelta e > 0)
    (h : htmlEvent o st e = .ok st') : ∃ out, '"' ∉ out ∧ st'.buf = st.buf ++ out := by
  obtain ⟨en, d, p, g, f⟩ := e
  obtain ⟨n1, n2, n3, n4, n5⟩ := hd
  have hcr : ∀ st : HState, ∃ w, '"' ∉ w ∧ st.cr.buf = st.buf ++ w := by
    intro st
    obtain ⟨w, hw, e⟩ := cr_buf st
    exact ⟨w, by rcases hw with rfl | rfl <;> simp, e⟩
  have hcr2 : ∀ (st : HState) (nm : Str) (as : Attrs) (sc : Bool), st.disableTags > 0 →
      ∃ w, '"' ∉ w ∧ (st.cr.tag nm as sc).cr.buf = st.buf ++ w := by
    intro st nm as sc h0
    obtain ⟨w1, hw1, e1⟩ := hcr st
    obtain ⟨w2, hw2, e2⟩ := hcr (st.cr.tag nm as sc)
    exact ⟨w1 ++ w2, by simp [hw1, hw2], by rw [e2, tag_buf_disabled (by simpa using h0), e1]; simp⟩
  have hcrt : ∀ (st : HState) (nm : Str) (as : Attrs) (sc : Bool), st.disableTags > 0 →
      ∃ w, '"' ∉ w ∧ (st.cr.tag nm as sc).buf = st.buf ++ w := by
    intro st nm as sc h0
    obtain ⟨w1, hw1, e1⟩ := hcr st
    exact ⟨w1, hw1, by rw [tag_buf_disabled (by simpa using h0), e1]⟩
  have htcr : ∀ (st : HState) (nm : Str) (as : Attrs) (sc : Bool), st.disableTags > 0 →
      ∃ w, '"' ∉ w ∧ (st.tag nm as sc).cr.buf = st.buf ++ w := by
    intro st nm as sc h0
    obtain ⟨w2, hw2, e2⟩ := hcr (st.tag nm as sc)
    exact ⟨w2, hw2, by rw [e2, tag_buf_disabled h0]⟩
  have ht1 : ∀ (st : HState) (nm : Str) (as : Attrs) (sc : Bool), st.disableTags > 0 →
      ∃ w, '"' ∉ w ∧ (st.tag nm as sc).buf = st.buf ++ w := by
    intro st nm as sc h0
    exact ⟨[], by simp, by rw [tag_buf_disabled h0]; simp⟩
  have omitted : '"' ∉ rawOmitted := by decide
  cases ht : d.t <;> simp only [ht, ne_eq, not_true_eq_false, not_false_eq_true] at n1 n2
  case document => simp [htmlEvent, ht] at h; subst h; exact ⟨[], by simp, by simp⟩
  case text =>
    simp [htmlEvent, ht] at h; subst h
    exact ⟨_, escapeOpt_noquote d.literal, rfl⟩
  case softbreak => simp [htmlEvent, ht] at h; subst h; exact ⟨_, hsb, rfl⟩
  case linebreak => simp [htmlEvent, ht] at h; subst h; exact htcr _ _ _ _ h0
  case emph => simp [htmlEvent, ht] at h; subst h; exact ht1 _ _ _ _ h0
  case strong => simp [htmlEvent, ht] at h; subst h; exact ht1 _ _ _ _ h0
  case heading =>
    simp [htmlEvent, ht, htmlHeading] at h; subst h
    cases en
    · exact htcr _ _ _ _ h0
    · exact hcrt _ _ _ _ h0
  case thematicBreak => simp [htmlEvent, ht] at h; subst h; exact hcr2 _ _ _ _ h0
  case blockQuote =>
    cases en <;> simp [htmlEvent, ht] at h <;> subst h <;> exact hcr2 _ _ _ _ h0
  case item =>
    cases en <;> simp [htmlEvent, ht] at h <;> subst h
    · exact htcr _ _ _ _ h0
    · exact ht1 _ _ _ _ h0
  case code =>
    simp [htmlEvent, ht] at h; subst h
    refine ⟨_, escapeOpt_noquote d.literal, ?_⟩
    rw [tag_buf_disabled (by simpa using h0)]
    show (st.tag (lit "code")).buf ++ _ = _
    rw [tag_buf_disabled h0]
  case codeBlock =>
    simp [htmlEvent, ht, htmlCodeBlock] at h; subst h
    obtain ⟨w1, hw1, e1⟩ := hcr st
    obtain ⟨w2, hw2, e2⟩ := hcr (((((st.cr.tag (lit "pre")).tag (lit "code")
      (htmlAttrs o d ++ codeClass d.info)).out d.literal).tag (lit "/code")).tag (lit "/pre"))
    refine ⟨w1 ++ (escapeXmlOpt d.literal ++ w2), by simp [hw1, hw2, escapeOpt_noquote], ?_⟩
    rw [e2, tag_buf_disabled (by simpa using h0), tag_buf_disabled (by simpa using h0)]
    show ((st.cr.tag (lit "pre")).tag (lit "code") (htmlAttrs o d ++ codeClass d.info)).buf ++ _ ++ _ = _
    rw [tag_buf_disabled (by simpa using h0), tag_buf_disabled (by simpa using h0), e1]
    simp
  case list =>
    cases hl : d.listData with
    | none => simp [htmlEvent, ht, htmlList, hl] at h
    | some l =>
      cases en <;> simp only [htmlEvent, ht, htmlList, hl, Bool.false_eq_true, if_false, if_true,
        Except.ok.injEq] at h <;> subst h <;> exact hcr2 _ _ _ _ h0
  case paragraph =>
    cases p with
    | none => simp [htmlEvent, ht, htmlParagraph_eq] at h
    | some p =>
      cases hg : tightOf g with
      | error er => simp [htmlEvent, ht, htmlParagraph_eq, hg, bind, Except.bind] at h
      | ok tight =>
        cases tight <;> cases en <;>
          simp [htmlEvent, ht, htmlParagraph_eq, hg, bind, Except.bind, pure, Except.pure] at h <;> subst h
        · exact htcr _ _ _ _ h0
        · exact hcrt _ _ _ _ h0
        · exact ⟨[], by simp, by simp⟩
        · exact ⟨[], by simp, by simp⟩
  case link =>
    cases en
    · simp [htmlEvent, ht, htmlLink] at h; subst h; exact ht1 _ _ _ _ h0
    · simp only [htmlEvent, ht, htmlLink, if_true] at h
      cases hu : unsafeDest o d.destination with
      | error => simp [hu, bind, Except.bind] at h
      | ok bad =>
        simp only [hu, bind, Except.bind, pure, Except.pure, Except.ok.injEq] at h
        subst h; exact ht1 _ _ _ _ h0
  case image =>
    simp only [disableDelta, ht, if_true] at h1
    have hne : (st.disableTags == 0) = false := by simp; omega
    cases en
    · simp only [Bool.false_eq_true, if_false] at h1
      have hne' : (st.disableTags - 1 == 0) = false := by simp; omega
      simp [htmlEvent, ht, htmlImage, hne'] at h; subst h
      exact ⟨[], by simp, by simp⟩
    · simp [htmlEvent, ht, htmlImage, hne, bind, Except.bind, pure, Except.pure] at h; subst h
      exact ⟨[], by simp, by simp⟩
  case htmlInline =>
    have hs : o.safe = true := by
      cases hs : o.safe
      · exact absurd ht (n4 hs).1
      · rfl
    simp [htmlEvent, ht, hs] at h; subst h
    exact ⟨_, omitted, rfl⟩
  case htmlBlock =>
    have hs : o.safe = true := by
      cases hs : o.safe
      · exact absurd ht (n4 hs).2
      · rfl
    simp [htmlEvent, ht, hs, bind, Except.bind, pure, Except.pure] at h; subst h
    obtain ⟨w1, hw1, e1⟩ := hcr st
    obtain ⟨w2, hw2, e2⟩ := hcr (st.cr.lit rawOmitted)
    refine ⟨w1 ++ (rawOmitted ++ w2), by simp [hw1, hw2, omitted], ?_⟩
    rw [e2]
    show st.cr.buf ++ rawOmitted ++ w2 = _
    rw [e1]; simp

theorem runEvents_ok_cons {o : HtmlOpts} {st st' : HState} {e : Event} {es : List Event}
    (h : runEvents o st (e :: es) = .ok st') :
    ∃ st1, htmlEvent o st e = .ok st1 ∧ runEvents o st1 es = .ok st' := by
  rw [runEvents_cons] at h
  cases hx : htmlEvent o st e with
  | error => rw [hx] at h; simp [Except.bind] at h
  | ok st1 => rw [hx] at h; exact ⟨st1, rfl, h⟩

theorem runEvents_ok_append {o : HtmlOpts} {st st' : HState} {es fs : List Event}
    (h : runEvents o st (es ++ fs) = .ok st') :
    ∃ st1, runEvents o st es = .ok st1 ∧ runEvents o st1 fs = .ok st' := by
  rw [runEvents_append] at h
  cases hx : runEvents o st es with
  | error => rw [hx] at h; simp [Except.bind] at h
  | ok st1 => rw [hx] at h; exact ⟨st1, rfl, h⟩

theorem runEvents_ok_single {o : HtmlOpts} {st st' : HState} {e : Event}
    (h : runEvents o st [e] = .ok st') : htmlEvent o st e = .ok st' := by
  obtain ⟨st1, h1, h2⟩ := runEvents_ok_cons h
  rw [runEvents_nil] at h2
  simp only [Except.ok.injEq] at h2; subst h2; exact h1

mutual
theorem disabled_tree {o : HtmlOpts} (hsb : '"' ∉ o.softbreak) (p g : Option NodeData) : ∀ (t : Tree),
    AllNodes (RenderableNode q o) t → ∀ st st' : HState, st.disableTags > 0 →
    runEvents o st (events p g t) = .ok st' → ∃ out, '"' ∉ out ∧ st'.buf = st.buf ++ out
  | .node d cs => by
    intro hall st st' h0 h
    obtain ⟨hd, hcs⟩ := hall
    unfold events at h
    simp only at h
    split at h
    · obtain ⟨st1, h1, h⟩ := runEvents_ok_cons h
      obtain ⟨st2, h2, h⟩ := runEvents_ok_append h
      have h3 := runEvents_ok_single h
      have k1 := htmlEvent_disable h1
      have k2 := runEvents_disable _ h2
      rw [eventsList_delta] at k2
      simp only [disableDelta, if_true] at k1
      have p1 : st1.disableTags > 0 := by rw [k1]; split <;> omega
      obtain ⟨o1, q1, e1⟩ := disabled_event hd hsb h0 (by
        simp only [disableDelta, if_true]; rw [k1] at p1; exact p1) h1
      obtain ⟨o2, q2, e2⟩ := disabled_list hsb (some d) p cs hcs st1 st2 p1 h2
      obtain ⟨o3, q3, e3⟩ := disabled_event (e := ⟨false, d, p, g, cs.head?.map (·.data)⟩) hd hsb
        (st := st2) (by omega) (by
          simp only [disableDelta, Bool.false_eq_true, if_false]
          split
          · rename_i hi; rw [if_pos hi] at k1; omega
          · rename_i hi; rw [if_neg hi] at k1; omega) h3
      exact ⟨o1 ++ (o2 ++ o3), by simp [q1, q2, q3], by rw [e3, e2, e1]; simp⟩
    · have h1 := runEvents_ok_single h
      rename_i hc
      refine disabled_event hd hsb h0 ?_ h1
      simp only [disableDelta]
      split
      · simp; omega
      · omega
theorem disabled_list {o : HtmlOpts} (hsb : '"' ∉ o.softbreak) (p g : Option NodeData) : ∀ (ts : List Tree),
    AllNodesList (RenderableNode q o) ts → ∀ st st' : HState, st.disableTags > 0 →
    runEvents o st (eventsList p g ts) = .ok st' → ∃ out, '"' ∉ out ∧ st'.buf = st.buf ++ out
  | [] => by
    intro _ st st' _ h
    rw [show eventsList p g [] = [] from rfl, runEvents_nil] at h
    simp only [Except.ok.injEq] at h; subst h
    exact ⟨[], by simp, by simp⟩
  | t :: ts => by
    intro hall st st' h0 h
    obtain ⟨ht, hts⟩ := hall
    obtain ⟨st1, h1, h2⟩ := runEvents_ok_append h
    have k1 := runEvents_disable _ h1
    rw [events_delta] at k1
    obtain ⟨o1, q1, e1⟩ := disabled_tree hsb p g t ht st st1 h0 h1
    obtain ⟨o2, q2, e2⟩ := disabled_list hsb p g ts hts st1 st' (by omega) h2
    exact ⟨o1 ++ o2, by simp [q1, q2], by rw [e2, e1]; simp⟩
end

theorem image_enter {o : HtmlOpts} {d : NodeData} (hd : RenderableNode q o d) {p g f : Option NodeData}
    (ht : d.t = .image) {st st' : HState} (h0 : st.disableTags = 0)
    (h : htmlEvent o st ⟨true, d, p, g, f⟩ = .ok st') :
    ∃ v, '"' ∉ v ∧ urlOk q o (lit "src") v ∧ st'.disableTags = 1 ∧
      st'.buf = st.buf ++ (lit "<img src=\"" ++ (v ++ lit "\" alt=\"")) := by
  have hz : (st.disableTags == 0) = true := by simp [h0]
  simp only [htmlEvent, ht, htmlImage, if_true, hz] at h
  cases hu : unsafeDest o d.destination with
  | error => simp [hu, bind, Except.bind] at h
  | ok bad =>
    cases bad
    · simp [hu, bind, Except.bind, pure, Except.pure] at h
      subst h
      refine ⟨escapeXmlOpt d.destination, escapeOpt_noquote _, ?_, by simp [HState.lit, h0], by
        simp [HState.lit]⟩
      intro hq hn hs
      exact urlOk_of_unsafeDest (fun hq u hh => hd.2.2.2.2 hq hs u hh) hu _ hq hn hs
    · simp [hu, bind, Except.bind, pure, Except.pure] at h
      subst h
      exact ⟨[], by simp, fun _ _ _ => by decide, by simp [HState.lit, h0], by simp [HState.lit]; rfl⟩

theorem image_leave {o : HtmlOpts} {d : NodeData} {p g f : Option NodeData}
    (ht : d.t = .image) {st st' : HState} (h0 : st.disableTags = 1)
    (h : htmlEvent o st ⟨false, d, p, g, f⟩ = .ok st') :
    st'.buf = st.buf ++ lit "\" />" ∨
      ∃ v, '"' ∉ v ∧ st'.buf = st.buf ++ (lit "\" title=\"" ++ (v ++ lit "\" />")) := by
  have hz : (st.disableTags - 1 == 0) = true := by simp [h0]
  simp only [htmlEvent, ht, htmlImage, if_false, hz, if_true, Bool.false_eq_true, Except.ok.injEq] at h
  subst h
  cases truthy d.title
  · left; rfl
  · right; exact ⟨escapeXmlOpt d.title, escapeOpt_noquote _, by simp [HState.lit]⟩

mutual
theorem good_tree {o : HtmlOpts} (hsb : ∀ c ∈ o.softbreak, c ≠ '<' ∧ c ≠ '>' ∧ c ≠ '"')
    (p g : Option NodeData) : ∀ (t : Tree),
    AllNodes (RenderableNode q o) t → ∀ st st' : HState, st.disableTags = 0 →
    runEvents o st (events p g t) = .ok st' → ∃ out, Good (urlOk q o) out ∧ st'.buf = st.buf ++ out
  | .node d cs => by
    intro hall st st' h0 h
    obtain ⟨hd, hcs⟩ := hall
    unfold events at h
    simp only at h
    have hsb' : '"' ∉ o.softbreak := fun hq => (hsb _ hq).2.2 rfl
    split at h
    · rename_i hc
      obtain ⟨st1, h1, h⟩ := runEvents_ok_cons h
      obtain ⟨st2, h2, h⟩ := runEvents_ok_append h
      have h3 := runEvents_ok_single h
      have k1 := htmlEvent_disable h1
      have k2 := runEvents_disable _ h2
      rw [eventsList_delta] at k2
      by_cases hi : d.t = .image
      · obtain ⟨v, qv, uv, z1, e1⟩ := image_enter hd hi h0 h1
        obtain ⟨alt, qa, e2⟩ := disabled_list hsb' (some d) p cs hcs st1 st2 (by omega) h2
        rcases image_leave hi (by omega) h3 with e3 | ⟨v3, q3, e3⟩
        · refine ⟨_, Good.void (n := lit "img") (as := [(lit "src", v), (lit "alt", alt)]) (by decide) ?_, ?_⟩
          · exact (AttrsOk.single (by decide) qv uv).append
              (AttrsOk.single (by decide) qa (urlOk_other o (by decide) (by decide) _))
          · rw [e3, e2, e1]; simp [HState.tagText, lit]
        · refine ⟨_, Good.void (n := lit "img") (as := [(lit "src", v), (lit "alt", alt), (lit "title", v3)])
            (by decide) ?_, ?_⟩
          · exact (AttrsOk.single (by decide) qv uv).append
              ((AttrsOk.single (by decide) qa (urlOk_other o (by decide) (by decide) _)).append
                (AttrsOk.single (by decide) q3 (urlOk_other o (by decide) (by decide) _)))
          · rw [e3, e2, e1]; simp [HState.tagText, lit]
      · simp only [disableDelta, if_neg hi] at k1
        have z1 : st1.disableTags = 0 := by omega
        have z2 : st2.disableTags = 0 := by omega
        obtain ⟨inner, gi, e2⟩ := good_list hsb (some d) p cs hcs st1 st2 z1 h2
        rcases container_brackets hd p g (cs.head?.map (·.data)) hc hi with hs | ⟨name, hn, ho, hcl⟩
        · have s1 := hs true _ _ h1
          have s3 := hs false _ _ h3
          subst s1 s3
          exact ⟨inner, gi, e2⟩
        · obtain ⟨w1, as, w2, q1, q2, qa, e1⟩ := ho _ _ h0 h1
          obtain ⟨w3, w4, q3, q4, e3⟩ := hcl _ _ z2 h3
          have g2 := Good.elem hn qa ((Good.ws q2).append (gi.append (Good.ws q3)))
          refine ⟨_, (Good.ws q1).append (g2.append (Good.ws q4)), ?_⟩
          rw [e3, e2, e1]; simp
    · rename_i hc
      exact leaf_good hd hsb p g _ (by simpa using hc) h0 (runEvents_ok_single h)
theorem good_list {o : HtmlOpts} (hsb : ∀ c ∈ o.softbreak, c ≠ '<' ∧ c ≠ '>' ∧ c ≠ '"')
    (p g : Option NodeData) : ∀ (ts : List Tree),
    AllNodesList (RenderableNode q o) ts → ∀ st st' : HState, st.disableTags = 0 →
    runEvents o st (eventsList p g ts) = .ok st' → ∃ out, Good (urlOk q o) out ∧ st'.buf = st.buf ++ out
  | [] => by
    intro _ st st' _ h
    rw [show eventsList p g [] = [] from rfl, runEvents_nil] at h
    simp only [Except.ok.injEq] at h; subst h
    exact ⟨[], Good.nil, by simp⟩
  | t :: ts => by
    intro hall st st' h0 h
    obtain ⟨ht, hts⟩ := hall
    obtain ⟨st1, h1, h2⟩ := runEvents_ok_append h
    have k1 := runEvents_disable _ h1
    rw [events_delta] at k1
    obtain ⟨o1, q1, e1⟩ := good_tree hsb p g t ht st st1 h0 h1
    obtain ⟨o2, q2, e2⟩ := good_list hsb p g ts hts st1 st' (by omega) h2
    exact ⟨o1 ++ o2, q1.append q2, by rw [e2, e1]; simp⟩
end

theorem renderHtml_good {o : HtmlOpts} (hsb : ∀ c ∈ o.softbreak, c ≠ '<' ∧ c ≠ '>' ∧ c ≠ '"')
    {t : Tree} (ht : AllNodes (RenderableNode q o) t) {out : Str} (h : renderHtml o t = .ok out) :
    Good (urlOk q o) out := by
  unfold renderHtml renderWith at h
  cases hx : runEvents o ⟨[], ['\n'], 0⟩ (events none none t) with
  | error =>
    simp only [runEvents] at hx
    rw [hx] at h; simp [bind, Except.bind] at h
  | ok st =>
    obtain ⟨out', g, e⟩ := good_tree hsb none none t ht _ _ rfl hx
    simp only [runEvents] at hx
    rw [hx] at h
    simp only [bind, Except.bind, pure, Except.pure, Except.ok.injEq] at h
    subst h; rw [e]; exact g

end CM
