import Verif.Proofs.Blanks
/-
Runs over the lines of a block quote (C57).
-/
namespace CM
open Spec

theorem shows_top {sm : Reading} {o : HtmlOpts} {e : NodeData} {cs : List Tree} {bs : List Blk} {b : Blk} (he : (e.t == .paragraph || e.t == .heading) = false)
    (h : Shows sm o cs bs) (hr : ∀ ys, List.Forall₂ (Rend o) ys bs → Rend o (.node e ys) b) : Shows sm o [.node e cs] [b] := by
  obtain ⟨ys, h1, h2⟩ := h
  refine ⟨[.node e ys], ?_, .cons (hr ys h2) .nil⟩
  simp only [processInlinesList, processInlines, h1, he, bind, Except.bind, pure, Except.pure, Bool.false_eq_true, if_false]

theorem rend_quote {o : HtmlOpts} (ho : o.sourcepos = false) {e : NodeData} (he : e.t = .blockQuote) {ys : List Tree} {bs : List Blk}
    (h : List.Forall₂ (Rend o) ys bs) : Rend o (.node e ys) ⟨.quote, "<blockquote>\n".toList ++ docHtml bs ++ "</blockquote>\n".toList⟩ := by
  refine rend_of_render ho (d := docNode) (by simp) he (by show e.t ∈ _; rw [he]; decide) rfl ?_
  have hk : ∀ c ∈ ys, c.kind ∈ topLevelKinds := by
    intro c hc
    obtain ⟨b, _, hb⟩ := List.forall₂_iff_get.1 h |>.2 |> fun hh => (by
      obtain ⟨i, hi, rfl⟩ := List.mem_iff_getElem.1 hc
      exact ⟨bs[i]'(by rw [← h.length_eq]; exact hi), trivial, hh i hi (by rw [← h.length_eq]; exact hi)⟩ : ∃ b, True ∧ Rend o c b)
    exact rend_top hb
  rw [quote_render ho (d := docNode) rfl rfl he rfl hk, rends_doc ho rfl h]
  rfl

theorem kid_above {S : List OpenBlk} (h : Kid S) : ∀ P : List OpenBlk, Kid (P ++ S)
  | [] => h
  | a :: P => by
    have ih := kid_above h P
    rw [List.cons_append]
    cases hP : P ++ S with
    | nil => rw [hP] at ih; cases ih
    | cons x r => rw [hP] at ih; exact ih.push

theorem kid_quote {β : NodeData} (hβ : β.t = .blockQuote) {p q : PState} (hp : p.spine ≠ []) (h : Sp (quoteSim β) p q) : Kid q.spine := by
  have hsp := h.spine
  rw [← List.dropLast_append_getLast hp] at hsp
  obtain ⟨P', b', O, cs, e1, _, _, _, e5, e6, _⟩ := hsp.parts
  have hO : ∃ y, O = [y] ∧ unflag y = ⟨docNode, []⟩ := by
    cases O with
    | nil => simp [quoteSim] at e6
    | cons y O =>
      cases O with
      | nil => exact ⟨y, rfl, by simpa [quoteSim] using e6⟩
      | cons => simp [quoteSim] at e6
  obtain ⟨y, rfl, hy⟩ := hO
  have y1 : y.data.t = .document := (congrArg (fun b : OpenBlk => b.data.t) hy :)
  have b1 : b'.data.t = .blockQuote := by
    have e5 : { b'.data with lastLineBlank := false } = β := e5
    rw [← e5] at hβ; exact hβ
  rw [e1]
  exact kid_above (.more y1 (.inr fun h => by rw [b1] at h; cases h)) P'

/-- The lines of a block quote. -/
theorem runs_quote {sm : Reading} {o : HtmlOpts} (ho : o.sourcepos = false) {ls qs : List Str} {bs : List Blk} {g : Bool} (h : Runs sm o ls bs g) (hq : Quoted ls qs) :
    Runs sm o qs [⟨.quote, "<blockquote>\n".toList ++ docHtml bs ++ "</blockquote>\n".toList⟩] false := by
  obtain ⟨l0, rest, e, -⟩ := h.first
  subst e
  have hone := h.one
  generalize hL : l0 :: rest = L at hq hone
  have hone' : ∀ l ∈ qs, OneLine l := by
    clear h hL
    induction hq with
    | nil => intro l hl; cases hl
    | @cons pre l ls qs hm ht hr ih =>
      intro x hx
      rcases List.mem_cons.1 hx with rfl | hx
      · intro c hc
        rcases List.mem_append.1 hc with hc | hc
        · obtain ⟨n, _, rfl | ⟨rfl, _⟩⟩ := hm <;> simp only [List.mem_append, List.mem_replicate, List.mem_cons, List.not_mem_nil, or_false] at hc
          · rcases hc with ⟨_, rfl⟩ | rfl | rfl <;> decide
          · rcases hc with ⟨_, rfl⟩ | rfl <;> decide
        · exact hone l (by simp) c hc
      · exact ih (fun y hy => hone y (by simp [hy])) x hx
  cases hq with
  | nil => cases hL
  | @cons pre l ls qs hm ht hr =>
    cases hL
    refine ⟨hone', ⟨_, _, rfl, ?_⟩, ?_⟩
    · intro p0 p1 hp1
      obtain ⟨col, hf⟩ := quote_first (newParse_reset p0) (newParse_reset p0) hm ht
      obtain ⟨p, _, e1, _⟩ := incorporateLine_ok (ready_reset p0).1 l0
      obtain ⟨q, e2, e3⟩ := hf p e1
      rw [hp1] at e2
      cases e2
      exact kid_quote rfl (by intro e; have := e3.spine.pos; rw [e] at this; simp at this) e3
    · intro p0 n
      refine runs_blanks ho (p0 := p0) (g := false) (by intro x hx; cases hx; exact trivial) ?_ n
      obtain ⟨p, h1, h2, h3⟩ := h.run p0 0
      rw [List.replicate_zero, List.append_nil] at h1
      obtain ⟨col, hf⟩ := quote_first (newParse_reset p0) (newParse_reset p0) hm ht
      have hr : ERel (Sp (quoteSim { t := .blockQuote, sourcepos := some ((1, col), (0, 0)) })) ((l0 :: rest).foldlM incorporateLine p0.reset)
          (((pre ++ l0) :: qs).foldlM incorporateLine p0.reset) := by
        rw [List.foldlM_cons, List.foldlM_cons]
        exact ERel.bind hf fun a b hab => quote_lines (quoteSim_ok rfl) rfl rfl id hr hab
      obtain ⟨q, e1, e2⟩ := hr p h1
      refine ⟨q, e1, ?_, ?_⟩
      · rw [e2.line, h2]
        have : ∀ {a b : List Str}, Quoted a b → a.length = b.length := by
          intro a b hab
          induction hab with
          | nil => rfl
          | cons _ _ _ ih => simp [ih]
        simp [quoteSim, this ‹Quoted rest qs›]
      · obtain ⟨P, b, cs, fs, h3⟩ := h3
        obtain ⟨P', b', O, cs', hfo⟩ := follow_of (quoteSim_ok rfl) e2 h3.toCloses rfl
        have hO : ∃ y, O = [y] ∧ unflag y = ⟨docNode, []⟩ := by
          have e6 := hfo.outer
          cases O with
          | nil => simp [quoteSim] at e6
          | cons y O =>
            cases O with
            | nil => exact ⟨y, rfl, by simpa [quoteSim] using e6⟩
            | cons => simp [quoteSim] at e6
        obtain ⟨y, rfl, hy⟩ := hO
        have y1 : y.data.t = .document := (congrArg (fun b : OpenBlk => b.data.t) hy :)
        have y2 : y.children = [] := (congrArg OpenBlk.children hy :)
        have b1 : b'.data.t = .blockQuote := by
          have := hfo.data
          exact (congrArg NodeData.t this :)
        have hbf : b.data.lastLineBlank = false := h3.flags b (by rw [h3.spine]; simp)
        have b2 : b'.data.lastLineBlank = false := hfo.flag b' (by simp) hbf
        have y3 : y.data.lastLineBlank = false := hfo.flag y (by simp) hbf
        refine ⟨P' ++ [b'], y, [.node (closeData q.lineNumber q.lastLineLength b'.data) cs'], [false], ⟨?_, y1, hfo.refmap, ?_⟩, ?_, ?_, ?_, rfl, rfl, ?_, ?_⟩
        · rw [hfo.spine]; simp
        · rw [List.length_append, closeN_add, hfo.close q rfl hfo.refmap rfl]
          simp only [Except.bind, List.length_singleton, closeN]
          rw [finalizeTip_run (b := { b' with children := cs' }) (par := y) (up := []) (t := some (.node (closeData q.lineNumber q.lastLineLength b'.data) cs')) (m := q.refmap) rfl]
          · simp [y2]
          · unfold finalizeBlock
            have : (closeData q.lineNumber q.lastLineLength b'.data).t = .blockQuote := b1
            simp only [this]
        · intro x hx
          rw [hfo.spine] at hx
          rcases List.mem_append.1 hx with hx | hx
          · exact flags_er hfo.same (fun z hz => h3.flags z (by rw [h3.spine]; simp [hz])) x hx
          · simp only [List.mem_cons, List.not_mem_nil, or_false] at hx
            rcases hx with rfl | rfl
            · exact b2
            · exact y3
        · refine shows_top (by show (b'.data.t == _ || b'.data.t == _) = _; rw [b1]; rfl) (shows_bare ho (bareL_rel hfo.blocks) h3.shows) fun ys hys => rend_quote (e := closeData q.lineNumber q.lastLineLength b'.data) ho b1 hys
        · refine .cons (ends_false ?_) .nil
          have c1 : (closeData q.lineNumber q.lastLineLength b'.data).t = .blockQuote := b1
          have c2 : (closeData q.lineNumber q.lastLineLength b'.data).lastLineBlank = false := b2
          rw [rawEnds, c1, c2]; rfl
        · exact ⟨_, rfl, by simp only [Shape, Bool.false_eq_true, if_false]; exact ⟨P', b', rfl, b1⟩⟩
        · intro h; cases h

end CM
