import Verif.Proofs.Ends
import Verif.Proofs.Hat
import Verif.Spec.Document
/-
The HTML of the blocks of a document grammar (C57).
-/
namespace CM
open Spec

/-- The HTML of inline nodes, wherever they are. -/
def Inl (o : HtmlOpts) (ts : List Tree) (h : Str) : Prop :=
  ∀ p g b lo, ∃ lo', runEvents o ⟨b, lo, 0⟩ (eventsList p g ts) = .ok ⟨b ++ h, lo', 0⟩

/-- The type of the node of a block. -/
def kindOf : BKind → Kind
  | .para => .paragraph
  | .heading => .heading
  | .rule => .thematicBreak
  | .fenced | .indented => .codeBlock
  | .html | .tag => .htmlBlock
  | .quote => .blockQuote
  | .list .. => .list

theorem kindOf_para {k : BKind} (h : k ≠ .para) : kindOf k ≠ .paragraph := by
  cases k <;> simp_all [kindOf]

/-- The block `y` has the HTML of `b`. -/
def Rend (o : HtmlOpts) (y : Tree) (b : Blk) : Prop :=
  (b.kind = .para ∧ ∃ d ts, y = .node d ts ∧ d.t = .paragraph ∧ Inl o ts b.html ∧ b.html ≠ [] ∧ b.html.getLast? ≠ some '\n') ∨
  (b.kind ≠ .para ∧ y.kind = kindOf b.kind ∧ y.kind ∈ topLevelKinds ∧ ∀ i g s, tightOf (some i) = .ok false →
    runEvents o ⟨s, ['\n'], 0⟩ (events (some i) g y) = .ok ⟨s ++ b.html, ['\n'], 0⟩)

theorem rend_top {o : HtmlOpts} {y : Tree} {b : Blk} (h : Rend o y b) : y.kind ∈ topLevelKinds := by
  rcases h with ⟨_, d, ts, rfl, h, _⟩ | ⟨_, _, h, _⟩
  · show d.t ∈ _
    rw [h]; decide
  · exact h

theorem rend_of_render {o : HtmlOpts} (ho : o.sourcepos = false) {y : Tree} {b : Blk} {d : NodeData} (hb : b.kind ≠ .para) (h1 : y.kind = kindOf b.kind) (h2 : y.kind ∈ topLevelKinds)
    (hd : d.t = .document) (h : renderHtml o (.node d [y]) = .ok b.html) : Rend o y b := by
  refine .inr ⟨hb, h1, h2, ?_⟩
  intro i g s hi
  unfold renderHtml at h
  rw [renderWith_document o d _ hd] at h
  simp only [eventsList, List.append_nil] at h
  cases hx : runEvents o ⟨[], ['\n'], 0⟩ (events (some d) none y) with
  | error e => rw [hx] at h; cases h
  | ok st =>
    rw [hx] at h
    obtain ⟨f1, f2⟩ := block_final h2 hx
    have h : st.buf = b.html := by simpa [bind, Except.bind, pure, Except.pure] using h
    have t2 : tightOf (some d) = .ok false := by simp [tightOf, hd]
    have e1 : runEvents o ⟨s, ['\n'], 0⟩ (events (some i) g y) = runEvents o ⟨s, ['\n'], 0⟩ (events (some i) none y) := by
      have := runEvents_gp (o := o) (p := some i) (g := g) (g' := none) (cs := [y]) (st := ⟨s, ['\n'], 0⟩) (by simpa using h1.trans_ne (kindOf_para hb))
      simpa only [eventsList, List.append_nil] using this
    have e2 := runEvents_same ho (events_same (p := some i) (p' := some d) (g := none) (g' := none) rfl (hi.trans t2.symm) rfl (t := y) (t' := y) rfl) ⟨s, ['\n'], 0⟩
    rw [e1, e2, runEvents_from, hx]
    obtain ⟨bu, lo, k⟩ := st
    simp only at f1 f2
    have h : bu = b.html := h
    rw [f1, f2, h]
    rfl

theorem inl_bare {o : HtmlOpts} (ho : o.sourcepos = false) {ts ts' : List Tree} {h : Str} (he : bareL ts = bareL ts') (hi : Inl o ts h) : Inl o ts' h := by
  intro p g b lo
  obtain ⟨lo', e⟩ := hi p g b lo
  refine ⟨lo', ?_⟩
  rw [← e]
  exact (runEvents_same ho (eventsList_same rfl rfl rfl he) _).symm

theorem rend_bare {o : HtmlOpts} (ho : o.sourcepos = false) {y y' : Tree} {b : Blk} (he : bareT y = bareT y') (h : Rend o y b) : Rend o y' b := by
  have hk : y.kind = y'.kind := by
    cases y; cases y'
    rw [bareT, bareT, Tree.node.injEq] at he
    exact (congrArg NodeData.t he.1 :)
  rcases h with ⟨h0, d, ts, rfl, h1, h2, h3⟩ | ⟨h0, h1, h2, h3⟩
  · obtain ⟨d', ts'⟩ := y'
    rw [bareT, bareT, Tree.node.injEq] at he
    exact .inl ⟨h0, d', ts', rfl, h1 ▸ hk.symm, inl_bare ho he.2 h2, h3⟩
  · refine .inr ⟨h0, hk.symm.trans h1, hk ▸ h2, ?_⟩
    intro i g s hi
    rw [← h3 i g s hi]
    exact (runEvents_same ho (events_same rfl rfl rfl he) _).symm

theorem rends_bare {o : HtmlOpts} (ho : o.sourcepos = false) : ∀ {ys ys' : List Tree} {bs : List Blk}, bareL ys = bareL ys' →
    List.Forall₂ (Rend o) ys bs → List.Forall₂ (Rend o) ys' bs
  | [], [], _, _, h => h
  | [], _ :: _, _, h, _ => by rw [bareL, bareL] at h; cases h
  | _ :: _, [], _, h, _ => by rw [bareL, bareL] at h; cases h
  | y :: ys, y' :: ys', _, h, .cons h1 h2 => by
    rw [bareL, bareL, List.cons.injEq] at h
    exact .cons (rend_bare ho h.1 h1) (rends_bare ho h.2 h2)

/-- A block where paragraphs are elements. -/
theorem rend_out {o : HtmlOpts} (ho : o.sourcepos = false) {y : Tree} {b : Blk} (h : Rend o y b) {i : NodeData} {g : Option NodeData} (s : Str)
    (hi : tightOf (some i) = .ok false) (hg : tightOf g = .ok false) : runEvents o ⟨s, ['\n'], 0⟩ (events (some i) g y) = .ok ⟨s ++ b.out, ['\n'], 0⟩ := by
  rcases h with ⟨h0, d, ts, rfl, h1, h2, h3⟩ | ⟨h0, h1, h2, h3⟩
  · have a : htmlAttrs o d = [] := by simp [htmlAttrs, ho]
    unfold events
    simp only [h1, isContainer, if_true]
    have e1 : ∀ f, htmlEvent o ⟨s, ['\n'], 0⟩ ⟨true, d, some i, g, f⟩ = .ok ⟨s ++ "<p>".toList, ['>'], 0⟩ := by
      intro f
      rw [htmlEvent]
      simp only [h1, htmlParagraph_eq, hg, a]
      rfl
    have e2 : ∀ f x lo, htmlEvent o ⟨x, lo, 0⟩ ⟨false, d, some i, g, f⟩ = .ok ⟨x ++ "</p>\n".toList, ['\n'], 0⟩ := by
      intro f x lo
      rw [htmlEvent]
      simp only [h1, htmlParagraph_eq, hg, a, bind, Except.bind]
      simp [HState.tag, HState.tagText, HState.cr, HState.lit, lit, pure, Except.pure]
    obtain ⟨lo, e3⟩ := h2 (some d) (some i) (s ++ "<p>".toList) ['>']
    rw [runEvents_cons, e1]
    simp only [Except.bind, runEvents_append, e3, runEvents_cons, e2, runEvents_nil]
    simp [Blk.out, h0]
  · rw [h3 i g s hi]
    have : b.out = b.html := by
      unfold Blk.out
      split
      · rename_i h; exact absurd h h0
      · rfl
    rw [this]

theorem rends_out {o : HtmlOpts} (ho : o.sourcepos = false) {i : NodeData} {g : Option NodeData} (hi : tightOf (some i) = .ok false) (hg : tightOf g = .ok false) :
    ∀ {ys : List Tree} {bs : List Blk}, List.Forall₂ (Rend o) ys bs → ∀ s,
    runEvents o ⟨s, ['\n'], 0⟩ (eventsList (some i) g ys) = .ok ⟨s ++ docHtml bs, ['\n'], 0⟩
  | _, _, .nil, s => by simp [eventsList, docHtml, pure, Except.pure]
  | _, _, .cons h1 h2, s => by
    rw [eventsList, runEvents_append, rend_out ho h1 s hi hg]
    simp only [Except.bind]
    rw [rends_out ho hi hg h2]
    simp [docHtml]

theorem rends_doc {o : HtmlOpts} (ho : o.sourcepos = false) {d : NodeData} (hd : d.t = .document) {ys : List Tree} {bs : List Blk}
    (h : List.Forall₂ (Rend o) ys bs) : renderHtml o (.node d ys) = .ok (docHtml bs) := by
  unfold renderHtml
  rw [renderWith_document o d _ hd, rends_out ho (by simp [tightOf, hd]) rfl h]
  rfl

/-! ### The last output is a suffix of the output -/

/-- `last_out` is what was written last. -/
def LastOut (st : HState) : Prop := st.lastOut <:+ st.buf

theorem lastOut_lit {s : Str} {st : HState} : LastOut (st.lit s) := List.suffix_append _ _

theorem lastOut_cr {st : HState} (h : LastOut st) : LastOut st.cr := by
  unfold HState.cr; split
  · exact lastOut_lit
  · exact h

theorem lastOut_tag {n : Str} {a : Attrs} {b : Bool} {st : HState} (h : LastOut st) : LastOut (st.tag n a b) := by
  unfold HState.tag; split
  · exact h
  · refine ⟨st.buf ++ '<' :: (n ++ (a.flatMap fun a => ' ' :: (a.1 ++ ('=' :: '"' :: (a.2 ++ ['"'])))) ++ ((if b then [' ', '/'] else []))), ?_⟩
    simp [HState.tagText]

theorem lastOut_litOpt {s : Option Str} {st st' : HState} (h : st.litOpt s = .ok st') : LastOut st' := by
  cases s with
  | none => cases h
  | some s => cases h; exact lastOut_lit

theorem lastOut_bind {x : Except PyErr HState} {st' : HState} (h : (x >>= fun y => pure y.cr) = .ok st') (hx : ∀ v, x = .ok v → LastOut v) :
    LastOut st' := by
  cases x with
  | error => cases h
  | ok v => cases h; exact lastOut_cr (hx v rfl)

theorem lastOut_event {o : HtmlOpts} {st st' : HState} {e : Event} (hs : LastOut st) (h : htmlEvent o st e = .ok st') : LastOut st' := by
  have hdis : ∀ (k : Int) (x : HState), LastOut x → LastOut { x with disableTags := k } := fun _ _ h => h
  unfold htmlEvent at h
  simp only at h
  split at h
  · cases h; exact hs
  · cases h; exact lastOut_lit
  · cases h; exact lastOut_lit
  · cases h; exact lastOut_cr (lastOut_tag hs)
  · unfold htmlLink at h
    split at h
    · cases hu : unsafeDest o e.node.destination with
      | error => simp [hu, bind, Except.bind] at h
      | ok b =>
        simp only [hu, bind, Except.bind, pure, Except.pure, Except.ok.injEq] at h
        subst h
        exact lastOut_tag hs
    · cases h; exact lastOut_tag hs
  · unfold htmlImage at h
    split at h
    · by_cases hd : (st.disableTags == 0) = true
      · simp only [hd, if_true] at h
        cases hu : unsafeDest o e.node.destination with
        | error => simp [hu, bind, Except.bind] at h
        | ok b =>
          cases b <;> simp only [hu, bind, Except.bind, pure, Except.pure, Except.ok.injEq, if_true, Bool.false_eq_true, if_false] at h <;>
            (subst h; exact hdis _ _ lastOut_lit)
      · simp only [hd] at h
        simp only [Bool.false_eq_true, if_false, bind, Except.bind, pure, Except.pure, Except.ok.injEq] at h
        subst h; exact hs
    · simp only at h
      split at h
      · cases h; exact lastOut_lit
      · cases h; exact hs
  · cases h; exact lastOut_tag hs
  · cases h; exact lastOut_tag hs
  · rw [htmlParagraph_eq] at h
    cases hp : e.parent with
    | none => rw [hp] at h; cases h
    | some =>
      rw [hp] at h
      simp only at h
      cases ht : tightOf e.grandparent with
      | error => simp [ht, bind, Except.bind] at h
      | ok t =>
        simp only [ht, bind, Except.bind, pure, Except.pure] at h
        repeat' split at h
        all_goals cases h
        · exact hs
        · exact lastOut_tag (lastOut_cr hs)
        · exact lastOut_cr (lastOut_tag hs)
  · unfold htmlHeading at h
    split at h <;> cases h
    · exact lastOut_tag (lastOut_cr hs)
    · exact lastOut_cr (lastOut_tag hs)
  · cases h; exact lastOut_tag lastOut_lit
  · cases h; exact lastOut_cr (lastOut_tag (lastOut_tag lastOut_lit))
  · cases h; exact lastOut_cr (lastOut_tag (lastOut_cr hs))
  · split at h <;> cases h
    · exact lastOut_cr (lastOut_tag (lastOut_cr hs))
    · exact lastOut_cr (lastOut_tag (lastOut_cr hs))
  · unfold htmlList at h
    split at h
    · cases h
    · simp only at h
      split at h <;> cases h
      · exact lastOut_cr (lastOut_tag (lastOut_cr hs))
      · exact lastOut_cr (lastOut_tag (lastOut_cr hs))
  · split at h <;> cases h
    · exact lastOut_tag hs
    · exact lastOut_cr (lastOut_tag hs)
  · split at h
    · cases h; exact lastOut_lit
    · exact lastOut_litOpt h
  · split at h
    · cases h; exact lastOut_cr lastOut_lit
    · exact lastOut_bind h fun v hv => lastOut_litOpt hv
  · repeat' split at h
    · exact lastOut_litOpt h
    · exact lastOut_litOpt h
    · cases h; exact hs
  · repeat' split at h
    · exact lastOut_bind h fun v hv => lastOut_litOpt hv
    · exact lastOut_bind h fun v hv => lastOut_litOpt hv
    · cases h; exact lastOut_cr (lastOut_cr hs)

theorem lastOut_run {o : HtmlOpts} : ∀ {es : List Event} {st st' : HState}, LastOut st → runEvents o st es = .ok st' → LastOut st'
  | [], st, st', hs, h => by rw [runEvents_nil] at h; cases h; exact hs
  | e :: es, st, st', hs, h => by
    rw [runEvents_cons] at h
    cases he : htmlEvent o st e with
    | error => rw [he] at h; cases h
    | ok x => rw [he] at h; exact lastOut_run (lastOut_event hs he) h

/-! ### Items -/

theorem rends_tight {o : HtmlOpts} {i e : NodeData} (hi : tightOf (some i) = .ok false) (he : tightOf (some e) = .ok true) :
    ∀ {ys : List Tree} {bs : List Blk}, List.Forall₂ (Rend o) ys bs → ∀ s lo, lo <:+ s →
    ∃ lo', runEvents o ⟨s, lo, 0⟩ (eventsList (some i) (some e) ys) = .ok ⟨s ++ tightHtml (lo == ['\n']) bs, lo', 0⟩
  | _, _, .nil, s, lo, _ => ⟨lo, by simp [eventsList, tightHtml, pure, Except.pure]⟩
  | _, _, .cons (a := y) (b := b) h1 h2, s, lo, hl => by
    rw [eventsList, runEvents_append]
    rcases h1 with ⟨h0, d, ts, rfl, k1, k2, k3, k4⟩ | ⟨h0, k1, k2, k3⟩
    · have e1 : ∀ x en f, htmlEvent o x ⟨en, d, some i, some e, f⟩ = .ok x := by
        intro x en f
        rw [htmlEvent]
        simp only [k1, htmlParagraph_eq, he, bind, Except.bind]
        rfl
      obtain ⟨lo1, e3⟩ := k2 (some d) (some i) s lo
      have hl1 : lo1 <:+ s ++ b.html := lastOut_run (o := o) (st := ⟨s, lo, 0⟩) hl e3
      obtain ⟨lo2, e4⟩ := rends_tight hi he h2 (s ++ b.html) lo1 hl1
      have hn : (lo1 == ['\n']) = false := by
        rw [beq_eq_false_iff_ne]
        rintro rfl
        obtain ⟨z, hz⟩ := hl1
        have : (s ++ b.html).getLast? = some '\n' := by rw [← hz]; simp
        rw [List.getLast?_append] at this
        cases hb : b.html.getLast? with
        | none => exact k3 (List.getLast?_eq_none_iff.1 hb)
        | some c => rw [hb] at this; simp at this; exact k4 (by rw [hb, this])
      refine ⟨lo2, ?_⟩
      unfold events
      simp only [k1, isContainer, if_true, runEvents_cons, e1, Except.bind, runEvents_append, e3, runEvents_nil, e4, hn]
      simp [tightHtml, h0]
    · obtain ⟨lo2, e4⟩ := rends_tight hi he h2 ((s ++ if (lo == ['\n']) = true then [] else ['\n']) ++ b.html) ['\n'] (by
        have := k3 i none (s ++ if (lo == ['\n']) = true then [] else ['\n']) hi
        refine lastOut_run (o := o) ?_ this
        by_cases h : (lo == ['\n']) = true
        · rw [if_pos h, List.append_nil]
          have h : lo = ['\n'] := by simpa using h
          rw [← h]; exact hl
        · rw [if_neg h]; exact List.suffix_append _ _)
      refine ⟨lo2, ?_⟩
      have hcr : HState.cr ⟨s, lo, 0⟩ = ⟨s ++ (if (lo == ['\n']) = true then [] else ['\n']), ['\n'], 0⟩ := by
        unfold HState.cr
        by_cases h : lo = ['\n']
        · subst h; simp
        · simp [h, HState.lit]
      have e0 : runEvents o ⟨s, lo, 0⟩ (events (some i) (some e) y) = runEvents o (HState.cr ⟨s, lo, 0⟩) (events (some i) (some e) y) := by
        have g1 : ∀ st, runEvents o st (events (some i) (some e) y) = runEvents o st (events (some i) none y) := by
          intro st
          have := runEvents_gp (o := o) (p := some i) (g := some e) (g' := none) (cs := [y]) (st := st) (by simpa using k1.trans_ne (kindOf_para h0))
          simpa only [eventsList, List.append_nil] using this
        have := runEvents_cr (o := o) (st := ⟨s, lo, 0⟩) (d := i) (c := y) (cs := []) k2
        rw [g1, g1]
        simpa only [eventsList, List.append_nil] using this
      rw [e0, hcr, k3 i _ _ hi]
      simp only [Except.bind, e4]
      have : ∀ r, tightHtml (lo == ['\n']) (b :: r) = (if (lo == ['\n']) = true then [] else ['\n']) ++ b.html ++ tightHtml true r := by
        intro r
        rw [tightHtml]
        split
        · rename_i h; exact absurd h h0
        · rfl
      rw [this]
      simp

/-- An item of a list. -/
theorem rend_item {o : HtmlOpts} (ho : o.sourcepos = false) {e i : NodeData} {t : Bool} (hi : i.t = .item) (he : tightOf (some e) = .ok t) {g : Option NodeData}
    {ys : List Tree} {bs : List Blk} (h : List.Forall₂ (Rend o) ys bs) (hne : bs ≠ []) (s : Str) :
    runEvents o ⟨s, ['\n'], 0⟩ (events (some e) g (.node i ys)) = .ok ⟨s ++ itemHtml t bs, ['\n'], 0⟩ := by
  have hit : tightOf (some i) = .ok false := by simp [tightOf, hi]
  have a2 : htmlAttrs o i = [] := by simp [htmlAttrs, ho]
  have e1 : ∀ f, htmlEvent o ⟨s, ['\n'], 0⟩ ⟨true, i, some e, g, f⟩ = .ok ⟨s ++ "<li>".toList, ['>'], 0⟩ := by
    intro f; rw [htmlEvent]; simp only [hi, a2]; rfl
  have e2 : ∀ f x lo, htmlEvent o ⟨x, lo, 0⟩ ⟨false, i, some e, g, f⟩ = .ok ⟨x ++ "</li>\n".toList, ['\n'], 0⟩ := by
    intro f x lo
    rw [htmlEvent]
    simp only [hi]
    simp [HState.tag, HState.tagText, HState.cr, HState.lit, lit]
  unfold events
  simp only [hi, isContainer, if_true, runEvents_cons, e1, Except.bind, runEvents_append]
  cases t with
  | true =>
    obtain ⟨lo, e3⟩ := rends_tight hit he h (s ++ "<li>".toList) ['>'] (by exact ⟨s ++ "<li".toList, by simp⟩)
    rw [e3]
    simp only [e2, runEvents_nil, itemHtml, if_true]
    rw [show ((['>'] : Str) == ['\n']) = false from rfl]
    simp
  | false =>
    cases h with
    | nil => exact absurd rfl hne
    | @cons y b ys bs h1 h2 =>
      have hg : ∀ st, runEvents o st (eventsList (some i) (some e) (y :: ys)) = runEvents o st (eventsList (some i) none (y :: ys)) := by
        intro st
        exact runEvents_same ho (eventsList_same (p := some i) (p' := some i) (g := some e) (g' := none) rfl rfl (he.trans rfl) rfl) st
      rw [hg, runEvents_cr (rend_top h1), show HState.cr ⟨s ++ "<li>".toList, ['>'], 0⟩ = ⟨s ++ "<li>".toList ++ ['\n'], ['\n'], 0⟩ from rfl,
        rends_out ho hit rfl (.cons h1 h2)]
      simp only [e2, runEvents_nil, itemHtml, Bool.false_eq_true, if_false]
      simp

/-- The items of a list: every one has blocks. -/
def RendItem (o : HtmlOpts) (t : Tree) (bs : List Blk) : Prop :=
  bs ≠ [] ∧ ∃ i ys, t = .node i ys ∧ i.t = .item ∧ List.Forall₂ (Rend o) ys bs

theorem rend_items {o : HtmlOpts} (ho : o.sourcepos = false) {e : NodeData} {t : Bool} (he : tightOf (some e) = .ok t) {g : Option NodeData} :
    ∀ {is : List Tree} {bss : List (List Blk)}, List.Forall₂ (RendItem o) is bss → ∀ s,
    runEvents o ⟨s, ['\n'], 0⟩ (eventsList (some e) g is) = .ok ⟨s ++ bss.flatMap (itemHtml t), ['\n'], 0⟩
  | _, _, .nil, s => by simp [eventsList, pure, Except.pure]
  | _, _, .cons h1 h2, s => by
    obtain ⟨hne, i, ys, rfl, hi, h⟩ := h1
    rw [eventsList, runEvents_append, rend_item ho hi he h hne]
    simp only [Except.bind]
    rw [rend_items ho he h2]
    simp

/-- A list. -/
theorem rend_list {o : HtmlOpts} (ho : o.sourcepos = false) {e : NodeData} {l : ListData} (he : e.t = .list) (hl : e.listData = some l)
    (hst : l.type = .bullet → l.start = none) {is : List Tree} {bss : List (List Blk)} (h : List.Forall₂ (RendItem o) is bss) {b dl : Option Char} :
    Rend o (.node e is) ⟨.list l.type b dl, listTag l.type l.start ++ "\n".toList ++ bss.flatMap (itemHtml l.tight) ++ listEnd l.type ++ "\n".toList⟩ := by
  refine .inr ⟨by simp, ?_, ?_, ?_⟩
  · exact he
  · show e.t ∈ _; rw [he]; decide
  intro i g s hi
  have ht : tightOf (some e) = .ok l.tight := by simp [tightOf, he, hl]
  have a1 : htmlAttrs o e = [] := by simp [htmlAttrs, ho]
  obtain ⟨ty, tight, bu, st, del, pad, off⟩ := l
  have e1 : ∀ f, htmlEvent o ⟨s, ['\n'], 0⟩ ⟨true, e, some i, g, f⟩ = .ok ⟨s ++ listTag ty st ++ "\n".toList, ['\n'], 0⟩ := by
    intro f
    rw [htmlEvent]
    simp only [he, htmlList, hl, a1]
    cases ty with
    | bullet =>
      have : st = none := hst rfl
      subst this
      simp [HState.tag, HState.tagText, HState.cr, HState.lit, lit, listTag]
    | ordered =>
      cases st with
      | none => simp [HState.tag, HState.tagText, HState.cr, HState.lit, lit, listTag]
      | some n =>
        by_cases hn : n = 1
        · subst hn; simp [HState.tag, HState.tagText, HState.cr, HState.lit, lit, listTag]
        · simp [HState.tag, HState.tagText, HState.cr, HState.lit, lit, listTag, hn, natToStr]
  have e2 : ∀ f x, htmlEvent o ⟨x, ['\n'], 0⟩ ⟨false, e, some i, g, f⟩ = .ok ⟨x ++ listEnd ty ++ "\n".toList, ['\n'], 0⟩ := by
    intro f x
    rw [htmlEvent]
    simp only [he, htmlList, hl]
    cases ty <;> simp [HState.tag, HState.tagText, HState.cr, HState.lit, lit, listEnd]
  unfold events
  simp only [he, isContainer, if_true, runEvents_cons, e1, Except.bind, runEvents_append, rend_items ho ht h, e2, runEvents_nil]
  simp

/-! ### Blocks before inline parsing -/

/-- How text is read: smart or not, and with which definitions. -/
abbrev Reading := Bool × RefMap

/-- The HTML of the blocks `cs` is that of `bs`. -/
def Shows (sm : Reading) (o : HtmlOpts) (cs : List Tree) (bs : List Blk) : Prop :=
  ∃ ys, processInlinesList sm.1 sm.2 cs = .ok ys ∧ List.Forall₂ (Rend o) ys bs

mutual
theorem inlines_bare (sm : Bool) (m : RefMap) : ∀ t : Tree, (processInlines sm m (bareT t)).map bareT = (processInlines sm m t).map bareT
  | .node d cs => by
    have ih := inlines_bareL sm m cs
    rw [bareT]
    unfold processInlines
    have ht : (bare d).t = d.t := rfl
    have hc : (bare d).stringContent = d.stringContent := rfl
    rw [ht, hc]
    cases h1 : processInlinesList sm m cs with
    | error e =>
      rw [h1] at ih
      cases h2 : processInlinesList sm m (bareL cs) with
      | error e' => rw [h2] at ih; cases ih; rfl
      | ok => rw [h2] at ih; cases ih
    | ok x =>
      rw [h1] at ih
      cases h2 : processInlinesList sm m (bareL cs) with
      | error e' => rw [h2] at ih; cases ih
      | ok y =>
        rw [h2] at ih
        have ih : bareL y = bareL x := by simpa [Except.map] using ih
        simp only [Except.bind, bind]
        by_cases hp : (d.t == .paragraph || d.t == .heading) = true
        · rw [if_pos hp, if_pos hp]
          cases d.stringContent with
          | none => rfl
          | some c =>
            cases hi : parseInlines sm m c with
            | error => simp only [hi]
            | ok inl =>
              simp only [hi, pure, Except.pure, Except.map, bareT, bareL_append, ih]
              rfl
        · rw [if_neg hp, if_neg hp]
          simp only [pure, Except.pure, Except.map, bareT, ih]
          rfl
theorem inlines_bareL (sm : Bool) (m : RefMap) : ∀ cs : List Tree,
    (processInlinesList sm m (bareL cs)).map bareL = (processInlinesList sm m cs).map bareL
  | [] => rfl
  | t :: ts => by
    have h1 := inlines_bare sm m t
    have h2 := inlines_bareL sm m ts
    rw [bareL]
    unfold processInlinesList
    cases a : processInlines sm m t with
    | error e =>
      rw [a] at h1
      cases b : processInlines sm m (bareT t) with
      | error => rw [b] at h1; cases h1; rfl
      | ok => rw [b] at h1; cases h1
    | ok x =>
      rw [a] at h1
      cases b : processInlines sm m (bareT t) with
      | error => rw [b] at h1; cases h1
      | ok y =>
        rw [b] at h1
        have h1 : bareT y = bareT x := by simpa [Except.map] using h1
        simp only [Except.bind, bind]
        cases c : processInlinesList sm m ts with
        | error e =>
          rw [c] at h2
          cases d : processInlinesList sm m (bareL ts) with
          | error => rw [d] at h2; cases h2; rfl
          | ok => rw [d] at h2; cases h2
        | ok z =>
          rw [c] at h2
          cases d : processInlinesList sm m (bareL ts) with
          | error => rw [d] at h2; cases h2
          | ok w =>
            rw [d] at h2
            have h2 : bareL w = bareL z := by simpa [Except.map] using h2
            simp only [pure, Except.pure, Except.map, bareL, h1, h2]
end

theorem shows_bare {sm : Reading} {o : HtmlOpts} (ho : o.sourcepos = false) {cs cs' : List Tree} {bs : List Blk} (he : bareL cs = bareL cs')
    (h : Shows sm o cs bs) : Shows sm o cs' bs := by
  obtain ⟨ys, h1, h2⟩ := h
  have e1 := inlines_bareL sm.1 sm.2 cs
  have e2 := inlines_bareL sm.1 sm.2 cs'
  rw [he, e2, h1] at e1
  cases h3 : processInlinesList sm.1 sm.2 cs' with
  | error => rw [h3] at e1; cases e1
  | ok ys' =>
    rw [h3] at e1
    have e1 : bareL ys' = bareL ys := by simpa [Except.map] using e1
    exact ⟨ys', h3, rends_bare ho e1.symm h2⟩

theorem shows_append {sm : Reading} {o : HtmlOpts} {cs cs' : List Tree} {bs bs' : List Blk} (h : Shows sm o cs bs) (h' : Shows sm o cs' bs') :
    Shows sm o (cs ++ cs') (bs ++ bs') := by
  obtain ⟨ys, h1, h2⟩ := h
  obtain ⟨ys', h1', h2'⟩ := h'
  refine ⟨ys ++ ys', ?_, List.rel_append h2 h2'⟩
  rw [inlines_append, h1, h1']
  rfl

end CM
