import Verif.Proofs.RunLeaf
import Verif.Spec.First
/-
The first line of a document decides of which kind its first block is (C59).
-/
set_option linter.unusedVariables false
namespace CM
open Spec

/-- The first block of the document, closed or open, is of a kind in `K`. -/
inductive First (K : Kind → Prop) : List OpenBlk → Prop
  | done {b : OpenBlk} {c : Tree} {cs : List Tree} : b.data.t = .document → b.children = c :: cs → K c.data.t → First K [b]
  | more {x b : OpenBlk} : b.data.t = .document →
      (∃ c cs, b.children = c :: cs ∧ K c.data.t) ∨ (b.children = [] ∧ K x.data.t ∧ NoDef x.data) → First K [x, b]
  | cons {a x b : OpenBlk} {r : List OpenBlk} : First K (x :: b :: r) → First K (a :: x :: b :: r)

variable {K : Kind → Prop}

theorem First.push {b x : OpenBlk} {r : List OpenBlk} (h : First K (b :: r)) : First K (x :: b :: r) := by
  cases h with
  | done h1 h2 h3 => exact .more h1 (.inl ⟨_, _, h2, h3⟩)
  | more h1 h2 => exact .cons (.more h1 h2)
  | cons h => exact .cons (.cons h)

theorem First.head {x x' b : OpenBlk} {r : List OpenBlk} (h : First K (x :: b :: r)) (hn : K x.data.t → NoDef x.data → K x'.data.t ∧ NoDef x'.data) :
    First K (x' :: b :: r) := by
  cases h with
  | more h1 h2 => exact .more h1 (h2.imp_right fun h => ⟨h.1, hn h.2.1 h.2.2⟩)
  | cons h => exact .cons h

/-- The first children are of the same kind. -/
def SameHead (a b : List Tree) : Prop := (a = [] → b = []) ∧ ∀ c cs, a = c :: cs → ∃ c' cs', b = c' :: cs' ∧ c'.data.t = c.data.t

theorem SameHead.refl (a : List Tree) : SameHead a a := ⟨id, fun c cs h => ⟨c, cs, h, rfl⟩⟩

theorem First.rel {l l' : List OpenBlk} (h : First K l) (hr : List.Forall₂ (fun b b' => b'.data.t = b.data.t ∧ SameHead b.children b'.children ∧
    (NoDef b.data → NoDef b'.data)) l l') : First K l' := by
  induction h generalizing l' with
  | done h1 h2 h3 =>
    cases hr with
    | cons a hr =>
      cases hr
      obtain ⟨c', cs', e1, e2⟩ := a.2.1.2 _ _ h2
      exact .done (by rw [a.1]; exact h1) e1 (by rw [e2]; exact h3)
  | more h1 h2 =>
    cases hr with
    | cons a hr =>
      cases hr with
      | cons b hr =>
        cases hr
        refine .more (by rw [b.1]; exact h1) ?_
        rcases h2 with ⟨c, cs, e, hk⟩ | ⟨e, hk, hn⟩
        · obtain ⟨c', cs', e1, e2⟩ := b.2.1.2 _ _ e
          exact .inl ⟨c', cs', e1, by rw [e2]; exact hk⟩
        · exact .inr ⟨b.2.1.1 e, by rw [a.1]; exact hk, a.2.2 hn⟩
  | cons h ih =>
    cases hr with
    | cons a hr =>
      have := ih hr
      cases hr with
      | cons b hr => cases hr with
        | cons c hr => exact .cons this

theorem finalizeBlock_keep {d : NodeData} {cs : List Tree} {m m' : RefMap} {t : Option Tree} (h : finalizeBlock d cs m = .ok (t, m'))
    (hn : NoDef d) : ∃ x, t = some x ∧ x.data.t = d.t := by
  by_cases hp : d.t = .paragraph
  · obtain ⟨x, h1, -, h2⟩ := hn hp
    unfold finalizeBlock at h
    rw [hp] at h
    simp only [finalizeParagraph, h1, bind, Except.bind] at h
    rw [refLoop_no (by simpa using h2 [])] at h
    cases h
    exact ⟨_, rfl, rfl⟩
  · exact finalizeBlock_kind h hp

theorem First.close {b par : OpenBlk} {up : List OpenBlk} {t : Option Tree} {m m' : RefMap} {l len : Nat} (h : First K (b :: par :: up))
    (hf : finalizeBlock (closeData l len b.data) b.children m = .ok (t, m')) :
    First K ({ par with children := par.children ++ t.toList } :: up) := by
  cases h with
  | more h1 h2 =>
    rcases h2 with ⟨c, cs, e, hk⟩ | ⟨e, hk, hn⟩
    · exact .done h1 (by show par.children ++ _ = _; rw [e]; rfl) hk
    · obtain ⟨x, rfl, hx⟩ := finalizeBlock_keep hf hn
      exact .done h1 (by show par.children ++ _ = _; rw [e]; rfl) (by rw [hx]; exact hk)
  | @cons _ _ b2 r h =>
    exact h.head fun h1 h2 => ⟨h1, h2⟩

theorem markLastChild_head (cs : List Tree) : SameHead cs (markLastChild cs) := by
  cases cs with
  | nil => exact .refl _
  | cons t ts =>
    refine ⟨by simp, ?_⟩
    intro c cs h
    cases h
    cases t
    cases ts with
    | nil => exact ⟨_, _, rfl, rfl⟩
    | cons t2 ts => exact ⟨_, _, rfl, rfl⟩

theorem first_step (hK : K .paragraph → K .heading) {c c' : Core} (h : First K c.spine) (hs : Step c c') : First K c'.spine := by
  have tip : ∀ {b : OpenBlk} {r : List OpenBlk} {b' : OpenBlk}, First K (b :: r) → b.data.t ≠ .document →
      (K b.data.t → NoDef b.data → K b'.data.t ∧ NoDef b'.data) → First K (b' :: r) := by
    intro b r b' h hd hn
    cases r with
    | nil => cases h with | done h1 _ _ => exact absurd h1 hd
    | cons x r => exact h.head hn
  cases hs with
  | close l e _ _ hf => rw [e] at h; exact h.close hf
  | push e _ _ => rw [e] at h; show First K (_ :: c.spine); rw [e]; exact h.push
  | paragraph off e _ _ _ _ => rw [e] at h; show First K (_ :: c.spine); rw [e]; exact h.push
  | pushItem col l e _ _ _ => rw [e] at h; show First K (_ :: c.spine); rw [e]; exact h.push
  | pushList col l e _ _ => rw [e] at h; show First K (_ :: _ :: c.spine); rw [e]; exact h.push.push
  | @addLine b r x k off e h1 h2 =>
    rw [e] at h
    refine tip h ?_ ?_
    · intro hd; rw [hd] at h1; cases h1
    · intro hk hn
      refine ⟨hk, fun hp => ?_⟩
      obtain ⟨x, g1, g0, g2⟩ := hn hp
      rw [h2] at g1
      cases g1
      exact ⟨_, rfl, by simp [g0], fun y => by rw [List.append_assoc]; exact g2 _⟩
  | @flags b r blank flag e =>
    rw [e] at h
    refine h.rel (.cons ⟨?_, ?_, ?_⟩ ?_)
    · cases blank <;> rfl
    · cases blank with
      | false => exact .refl _
      | true => exact markLastChild_head _
    · cases blank <;> exact id
    · rw [List.forall₂_map_right_iff]
      exact List.forall₂_same.2 fun x _ => ⟨rfl, .refl _, id⟩
  | @refs b r x m hh e h1 h2 h3 =>
    rw [e] at h
    refine tip h (by rw [h1]; decide) ?_
    intro hk hn
    obtain ⟨y, g1, g0, g2⟩ := hn h1
    rw [h2] at g1
    cases g1
    rw [refLoop_no (by simpa using g2 [])] at h3
    cases h3
    exact absurd rfl g0
  | @setext b r x x' m hh lvl e h1 h2 h3 =>
    rw [e] at h
    refine tip h (by rw [h1]; decide) ?_
    intro hk _
    rw [h1] at hk
    exact ⟨hK hk, fun hp => by cases hp⟩

theorem first_steps (hK : K .paragraph → K .heading) {c c' : Core} (h : First K c.spine) (hs : Steps c c') : First K c'.spine := by
  induction hs with
  | refl => exact h
  | tail _ hs ih => exact first_step hK ih hs

theorem first_lineSteps (hK : K .paragraph → K .heading) {c c' : Core} (h : First K c.spine) (hs : LineSteps c c') : First K c'.spine := by
  cases hs with
  | steps hs => exact first_steps hK h hs
  | final hs hf =>
    have := first_steps hK h hs
    cases hf with
    | close e _ _ hf => rw [e] at this; exact this.close hf

theorem first_rest (hK : K .paragraph → K .heading) : ∀ (ls : List Str) {p p' : PState}, First K p.spine → Ready p →
    ls.foldlM incorporateLine p = .ok p' → First K p'.spine ∧ Ready p'
  | [], p, p', h, hr, he => by cases he; exact ⟨h, hr⟩
  | l :: ls, p, p', h, hr, he => by
    obtain ⟨p1, c, e1, e2, e3, e4⟩ := incorporateLine_ok hr l
    rw [List.foldlM_cons, e1] at he
    have h1 := first_lineSteps hK (c := lineCore p l) h e2
    have e5 : p1.spine = c.spine := (congrArg Core.spine e3 :)
    exact first_rest hK ls (by rw [e5]; exact h1) e4 he

/-! ### The first line -/

/-- The kinds a block can get that begins as `k`. -/
def Becomes (k x : Kind) : Prop := x = k ∨ (k = .paragraph ∧ x = .heading)

theorem becomes_para {k : Kind} : Becomes k .paragraph → Becomes k .heading := by
  rintro (h | ⟨_, h⟩)
  · exact .inr ⟨h.symm, rfl⟩
  · cases h

/-- What a block start does at the first line. -/
def FirstStart (P : PState) (k : Kind) (C : Prop) (f : PState → Except PyErr (Start × PState)) : Prop :=
  f P = .ok (.none, P) ∧ ¬ C ∨ ∃ s P', f P = .ok (s, P') ∧ s ≠ .none ∧ C ∧ First (Becomes k) P'.spine

/-- A parser at the beginning of a document, whose current line goes on with `l`. -/
structure AtFirst (P : PState) (b : OpenBlk) (l : Str) : Prop where
  spine : P.spine = [b]
  doc : b.data.t = .document
  empty : b.children = []
  closed : P.allClosed = true
  rest : P.currentLine.drop P.nextNonspace = l
  cur : CurN P
  nl : '\n' ∉ l

theorem first_opened {p : PState} {b : OpenBlk} (k : Kind) {off : PState → Nat} {f : PState → NodeData → NodeData} {s : Start} {g : PState → PState}
    (hs : p.spine = [b]) (hb : b.data.t = .document) (hc : b.children = []) (ha : p.allClosed = true) (hk : k ≠ .item)
    (hf : ∀ p d, (f p d).t = d.t) (hp : k ≠ .paragraph) (hg : ∀ p, (g p).spine = p.spine) :
    ∃ p', (do let p ← closeUnmatched p; let p ← addChild k (off p) (f p) p; return (s, g p)) = Except.ok (s, p') ∧ First (Becomes k) p'.spine := by
  simp only [closeUnmatched, ha, if_true, bind, Except.bind, pure, Except.pure]
  rw [addChild_doc hs (by rw [hb]; cases k <;> first | rfl | exact absurd rfl hk)]
  refine ⟨_, rfl, ?_⟩
  rw [hg]
  show First _ (_ :: p.spine)
  rw [hs]
  exact .more hb (.inr ⟨hc, .inl (by rw [hf]), fun h => absurd (by simpa [hf] using h) hp⟩)

variable {P : PState} {l : Str} {b : OpenBlk}

theorem fs_quote (h : AtFirst P b l) (hi : P.indented = false) : FirstStart P .blockQuote (l.head? = some '>') startBlockQuote := by
  have hpk : peekAt P.currentLine P.nextNonspace = l.head? := by rw [← h.rest, head?_peek]
  unfold FirstStart startBlockQuote
  by_cases hc : l.head? = some '>'
  · right
    rw [if_pos (by rw [hi, hpk, hc]; rfl)]
    obtain ⟨p', e, hf⟩ := first_opened .blockQuote (p := eatQuoteMarker P) (g := id) (f := fun _ => id) (s := .container) (off := fun p => p.nextNonspace)
      ((congrArg Core.spine (core_eat P)).trans h.spine) h.doc h.empty ((congrArg Books.allClosed (books_eat P)).trans h.closed) (by decide) (by intros; rfl)
      (by decide) (fun _ => rfl)
    exact ⟨_, _, e, by decide, hc, hf⟩
  · left
    rw [if_neg (by rw [hi, hpk]; simpa using hc)]
    exact ⟨rfl, hc⟩

theorem fs_atx (h : AtFirst P b l) (hi : P.indented = false) : FirstStart P .heading (∃ n, AtxMarker n l) startAtx := by
  unfold FirstStart startAtx
  rw [if_neg (by rw [hi]; simp), h.rest, ← atx_iff h.nl]
  cases hm : reATXHeadingMarker.matchPrefix l with
  | none => exact .inl ⟨rfl, by simp⟩
  | some m =>
    right
    obtain ⟨p', e, hf⟩ := first_opened .heading (p := advanceOffset m.length false (advanceNextNonspace P)) (g := advanceToEnd) (s := .leaf)
      (off := fun p => p.nextNonspace) (f := fun p d => { d with level := some (strip m).length, stringContent := some (atxContent (p.currentLine.drop p.offset)) })
      h.spine h.doc h.empty h.closed (by decide) (by intros; rfl) (by decide) (fun _ => rfl)
    exact ⟨_, _, e, by decide, rfl, hf⟩

theorem fs_fence (h : AtFirst P b l) (hi : P.indented = false) : FirstStart P .codeBlock (∃ c n info, CodeFence c n info l) startFenced := by
  unfold FirstStart startFenced
  rw [if_neg (by rw [hi]; simp), h.rest, ← fence_iff h.nl]
  cases hm : reCodeFence.matchPrefix l with
  | none => exact .inl ⟨rfl, by simp⟩
  | some m =>
    right
    obtain ⟨p', e, hf⟩ := first_opened .codeBlock (p := P) (g := fun p => advanceOffset m.length false (advanceNextNonspace p)) (s := .leaf)
      (off := fun p => p.nextNonspace) (f := fun p d => { d with isFenced := true, fenceLength := m.length, fenceChar := m.head?, fenceOffset := p.indent })
      h.spine h.doc h.empty h.closed (by decide) (by intros; rfl) (by decide) (fun _ => rfl)
    exact ⟨_, _, e, by decide, rfl, hf⟩

theorem fs_html (h : AtFirst P b l) (hi : P.indented = false) : FirstStart P .htmlBlock (∃ i, HtmlOpen i l) (startHtml b.data.t) := by
  have hpk : peekAt P.currentLine P.nextNonspace = l.head? := by rw [← h.rest, head?_peek]
  unfold FirstStart startHtml
  rw [h.doc]
  by_cases hc : l.head? = some '<'
  · rw [if_pos (by rw [hi, hpk, hc]; rfl), h.rest]
    cases hm : htmlBlockType .document l with
    | none =>
      refine .inl ⟨rfl, ?_⟩
      rintro ⟨i, hi⟩
      exact absurd ((htmlBlockType_none h.nl).1 hm i hi).2 (by decide)
    | some i =>
      right
      obtain ⟨p', e, hf⟩ := first_opened .htmlBlock (p := P) (g := id) (s := .leaf) (off := fun p => p.offset) (f := fun _ d => { d with htmlBlockType := i })
        h.spine h.doc h.empty h.closed (by decide) (by intros; rfl) (by decide) (fun _ => rfl)
      exact ⟨_, _, e, by decide, ⟨i, ((htmlBlockType_iff h.nl).1 hm).1.1⟩, hf⟩
  · left
    rw [if_neg (by rw [hi, hpk]; simpa using hc)]
    refine ⟨rfl, ?_⟩
    rintro ⟨i, hi⟩
    exact hc (htmlOpen_head hi)

theorem fs_setext (h : AtFirst P b l) : startSetext b.data.t P = .ok (.none, P) := by
  unfold startSetext
  rw [if_neg (by simp [h.doc])]

theorem fs_rule (h : AtFirst P b l) (hi : P.indented = false) : FirstStart P .thematicBreak (ThematicBreak l) startThematic := by
  unfold FirstStart startThematic
  rw [h.rest, ← thematic_iff h.nl, hi]
  cases hm : reThematicBreak.matchPrefix l with
  | none => exact .inl ⟨rfl, by simp⟩
  | some m =>
    right
    obtain ⟨p', e, hf⟩ := first_opened .thematicBreak (p := P) (g := advanceToEnd) (s := .leaf) (off := fun p => p.nextNonspace) (f := fun _ => id)
      h.spine h.doc h.empty h.closed (by decide) (by intros; rfl) (by decide) (fun _ => rfl)
    exact ⟨_, _, e, by decide, rfl, hf⟩

theorem ordered_prefix {num r : Str} {d : Char} (h1 : 1 ≤ num.length) (h2 : num.length ≤ 9) (h3 : ∀ c ∈ num, isPyDigit c = true) (h4 : d = '.' ∨ d = ')') :
    reOrderedListMarker.matchPrefix (num ++ d :: r) = some (num ++ [d]) := by
  have hd : isPyDigit d = false := by rcases h4 with rfl | rfl <;> decide +kernel
  have hs : (reOrderedListMarker.matchPrefix (num ++ d :: r)).isSome = true := by
    rw [matchPrefix_iff]
    refine ⟨num ++ [d], r, by simp, num, [d], rfl, (den_between_chr (by omega)).2 ⟨h1, h2, h3⟩, d, ?_, rfl⟩
    rcases h4 with rfl | rfl <;> rfl
  obtain ⟨m', hm'⟩ := Option.isSome_iff_exists.1 hs
  obtain ⟨ds', d', rfl, _, _, g3, g4⟩ := ordered_marker hm'
  obtain ⟨t, ht, _⟩ := Re.matchPrefix_den hm'
  have hd' : isPyDigit d' = false := by rcases g4 with rfl | rfl <;> decide +kernel
  rw [List.append_assoc] at ht
  obtain ⟨rfl, rfl⟩ := digits_unique h3 g3 hd hd' ht
  exact hm'

theorem endOrSpace_peek {a r : Str} : ((peekAt (a ++ r) a.length).isNone || isSpTabOpt (peekAt (a ++ r) a.length)) = true ↔ EndOrSpace r := by
  have : peekAt (a ++ r) a.length = r.head? := by
    unfold peekAt; rw [List.getElem?_append_right (Nat.le_refl _)]; simp [List.head?_eq_getElem?]
  rw [this]
  cases r with
  | nil => simp [EndOrSpace]
  | cons y r => simp [EndOrSpace, isSpTabOpt, isSpTab]

/-- The line begins with a list marker. -/
def ListLine (l : Str) : Prop := BulletMarker l ∨ ∃ num, OrderedMarker num l

/-- A list marker is found in the lines that have one. -/
theorem listMarker_line : (∃ m ty b st dl, listMarker .document l = some (m, ty, b, st, dl) ∧
    ((peekAt l m.length).isNone || isSpTabOpt (peekAt l m.length)) = true) ↔ ListLine l := by
  constructor
  · rintro ⟨m, ty, b, st, dl, hm, hx⟩
    unfold listMarker at hm
    split at hm
    · cases hm
    · rename_i c r
      split at hm
      · rename_i hb
        simp only [Option.some.injEq, Prod.mk.injEq] at hm
        obtain ⟨rfl, _⟩ := hm
        refine .inl ⟨c, r, rfl, ?_, (endOrSpace_peek (a := [c])).1 hx⟩
        simp only [isBulletChar, Bool.or_eq_true, beq_iff_eq] at hb
        rcases hb with (h | h) | h <;> simp [h]
      · split at hm
        · cases hm
        · rename_i mm hmm
          split at hm
          · simp only [Option.some.injEq, Prod.mk.injEq] at hm
            obtain ⟨rfl, _⟩ := hm
            obtain ⟨ds, d, rfl, d1, d2, d3, d4⟩ := ordered_marker hmm
            obtain ⟨t, ht, -⟩ := Re.matchPrefix_den hmm
            rw [ht] at hx ⊢
            exact .inr ⟨ds, d, t, by simp, d1, d2, d3, d4, endOrSpace_peek.1 hx⟩
          · cases hm
  · rintro (⟨c, r, rfl, hc, he⟩ | ⟨num, d, r, rfl, h1, h2, h3, h4, he⟩)
    · refine ⟨[c], _, _, _, _, if_pos (by rcases hc with rfl | rfl | rfl <;> rfl), (endOrSpace_peek (a := [c])).2 he⟩
    · have hp := ordered_prefix (r := r) h1 h2 h3 h4
      refine ⟨num ++ [d], .ordered, none, some (pyInt (num ++ [d]).dropLast), (num ++ [d]).getLast?, ?_, ?_⟩
      · cases num with
        | nil => simp at h1
        | cons x xs =>
          have hb : isBulletChar x = false := by
            have := h3 x (by simp)
            cases hh : isBulletChar x with
            | false => rfl
            | true =>
              exfalso
              simp only [isBulletChar, Bool.or_eq_true, beq_iff_eq] at hh
              rcases hh with (rfl | rfl) | rfl <;> revert this <;> decide +kernel
          rw [List.cons_append] at hp ⊢
          unfold listMarker
          simp only [hb, hp]
          rfl
      · have := (endOrSpace_peek (a := num ++ [d])).2 he
        simpa using this

theorem fs_list (h : AtFirst P b l) (hi : P.indented = false) (hi' : P.indent < 4) : FirstStart P .list (ListLine l) (startListItem b.data) := by
  unfold FirstStart startListItem
  rw [if_pos (by rw [hi]; rfl), h.doc, ← listMarker_line]
  have hpk : ∀ n, peekAt P.currentLine (P.nextNonspace + n) = peekAt l n := by
    intro n; rw [← h.rest]; simp [peekAt, List.getElem?_drop]
  by_cases hC : ∃ m ty b st dl, listMarker .document l = some (m, ty, b, st, dl) ∧ ((peekAt l m.length).isNone || isSpTabOpt (peekAt l m.length)) = true
  · right
    rcases parseListMarker_ok .document h.cur with h1 | ⟨d, o, col, pct, h1, _⟩
    · exfalso
      obtain ⟨m, ty, bc, st, dl, hm, hx⟩ := hC
      unfold parseListMarker at h1
      rw [if_neg (by omega), h.rest, hm] at h1
      simp only [hpk, hx] at h1
      rw [if_neg (by simp), if_neg (by simp)] at h1
      cases ha : markerSpaces (advanceOffset m.length true (advanceNextNonspace P)).column 6 (advanceOffset m.length true (advanceNextNonspace P)) with
      | error => rw [ha] at h1; cases h1
      | ok q =>
        rw [ha] at h1
        simp only [Except.bind, bind, pure, Except.pure, Except.ok.injEq, Prod.mk.injEq] at h1
        exact absurd h1.1 (by simp)
    · rw [h1]
      simp only [bind, Except.bind]
      generalize hp1 : ({ P with offset := o, column := col, partiallyConsumedTab := pct } : PState) = p1
      have hs1 : p1.spine = [b] := by rw [← hp1]; exact h.spine
      have ha1 : p1.allClosed = true := by rw [← hp1]; exact h.closed
      have hk : (tipKind p1 != some .list || !(listsMatch b.data.listData d)) = true := by
        have : tipKind p1 = some .document := by unfold tipKind; rw [hs1]; exact congrArg some h.doc
        rw [this]; rfl
      have hl : ∀ (off : Nat) (f : NodeData → NodeData), addChild .list off f p1 =
        .ok { p1 with spine := ⟨f { t := .list, sourcepos := some ((p1.lineNumber, off + 1), (0, 0)) }, []⟩ :: p1.spine } :=
          fun off f => addChild_doc (k := .list) hs1 (by rw [h.doc]; rfl)
      simp only [closeUnmatched, ha1, if_true, hk, hl]
      rw [addChild_doc (k := .item) rfl rfl, hs1]
      exact ⟨_, _, rfl, by decide, hC, .cons (.more h.doc (.inr ⟨h.empty, .inl rfl, fun h => by cases h⟩))⟩
  · left
    refine ⟨?_, hC⟩
    have : parseListMarker .document P = .ok (none, P) := by
      unfold parseListMarker
      rw [if_neg (by omega), h.rest]
      cases hm : listMarker .document l with
      | none => rfl
      | some q =>
        obtain ⟨m, ty, bc, st, dl⟩ := q
        simp only [hpk]
        rw [if_pos]
        cases hh : ((peekAt l m.length).isNone || isSpTabOpt (peekAt l m.length)) with
        | false => rfl
        | true => exact absurd ⟨m, ty, bc, st, dl, hm, hh⟩ hC
    rw [this]
    rfl

theorem try_none {f : PState → Except PyErr (Start × PState)} {fs : List (PState → Except PyErr (Start × PState))} (h : f P = .ok (.none, P)) :
    tryStarts (f :: fs) P = tryStarts fs P := by
  simp only [tryStarts, h, bind, Except.bind]

theorem try_some {f : PState → Except PyErr (Start × PState)} {fs : List (PState → Except PyErr (Start × PState))} {s : Start} {P' : PState}
    (h : f P = .ok (s, P')) (hs : s ≠ .none) : tryStarts (f :: fs) P = .ok (s, P') := by
  simp only [tryStarts, h, bind, Except.bind]
  cases s with
  | none => exact absurd rfl hs
  | container => rfl
  | leaf => rfl

theorem isDig_ascii {c : Char} : isDig c = true ↔ AsciiDigit c := by
  unfold isDig inRange AsciiDigit
  rw [Bool.and_eq_true, decide_eq_true_iff, decide_eq_true_iff]
  exact Iff.rfl

theorem special_digit {c : Char} (h : isMaybeSpecial c = true) (hd : isPyDigit c = true) : AsciiDigit c := by
  unfold isMaybeSpecial at h
  rw [Bool.or_eq_true] at h
  rcases h with h | h
  · exfalso
    have : c ∈ lit "#`~*+_=<>-" := by simpa using h
    have all : ∀ c ∈ lit "#`~*+_=<>-", isPyDigit c = false := by decide +kernel
    rw [all c this] at hd
    cases hd
  · exact isDig_ascii.1 h

/-- The block starts at the first line. -/
theorem starts_first (h : AtFirst P b l) (hi : P.indented = false) (hi' : P.indent < 4) (hsp : ∀ c, l.head? = some c → isMaybeSpecial c = true) :
    (tryStarts (blockStarts b.data) P = .ok (.none, P) ∧ ∀ k, ¬ Opens l k) ∨
    ∃ s P' k, tryStarts (blockStarts b.data) P = .ok (s, P') ∧ s ≠ .none ∧ Opens l k ∧ First (Becomes k) P'.spine := by
  unfold blockStarts
  rcases fs_quote h hi with ⟨e1, c1⟩ | ⟨s, P', e, hs, hc, hf⟩
  case inr =>
    obtain ⟨r, rfl⟩ : ∃ r, l = '>' :: r := by
      cases l with
      | nil => cases hc
      | cons x r => cases hc; exact ⟨r, rfl⟩
    exact .inr ⟨s, P', _, try_some e hs, hs, .quote, hf⟩
  rw [try_none e1]
  rcases fs_atx h hi with ⟨e2, c2⟩ | ⟨s, P', e, hs, ⟨n, hc⟩, hf⟩
  case inr => exact .inr ⟨s, P', _, try_some e hs, hs, .atx hc, hf⟩
  rw [try_none e2]
  rcases fs_fence h hi with ⟨e3, c3⟩ | ⟨s, P', e, hs, ⟨_, _, _, hc⟩, hf⟩
  case inr => exact .inr ⟨s, P', _, try_some e hs, hs, .fence hc, hf⟩
  rw [try_none e3]
  rcases fs_html h hi with ⟨e4, c4⟩ | ⟨s, P', e, hs, ⟨_, hc⟩, hf⟩
  case inr => exact .inr ⟨s, P', _, try_some e hs, hs, .html hc, hf⟩
  rw [try_none e4, try_none (fs_setext h)]
  rcases fs_rule h hi with ⟨e5, c5⟩ | ⟨s, P', e, hs, hc, hf⟩
  case inr => exact .inr ⟨s, P', _, try_some e hs, hs, .rule hc, hf⟩
  rw [try_none e5]
  rcases fs_list h hi hi' with ⟨e6, c6⟩ | ⟨s, P', e, hs, hc, hf⟩
  case inr =>
    refine .inr ⟨s, P', _, try_some e hs, hs, ?_, hf⟩
    rcases hc with hc | ⟨num, hc⟩
    · exact .bullet hc c5
    · refine .ordered hc fun c hcc => special_digit (hsp c hcc) ?_
      obtain ⟨d, r, rfl, h1, -, h3, -, -⟩ := hc
      cases num with
      | nil => simp at h1
      | cons x xs =>
        cases hcc
        exact h3 _ (by simp)
  rw [try_none e6]
  left
  constructor
  · have : startIndented P = .ok (.none, P) := by
      unfold startIndented
      rw [if_neg (by rw [hi]; simp)]
    rw [try_none this]
    rfl
  · intro k hk
    cases hk with
    | quote => exact c1 rfl
    | atx h => exact c2 ⟨_, h⟩
    | fence h => exact c3 ⟨_, _, _, h⟩
    | html h => exact c4 ⟨_, h⟩
    | rule h => exact c5 h
    | bullet h _ => exact c6 (.inl h)
    | ordered h _ => exact c6 (.inr ⟨_, h⟩)

/-- A block begins with one of the special characters. -/
theorem opens_head {k : Kind} (h : Opens l k) : ∃ c r, l = c :: r ∧ isMaybeSpecial c = true := by
  cases h with
  | @atx n _ h =>
    obtain ⟨h1, _, r, hr, _⟩ := h
    obtain ⟨n, rfl⟩ : ∃ k, n = k + 1 := ⟨n - 1, by omega⟩
    exact ⟨'#', _, by rw [hr]; rfl, by decide⟩
  | @fence c n info _ h =>
    obtain ⟨h1, hr, _, h2⟩ := h
    obtain ⟨n, rfl⟩ : ∃ k, n = k + 1 := ⟨n - 1, by omega⟩
    refine ⟨c, _, by rw [hr]; rfl, ?_⟩
    rcases h2 with ⟨rfl, _⟩ | rfl <;> decide
  | html h =>
    have := htmlOpen_head h
    cases l with
    | nil => cases this
    | cons c r => cases this; exact ⟨'<', r, rfl, by decide⟩
  | rule h =>
    obtain ⟨c, h1, h2, -, -⟩ := h
    cases l with
    | nil => cases h2
    | cons a r =>
      cases h2
      exact ⟨_, r, rfl, by rcases h1 with rfl | rfl | rfl <;> decide⟩
  | @quote r => exact ⟨'>', r, rfl, by decide⟩
  | bullet h _ =>
    obtain ⟨c, r, rfl, hc, -⟩ := h
    exact ⟨c, r, rfl, by rcases hc with rfl | rfl | rfl <;> decide⟩
  | @ordered num _ h h0 =>
    obtain ⟨d, r, rfl, h1, -⟩ := h
    cases num with
    | nil => simp at h1
    | cons x xs =>
      refine ⟨x, _, rfl, ?_⟩
      have : isDig x = true := isDig_ascii.2 (h0 x rfl)
      unfold isMaybeSpecial
      rw [this, Bool.or_true]

/-- The block starts at a first line that is indented code. -/
theorem starts_indented (h : AtFirst P b l) (hi : P.indented = true) (hb : P.blank = false) :
    ∃ s P', tryStarts (blockStarts b.data) P = .ok (s, P') ∧ s ≠ .none ∧ First (Becomes .codeBlock) P'.spine := by
  unfold blockStarts
  have e1 : startBlockQuote P = .ok (.none, P) := by unfold startBlockQuote; rw [hi]; rfl
  have e2 : startAtx P = .ok (.none, P) := by unfold startAtx; rw [hi]; rfl
  have e3 : startFenced P = .ok (.none, P) := by unfold startFenced; rw [hi]; rfl
  have e4 : startHtml b.data.t P = .ok (.none, P) := by unfold startHtml; rw [hi]; rfl
  have e5 : startThematic P = .ok (.none, P) := by unfold startThematic; rw [hi]; rfl
  have e6 : startListItem b.data P = .ok (.none, P) := by unfold startListItem; rw [hi, h.doc]; rfl
  rw [try_none e1, try_none e2, try_none e3, try_none e4, try_none (fs_setext h), try_none e5, try_none e6]
  have ht : tipKind P = some .document := by unfold tipKind; rw [h.spine]; exact congrArg some h.doc
  obtain ⟨p', e, hf⟩ := first_opened .codeBlock (p := advanceOffset 4 true P) (g := id) (s := .leaf) (off := fun p => p.offset) (f := fun _ => id)
    h.spine h.doc h.empty h.closed (by decide) (by intros; rfl) (by decide) (fun _ => rfl)
  refine ⟨.leaf, p', try_some ?_ (by decide), by decide, hf⟩
  unfold startIndented
  rw [if_pos (by rw [hi, ht, hb]; rfl)]
  exact e

/-! ### The first line that is not blank -/

theorem sp_first {q : PState} (hs : q.spine = [b]) (hb : b.data.t = .document) (ha : q.allClosed = true) (hg : GoodChain [b.data])
    (hl : startLine b.data ≤ q.lineNumber) (hn : 1 ≤ q.lineNumber) : SP b.data q := by
  have hds : q.ds = [b.data] := by rw [PState.ds, hs]; rfl
  refine ⟨by rw [hds]; exact hg, ?_, hn, .inl ⟨ha, b.data, [], hds, rfl, rfl, .inl ?_⟩⟩
  · rw [hds]
    intro d hd
    obtain rfl : d = b.data := by simpa using hd
    exact hl
  · rw [hb]; exact .inl rfl

theorem takeWhile_append {w r : Str} {c : Char} (hw : OnlySpTab w) (h1 : c ≠ ' ') (h2 : c ≠ '\t') :
    (w ++ c :: r).takeWhile isSpTab = w ∧ (w ++ c :: r).dropWhile isSpTab = c :: r := by
  induction w with
  | nil => simp [isSpTab, h1, h2]
  | cons x w ih =>
    have hx : isSpTab x = true := by
      rcases hw x (by simp) with rfl | rfl <;> rfl
    have := ih fun y hy => hw y (by simp [hy])
    simp [List.takeWhile_cons, List.dropWhile_cons, hx, this.1, this.2]

theorem takeWhile_blank {w : Str} (hw : OnlySpTab w) : w.takeWhile isSpTab = w ∧ w.dropWhile isSpTab = [] := by
  induction w with
  | nil => simp
  | cons x w ih =>
    have hx : isSpTab x = true := by
      rcases hw x (by simp) with rfl | rfl <;> rfl
    have := ih fun y hy => hw y (by simp [hy])
    simp [List.takeWhile_cons, List.dropWhile_cons, hx, this.1, this.2]

/-- A document of which nothing is there yet. -/
structure NoBlocks (p : PState) (b : OpenBlk) : Prop where
  spine : p.spine = [b]
  doc : b.data.t = .document
  empty : b.children = []
  ready : Ready p

/-- The beginning of a line in an empty document. -/
theorem fresh_line {p : PState} (h : NoBlocks p b) (ln : Str) : ∃ q : PState, incorporateLine p ln =
    (do
      let v ← startsLoop ((replaceChar (Char.ofNat 0) (Char.ofNat 0xFFFD) ln).length + 1) b.data q
      let v ← addText v
      return { v with lastLineLength := (replaceChar (Char.ofNat 0) (Char.ofNat 0xFFFD) ln).length }) ∧
    q.spine = [b] ∧ q.allClosed = true ∧ q.currentLine = replaceChar (Char.ofNat 0) (Char.ofNat 0xFFFD) ln ∧ q.offset = 0 ∧ q.column = 0 ∧
    SP b.data q ∧ q.lineNumber = p.lineNumber + 1 ∧ q.refmap = p.refmap := by
  generalize hl' : replaceChar (Char.ofNat 0) (Char.ofNat 0xFFFD) ln = l'
  refine ⟨{ atStart p l' with allClosed := true, lastMatched := 1 }, ?_, h.spine, rfl, rfl, rfl, rfl, ?_, rfl, rfl⟩
  · rw [incorporateLine_eq, hl']
    have e1 : (atStart p l').spine.reverse.drop 1 = [] := by
      show p.spine.reverse.drop 1 = _
      rw [h.spine]; rfl
    rw [e1]
    simp only [contLoop, Except.bind, bind, afterCont]
    have bp : ∀ a, blockAt { atStart p l' with allClosed := a, lastMatched := 1 } 1 = some b.data := by
      intro a
      show (p.spine.reverse[0]?).map _ = _
      rw [h.spine]; rfl
    have op : (1 == (atStart p l').oldtip) = true := by
      show (1 == p.spine.length) = true
      rw [h.spine]; rfl
    simp only [bp, op]
    rw [if_neg (by rw [h.doc]; decide)]
  · have hds : p.ds = [b.data] := by rw [PState.ds, h.spine]; rfl
    have hle : startLine b.data ≤ p.lineNumber + 1 := by
      rcases h.ready.le b.data (by rw [hds]; simp) with h | h
      · omega
      · have := h.2; omega
    exact sp_first h.spine h.doc rfl (by have := h.ready.good; rw [hds] at this; exact this) hle (Nat.succ_pos _)

/-- The first line that is not blank. -/
theorem first_begins {p p' : PState} {w r : Str} {c : Char} (h : NoBlocks p b) (hw : OnlySpTab w) (h1 : c ≠ ' ') (h2 : c ≠ '\t') (hone : OneLine (c :: r))
    (hln : noNul (w ++ c :: r) = w ++ c :: r) (hp : incorporateLine p (w ++ c :: r) = .ok p') :
    (∃ k, Starts w (c :: r) k ∧ First (Becomes k) p'.spine) ∨
    (∀ k, ¬ Starts w (c :: r) k) ∧ ((∀ y, ¬ DefinitionStart (c :: r ++ '\n' :: y)) → First (Becomes .paragraph) p'.spine) := by
  obtain ⟨q, hq, qs, qa, ql, qo, qcol, hsp, -, -⟩ := fresh_line h (w ++ c :: r)
  rw [replaceChar_nul, hln] at hq ql
  rw [hq] at hp
  clear hq
  obtain ⟨t1, t2⟩ := takeWhile_append (r := r) hw h1 h2
  have hsk : skipWs (q.currentLine.drop q.offset) q.offset q.column = (w.length, columnFrom 0 w, some c) := by
    rw [ql, qo, qcol, List.drop_zero, skipWs_eq, t1, t2, Nat.zero_add]; rfl
  have qc : Cur q := by show q.offset ≤ _; rw [qo]; omega
  have hn := curN_find qc
  have f1 : (findNextNonspace q).nextNonspace = w.length := by show (skipWs _ _ _).1 = _; rw [hsk]
  have f2 : (findNextNonspace q).blank = false := by
    have : (findNextNonspace q).blank = match (skipWs (q.currentLine.drop q.offset) q.offset q.column).2.2 with
      | none => true
      | some c => c == '\n' || c == '\r' := rfl
    rw [this, hsk]
    have := hone c (by simp)
    simp [this.1, this.2]
  have f3 : (findNextNonspace q).indent = columnFrom 0 w := by
    show (skipWs _ _ _).2.1 - q.column = _
    rw [hsk, qcol]; rfl
  have f4 : (findNextNonspace q).indented = decide (4 ≤ columnFrom 0 w) := by
    show decide ((skipWs _ _ _).2.1 - q.column ≥ 4) = _
    rw [hsk, qcol]; rfl
  have f5 : (findNextNonspace q).currentLine.drop (findNextNonspace q).nextNonspace = c :: r := by
    rw [f1]; show q.currentLine.drop _ = _; rw [ql]; simp
  have f6 : peekAt (findNextNonspace q).currentLine (findNextNonspace q).nextNonspace = some c := by
    rw [← head?_peek, f5]; rfl
  have af : AtFirst (findNextNonspace q) b (c :: r) :=
    ⟨qs, h.doc, h.empty, qa, f5, hn, fun hm => (hone _ hm).1 rfl⟩
  -- nothing was opened: a paragraph
  have para : ∀ Q P2 : PState, Q = advanceNextNonspace (findNextNonspace q) → addText Q = .ok P2 →
      (∀ y, ¬ DefinitionStart (c :: r ++ '\n' :: y)) → First (Becomes .paragraph) P2.spine := by
    intro Q P2 hQ hh hdef
    have Qs : Q.spine = [b] := by rw [hQ]; exact qs
    have Qa : Q.allClosed = true := by rw [hQ]; exact qa
    have Qb : Q.blank = false := by rw [hQ]; exact f2
    have Qo : Q.offset = w.length := by rw [hQ]; exact f1
    have Qn : Q.nextNonspace = w.length := by rw [hQ]; exact f1
    have Ql : Q.currentLine = w ++ c :: r := by rw [hQ]; exact ql
    unfold addText at hh
    rw [if_neg (by rw [Qa]; simp)] at hh
    simp only [closeUnmatched, Qa, if_true, bind, Except.bind, Qs, Qb, Bool.false_eq_true, if_false] at hh
    rw [if_neg (by rw [h.doc]; decide)] at hh
    rw [if_pos (by rw [Qo, Ql]; simp)] at hh
    rw [addChild_doc (k := .paragraph) rfl (by show canContain b.data.t _ = true; rw [h.doc]; rfl)] at hh
    simp only [addLine, advanceNextNonspace, appendContent, Bool.false_eq_true, if_false, id, List.map_cons, List.map_nil,
      Except.ok.injEq] at hh
    subst hh
    refine .more h.doc (.inr ⟨h.empty, .inl rfl, fun _ => ⟨c :: (r ++ ['\n']), ?_, by simp, fun y hy => ?_⟩⟩)
    · simp [Qn, Ql]
    · exact hdef y (by simpa using hy)
  -- a block was opened
  have fired : ∀ {s : Start} {P' v P2 : PState} {k : Kind}, tryStarts (blockStarts b.data) (findNextNonspace q) = .ok (s, P') → s ≠ .none →
      First (Becomes k) P'.spine →
      (match s with
        | .none => .ok (advanceNextNonspace P')
        | .leaf => .ok P'
        | .container =>
          match P'.spine with
          | [] => .error .attributeError
          | x :: _ => startsLoop (w ++ c :: r).length x.data P' : Except PyErr PState) = .ok v →
      addText v = .ok P2 → First (Becomes k) P2.spine := by
    intro s P' v P2 k he hs hf hst hat
    obtain ⟨s1, P1, e1, e2⟩ := blockStarts_ok (hsp.frame (q := findNextNonspace q) rfl rfl) hn
    rw [he] at e1
    cases e1
    have key : First (Becomes k) v.spine ∧ Started v := by
      cases s with
      | none => exact absurd rfl hs
      | leaf => cases hst; exact ⟨hf, .inr e2.2⟩
      | container =>
        obtain ⟨k1, k2, k3, b2, up, k4, k5⟩ := e2
        simp only [k4] at hst
        have htext : P'.currentLine = q.currentLine := (steps_core_line k1).2.1
        obtain ⟨v', m1, m2, m3⟩ := startsLoop_ok (w ++ c :: r).length b2.data P' k5 k3 (by
          rw [htext, ql]
          have : (findNextNonspace q).offset = 0 := qo
          omega)
        rw [hst] at m1
        cases m1
        exact ⟨first_steps becomes_para (c := P'.core) hf m2, m3⟩
    obtain ⟨P3, m1, m2, _⟩ := addText_ok key.2
    rw [hat] at m1
    cases m1
    exact first_lineSteps becomes_para (c := v.core) key.1 m2
  cases hst : startsLoop ((w ++ c :: r).length + 1) b.data q with
  | error => rw [hst] at hp; cases hp
  | ok v =>
    rw [hst] at hp
    simp only [bind, Except.bind] at hp
    cases hat : addText v with
    | error => rw [hat] at hp; cases hp
    | ok P2 =>
      rw [hat] at hp
      cases hp
      unfold startsLoop at hst
      simp only [f6] at hst
      by_cases hcol : 4 ≤ columnFrom 0 w
      · left
        refine ⟨.codeBlock, .code hcol, ?_⟩
        rw [if_neg (by rw [f4, decide_eq_true hcol]; simp)] at hst
        obtain ⟨s, P', e1, e2, e3⟩ := starts_indented af (by rw [f4, decide_eq_true hcol]) f2
        rw [e1] at hst
        exact fired (P2 := P2) e1 e2 e3 hst hat
      · have f4' : (findNextNonspace q).indented = false := by rw [f4, decide_eq_false hcol]
        have nostart : (∀ k, ¬ Opens (c :: r) k) → ∀ k, ¬ Starts w (c :: r) k := by
          intro hno k hk
          cases hk with
          | code h => exact hcol h
          | other _ h => exact hno _ h
        rw [f4'] at hst
        cases hms : isMaybeSpecial c with
        | false =>
          rw [hms, if_pos (by rfl)] at hst
          cases hst
          refine .inr ⟨nostart ?_, para _ P2 rfl hat⟩
          intro k hk
          obtain ⟨c', r', e, hc'⟩ := opens_head hk
          cases e
          rw [hms] at hc'
          cases hc'
        | true =>
          rw [hms, if_neg (by simp)] at hst
          rcases starts_first af f4' (by rw [f3]; omega) (by intro x hx; cases hx; exact hms) with ⟨e1, e2⟩ | ⟨s, P', k, e1, e2, e3, e4⟩
          · rw [e1] at hst
            cases hst
            exact .inr ⟨nostart e2, para _ P2 rfl hat⟩
          · rw [e1] at hst
            exact .inl ⟨k, .other (by omega) e3, fired (P2 := P2) e1 e2 e4 hst hat⟩

/-- A blank line at the beginning of a document. -/
theorem fresh_blank {p : PState} {w : Str} (h : NoBlocks p b) (hw : OnlySpTab w) :
    ∃ p' b', incorporateLine p w = .ok p' ∧ NoBlocks p' b' ∧ p'.refmap = p.refmap := by
  obtain ⟨q, hq, qs, qa, ql, qo, qcol, hsp, -, qr⟩ := fresh_line h w
  have hnul : noNul w = w := noNul_none fun hm => by rcases hw _ hm with h | h <;> revert h <;> decide
  rw [replaceChar_nul, hnul] at hq ql
  obtain ⟨t1, t2⟩ := takeWhile_blank hw
  have hsk : skipWs (q.currentLine.drop q.offset) q.offset q.column = (w.length, columnFrom 0 w, none) := by
    rw [ql, qo, qcol, List.drop_zero, skipWs_eq, t1, t2, Nat.zero_add]; rfl
  have f1 : (findNextNonspace q).nextNonspace = w.length := by show (skipWs _ _ _).1 = _; rw [hsk]
  have f2 : (findNextNonspace q).blank = true := by
    have : (findNextNonspace q).blank = match (skipWs (q.currentLine.drop q.offset) q.offset q.column).2.2 with
      | none => true
      | some c => c == '\n' || c == '\r' := rfl
    rw [this, hsk]
  have f5 : (findNextNonspace q).currentLine.drop (findNextNonspace q).nextNonspace = [] := by
    rw [f1]; show q.currentLine.drop _ = _; rw [ql]; simp
  have f6 : peekAt (findNextNonspace q).currentLine (findNextNonspace q).nextNonspace = none := by
    rw [← head?_peek, f5]; rfl
  have qc : Cur q := by show q.offset ≤ _; rw [qo]; omega
  have af : AtFirst (findNextNonspace q) b [] := ⟨qs, h.doc, h.empty, qa, f5, curN_find qc, by simp⟩
  have hst : startsLoop (w.length + 1) b.data q = .ok (advanceNextNonspace (findNextNonspace q)) := by
    unfold startsLoop
    simp only [f6]
    cases hi : (findNextNonspace q).indented with
    | false => rw [if_pos (by rfl)]; rfl
    | true =>
      rw [if_neg (by simp)]
      have e : tryStarts (blockStarts b.data) (findNextNonspace q) = .ok (.none, findNextNonspace q) := by
        unfold blockStarts
        have e1 : startBlockQuote (findNextNonspace q) = .ok (.none, findNextNonspace q) := by unfold startBlockQuote; rw [hi]; rfl
        have e2 : startAtx (findNextNonspace q) = .ok (.none, findNextNonspace q) := by unfold startAtx; rw [hi]; rfl
        have e3 : startFenced (findNextNonspace q) = .ok (.none, findNextNonspace q) := by unfold startFenced; rw [hi]; rfl
        have e4 : startHtml b.data.t (findNextNonspace q) = .ok (.none, findNextNonspace q) := by unfold startHtml; rw [hi]; rfl
        have e5 : startThematic (findNextNonspace q) = .ok (.none, findNextNonspace q) := by unfold startThematic; rw [hi]; rfl
        have e6 : startListItem b.data (findNextNonspace q) = .ok (.none, findNextNonspace q) := by unfold startListItem; rw [hi, h.doc]; rfl
        have e7 : startIndented (findNextNonspace q) = .ok (.none, findNextNonspace q) := by unfold startIndented; rw [f2]; simp
        rw [try_none e1, try_none e2, try_none e3, try_none e4, try_none (fs_setext af), try_none e5, try_none e6, try_none e7]
        rfl
      rw [e]; rfl
  obtain ⟨p1, c, e1, e2, e3, e4⟩ := incorporateLine_ok h.ready w
  refine ⟨p1, { b with data := { b.data with lastLineBlank := lineBlankFlag b (advanceNextNonspace (findNextNonspace q)) } }, e1, ⟨?_, h.doc, h.empty, e4⟩, ?_⟩
  all_goals
    rw [hq, hst] at e1
    have hch : (markLastChild b.children) = [] := by rw [h.empty]; rfl
    have Qb : (advanceNextNonspace (findNextNonspace q)).blank = true := f2
    have Qa : (advanceNextNonspace (findNextNonspace q)).allClosed = true := qa
    have Qs : (advanceNextNonspace (findNextNonspace q)).spine = [b] := qs
    have Qr : (advanceNextNonspace (findNextNonspace q)).refmap = p.refmap := qr
    generalize advanceNextNonspace (findNextNonspace q) = Q at *
    unfold addText at e1
    simp only [bind, Except.bind, closeUnmatched, Qa, Qb, Qs, if_true, hch] at e1
    rw [if_neg (by simp)] at e1
    rw [if_neg (by rw [h.doc]; decide), if_neg (by simp)] at e1
    cases e1
  · show [_] = [_]
    have : ({ b with children := [] } : OpenBlk) = b := by
      cases b; cases h.empty; rfl
    rw [this]
  · exact Qr

theorem fresh_blanks : ∀ (ws : List Str) {p : PState} {b : OpenBlk}, NoBlocks p b → (∀ w ∈ ws, OnlySpTab w) →
    ∃ p' b', ws.foldlM incorporateLine p = .ok p' ∧ NoBlocks p' b' ∧ p'.refmap = p.refmap
  | [], p, b, h, _ => ⟨p, b, rfl, h, rfl⟩
  | w :: ws, p, b, h, hw => by
    obtain ⟨p1, b1, e1, h1, r1⟩ := fresh_blank h (hw w (by simp))
    obtain ⟨p2, b2, e2, h2, r2⟩ := fresh_blanks ws h1 fun x hx => hw x (by simp [hx])
    exact ⟨p2, b2, by rw [List.foldlM_cons, e1]; exact e2, h2, r2.trans r1⟩

theorem fresh_reset (p : PState) : NoBlocks p.reset ⟨docNode, []⟩ := ⟨rfl, rfl, rfl, (ready_reset p).1⟩

theorem processList_head {smart : Bool} {m : RefMap} {c : Tree} {cs ts : List Tree} (h : processInlinesList smart m (c :: cs) = .ok ts) :
    ∃ c' ts', ts = c' :: ts' ∧ c'.data = c.data := by
  simp only [processInlinesList, bind, Except.bind] at h
  cases h1 : processInlines smart m c with
  | error => rw [h1] at h; cases h
  | ok c' =>
    rw [h1] at h
    simp only at h
    cases h2 : processInlinesList smart m cs with
    | error => rw [h2] at h; cases h
    | ok ts' =>
      rw [h2] at h
      cases h
      refine ⟨c', ts', rfl, ?_⟩
      obtain ⟨d, ds⟩ := c
      simp only [processInlines, bind, Except.bind] at h1
      cases h3 : processInlinesList smart m ds with
      | error => rw [h3] at h1; cases h1
      | ok ds' =>
        rw [h3] at h1
        simp only at h1
        split at h1
        · split at h1
          · cases h1
          · rename_i x _
            cases h4 : parseInlines smart m x with
            | error => rw [h4] at h1; cases h1
            | ok inl => rw [h4] at h1; cases h1; rfl
        · cases h1; rfl

/-- The end of the document. -/
theorem first_end {len : Nat} {p p' : PState} (hr : Ready p) (hf : First K p.spine) (hn : p.lineNumber ≤ len)
    (hl : finalizeAll len (p.spine.length + 1) p = .ok p') : ∃ d c cs, p'.doc = some (.node d (c :: cs)) ∧ d.t = .document ∧ K c.data.t := by
  obtain ⟨q, c2, b, f1, f2, f3, f4, f5, f6, f7, f8⟩ := finalizeAll_ok p.spine (p.spine.length + 1) len
    { p with lineNumber := len + 1 } rfl (by omega) hr.good rfl
    (by
      intro d hd hnd
      rcases hr.le d hd with h | h
      · exact Nat.le_trans h hn
      · exact absurd h.1 hnd)
  rw [finalizeAll_line, hl] at f1
  simp only [Except.map, Except.ok.injEq] at f1
  have e : p'.doc = q.doc := by rw [← f1]
  have key : First K c2.spine := by
    have : ∀ {c c' : Core}, Relation.ReflTransGen Closing c c' → First K c.spine → First K c'.spine := by
      intro c c' hh h0
      induction hh with
      | refl => exact h0
      | tail _ hs ih =>
        obtain ⟨l, b, par, up, t, m, e, -, -, hfin, rfl⟩ := hs
        rw [e] at ih
        exact ih.close hfin
    exact this f2 hf
  rw [f3] at key
  cases key with
  | done h1 h2 h3 =>
    rw [h2] at f7
    exact ⟨_, _, _, e.trans f7, f4, h3⟩

/-- The kind of the first block is the one of its first line. -/
theorem parse_first {smart : Bool} {s w l : Str} {bs ls : List Str} {c : Char} {d : NodeData} {cs : List Tree} (hs : TextLines s (bs ++ (w ++ l) :: ls))
    (hbs : ∀ x ∈ bs, OnlySpTab x) (hw : OnlySpTab w) (hc : l.head? = some c) (h1 : c ≠ ' ') (h2 : c ≠ '\t') (hp : parse smart s = .ok (.node d cs)) :
    (∃ k, Starts w (noNul l) k ∧ ∃ t ts, cs = t :: ts ∧ Becomes k t.data.t) ∨
    (∀ k, ¬ Starts w (noNul l) k) ∧ ((∀ y, ¬ DefinitionStart (noNul l ++ '\n' :: y)) → ∃ t ts, cs = t :: ts ∧ Becomes .paragraph t.data.t) := by
  have hil := inputLines_of hs
  have hone := textLines_oneLine hs (w ++ l) (by simp)
  obtain ⟨r, rfl⟩ : ∃ r, l = c :: r := by
    cases l with
    | nil => cases hc
    | cons x r => cases hc; exact ⟨r, rfl⟩
  have hnw : noNul w = w := noNul_none fun hm => by rcases hw _ hm with h | h <;> revert h <;> decide
  obtain ⟨c', r', hl', h1', h2'⟩ : ∃ c' r', noNul (c :: r) = c' :: r' ∧ c' ≠ ' ' ∧ c' ≠ '\t' := by
    refine ⟨_, _, rfl, ?_⟩
    show (if c = Char.ofNat 0 then Char.ofNat 0xFFFD else c) ≠ ' ' ∧ (if c = Char.ofNat 0 then Char.ofNat 0xFFFD else c) ≠ '\t'
    split
    · decide
    · exact ⟨h1, h2⟩
  have hone' : OneLine (c' :: r') := by
    rw [← hl']
    exact noNul_oneLine fun x hx => hone x (by simp at hx ⊢; tauto)
  have hnn : noNul (w ++ c' :: r') = w ++ c' :: r' := by rw [noNul_append, hnw, ← hl', noNul_noNul]
  rw [hl']
  unfold parse parseWith blockPhase at hp
  rw [hil] at hp
  simp only [List.foldlM_append] at hp
  obtain ⟨p0, b0, e0, h0, -⟩ := fresh_blanks bs (fresh_reset PState.init) hbs
  obtain ⟨p1, c1, g1, g2, g3, g4⟩ := incorporateLine_ok h0.ready (w ++ c :: r)
  have hline : ∀ {ls : List Str} {p p' : PState}, ls.foldlM incorporateLine p = .ok p' → Ready p → p'.lineNumber = p.lineNumber + ls.length := by
    intro ls
    induction ls with
    | nil => intro p p' h _; cases h; rfl
    | cons l ls ih =>
      intro p p' h hr
      obtain ⟨pa, ca, a1, a2, a3, a4⟩ := incorporateLine_ok hr l
      rw [List.foldlM_cons, a1] at h
      have := ih h a4
      rw [this]
      have hh : pa.lineNumber = ca.line := (congrArg Core.line a3 :)
      have : ca.line = p.lineNumber + 1 := (lineSteps_core_line a2).1
      simp; omega
  rw [e0] at hp
  simp only [bind, Except.bind, List.foldlM_cons, g1] at hp
  cases hfold : ls.foldlM incorporateLine p1 with
  | error => rw [hfold] at hp; cases hp
  | ok p2 =>
    rw [hfold] at hp
    simp only at hp
    have n0 := hline e0 (ready_reset _).1
    have n1 : p1.lineNumber = p0.lineNumber + 1 := hline (ls := [w ++ c :: r]) (by rw [List.foldlM_cons, g1]; rfl) h0.ready
    have n2 := hline hfold g4
    have hlen : p2.lineNumber = (bs ++ (w ++ c :: r) :: ls).length := by
      rw [n2, n1, n0]
      show 0 + bs.length + 1 + ls.length = _
      simp; omega
    cases hfin : finalizeAll (bs ++ (w ++ c :: r) :: ls).length (p2.spine.length + 1) p2 with
    | error => rw [hfin] at hp; cases hp
    | ok p3 =>
      rw [hfin] at hp
      simp only at hp
      -- from the first line on
      have rest : ∀ {k : Kind}, First (Becomes k) p1.spine → ∃ t ts, cs = t :: ts ∧ Becomes k t.data.t := by
        intro k hk
        obtain ⟨i1, i2⟩ := first_rest becomes_para ls hk g4 hfold
        obtain ⟨d', t, ts, j1, j2, j3⟩ := first_end i2 i1 (by omega) hfin
        rw [j1] at hp
        simp only [processInlines, bind, Except.bind] at hp
        cases hl : processInlinesList smart p3.refmap (t :: ts) with
        | error => rw [hl] at hp; cases hp
        | ok ts' =>
          rw [hl] at hp
          simp only [j2] at hp
          obtain ⟨t', ts2, rfl, hd⟩ := processList_head hl
          cases hp
          exact ⟨t', ts2, rfl, by rw [hd]; exact j3⟩
      have hinc : incorporateLine p0 (w ++ c' :: r') = .ok p1 := by
        rw [← hl', ← hnw, ← noNul_append, incorporateLine_noNul]; exact g1
      rcases first_begins h0 hw h1' h2' hone' hnn hinc with ⟨k, k1, k2⟩ | ⟨k1, k2⟩
      · exact .inl ⟨k, k1, rest k2⟩
      · exact .inr ⟨k1, fun hd => rest (k2 hd)⟩

/-- A document of blank lines. -/
theorem parse_blank {smart : Bool} {s : Str} {bs : List Str} (hs : TextLines s bs) (hbs : ∀ x ∈ bs, OnlySpTab x) :
    ∃ d, d.t = .document ∧ parse smart s = .ok (.node d []) := by
  have hil := inputLines_of hs
  obtain ⟨p0, b0, e0, h0, -⟩ := fresh_blanks bs (fresh_reset PState.init) hbs
  have hfin : finalizeAll bs.length (p0.spine.length + 1) p0 =
      .ok { p0 with spine := [], doc := some (.node (closeData bs.length p0.lastLineLength b0.data) []) } := by
    rw [h0.spine]
    simp only [finalizeAll, h0.spine, List.length_cons, List.length_nil]
    have hb : finalizeBlock (closeData bs.length p0.lastLineLength b0.data) b0.children p0.refmap =
        .ok (some (.node (closeData bs.length p0.lastLineLength b0.data) b0.children), p0.refmap) := by
      simp only [finalizeBlock]
      rw [show (closeData bs.length p0.lastLineLength b0.data).t = .document from h0.doc]
    have hft : finalizeTip bs.length p0 =
        .ok { p0 with spine := [], doc := some (.node (closeData bs.length p0.lastLineLength b0.data) b0.children) } := by
      simp only [finalizeTip, h0.spine]
      simp only [closeData] at hb
      rw [hb]
      rfl
    rw [hft, h0.empty]
    rfl
  refine ⟨closeData bs.length p0.lastLineLength b0.data, h0.doc, ?_⟩
  unfold parse parseWith blockPhase
  rw [hil]
  simp only [e0, bind, Except.bind, hfin, processInlines, processInlinesList]
  rw [if_neg (by rw [show (closeData bs.length p0.lastLineLength b0.data).t = .document from h0.doc]; decide)]
  rfl

theorem opens_kind {c : Char} {r : Str} {k : Kind} (h : Opens (c :: r) k) :
    (c = '>' ∧ k = .blockQuote) ∨ (c = '#' ∧ k = .heading) ∨ ((c = '`' ∨ c = '~') ∧ k = .codeBlock) ∨ (c = '<' ∧ k = .htmlBlock) ∨
    ((c = '*' ∨ c = '_' ∨ c = '-') ∧ ThematicBreak (c :: r) ∧ k = .thematicBreak) ∨
    ((c = '*' ∨ c = '+' ∨ c = '-') ∧ ¬ ThematicBreak (c :: r) ∧ k = .list) ∨ (AsciiDigit c ∧ k = .list) := by
  cases h with
  | @atx n _ h =>
    obtain ⟨h1, _, r, hr, _⟩ := h
    obtain ⟨n, rfl⟩ : ∃ k, n = k + 1 := ⟨n - 1, by omega⟩
    cases hr
    exact .inr (.inl ⟨rfl, rfl⟩)
  | @fence c n info _ h =>
    obtain ⟨h1, hr, _, h2⟩ := h
    obtain ⟨n, rfl⟩ : ∃ k, n = k + 1 := ⟨n - 1, by omega⟩
    cases hr
    exact .inr (.inr (.inl ⟨h2.imp_left And.left, rfl⟩))
  | html h =>
    have := htmlOpen_head h
    cases this
    exact .inr (.inr (.inr (.inl ⟨rfl, rfl⟩)))
  | rule h =>
    obtain ⟨c, h1, h2, -, -⟩ := id h
    cases h2
    exact .inr (.inr (.inr (.inr (.inl ⟨h1, h, rfl⟩))))
  | quote => exact .inl ⟨rfl, rfl⟩
  | bullet h h' =>
    obtain ⟨c, r, e, hc, -⟩ := h
    cases e
    exact .inr (.inr (.inr (.inr (.inr (.inl ⟨hc, h', rfl⟩)))))
  | ordered h h0 => exact .inr (.inr (.inr (.inr (.inr (.inr ⟨h0 c rfl, rfl⟩)))))

/-- A line begins only one block. -/
theorem opens_unique {k k' : Kind} (h : Opens l k) (h' : Opens l k') : k = k' := by
  obtain ⟨c, r, rfl, -⟩ := opens_head h
  have dig : ∀ {x : Char}, AsciiDigit x → x ≠ '>' ∧ x ≠ '#' ∧ x ≠ '`' ∧ x ≠ '~' ∧ x ≠ '<' ∧ x ≠ '*' ∧ x ≠ '_' ∧ x ≠ '-' ∧ x ≠ '+' := by
    intro x hx
    refine ⟨?_, ?_, ?_, ?_, ?_, ?_, ?_, ?_, ?_⟩ <;> rintro rfl <;> exact absurd hx (by unfold AsciiDigit; decide)
  rcases opens_kind h with ⟨a, rfl⟩ | ⟨a, rfl⟩ | ⟨a, rfl⟩ | ⟨a, rfl⟩ | ⟨a, t, rfl⟩ | ⟨a, t, rfl⟩ | ⟨a, rfl⟩ <;>
  rcases opens_kind h' with ⟨a', rfl⟩ | ⟨a', rfl⟩ | ⟨a', rfl⟩ | ⟨a', rfl⟩ | ⟨a', t', rfl⟩ | ⟨a', t', rfl⟩ | ⟨a', rfl⟩ <;>
  first
  | rfl
  | exact absurd t t'
  | exact absurd t' t
  | (exfalso; have := dig a; tauto)
  | (exfalso; have := dig a'; tauto)
  | (exfalso; subst a; revert a'; decide)
  | (exfalso; subst a'; revert a; decide)
  | (exfalso; rcases a with rfl | rfl <;> revert a' <;> decide)
  | (exfalso; rcases a' with rfl | rfl <;> revert a <;> decide)

theorem starts_unique {w : Str} {k k' : Kind} (h : Starts w l k) (h' : Starts w l k') : k = k' := by
  cases h with
  | code h =>
    cases h' with
    | code => rfl
    | other h2 _ => omega
  | other h1 h =>
    cases h' with
    | code => omega
    | other _ h2 => exact opens_unique h h2

theorem starts_ne {w : Str} {k : Kind} (h : Starts w l k) : k ≠ .paragraph := by
  cases h with
  | code => decide
  | other _ h => cases h <;> decide

end CM
