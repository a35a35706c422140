import Verif.Proofs.QuoteDoc
/-
A document has a block from its first line on, unless that line begins with `[` (for C56).
-/
namespace CM
open Spec

/-- No reference definition begins this paragraph. -/
def NoDef (d : NodeData) : Prop := d.t = .paragraph → ∃ x, d.stringContent = some x ∧ x ≠ [] ∧ ∀ y, ¬ DefinitionStart (x ++ y)

/-- The document has a closed block, or an open one that stays. -/
inductive Kid : List OpenBlk → Prop
  | done {b : OpenBlk} : b.data.t = .document → b.children ≠ [] → Kid [b]
  | more {x b : OpenBlk} : b.data.t = .document → b.children ≠ [] ∨ NoDef x.data → Kid [x, b]
  | cons {a x b : OpenBlk} {r : List OpenBlk} : Kid (x :: b :: r) → Kid (a :: x :: b :: r)

theorem Kid.push {b x : OpenBlk} {r : List OpenBlk} (h : Kid (b :: r)) : Kid (x :: b :: r) := by
  cases h with
  | done h1 h2 => exact .more h1 (.inl h2)
  | more h1 h2 => exact .cons (.more h1 h2)
  | cons h => exact .cons (.cons h)

theorem Kid.head {b b' : OpenBlk} {r : List OpenBlk} (h : Kid (b :: r)) (hb : b.data.t ≠ .document) (hn : NoDef b.data → NoDef b'.data) :
    Kid (b' :: r) := by
  cases h with
  | done h1 h2 => exact absurd h1 hb
  | more h1 h2 => exact .more h1 (h2.imp_right hn)
  | cons h => exact .cons h

theorem Kid.rel {l l' : List OpenBlk} (h : Kid l) (hr : List.Forall₂ (fun b b' => b'.data.t = b.data.t ∧ (b.children ≠ [] → b'.children ≠ []) ∧
    (NoDef b.data → NoDef b'.data)) l l') : Kid l' := by
  induction h generalizing l' with
  | done h1 h2 =>
    cases hr with
    | cons a hr => cases hr; exact .done (by rw [a.1]; exact h1) (a.2.1 h2)
  | more h1 h2 =>
    cases hr with
    | cons a hr =>
      cases hr with
      | cons b hr => cases hr; exact .more (by rw [b.1]; exact h1) (h2.imp b.2.1 a.2.2)
  | cons h ih =>
    cases hr with
    | cons a hr =>
      have := ih hr
      cases hr with
      | cons b hr => cases hr with
        | cons c hr => exact .cons this

theorem finalizeBlock_some {d : NodeData} {cs : List Tree} {m m' : RefMap} {t : Option Tree} (h : finalizeBlock d cs m = .ok (t, m'))
    (hn : NoDef d) : t ≠ none := by
  intro ht
  subst ht
  unfold finalizeBlock at h
  split at h
  · cases h
  · cases h1 : finalizeCode d <;> rw [h1] at h <;> cases h
  · cases h1 : finalizeHtml d <;> rw [h1] at h <;> cases h
  · rename_i hd
    obtain ⟨x, h1, -, h2⟩ := hn hd
    simp only [finalizeParagraph, h1, bind, Except.bind] at h
    rw [refLoop_no (by simpa using h2 [])] at h
    cases h
  · cases h

theorem Kid.close {b par : OpenBlk} {up : List OpenBlk} {t : Option Tree} {m m' : RefMap} {l len : Nat} (h : Kid (b :: par :: up))
    (hf : finalizeBlock (closeData l len b.data) b.children m = .ok (t, m')) :
    Kid ({ par with children := par.children ++ t.toList } :: up) := by
  cases h with
  | more h1 h2 =>
    refine .done h1 ?_
    rcases h2 with h2 | h2
    · simp [h2]
    · have := finalizeBlock_some hf h2
      cases t with
      | none => exact absurd rfl this
      | some t => simp
  | cons h =>
    refine h.rel (.cons ⟨rfl, fun h => by simp [h], id⟩ ?_)
    exact List.forall₂_same.2 fun x _ => ⟨rfl, id, id⟩

theorem kid_step {c c' : Core} (h : Kid c.spine) (hs : Step c c') : Kid c'.spine := by
  cases hs with
  | close l e _ _ hf => rw [e] at h; exact h.close hf
  | push e _ _ => rw [e] at h; show Kid (_ :: c.spine); rw [e]; exact h.push
  | paragraph off e _ _ _ _ => rw [e] at h; show Kid (_ :: c.spine); rw [e]; exact h.push
  | pushItem col l e _ _ _ => rw [e] at h; show Kid (_ :: c.spine); rw [e]; exact h.push
  | pushList col l e _ _ => rw [e] at h; show Kid (_ :: _ :: c.spine); rw [e]; exact h.push.push
  | @addLine b r x k off e h1 h2 =>
    rw [e] at h
    refine h.head ?_ ?_
    · intro hd; rw [hd] at h1; cases h1
    · intro hn hp
      obtain ⟨x, g1, g0, g2⟩ := hn hp
      rw [h2] at g1
      cases g1
      exact ⟨_, rfl, by simp [g0], fun y => by rw [List.append_assoc]; exact g2 _⟩
  | @flags b r blank flag e =>
    rw [e] at h
    refine h.rel (.cons ⟨?_, ?_, ?_⟩ ?_)
    · cases blank <;> rfl
    · intro hc
      cases blank with
      | false => exact hc
      | true =>
        show markLastChild b.children ≠ []
        cases hb : b.children with
        | nil => exact absurd hb hc
        | cons t ts => cases t; cases ts <;> simp [markLastChild]
    · cases blank <;> exact id
    · rw [List.forall₂_map_right_iff]
      exact List.forall₂_same.2 fun x _ => ⟨rfl, id, id⟩
  | @refs b r x m hh e h1 h2 h3 =>
    rw [e] at h
    refine h.head (by rw [h1]; decide) ?_
    intro hn
    obtain ⟨y, g1, g0, g2⟩ := hn h1
    rw [h2] at g1
    cases g1
    rw [refLoop_no (by simpa using g2 [])] at h3
    cases h3
    exact absurd rfl g0
  | @setext b r x x' m hh lvl e h1 h2 h3 =>
    rw [e] at h
    refine h.head (by rw [h1]; decide) ?_
    intro _ hp
    cases hp

theorem kid_lineSteps {c c' : Core} (h : Kid c.spine) (hs : LineSteps c c') : Kid c'.spine := by
  have key : ∀ {c1 : Core}, Steps c c1 → Kid c1.spine := by
    intro c1 hs
    induction hs with
    | refl => exact h
    | tail _ hs ih => exact kid_step ih hs
  cases hs with
  | steps hs => exact key hs
  | final hs hf =>
    have := key hs
    cases hf with
    | close e _ _ hf => rw [e] at this; exact this.close hf

theorem kid_line {p p' : PState} {l : Str} (h : Kid p.spine) (hr : Ready p) (hl : incorporateLine p l = .ok p') : Kid p'.spine ∧ Ready p' := by
  obtain ⟨p1, c, e1, e2, e3, e4⟩ := incorporateLine_ok hr l
  rw [hl] at e1
  cases e1
  have := kid_lineSteps (c := lineCore p l) h e2
  have e5 : p'.spine = c.spine := (congrArg Core.spine e3 :)
  rw [e5]
  exact ⟨this, e4⟩

theorem keeps_of_kid {X : Sim} {x : Except PyErr PState} (h : ∀ p', x = .ok p' → Kid p'.spine) : Keeps X x := by
  intro _ p' hp' b hb
  have := h p' hp'
  rw [hb] at this
  cases this with
  | done _ h => exact h

/-! ### The first line -/

theorem addChild_doc {p : PState} {k : Kind} {off : Nat} {f : NodeData → NodeData} {b : OpenBlk} {r : List OpenBlk}
    (hs : p.spine = b :: r) (hk : canContain b.data.t k = true) :
    addChild k off f p = .ok { p with spine := ⟨f { t := k, sourcepos := some ((p.lineNumber, off + 1), (0, 0)) }, []⟩ :: p.spine } := by
  unfold addChild
  simp only [addChildLoop, hs, hk, if_true, bind, Except.bind, pure, Except.pure]

theorem open_first {p p' : PState} (k : Kind) {off : PState → Nat} {f : PState → NodeData → NodeData} {s : Start} {g : PState → PState}
    (hs : p.spine = [⟨docNode, []⟩]) (ha : p.allClosed = true) (hk : k ≠ .item) (hf : ∀ p d, (f p d).t = d.t) (hp : k ≠ .paragraph)
    (hg : ∀ p, (g p).spine = p.spine)
    (h : (do let p ← closeUnmatched p; let p ← addChild k (off p) (f p) p; return (s, g p)) = Except.ok (s, p')) : Kid p'.spine := by
  simp only [closeUnmatched, ha, if_true, bind, Except.bind, pure, Except.pure] at h
  rw [addChild_doc hs (by cases k <;> first | rfl | exact absurd rfl hk)] at h
  simp only [Except.ok.injEq, Prod.mk.injEq, true_and] at h
  subst h
  rw [hg]
  show Kid (_ :: p.spine)
  rw [hs]
  exact .more rfl (.inr fun h => absurd (by simpa [hf] using h) hp)

theorem start_first {P P' : PState} {s : Start} {f : PState → Except PyErr (Start × PState)} (hs : P.spine = [⟨docNode, []⟩])
    (ha : P.allClosed = true) (hn : CurN P) (hf : f ∈ blockStarts docNode) (h : f P = .ok (s, P')) :
    s = .none ∧ P' = P ∨ s ≠ .none ∧ Kid P'.spine := by
  simp only [blockStarts, List.mem_cons, List.not_mem_nil, or_false] at hf
  have none : ∀ {x : PState}, (Except.ok (Start.none, x) : Except PyErr _) = .ok (s, P') → x = P → s = .none ∧ P' = P ∨ s ≠ .none ∧ Kid P'.spine := by
    intro x h hx; cases h; exact .inl ⟨rfl, hx⟩
  have tag : ∀ {α : Type} {x : Except PyErr α} {y : α → Except PyErr α} {g : α → PState} {s0 : Start},
      ((do let p ← x; let p ← y p; return (s0, g p)) : Except PyErr (Start × PState)) = .ok (s, P') → s = s0 := by
    intro α x y g s0 h
    cases x with
    | error => cases h
    | ok a =>
      simp only [bind, Except.bind] at h
      cases hy : y a with
      | error => rw [hy] at h; cases h
      | ok b => rw [hy] at h; cases h; rfl
  rcases hf with rfl | rfl | rfl | rfl | rfl | rfl | rfl | rfl
  · unfold startBlockQuote at h
    split at h
    · obtain rfl := tag (g := id) h
      exact .inr ⟨by decide, open_first .blockQuote (p := eatQuoteMarker P) (g := id) (f := fun _ => id) ((congrArg Core.spine (core_eat P)).trans hs)
        ((congrArg Books.allClosed (books_eat P)).trans ha) (by decide) (by intros; rfl) (by decide) (fun _ => rfl) h⟩
    · exact none h rfl
  · unfold startAtx at h
    split at h
    · exact none h rfl
    · split at h
      · exact none h rfl
      · obtain rfl := tag (g := advanceToEnd) h
        exact .inr ⟨by decide, open_first .heading (p := advanceOffset _ false (advanceNextNonspace P)) (g := advanceToEnd) hs ha (by decide) (by intros; rfl) (by decide) (fun _ => rfl) h⟩
  · unfold startFenced at h
    split at h
    · exact none h rfl
    · split at h
      · exact none h rfl
      · rename_i m _
        obtain rfl := tag (g := fun p => advanceOffset m.length false (advanceNextNonspace p)) h
        exact .inr ⟨by decide, open_first .codeBlock (g := fun p => advanceOffset m.length false (advanceNextNonspace p)) hs ha (by decide) (by intros; rfl)
          (by decide) (fun _ => rfl) h⟩
  · unfold startHtml at h
    split at h
    · split at h
      · obtain rfl := tag (g := id) h
        exact .inr ⟨by decide, open_first .htmlBlock (g := id) hs ha (by decide) (by intros; rfl) (by decide) (fun _ => rfl) h⟩
      · exact none h rfl
    · exact none h rfl
  · unfold startSetext at h
    rw [if_neg (by simp [docNode])] at h
    exact none h rfl
  · unfold startThematic at h
    split at h
    · obtain rfl := tag (g := advanceToEnd) h
      exact .inr ⟨by decide, open_first .thematicBreak (g := advanceToEnd) (f := fun _ => id) hs ha (by decide) (by intros; rfl) (by decide) (fun _ => rfl) h⟩
    · exact none h rfl
  · unfold startListItem at h
    split at h
    · rcases parseListMarker_ok docNode.t hn with h1 | ⟨l, o, col, pct, h1, _⟩
      · rw [h1] at h; exact none h rfl
      · rw [h1] at h
        simp only [bind, Except.bind] at h
        generalize hp1 : ({ P with offset := o, column := col, partiallyConsumedTab := pct } : PState) = p1 at h
        have hs1 : p1.spine = [⟨docNode, []⟩] := by rw [← hp1]; exact hs
        have ha1 : p1.allClosed = true := by rw [← hp1]; exact ha
        have hk : (tipKind p1 != some .list || !(listsMatch docNode.listData l)) = true := by
          unfold tipKind; rw [hs1]; rfl
        have hl : ∀ (off : Nat) (f : NodeData → NodeData), addChild .list off f p1 =
          .ok { p1 with spine := ⟨f { t := .list, sourcepos := some ((p1.lineNumber, off + 1), (0, 0)) }, []⟩ :: p1.spine } :=
            fun off f => addChild_doc (k := .list) hs1 rfl
        simp only [closeUnmatched, ha1, if_true, hk, hl] at h
        rw [addChild_doc (k := .item) rfl rfl, hs1] at h
        cases h
        exact .inr ⟨by decide, .cons (.more rfl (.inr fun h => by cases h))⟩
    · exact none h rfl
  · unfold startIndented at h
    split at h
    · obtain rfl := tag (g := id) h
      exact .inr ⟨by decide, open_first .codeBlock (p := advanceOffset 4 true P) (g := id) (f := fun _ => id) hs ha (by decide) (by intros; rfl) (by decide) (fun _ => rfl) h⟩
    · exact none h rfl

theorem tryStarts_first {P P' : PState} {s : Start} (hs : P.spine = [⟨docNode, []⟩]) (ha : P.allClosed = true) (hn : CurN P) :
    ∀ fs : List (PState → Except PyErr (Start × PState)), (∀ f ∈ fs, f ∈ blockStarts docNode) → tryStarts fs P = .ok (s, P') →
    s = .none ∧ P' = P ∨ s ≠ .none ∧ Kid P'.spine
  | [], _, h => by cases h; exact .inl ⟨rfl, rfl⟩
  | f :: fs, hf, h => by
    unfold tryStarts at h
    cases h1 : f P with
    | error => rw [h1] at h; cases h
    | ok x =>
      obtain ⟨s1, p1⟩ := x
      rw [h1] at h
      simp only [bind, Except.bind] at h
      rcases start_first hs ha hn (hf f (by simp)) h1 with ⟨rfl, rfl⟩ | ⟨h2, h3⟩
      · exact tryStarts_first hs ha hn fs (fun g hg => hf g (by simp [hg])) h
      · cases s1 with
        | none => exact absurd rfl h2
        | container => cases h; exact .inr ⟨h2, h3⟩
        | leaf => cases h; exact .inr ⟨h2, h3⟩

theorem kid_steps {c c' : Core} (h : Kid c.spine) (hs : Steps c c') : Kid c'.spine := kid_lineSteps h (.steps hs)

/-- A first line that does not begin with white space or `[`. -/
theorem kid_first {p p' : PState} {l : Str} {c : Char} {r : Str} (hp : NewParse p) (hl : l = c :: r) (h1 : c ≠ ' ') (h2 : c ≠ '\t') (h3 : c ≠ '[') (h4 : c ≠ '\n') (h5 : c ≠ '\r')
    (h : incorporateLine p l = .ok p') : Kid p'.spine := by
  rw [incorporateLine_eq] at h
  obtain ⟨c', r', hl', h1', h2', h3', h4', h5'⟩ : ∃ c' r', replaceChar (Char.ofNat 0) (Char.ofNat 0xFFFD) l = c' :: r' ∧ c' ≠ ' ' ∧ c' ≠ '\t' ∧ c' ≠ '[' ∧ c' ≠ '\n' ∧ c' ≠ '\r' := by
    subst hl
    refine ⟨_, _, rfl, ?_⟩
    simp only
    split
    · decide
    · exact ⟨h1, h2, h3, h4, h5⟩
  rw [hl'] at h
  generalize hl2 : c' :: r' = l' at h
  have e1 : (atStart p l').spine.reverse.drop 1 = [] := by
    show p.spine.reverse.drop 1 = _
    rw [hp.spine]; rfl
  rw [e1] at h
  simp only [contLoop, Except.bind, bind, afterCont] at h
  have bp : ∀ a, blockAt { atStart p l' with allClosed := a, lastMatched := 1 } 1 = some docNode := by
    intro a
    show (p.spine.reverse[0]?).map _ = _
    rw [hp.spine]; rfl
  have op : (1 == (atStart p l').oldtip) = true := by
    show (1 == p.spine.length) = true
    rw [hp.spine]; rfl
  simp only [bp, op] at h
  rw [if_neg (by decide)] at h
  generalize hq : ({ atStart p l' with allClosed := true, lastMatched := 1 } : PState) = q at h
  have qs : q.spine = [⟨docNode, []⟩] := by rw [← hq]; exact hp.spine
  have qa : q.allClosed = true := by rw [← hq]
  have ql : q.currentLine = l' := by rw [← hq]; rfl
  have qo : q.offset = 0 := by rw [← hq]; rfl
  have qc : Cur q := by show q.offset ≤ _; rw [qo]; omega
  have qn : q.lineNumber = 1 := by rw [← hq]; show p.lineNumber + 1 = 1; rw [hp.line]
  have hsk : skipWs (q.currentLine.drop q.offset) q.offset q.column = (0, q.column, some c') := by
    rw [ql, qo, List.drop_zero, ← hl2, skipWs, if_neg (by simpa using h1'), if_neg (by simpa using h2')]
  have hn := curN_find qc
  have f1 : (findNextNonspace q).nextNonspace = 0 := by show (skipWs _ _ _).1 = 0; rw [hsk]
  have f2 : (findNextNonspace q).blank = false := by
    have : (findNextNonspace q).blank = match (skipWs (q.currentLine.drop q.offset) q.offset q.column).2.2 with
      | none => true
      | some c => c == '\n' || c == '\r' := rfl
    rw [this, hsk]
    simp [h4', h5']
  have hsp : SP docNode q := by
    have hds : q.ds = [docNode] := by rw [PState.ds, qs]; rfl
    refine ⟨?_, ?_, by omega, .inl ⟨qa, docNode, [], hds, rfl, rfl, .inl (.inl rfl)⟩⟩
    · rw [hds]
      refine ⟨.doc rfl, ?_⟩
      intro d hd
      obtain rfl : d = docNode := by simpa using hd
      exact ⟨⟨_, rfl⟩, (by intro h; cases h), ⟨_, rfl⟩⟩
    · rw [hds, qn]
      intro d hd
      obtain rfl : d = docNode := by simpa using hd
      exact Nat.le_refl 1
  -- nothing was opened: a paragraph
  have para : ∀ Q P2 : PState, Q = advanceNextNonspace (findNextNonspace q) → addText Q = .ok P2 → Kid P2.spine := by
    intro Q P2 hQ hh
    have Qs : Q.spine = [⟨docNode, []⟩] := by rw [hQ]; exact qs
    have Qa : Q.allClosed = true := by rw [hQ]; exact qa
    have Qb : Q.blank = false := by rw [hQ]; exact f2
    have Qo : Q.offset = 0 := by rw [hQ]; exact f1
    have Qn : Q.nextNonspace = 0 := by rw [hQ]; exact f1
    have Ql : Q.currentLine = c' :: r' := by rw [hQ, hl2]; exact ql
    unfold addText at hh
    rw [if_neg (by rw [Qa]; simp)] at hh
    simp only [closeUnmatched, Qa, if_true, bind, Except.bind, Qs, Qb, Bool.false_eq_true, if_false] at hh
    rw [if_neg (by decide)] at hh
    rw [if_pos (by rw [Qo, Ql]; simp)] at hh
    rw [addChild_doc (k := .paragraph) rfl rfl] at hh
    simp only [addLine, advanceNextNonspace, appendContent, Bool.false_eq_true, if_false, id, List.map_cons, List.map_nil,
      Except.ok.injEq] at hh
    subst hh
    refine .more rfl (.inr fun _ => ⟨c' :: (r' ++ ['\n']), ?_, by simp, fun y hy => ?_⟩)
    · simp [Qn, Ql]
    · have := definitionStart_head hy
      exact h3' (by simpa using this)
  cases hst : startsLoop (l'.length + 1) docNode q with
  | error => rw [hst] at h; cases h
  | ok v =>
    rw [hst] at h
    simp only at h
    cases hat : addText v with
    | error => rw [hat] at h; cases h
    | ok P2 =>
      rw [hat] at h
      cases h
      show Kid P2.spine
      unfold startsLoop at hst
      simp only at hst
      generalize (!(findNextNonspace q).indented && !_) = cond at hst
      split at hst
      · cases hst; exact para _ P2 rfl hat
      · obtain ⟨s, P', e1, e2⟩ := blockStarts_ok (hsp.frame (q := findNextNonspace q) rfl rfl) hn
        rw [e1] at hst
        simp only [bind, Except.bind] at hst
        rcases tryStarts_first (P := findNextNonspace q) qs qa hn _ (fun f h => h) e1 with ⟨rfl, rfl⟩ | ⟨g1, g2⟩
        · cases hst; exact para _ P2 rfl hat
        · have key : Kid v.spine ∧ Started v := by
            cases s with
            | none => exact absurd rfl g1
            | leaf => cases hst; exact ⟨g2, .inr e2.2⟩
            | container =>
              obtain ⟨k1, k2, k3, b, up, k4, k5⟩ := e2
              simp only [k4] at hst
              have htext : P'.currentLine = q.currentLine := (steps_core_line k1).2.1
              obtain ⟨v', m1, m2, m3⟩ := startsLoop_ok l'.length b.data P' k5 k3 (by
                rw [htext, ql]
                have : (findNextNonspace q).offset = 0 := qo
                omega)
              rw [hst] at m1
              cases m1
              exact ⟨kid_steps (c := P'.core) g2 m2, m3⟩
          obtain ⟨P3, m1, m2, _⟩ := addText_ok key.2
          rw [hat] at m1
          cases m1
          exact kid_lineSteps (c := v.core) key.1 m2

end CM
