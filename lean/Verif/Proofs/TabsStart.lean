import Verif.Proofs.Tabs
import Verif.Proofs.AtxText
import Verif.Proofs.FencedRun
/-
Tabs that stand for spaces: the block starts (C67).
-/
set_option linter.unusedVariables false
namespace CM
open Spec

/-! ### Facts about the texts -/

/-- The characters but spaces and tabs. -/
def inked (s : Str) : Str := s.filter fun c => !isSpTab c

theorem inked_ws {v : Str} (h : OnlySpTab v) : inked v = [] := by
  simp only [inked, List.filter_eq_nil_iff]
  intro c hc
  simp [isSpTab_iff.2 (h c hc)]

theorem inked_append (a b : Str) : inked (a ++ b) = inked a ++ inked b := List.filter_append ..

theorem tabAlike_inked {free : Bool} {c : Nat} {y y' : Str} (h : TabAlike free c y y') : inked y' = inked y := by
  induction h with
  | same => rfl
  | @quote _ _ v v' y y' h1 h2 _ _ _ ih =>
    rw [show '>' :: (v ++ y) = ['>'] ++ (v ++ y) from rfl, show '>' :: (v' ++ y') = ['>'] ++ (v' ++ y') from rfl]
    simp only [inked_append, inked_ws h1, inked_ws h2, ih]
  | item _ _ h1 h2 _ _ _ _ _ ih => simp only [inked_append, inked_ws h1, inked_ws h2, ih]

theorem inked_mem {s : Str} {x : Char} : x ∈ inked s ↔ x ∈ s ∧ x ≠ ' ' ∧ x ≠ '\t' := by
  simp [inked, isSpTab]

theorem inked_count {s : Str} {x : Char} (hx : isSpTab x = false) : (inked s).count x = s.count x := by
  rw [inked, List.count_filter]; simp [hx]

theorem thematic_inked {y y' : Str} (h : inked y' = inked y) (hh : y'.head? = y.head?) (ht : ThematicBreak y) : ThematicBreak y' := by
  obtain ⟨c, h1, h2, h3, h4⟩ := ht
  have hc : isSpTab c = false := by rcases h1 with rfl | rfl | rfl <;> rfl
  refine ⟨c, h1, hh.trans h2, ?_, ?_⟩
  · intro x hx
    refine Classical.byContradiction fun hn => ?_
    simp only [not_or] at hn
    have : x ∈ inked y' := inked_mem.2 ⟨hx, hn.2⟩
    rw [h] at this
    rcases h3 x (inked_mem.1 this).1 with h | h
    · exact hn.1 h
    · exact absurd h (by simp [hn.2])
  · rw [← inked_count hc, h, inked_count hc]; exact h4

/-- A character that is no white space. -/
def Visible (s : Str) : Prop := ∃ x ∈ s, x ≠ ' ' ∧ (x.toNat < 9 ∨ 13 < x.toNat)

theorem visible_inked {y y' : Str} (h : inked y' = inked y) (hv : Visible y) : Visible y' := by
  obtain ⟨x, h1, h2, h3⟩ := hv
  have ht : x ≠ '\t' := by rintro rfl; revert h3; decide
  have : x ∈ inked y' := by rw [h]; exact inked_mem.2 ⟨h1, h2, ht⟩
  exact ⟨x, (inked_mem.1 this).1, h2, h3⟩

theorem visible_any {s : Str} (h : Visible s) : s.any isNonSpace = true := by
  obtain ⟨x, h1, h2, h3⟩ := h
  rw [List.any_eq_true]
  refine ⟨x, h1, ?_⟩
  simp only [isNonSpace, Bool.not_eq_true', Bool.or_eq_false_iff, Bool.and_eq_false_iff, beq_eq_false_iff_ne, ne_eq, decide_eq_false_iff_not]
  exact ⟨h2, by omega⟩

theorem visible_append {a b : Str} (h : Visible b) : Visible (a ++ b) := by
  obtain ⟨x, h1, h2⟩ := h
  exact ⟨x, List.mem_append_right _ h1, h2⟩

theorem special_visible {x : Char} (h : isMaybeSpecial x = true) : x ≠ ' ' ∧ (x.toNat < 9 ∨ 13 < x.toNat) := by
  rw [isMaybeSpecial, Bool.or_eq_true] at h
  rcases h with h | h
  · have h : x ∈ ['#', '`', '~', '*', '+', '_', '=', '<', '>', '-'] := List.contains_iff_mem.1 h
    simp only [List.mem_cons, List.not_mem_nil, or_false] at h
    rcases h with rfl | rfl | rfl | rfl | rfl | rfl | rfl | rfl | rfl | rfl <;> decide
  · have h : (decide ('0'.toNat ≤ x.toNat) && decide (x.toNat ≤ '9'.toNat)) = true := h
    rw [Bool.and_eq_true, decide_eq_true_eq, decide_eq_true_eq] at h
    refine ⟨?_, .inr ?_⟩
    · rintro rfl; exact absurd h.1 (by decide)
    · exact Nat.lt_of_lt_of_le (by decide) h.1

theorem alike_visible {free : Place} {c : Nat} {y y' : Str} (h : Alike free c y y') (hv : Visible y) : Visible y' := by
  rcases alike_head h with rfl | ⟨x, z, x', z', rfl, rfl, _, g, _⟩
  · exact hv
  · exact ⟨x', by simp, special_visible g⟩

/-- A list marker with text after it is no underline. -/
theorem item_setext {m v y : Str} {ty : ListType} {b : Option Char} {st : Option Nat} {dl : Option Char} (hm : ListMark m ty b st dl) (hv : OnlySpTab v)
    (hn : v ≠ []) (hy : Visible y) {c : Char} : ¬ SetextUnderline c (m ++ (v ++ y)) := by
  rintro ⟨hc, n, r, h1, h2, h3⟩
  obtain ⟨x, hx, hx1, hx2⟩ := hy
  have hxt : x ≠ '\t' := by rintro rfl; revert hx2; decide
  have hxr : ∀ s, s <:+ r → x ∉ s := by
    rintro s ⟨t, rfl⟩ h
    rcases h3 x (List.mem_append_right _ h) with h | h
    · exact hx1 h
    · exact hxt h
  obtain ⟨n, rfl⟩ : ∃ k, n = k + 1 := ⟨n - 1, by omega⟩
  -- the first character that is not `c` is in `r`
  have key : ∀ (n : Nat) (pre : Str), (∃ z ∈ pre, z ≠ c) → pre ++ y = List.replicate n c ++ r → False := by
    intro n
    induction n with
    | zero =>
      intro pre _ h
      exact hxr y ⟨pre, h⟩ hx
    | succ n ih =>
      intro pre hp h
      cases pre with
      | nil => obtain ⟨z, hz, _⟩ := hp; cases hz
      | cons d pre =>
        rw [List.replicate_succ, List.cons_append, List.cons_append] at h
        obtain ⟨e, h⟩ := List.cons.inj h
        refine ih pre ?_ h
        obtain ⟨z, hz, hzc⟩ := hp
        rcases List.mem_cons.1 hz with rfl | hz
        · exact absurd e hzc
        · exact ⟨z, hz, hzc⟩
  refine key (n + 1) (m ++ v) ?_ (by rw [← h2]; simp)
  cases v with
  | nil => exact absurd rfl hn
  | cons d v =>
    refine ⟨d, by simp, ?_⟩
    rcases hv d (by simp) with rfl | rfl <;> rcases hc with rfl | rfl <;> decide

theorem listMarker_first {m : Str} {ty : ListType} {b : Option Char} {st : Option Nat} {dl : Option Char} (h : ListMark m ty b st dl)
    {k : Kind} (hk : k ≠ .paragraph ∨ FirstMark m) (rest : Str) : listMarker k (m ++ rest) = some (m, ty, b, st, dl) := by
  by_cases hp : k = .paragraph
  · have hf := hk.resolve_left fun h => h hp
    subst hp
    have h0 := listMarker_ok h (k := .document) (by decide) rest
    cases m with
    | nil =>
      obtain ⟨x, xs, e, _⟩ := mark_head h
      cases e
    | cons c m =>
      unfold listMarker at h0 ⊢
      simp only [List.cons_append] at h0 ⊢
      by_cases hb : isBulletChar c = true
      · rw [if_pos hb] at h0 ⊢; exact h0
      · rw [if_neg hb] at h0 ⊢
        cases hm : reOrderedListMarker.matchPrefix (c :: (m ++ rest)) with
        | none => rw [hm] at h0; cases h0
        | some m' =>
          rw [hm] at h0
          simp only at h0
          rw [if_pos (by rfl)] at h0
          have e : m' = c :: m := by
            have := Option.some.inj h0
            exact congrArg (·.1) this
          simp only
          rw [if_pos, h0]
          subst e
          simp only [FirstMark, List.mem_cons, List.not_mem_nil, or_false] at hf
          rcases hf with hf | hf | hf | hf | hf <;> cases hf
          · exact absurd (by decide) hb
          · exact absurd (by decide) hb
          · exact absurd (by decide) hb
          · decide
          · decide
  · exact listMarker_ok h hp rest

/-- Other list markers do not interrupt a paragraph. -/
theorem listMarker_later {m : Str} {ty : ListType} {b : Option Char} {st : Option Nat} {dl : Option Char} (h : ListMark m ty b st dl)
    (hk : ¬ FirstMark m) (rest : Str) : listMarker .paragraph (m ++ rest) = none := by
  have h0 := listMarker_ok h (k := .document) (by decide) rest
  cases h with
  | bullet hc =>
    refine absurd ?_ hk
    rcases hc with rfl | rfl | rfl <;> simp [FirstMark]
  | @ordered ds n d h1 h2 h3 h4 =>
    cases ds with
    | nil => simp at h1
    | cons c ds =>
      unfold listMarker at h0 ⊢
      simp only [List.cons_append] at h0 ⊢
      by_cases hb : isBulletChar c = true
      · rw [if_pos hb] at h0; simp at h0
      · rw [if_neg hb] at h0 ⊢
        cases hm : reOrderedListMarker.matchPrefix (c :: (ds ++ [d] ++ rest)) with
        | none => rw [hm] at h0
        | some m' =>
          rw [hm] at h0
          simp only at h0
          rw [if_pos (by rfl)] at h0
          have e : m' = c :: (ds ++ [d]) := congrArg (·.1) (Option.some.inj h0)
          simp only
          rw [if_neg]
          intro h5
          simp only [bne_self_eq_false, Bool.false_or, beq_iff_eq] at h5
          rw [e, ← List.cons_append, List.dropLast_concat] at h5
          cases h5
          refine hk ?_
          rcases h4 with rfl | rfl <;> simp [FirstMark]

/-! ### The marker of a list item -/

/-- `parse_list_marker` after the marker. -/
def markerTail (m : Str) (ty : ListType) (bullet : Option Char) (start : Option Nat) (delim : Option Char) (marker : Nat) (p : PState) :
    Except PyErr (Option ListData × PState) := do
  let startCol := p.column
  let startOff := p.offset
  let p ← markerSpaces startCol 6 p
  let blankItem := (peekAt p.currentLine p.offset).isNone
  let spaces := p.column - startCol
  let (padding, p) :=
    if spaces ≥ 5 || spaces < 1 || blankItem then
      let p := { p with column := startCol, offset := startOff }
      (m.length + 1,
        if isSpTabOpt (peekAt p.currentLine p.offset) then advanceOffset 1 true p else p)
    else (m.length + spaces, p)
  return (some ⟨ty, true, bullet, start, delim, padding, marker⟩, p)

theorem parseListMarker_some {k : Kind} {p : PState} {m : Str} {ty : ListType} {bullet : Option Char} {start : Option Nat} {delim : Option Char}
    (hi : ¬ p.indent ≥ 4) (hm : listMarker k (p.currentLine.drop p.nextNonspace) = some (m, ty, bullet, start, delim))
    (hn : (!((peekAt p.currentLine (p.nextNonspace + m.length)).isNone || isSpTabOpt (peekAt p.currentLine (p.nextNonspace + m.length)))) = false)
    (hp : (k == .paragraph && !((p.currentLine.drop (p.nextNonspace + m.length)).any isNonSpace)) = false) :
    parseListMarker k p = markerTail m ty bullet start delim p.indent (advanceOffset m.length true (advanceNextNonspace p)) := by
  unfold parseListMarker
  rw [if_neg hi, hm]
  simp only
  rw [hn, hp]
  rfl

/-- All of it but the cursor. -/
def Frame (p p' : PState) : Prop := p'.core = p.core ∧ p'.books = p.books

theorem peek_none (l : Str) (i : Nat) : (peekAt l i).isNone = (l.drop i).isEmpty := by
  rw [peek_eq]; cases l.drop i <;> rfl

theorem TuB.atEnd {free : Place} {e : Nat} {p q : PState} (h : TuB free e p.curs q.curs) :
    (peekAt q.currentLine q.offset).isNone = (peekAt p.currentLine p.offset).isNone := by
  rw [peek_none, peek_none]
  have := h.te.none
  have this : q.currentLine.drop q.offset = [] ↔ p.currentLine.drop p.offset = [] := this
  cases h1 : q.currentLine.drop q.offset <;> cases h2 : p.currentLine.drop p.offset <;> simp_all

theorem markerSpaces_tab {s : Nat} : ∀ (n : Nat) {p q : PState}, TuB .clear (s + 4 - p.column) p.curs q.curs → s ≤ p.column →
    isSpTabOpt (peekAt p.currentLine p.offset) = true →
    ERel (fun p' q' => (∃ e, TuB .clear e p'.curs q'.curs) ∧ (p'.column - s < 5 → Tu .clear p'.curs q'.curs) ∧ s < p'.column ∧ Frame p p' ∧ Frame q q' ∧
      p'.currentLine = p.currentLine ∧ q'.currentLine = q.currentLine)
      (markerSpaces s n p) (markerSpaces s n q)
  | 0, p, q, h, hs, hp => ERel.error
  | n + 1, p, q, h, hs, hp => by
    obtain ⟨h1, hc⟩ := h.one hp
    have hc' : (advanceOffset 1 true q).column = (advanceOffset 1 true p).column := h1.col
    simp only [markerSpaces, h1.peek, hc']
    rw [show s + 4 - p.column - 1 = s + 4 - (advanceOffset 1 true p).column by rw [hc]; omega] at h1
    refine ERel.ite (fun hb => ?_) fun hb => ?_
    · simp only [Bool.and_eq_true, decide_eq_true_eq] at hb
      refine (markerSpaces_tab n h1 (by rw [hc]; omega) hb.2).mono ?_
      rintro p' q' _ ⟨g1, g2, g3, g4, g5, g6, g7⟩
      exact ⟨g1, g2, g3, g4, g5, g6, g7⟩
    · refine .ok ⟨⟨_, h1⟩, ?_, by rw [hc]; omega, ⟨rfl, rfl⟩, ⟨rfl, rfl⟩, rfl, rfl⟩
      intro hlt
      have hpk : isSpTabOpt (peekAt (advanceOffset 1 true p).currentLine (advanceOffset 1 true p).offset) = false := by
        rw [Bool.and_eq_true, decide_eq_true_eq] at hb
        exact Bool.eq_false_iff.2 fun h => hb ⟨hlt, h⟩
      rw [peek_eq] at hpk
      exact ⟨h1.col, h1.te.done hpk (by omega), h1.nl, h1.nl'⟩

theorem markerTail_tab {m : Str} {ty : ListType} {bullet : Option Char} {start : Option Nat} {delim : Option Char} {marker : Nat} {p q : PState}
    (h : TuB .clear 4 p.curs q.curs) (hp : p.currentLine.drop p.offset = [] ∨ isSpTabOpt (peekAt p.currentLine p.offset) = true) :
    ERel (fun a b => b.1 = a.1 ∧ a.1.isSome = true ∧ Tu .clear a.2.curs b.2.curs ∧ Frame p a.2 ∧ Frame q b.2)
      (markerTail m ty bullet start delim marker p) (markerTail m ty bullet start delim marker q) := by
  have hcol : q.column = p.column := h.col
  -- going back to the marker
  have back : ∀ {p1 q1 : PState}, p1.currentLine = p.currentLine → q1.currentLine = q.currentLine → Frame p p1 → Frame q q1 →
      let p2 := if isSpTabOpt (peekAt p1.currentLine p.offset) then advanceOffset 1 true { p1 with column := p.column, offset := p.offset }
        else { p1 with column := p.column, offset := p.offset }
      let q2 := if isSpTabOpt (peekAt q1.currentLine q.offset) then advanceOffset 1 true { q1 with column := p.column, offset := q.offset }
        else { q1 with column := p.column, offset := q.offset }
      Tu .clear p2.curs q2.curs ∧ Frame p p2 ∧ Frame q q2 := by
    intro p1 q1 e1 e2 f1 f2
    have h' : TuB .clear 4 ({ p1 with column := p.column, offset := p.offset } : PState).curs ({ q1 with column := p.column, offset := q.offset } : PState).curs := by
      refine ⟨rfl, ?_, ?_, ?_⟩
      · show TE .clear (p.column + 4) p.column (p1.currentLine.drop p.offset) (q1.currentLine.drop q.offset)
        rw [e1, e2]; exact h.te
      · show '\n' ∉ p1.currentLine
        rw [e1]; exact h.nl
      · show '\n' ∉ q1.currentLine
        rw [e2]; exact h.nl'
    refine ⟨h'.opt, ?_, ?_⟩
    · split <;> exact f1
    · split <;> exact f2
  unfold markerTail
  rw [hcol]
  rcases hp with hp | hp
  · -- nothing follows
    have hq : q.currentLine.drop q.offset = [] := h.te.none.2 hp
    have key : ∀ r : PState, r.currentLine.drop r.offset = [] → markerSpaces r.column 6 r = .ok (advanceOffset 1 true r) ∧
        (advanceOffset 1 true r).column = r.column ∧ (advanceOffset 1 true r).offset = r.offset := by
      intro r hr
      have hn : r.currentLine[r.offset]? = none := by
        have := congrArg List.head? hr
        simpa [List.head?_drop] using this
      have e : advanceLoop r.currentLine true 1 1 r.offset r.column r.partiallyConsumedTab = (r.offset, r.column, r.partiallyConsumedTab) := by
        simp [advanceLoop, hn]
      have e1 : (advanceOffset 1 true r).column = r.column := by simp only [advanceOffset, e]
      have e2 : (advanceOffset 1 true r).offset = r.offset := by simp only [advanceOffset, e]
      refine ⟨?_, e1, e2⟩
      simp only [markerSpaces]
      rw [if_neg]
      rw [e2]
      show ¬ (_ && isSpTabOpt (peekAt r.currentLine r.offset)) = true
      rw [peekAt, hn]
      simp [isSpTabOpt]
    obtain ⟨k1, k2, k3⟩ := key p hp
    obtain ⟨k4, k5, k6⟩ := key q hq
    rw [hcol] at k4 k5
    simp only
    rw [k1, k4]
    simp only [bind, Except.bind, k2, k5, Nat.sub_self]
    have e : (decide (0 ≥ 5) || decide (0 < 1) || (peekAt (advanceOffset 1 true p).currentLine (advanceOffset 1 true p).offset).isNone) = true := by simp
    have e' : (decide (0 ≥ 5) || decide (0 < 1) || (peekAt (advanceOffset 1 true q).currentLine (advanceOffset 1 true q).offset).isNone) = true := by simp
    rw [if_pos e, if_pos e']
    exact .ok ⟨rfl, rfl, back rfl rfl ⟨rfl, rfl⟩ ⟨rfl, rfl⟩⟩
  · refine ERel.bind (markerSpaces_tab 6 (by rw [show p.column + 4 - p.column = 4 by omega]; exact h) (Nat.le_refl _) hp) ?_
    rintro p1 q1 ⟨⟨e, g1⟩, g2, g3, g4, g5, g6, g7⟩
    have hc1 : q1.column = p1.column := g1.col
    simp only [hc1, g1.atEnd]
    by_cases hs : (decide (p1.column - p.column ≥ 5) || decide (p1.column - p.column < 1) || (peekAt p1.currentLine p1.offset).isNone) = true
    · rw [if_pos hs, if_pos hs]
      exact .ok ⟨rfl, rfl, back g6 g7 g4 g5⟩
    · rw [if_neg hs, if_neg hs]
      simp only [Bool.or_eq_true, decide_eq_true_eq, not_or] at hs
      exact .ok ⟨rfl, rfl, g2 (by omega), g4, g5⟩

/-! ### The block starts -/

/-- The rest of the line, to be added to a block. -/
structure Fin' (a b : CursorAt) : Prop where
  drop : b.line.drop b.off = a.line.drop a.off
  blank : b.blank = a.blank
  pct : a.pct = false
  pct' : b.pct = false
  nn : a.off < a.line.length → a.off = a.nn
  nn' : b.off < b.line.length → b.off = b.nn

/-- The same text is left. -/
structure SameDrop (a b : CursorAt) : Prop where
  drop : b.line.drop b.off = a.line.drop a.off
  blank : b.blank = a.blank
  pct : a.pct = false
  pct' : b.pct = false

/-- Code blocks and HTML blocks. -/
def VerbK (k : Kind) : Prop := k = .codeBlock ∨ k = .htmlBlock

/-- Blocks that contain blocks. -/
def ContK (k : Kind) : Prop := k ∈ [Kind.document, .blockQuote, .list, .item]

/-- The line is for a code block or an HTML block. -/
def Verb (p : PState) : Prop := p.allClosed = true ∧ ∃ b par up, p.spine = b :: par :: up ∧ VerbK b.data.t ∧ ContK par.data.t

variable {C : CursorAt → CursorAt → Prop} {X : Sim} {p q : PState} {c c' : NodeData}

theorem RelC.move {C' : CursorAt → CursorAt → Prop} {p' q' : PState} (h : RelC C X p q) (hp : Frame p p') (hq : Frame q q') (hc : C' p'.curs q'.curs) :
    RelC C' X p' q' :=
  ⟨h.toSp.congr hp.1 hp.2 hq.1 hq.2, hc, by rw [show p'.lineNumber = p.lineNumber from congrArg Core.line hp.1]; exact h.pos⟩

theorem RelC.any (h : RelC C X p q) : RelC (fun _ _ => True) X p q := ⟨h.toSp, trivial, h.pos⟩

/-- The result of a block start. -/
inductive SR (X : Sim) (c : NodeData) : Start × PState → Start × PState → Prop
  | none {p q : PState} : RelC TuE X p q → ReadyFor c p → SR X c (.none, p) (.none, q)
  | container {p q : PState} : RelC (Tu .clear) X p q → p.allClosed = true → tipKind p ≠ some .paragraph → SR X c (.container, p) (.container, q)
  | verb {p q : PState} : Verb p → SR X c (.leaf, p) (.leaf, q)
  | leaf {p q : PState} : RelC Fin' X p q → p.allClosed = true → SR X c (.leaf, p) (.leaf, q)

theorem addChildLoop_tip {tag : Kind} : ∀ (n : Nat) {p p' : PState}, addChildLoop tag n p = .ok p' →
    ∃ b up, p'.spine = b :: up ∧ canContain b.data.t tag = true
  | 0, p, p', h => by cases h
  | n + 1, p, p', h => by
    simp only [addChildLoop] at h
    cases hs : p.spine with
    | nil => rw [hs] at h; cases h
    | cons b up =>
      rw [hs] at h
      simp only at h
      split at h
      · cases h
        exact ⟨b, up, hs, by assumption⟩
      · cases hf : finalizeTip (p.lineNumber - 1) p with
        | error => rw [hf] at h; cases h
        | ok p1 => rw [hf] at h; exact addChildLoop_tip n h

theorem canContain_cont {k tag : Kind} (h : canContain k tag = true) : ContK k := by
  unfold ContK
  cases hk : k <;> simp [canContain, hk] at h ⊢

theorem addChild_parent {tag : Kind} {off : Nat} {f : NodeData → NodeData} {p' : PState} (h : addChild tag off f p = .ok p')
    (hf : ∀ d, (f d).t = d.t) : ∃ b par up, p'.spine = b :: par :: up ∧ b.data.t = tag ∧ ContK par.data.t := by
  unfold addChild at h
  cases hl : addChildLoop tag (p.spine.length + 1) p with
  | error => rw [hl] at h; cases h
  | ok p1 =>
    rw [hl] at h
    obtain ⟨b, up, e1, e2⟩ := addChildLoop_tip _ hl
    cases h
    refine ⟨_, b, up, by rw [← e1], ?_, canContain_cont e2⟩
    exact hf _

/-- A new code block or HTML block. -/
theorem addVerb {tag : Kind} {off off' : Nat} {f g : NodeData → NodeData} (hX : X.Ok) (h : RelC C X p q) (ha : p.allClosed = true) (ht : VerbK tag)
    (hf : ∀ d d', er X.φ d = er X.ψ d' → er X.φ (f d) = er X.ψ (g d')) (hk : ∀ d, (f d).t = d.t) :
    ERel (fun p' q' => Verb p') (addChild tag off f p) (addChild tag off' g q) := by
  refine (addChild_rel hX h (.inl ?_) ha hf hk).mono ?_
  · rcases ht with rfl | rfl <;> simp
  · rintro p' q' e ⟨g1, g2, g3⟩
    obtain ⟨b, par, up, e1, e2, e3⟩ := addChild_parent e hk
    exact ⟨g2, b, par, up, e1, by rw [e2]; exact ht, e3⟩

theorem Verb.move {p' : PState} (h : Verb p) (hf : Frame p p') : Verb p' := by
  obtain ⟨h1, b, par, up, h2, h3⟩ := h
  exact ⟨(congrArg Books.allClosed hf.2).trans h1, b, par, up, (congrArg Core.spine hf.1).trans h2, h3⟩

theorem toEnd_fin {p q : PState} (hb : q.blank = p.blank) (hp : p.partiallyConsumedTab = false) (hq : q.partiallyConsumedTab = false) :
    Fin' (advanceToEnd p).curs (advanceToEnd q).curs := by
  have key : ∀ r : PState, r.partiallyConsumedTab = false → (advanceToEnd r).currentLine.drop (advanceToEnd r).offset = [] ∧
      (advanceToEnd r).partiallyConsumedTab = false := by
    intro r hr
    have := advanceLoop_false (line := r.currentLine) (r.currentLine.length - r.offset) (r.currentLine.length - r.offset) r.offset r.column
      r.partiallyConsumedTab (Nat.le_refl _)
    refine ⟨?_, this.2 (.inl hr)⟩
    show r.currentLine.drop (advanceLoop _ _ _ _ _ _ _).1 = []
    rw [this.1, List.drop_drop, List.drop_eq_nil_iff]
    omega
  obtain ⟨a1, a2⟩ := key p hp
  obtain ⟨b1, b2⟩ := key q hq
  refine ⟨b1.trans a1.symm, hb, a2, b2, ?_, ?_⟩
  · intro hl
    have := List.drop_eq_nil_iff.1 a1
    exact absurd hl (Nat.not_lt.2 this)
  · intro hl
    have := List.drop_eq_nil_iff.1 b1
    exact absurd hl (Nat.not_lt.2 this)

/-- To the end of the line. -/
theorem SameDrop.toEnd (h : RelC SameDrop X p q) : RelC Fin' X (advanceToEnd p) (advanceToEnd q) :=
  h.move ⟨core_end _, books_end _⟩ ⟨core_end _, books_end _⟩ (toEnd_fin h.cur.blank h.cur.pct h.cur.pct')

theorem TuE.toN {a b : CursorAt} (h : TuE a b) : TuN .clear a b := by
  obtain ⟨v, v', y, h⟩ := h
  exact ⟨v, v', y, y, h, .same, .inl rfl⟩

theorem TuE.dropN (h : TuE p.curs q.curs) : q.currentLine.drop q.nextNonspace = p.currentLine.drop p.nextNonspace := by
  obtain ⟨v, v', y, h⟩ := h
  exact h.eb.trans h.ea.symm

theorem TuE.peekN (h : TuE p.curs q.curs) : peekAt q.currentLine q.nextNonspace = peekAt p.currentLine p.nextNonspace := by
  rw [peek_eq, peek_eq, h.dropN]

theorem TuE.indd (h : TuE p.curs q.curs) : q.indented = p.indented := by
  obtain ⟨v, v', y, h⟩ := h
  exact h.indd'

theorem TuE.blank (h : TuE p.curs q.curs) : q.blank = p.blank := by
  obtain ⟨v, v', y, h⟩ := h
  exact h.blank

theorem TuE.advN (h : TuE p.curs q.curs) : SameDrop (advanceNextNonspace p).curs (advanceNextNonspace q).curs :=
  ⟨h.dropN, h.blank, rfl, rfl⟩

theorem startBlockQuote_tab (hX : X.Ok) {free : Place} (h : RelC (TuN free) X p q) (hr : ReadyFor c p)
    (hc : (!p.indented && peekAt p.currentLine p.nextNonspace == some '>') = true) :
    ERel (SR X c) (startBlockQuote p) (startBlockQuote q) := by
  have hi : q.indented = p.indented := by
    obtain ⟨v, v', y, y', h, _⟩ := h.cur
    exact h.indd'
  unfold startBlockQuote
  rw [hi, h.cur.peekQ, if_pos hc, if_pos hc]
  simp only [Bool.and_eq_true, beq_iff_eq] at hc
  refine ERel.bind (close_rel hX (h.move (C' := Tu .clear) ⟨core_eat _, books_eat _⟩ ⟨core_eat _, books_eat _⟩ (eat_tab h.cur hc.2).free)
    (hr.congr (core_eat _) (books_eat _))) ?_
  rintro p1 q1 ⟨g1, g2, g3⟩
  refine ERel.bind (addChild_rel hX g1 (.inl (by simp)) g2 (fun d d' e => e) fun _ => rfl) ?_
  rintro p2 q2 ⟨g1, g2, g3⟩
  exact .ok (.container g1 g2 (by rw [g3]; simp))

theorem startBlockQuote_same (hX : X.Ok) (h : RelC TuE X p q) (hr : ReadyFor c p) : ERel (SR X c) (startBlockQuote p) (startBlockQuote q) := by
  by_cases hc : (!p.indented && peekAt p.currentLine p.nextNonspace == some '>') = true
  · exact startBlockQuote_tab hX (h.move ⟨rfl, rfl⟩ ⟨rfl, rfl⟩ h.cur.toN) hr hc
  · unfold startBlockQuote
    rw [h.cur.indd, h.cur.peekN, if_neg hc, if_neg hc]
    exact .ok (.none h hr)

theorem startAtx_same (hX : X.Ok) (h : RelC TuE X p q) (hr : ReadyFor c p) : ERel (SR X c) (startAtx p) (startAtx q) := by
  unfold startAtx
  rw [h.cur.indd, h.cur.dropN]
  by_cases hc : p.indented = true
  · rw [if_pos hc, if_pos hc]; exact .ok (.none h hr)
  · rw [if_neg hc, if_neg hc]
    cases reATXHeadingMarker.matchPrefix (p.currentLine.drop p.nextNonspace) with
    | none => exact .ok (.none h hr)
    | some m =>
      have hs : SameDrop (advanceOffset m.length false (advanceNextNonspace p)).curs (advanceOffset m.length false (advanceNextNonspace q)).curs := by
        have a := advanceLoop_false (line := p.currentLine) m.length m.length p.nextNonspace p.nextNonspaceColumn false (Nat.le_refl _)
        have b := advanceLoop_false (line := q.currentLine) m.length m.length q.nextNonspace q.nextNonspaceColumn false (Nat.le_refl _)
        refine ⟨?_, h.cur.blank, a.2 (.inl rfl), b.2 (.inl rfl)⟩
        exact b.1.trans ((congrArg (List.drop m.length) h.cur.dropN).trans a.1.symm)
      refine ERel.bind (close_rel hX (h.move ⟨rfl, rfl⟩ ⟨rfl, rfl⟩ hs) ((hr.congr (core_advN _) (books_advN _)).congr (core_adv _ _ _) (books_adv _ _ _))) ?_
      rintro p1 q1 ⟨g1, g2, g3⟩
      rw [show q1.currentLine.drop q1.offset = p1.currentLine.drop p1.offset from g1.cur.drop]
      refine ERel.bind (addChild_rel hX g1 (.inl (by simp)) g2 (fun d d' e => noCols_congr (f := fun d => { d with level := some (strip m).length, stringContent := some (atxContent (p1.currentLine.drop p1.offset)) }) (fun _ _ => rfl) e) fun _ => rfl) ?_
      rintro p2 q2 ⟨g1, g2, g3⟩
      exact .ok (.leaf (SameDrop.toEnd g1) g2)

/-- The cursors stand before texts that give the same title. -/
structure Titled (x : Str) (a b : CursorAt) : Prop where
  ta : atxContent (a.line.drop a.off) = x
  tb : atxContent (b.line.drop b.off) = x
  blank : b.blank = a.blank
  pct : a.pct = false
  pct' : b.pct = false

theorem strip_marker {n : Nat} {v : Str} (hn : 1 ≤ n) (hv : OnlySpTab v) : strip (List.replicate n '#' ++ v) = List.replicate n '#' := by
  refine strip_text ?_ ?_ ?_ (by intro e; rw [List.replicate_eq_nil_iff] at e; omega)
  · intro c hc
    rw [(List.mem_replicate.1 (List.mem_of_mem_head? hc)).2]; decide
  · intro c hc
    rw [(List.mem_replicate.1 (List.mem_of_getLast? hc)).2]; decide
  · intro c hc
    rcases hv c hc with rfl | rfl <;> decide

theorem startAtx_tab (hX : X.Ok) (h : RelC C X p q) (hr : ReadyFor c p) {n : Nat} {x s s' V V' : Str} (hN : Nx p.curs q.curs V V' s s') (hi : p.indented = false)
    (h1 : 1 ≤ n) (h6 : n ≤ 6) (hs : AtxHeading n x s) (hs' : AtxHeading n x s') : ERel (SR X c) (startAtx p) (startAtx q) := by
  have hi' : q.indented = false := by rw [show q.indented = p.indented from hN.indd', hi]
  have ea : p.currentLine.drop p.nextNonspace = s := hN.ea
  have eb : q.currentLine.drop q.nextNonspace = s' := hN.eb
  have hnl : '\n' ∉ s := by
    rw [← ea]; exact fun h => hN.nl (List.mem_of_mem_drop h)
  have hnl' : '\n' ∉ s' := by
    rw [← eb]; exact fun h => hN.nl' (List.mem_of_mem_drop h)
  obtain ⟨v, r, k1, k2, k3, k4⟩ := atx_parts h1 h6 hnl hs
  obtain ⟨v', r', k1', k2', k3', k4'⟩ := atx_parts h1 h6 hnl' hs'
  unfold startAtx
  rw [ea, eb, hi, hi', k3, k3']
  simp only [Bool.false_eq_true, if_false]
  have ht : Titled x (advanceOffset (List.replicate n '#' ++ v).length false (advanceNextNonspace p)).curs
      (advanceOffset (List.replicate n '#' ++ v').length false (advanceNextNonspace q)).curs := by
    have a := advanceLoop_false (line := p.currentLine) (List.replicate n '#' ++ v).length (List.replicate n '#' ++ v).length p.nextNonspace p.nextNonspaceColumn false
      (Nat.le_refl _)
    have b := advanceLoop_false (line := q.currentLine) (List.replicate n '#' ++ v').length (List.replicate n '#' ++ v').length q.nextNonspace q.nextNonspaceColumn false
      (Nat.le_refl _)
    refine ⟨?_, ?_, hN.blank, a.2 (.inl rfl), b.2 (.inl rfl)⟩
    · refine (congrArg atxContent a.1).trans ?_
      rw [ea, k1, ← List.append_assoc, List.drop_left, k4]
    · refine (congrArg atxContent b.1).trans ?_
      rw [eb, k1', ← List.append_assoc, List.drop_left, k4']
  refine ERel.bind (close_rel hX (h.move ⟨rfl, rfl⟩ ⟨rfl, rfl⟩ ht) ((hr.congr (core_advN _) (books_advN _)).congr (core_adv _ _ _) (books_adv _ _ _))) ?_
  rintro p1 q1 ⟨g1, g2, g3⟩
  rw [show atxContent (q1.currentLine.drop q1.offset) = x from g1.cur.tb, show atxContent (p1.currentLine.drop p1.offset) = x from g1.cur.ta,
    strip_marker h1 k2, strip_marker h1 k2']
  refine ERel.bind (addChild_rel hX g1 (.inl (by simp)) g2 (fun d d' e => noCols_congr (f := fun d => { d with level := some (List.replicate n '#').length, stringContent := some x }) (fun _ _ => rfl) e) fun _ => rfl) ?_
  rintro p2 q2 ⟨g1, g2, g3⟩
  exact .ok (.leaf (g1.move ⟨core_end _, books_end _⟩ ⟨core_end _, books_end _⟩ (toEnd_fin g1.cur.blank g1.cur.pct g1.cur.pct')) g2)

theorem startFenced_same (hX : X.Ok) (h : RelC TuE X p q) (hr : ReadyFor c p) : ERel (SR X c) (startFenced p) (startFenced q) := by
  unfold startFenced
  rw [h.cur.indd, h.cur.dropN]
  by_cases hc : p.indented = true
  · rw [if_pos hc, if_pos hc]; exact .ok (.none h hr)
  · rw [if_neg hc, if_neg hc]
    cases reCodeFence.matchPrefix (p.currentLine.drop p.nextNonspace) with
    | none => exact .ok (.none h hr)
    | some m =>
      refine ERel.bind (close_rel hX h hr) ?_
      rintro p1 q1 ⟨g1, g2, g3⟩
      have e : q1.indent = p1.indent := by
        obtain ⟨v, v', y, h⟩ := g1.cur
        exact h.ind'
      rw [e]
      refine ERel.bind (addVerb hX g1 g2 (.inl rfl) (fun d d' e => noCols_congr (f := fun d => { d with isFenced := true, fenceLength := m.length, fenceChar := m.head?, fenceOffset := p1.indent }) (fun _ _ => rfl) e) fun _ => rfl) ?_
      rintro p2 q2 g
      exact .ok (.verb (g.move ⟨rfl, rfl⟩))

theorem startHtml_same (hX : X.Ok) (hc : CRel X c c') (h : RelC TuE X p q) (hr : ReadyFor c p) : ERel (SR X c) (startHtml c.t p) (startHtml c'.t q) := by
  have he : ∀ s, htmlBlockType c'.t s = htmlBlockType c.t s := by
    intro s; unfold htmlBlockType; rw [hc.npara]
  unfold startHtml
  rw [h.cur.indd, h.cur.dropN, h.cur.peekN, he]
  by_cases hc : (!p.indented && peekAt p.currentLine p.nextNonspace == some '<') = true
  · rw [if_pos hc, if_pos hc]
    cases htmlBlockType c.t (p.currentLine.drop p.nextNonspace) with
    | none => exact .ok (.none h hr)
    | some i =>
      refine ERel.bind (close_rel hX h hr) ?_
      rintro p1 q1 ⟨g1, g2, g3⟩
      refine ERel.bind (addVerb hX g1 g2 (.inr rfl) (fun d d' e => noCols_congr (f := fun d => { d with htmlBlockType := i }) (fun _ _ => rfl) e) fun _ => rfl) ?_
      rintro p2 q2 g
      exact .ok (.verb g)
  · rw [if_neg hc, if_neg hc]
    exact .ok (.none h hr)

theorem tip_para (hX : X.Ok) (h : SpineRel X p.spine q.spine) : (tipKind q != some .paragraph) = (tipKind p != some .paragraph) := by
  have := tipKind_rel hX h (t := .paragraph) (by simp) (by simp [DocLike])
  by_cases e : tipKind p = some .paragraph
  · rw [e, this.2 e]
  · have e' : tipKind q ≠ some .paragraph := fun h => e (this.1 h)
    have e1 : (tipKind q != some .paragraph) = true := by simpa using e'
    have e2 : (tipKind p != some .paragraph) = true := by simpa using e
    rw [e1, e2]

theorem startIndented_same (hX : X.Ok) (h : RelC TuE X p q) (hr : ReadyFor c p) : ERel (SR X c) (startIndented p) (startIndented q) := by
  unfold startIndented
  rw [h.cur.indd, h.cur.blank, tip_para hX h.spine]
  by_cases hc : (p.indented && tipKind p != some .paragraph && !p.blank) = true
  · rw [if_pos hc, if_pos hc]
    refine ERel.bind (close_rel hX (h.any.move (C' := fun _ _ => True) ⟨core_adv _ _ _, books_adv _ _ _⟩ ⟨core_adv _ _ _, books_adv _ _ _⟩ trivial)
      (hr.congr (core_adv _ _ _) (books_adv _ _ _))) ?_
    rintro p1 q1 ⟨g1, g2, g3⟩
    refine ERel.bind (addVerb hX g1 g2 (.inl rfl) (fun d d' e => e) fun _ => rfl) ?_
    rintro p2 q2 g
    exact .ok (.verb g)
  · rw [if_neg hc, if_neg hc]
    exact .ok (.none h hr)

/-- To the end of a line that is not empty. -/
theorem end_tab {p q : PState} (hb : q.blank = p.blank) (h1 : p.offset < p.currentLine.length) (h2 : q.offset < q.currentLine.length) :
    Fin' (advanceToEnd p).curs (advanceToEnd q).curs := by
  have key : ∀ r : PState, r.offset < r.currentLine.length → (advanceToEnd r).currentLine.drop (advanceToEnd r).offset = [] ∧
      (advanceToEnd r).partiallyConsumedTab = false := by
    intro r hr
    have := advanceLoop_false (line := r.currentLine) (r.currentLine.length - r.offset) (r.currentLine.length - r.offset) r.offset r.column
      r.partiallyConsumedTab (Nat.le_refl _)
    refine ⟨?_, this.2 (.inr ⟨by omega, hr⟩)⟩
    show r.currentLine.drop (advanceLoop _ _ _ _ _ _ _).1 = []
    rw [this.1, List.drop_drop, List.drop_eq_nil_iff]
    omega
  obtain ⟨a1, a2⟩ := key p h1
  obtain ⟨b1, b2⟩ := key q h2
  refine ⟨b1.trans a1.symm, hb, a2, b2, ?_, ?_⟩
  · intro hl
    exact absurd hl (Nat.not_lt.2 (List.drop_eq_nil_iff.1 a1))
  · intro hl
    exact absurd hl (Nat.not_lt.2 (List.drop_eq_nil_iff.1 b1))

/-- The cursors stand in lines that are not at their end. -/
structure Ahead (a b : CursorAt) : Prop where
  blank : b.blank = a.blank
  la : a.off < a.line.length
  lb : b.off < b.line.length

theorem Ahead.toEnd (h : RelC Ahead X p q) : RelC Fin' X (advanceToEnd p) (advanceToEnd q) :=
  h.move ⟨core_end _, books_end _⟩ ⟨core_end _, books_end _⟩ (end_tab h.cur.blank h.cur.la h.cur.lb)

theorem Nx.ahead {a b : CursorAt} {v v' y y' : Str} (h : Nx a b v v' y y') (hy : y ≠ []) (hy' : y' ≠ []) : Ahead a b := by
  have key : ∀ (l : Str) (i : Nat) (v y : Str), l.drop i = v ++ y → y ≠ [] → i < l.length := by
    intro l i v y h hy
    refine Classical.byContradiction fun hn => ?_
    rw [List.drop_eq_nil_iff.2 (by omega)] at h
    have := (List.append_eq_nil_iff.1 h.symm).2
    exact hy this
  exact ⟨h.blank, key _ _ _ _ h.da hy, key _ _ _ _ h.db hy'⟩

theorem startThematic_tab (hX : X.Ok) (h : RelC Ahead X p q) (hr : ReadyFor c p)
    (hc : (!p.indented && (reThematicBreak.matchPrefix (p.currentLine.drop p.nextNonspace)).isSome) = true)
    (hc' : (!q.indented && (reThematicBreak.matchPrefix (q.currentLine.drop q.nextNonspace)).isSome) = true) :
    ERel (SR X c) (startThematic p) (startThematic q) := by
  unfold startThematic
  rw [if_pos hc, if_pos hc']
  refine ERel.bind (close_rel hX h hr) ?_
  rintro p1 q1 ⟨g1, g2, g3⟩
  refine ERel.bind (addChild_rel hX g1 (.inl (by simp)) g2 (fun d d' e => e) fun _ => rfl) ?_
  rintro p2 q2 ⟨g1, g2, g3⟩
  exact .ok (.leaf (Ahead.toEnd g1) g2)

theorem startThematic_same (hX : X.Ok) (h : RelC TuE X p q) (hr : ReadyFor c p) : ERel (SR X c) (startThematic p) (startThematic q) := by
  by_cases hc : (!p.indented && (reThematicBreak.matchPrefix (p.currentLine.drop p.nextNonspace)).isSome) = true
  · have hc' : (!q.indented && (reThematicBreak.matchPrefix (q.currentLine.drop q.nextNonspace)).isSome) = true := by
      rw [h.cur.indd, h.cur.dropN]; exact hc
    obtain ⟨v, v', y, hn⟩ := h.cur
    have hy : y ≠ [] := by
      rintro rfl
      have : p.currentLine.drop p.nextNonspace = [] := hn.ea
      rw [this] at hc
      have e : reThematicBreak.matchPrefix [] = none := by decide +kernel
      rw [e] at hc
      simp at hc
    exact startThematic_tab hX (h.move ⟨rfl, rfl⟩ ⟨rfl, rfl⟩ (hn.ahead hy hy)) hr hc hc'
  · unfold startThematic
    rw [h.cur.indd, h.cur.dropN, if_neg hc, if_neg hc]
    exact .ok (.none h hr)

theorem startSetext_same (hX : X.Ok) (hc : CRel X c c') (h : RelC TuE X p q) (hr : ReadyFor c p) :
    ERel (SR X c) (startSetext c.t p) (startSetext c'.t q) := by
  unfold startSetext
  rw [h.cur.indd, h.cur.dropN, hc.para]
  by_cases hp : (!p.indented && c.t == .paragraph) = true
  · rw [if_pos hp, if_pos hp]
    simp only [Bool.and_eq_true, beq_iff_eq] at hp
    cases hm : reSetextHeadingLine.matchPrefix (p.currentLine.drop p.nextNonspace) with
    | none => exact .ok (.none h hr)
    | some m =>
      have hne : p.currentLine.drop p.nextNonspace ≠ [] := by
        intro e
        rw [e] at hm
        have e : reSetextHeadingLine.matchPrefix [] = none := by decide +kernel
        rw [e] at hm
        cases hm
      refine ERel.bind (ERel.mono (S := fun p1 q1 => (RelC TuE X p1 q1 ∧ p1.allClosed = true ∧ tipKind p1 = some c.t) ∧ closeUnmatched p = .ok p1)
        (close_rel hX h hr) fun p1 q1 e g => ⟨g, e⟩) ?_
      rintro p1 q1 ⟨⟨g1, g2, g3⟩, hp1⟩
      have hcp : p1.curs = p.curs := close_curs hp1
      have hah : Ahead p1.curs q1.curs := by
        obtain ⟨v, v', y, hn⟩ := g1.cur
        have hy : y ≠ [] := by
          have := hn.ea
          rw [hcp] at this
          rintro rfl
          exact hne this
        exact hn.ahead hy hy
      have gs := g1.spine
      rw [hp.2] at g3
      simp only
      match hs : p1.spine, hs' : q1.spine, gs with
      | _, _, .base (b := b) h1 h2 hA h3 h4 h5 =>
        rw [tipKind, hs] at g3
        simp [h1] at g3
      | _, _, .cons (a := b) (a' := b') (r := r) (r' := r') he hr' =>
        simp only [erase, Prod.mk.injEq] at he
        have e1 : b.data.stringContent = b'.data.stringContent := (congrArg NodeData.stringContent he.1 :)
        simp only [← e1, g1.refmap]
        cases b.data.stringContent with
        | none => exact ERel.error
        | some x =>
          simp only
          refine ERel.bind (R := fun a b => b = (a.1, X.ref a.2.1, a.2.2)) (fun a h => ⟨_, by rw [refLoop_keeps hX.ref, h]; rfl, rfl⟩) ?_
          rintro ⟨x', m', f⟩ _ rfl
          simp only
          by_cases hx : x'.isEmpty = true
          · rw [if_pos hx, if_pos hx]
            refine .ok (.none ⟨⟨?_, rfl, g1.line, g1.oldtip, g1.lastMatched, g1.allClosed, g1.low⟩, g1.cur, g1.pos⟩ ?_)
            · refine .cons ?_ hr'
              simp only [erase, Prod.mk.injEq, he.2, and_true]
              exact noCols_congr (f := fun d => { d with stringContent := some x' }) (fun _ _ => rfl) he.1
            · refine ⟨?_, fun h' => ?_⟩
              · rw [if_pos g2, hp.2]
                simp only [PState.ds, List.map_cons, List.drop_zero, List.head?_cons, Option.map_some]
                rw [tipKind, hs] at g3
                exact g3
              · rw [g2] at h'; cases h'
          · rw [if_neg hx, if_neg hx]
            refine .ok (.leaf (Ahead.toEnd ⟨⟨?_, rfl, g1.line, g1.oldtip, g1.lastMatched, g1.allClosed, g1.low⟩, hah, g1.pos⟩) g2)
            refine .cons ?_ hr'
            simp only [erase, Prod.mk.injEq, and_true, erL]
            have e2 : (er X.φ b.data).sourcepos = (er X.ψ b'.data).sourcepos := congrArg NodeData.sourcepos he.1
            simp only [er] at e2 ⊢
            rw [e2]
  · rw [if_neg hp, if_neg hp]
    exact .ok (.none h hr)

/-- `list_item` after the marker. -/
def itemTail (container : NodeData) (l : ListData) (p : PState) : Except PyErr (Start × PState) := do
  let p ← closeUnmatched p
  let p ←
    if tipKind p != some .list || !(listsMatch container.listData l) then
      addChild .list p.nextNonspace (fun d => { d with listData := some l }) p
    else pure p
  let p ← addChild .item p.nextNonspace (fun d => { d with listData := some l }) p
  return (.container, p)

theorem itemTail_tab (hX : X.Ok) (hc : CRel X c c') (h : RelC (Tu .clear) X p q) (hr : ReadyFor c p) (l : ListData) :
    ERel (SR X c) (itemTail c l p) (itemTail c' l q) := by
  unfold itemTail
  refine ERel.bind (close_rel hX h hr) ?_
  rintro p2 q2 ⟨f1, f2, f3⟩
  have hlm : ∀ h : tipKind p2 = some .list, listsMatch c'.listData l = listsMatch c.listData l := by
    intro ht
    rw [f3, Option.some.injEq] at ht
    rcases hc with h | ⟨h1, _⟩
    · have : c.listData = c'.listData := (congrArg NodeData.listData h :)
      rw [this]
    · rw [h1] at ht; cases ht
  have ec : (tipKind q2 != some .list || !(listsMatch c'.listData l)) = (tipKind p2 != some .list || !(listsMatch c.listData l)) := by
    rw [tipKind_list hX f1.spine]
    by_cases ht : tipKind p2 = some .list
    · rw [hlm ht]
    · have : (tipKind p2 != some .list) = true := by simpa using ht
      rw [this]; rfl
  rw [ec]
  have last : ∀ p3 q3 : PState, RelC (Tu .clear) X p3 q3 ∧ p3.allClosed = true ∧ tipKind p3 = some .list →
      ERel (SR X c)
        (addChild .item p3.nextNonspace (fun d => { d with listData := some l }) p3 >>= fun p => pure (Start.container, p))
        (addChild .item q3.nextNonspace (fun d => { d with listData := some l }) q3 >>= fun p => pure (Start.container, p)) := by
    rintro p3 q3 ⟨f1, f2, f3⟩
    refine ERel.bind (addChild_rel hX f1 (.inr f3) f2 (fun d d' e => noCols_congr (f := fun d => { d with listData := some l }) (fun _ _ => rfl) e) fun _ => rfl) ?_
    rintro p4 q4 ⟨f1, f2, f3⟩
    exact .ok (.container f1 f2 (by rw [f3]; simp))
  by_cases ht : (tipKind p2 != some .list || !(listsMatch c.listData l)) = true
  · rw [if_pos ht, if_pos ht]
    exact ERel.bind (addChild_rel hX f1 (.inl (by simp)) f2
      (fun d d' e => noCols_congr (f := fun d => { d with listData := some l }) (fun _ _ => rfl) e) fun _ => rfl) last
  · rw [if_neg ht, if_neg ht]
    refine last p2 q2 ⟨f1, f2, ?_⟩
    simp only [Bool.or_eq_true, not_or] at ht
    simpa using ht.1

/-- After a marker with white space after it in both lines. -/
theorem startListItem_mark (hX : X.Ok) (hc : CRel X c c') (h : RelC C X p q) (hr : ReadyFor c p) {m : Str} {ty : ListType} {bullet : Option Char}
    {start : Option Nat} {delim : Option Char} (hip : (!p.indented || c.t == .list) = true) (hiq : (!q.indented || c'.t == .list) = true)
    (hii : q.indent = p.indent) (he : TuB .clear 4 (advanceOffset m.length true (advanceNextNonspace p)).curs (advanceOffset m.length true (advanceNextNonspace q)).curs)
    (hpp : parseListMarker c.t p = markerTail m ty bullet start delim p.indent (advanceOffset m.length true (advanceNextNonspace p)))
    (hpq : parseListMarker c'.t q = markerTail m ty bullet start delim q.indent (advanceOffset m.length true (advanceNextNonspace q)))
    (hw : (advanceOffset m.length true (advanceNextNonspace p)).currentLine.drop (advanceOffset m.length true (advanceNextNonspace p)).offset = [] ∨
      isSpTabOpt (peekAt (advanceOffset m.length true (advanceNextNonspace p)).currentLine (advanceOffset m.length true (advanceNextNonspace p)).offset) = true) :
    ERel (SR X c) (startListItem c p) (startListItem c' q) := by
  unfold startListItem
  rw [if_pos hip, if_pos hiq, hpp, hpq, hii]
  refine ERel.bind (markerTail_tab he hw) ?_
  rintro ⟨l, p1⟩ ⟨l', q1⟩ ⟨g1, g2, g3, g4, g5⟩
  simp only at g1 g2 g3 g4 g5
  subst g1
  cases l' with
  | none => cases g2
  | some l =>
    have f1 : Frame p p1 := g4
    have f2 : Frame q q1 := g5
    exact itemTail_tab hX hc (h.move f1 f2 g3) (hr.congr f1.1 f1.2) l

end CM
