import Verif.Proofs.Columns
import Verif.Proofs.BlockRun
import Verif.Proofs.BlockTree
/-
The column recorded by the block parser is right at every point of the analysis of a line.
-/
set_option linter.unusedVariables false
namespace CM
open Spec

/-- The recorded column is the visual column of the recorded offset. -/
def Col (p : PState) : Prop := ColumnOf p.currentLine p.offset p.column p.partiallyConsumedTab

/-- The same for the results of the last search for the next character that is no white space. -/
structure ColN (p : PState) : Prop where
  col : Col p
  le : p.nextNonspace ≤ p.currentLine.length
  next : p.nextNonspaceColumn = columnFrom 0 (p.currentLine.take p.nextNonspace)
  indent : p.indent = p.nextNonspaceColumn - p.column

theorem col_line (line : Str) : ColumnOf line 0 0 false := ⟨Nat.zero_le _, by simp [columnFrom]⟩

theorem colN_find {p : PState} (h : Col p) : ColN (findNextNonspace p) := by
  obtain ⟨w, t, h1, h2, h3, h4, h5, h6, h7, h8, h9, h10, h11⟩ := find_column h
  refine ⟨?_, by rw [h7]; exact h11, by rw [h7]; exact h5, by rw [h6, h9]⟩
  unfold Col
  rw [h7, h8, h9, h10]
  exact h

theorem ColN.advance {p : PState} (h : ColN p) : Col (advanceNextNonspace p) := ⟨h.le, h.next⟩

theorem Col.advance {p : PState} (h : Col p) (n : Nat) (b : Bool) : Col (advanceOffset n b p) := by
  cases b with
  | true => exact (advanceLoop_columnOf n n p.offset p.column p.partiallyConsumedTab (Nat.le_refl _) h).1
  | false => exact (advanceLoop_charsOf n n p.offset p.column p.partiallyConsumedTab (Nat.le_refl _) h).1

theorem ColN.eat {p : PState} (h : ColN p) : Col (eatQuoteMarker p) := by
  unfold eatQuoteMarker
  simp only
  split
  · exact (h.advance.advance 1 false).advance 1 true
  · exact h.advance.advance 1 false

theorem Col.fence : ∀ (n : Nat) {p : PState}, Col p → Col (skipFenceOffset n p)
  | 0, p, h => h
  | n + 1, p, h => by
    unfold skipFenceOffset
    split
    · exact Col.fence n (h.advance 1 true)
    · exact h

/-- The cursor. -/
def PState.cursor (p : PState) : Str × Nat × Nat × Bool × Nat × Nat × Nat :=
  (p.currentLine, p.offset, p.column, p.partiallyConsumedTab, p.nextNonspace, p.nextNonspaceColumn, p.indent)

theorem Col.frame {p q : PState} (h : Col p) (e : q.cursor = p.cursor) : Col q := by
  simp only [PState.cursor, Prod.mk.injEq] at e
  obtain ⟨e1, e2, e3, e4, _⟩ := e
  unfold Col
  rw [e1, e2, e3, e4]
  exact h

theorem ColN.frame {p q : PState} (h : ColN p) (e : q.cursor = p.cursor) : ColN q := by
  have e' := e
  simp only [PState.cursor, Prod.mk.injEq] at e
  obtain ⟨e1, e2, e3, e4, e5, e6, e7⟩ := e
  exact ⟨h.col.frame e', by rw [e5, e1]; exact h.le, by rw [e6, e1, e5]; exact h.next,
    by rw [e7, e6, e3]; exact h.indent⟩

theorem cursor_finalizeTip {n : Nat} {p q : PState} (h : finalizeTip n p = .ok q) : q.cursor = p.cursor := by
  unfold finalizeTip at h
  split at h
  · cases h
  · simp only [bind, Except.bind] at h
    split at h
    · cases h
    · split at h <;> (simp only [pure, Except.pure, Except.ok.injEq] at h; subst h; rfl)

theorem cursor_closeLoop : ∀ (fuel : Nat) {p q : PState}, closeLoop fuel p = .ok q → q.cursor = p.cursor
  | 0, p, q, h => by cases h
  | fuel + 1, p, q, h => by
    unfold closeLoop at h
    split at h
    · simp only [Except.ok.injEq] at h; subst h; rfl
    · simp only [bind, Except.bind] at h
      split at h
      · cases h
      · rename_i v hv
        have h1 := cursor_closeLoop fuel h
        have h2 := cursor_finalizeTip hv
        exact h1.trans h2

theorem cursor_close {p q : PState} (h : closeUnmatched p = .ok q) : q.cursor = p.cursor := by
  unfold closeUnmatched at h
  split at h
  · simp only [Except.ok.injEq] at h; subst h; rfl
  · simp only [bind, Except.bind] at h
    split at h
    · cases h
    · rename_i v hv
      simp only [pure, Except.pure, Except.ok.injEq] at h
      subst h
      have h2 := cursor_closeLoop _ hv
      exact h2

theorem cursor_addChildLoop {tag : Kind} : ∀ (fuel : Nat) {p q : PState}, addChildLoop tag fuel p = .ok q →
    q.cursor = p.cursor
  | 0, p, q, h => by cases h
  | fuel + 1, p, q, h => by
    unfold addChildLoop at h
    split at h
    · cases h
    · split at h
      · simp only [Except.ok.injEq] at h; subst h; rfl
      · simp only [bind, Except.bind] at h
        split at h
        · cases h
        · rename_i v hv
          exact (cursor_addChildLoop fuel h).trans (cursor_finalizeTip hv)

theorem cursor_addChild {tag : Kind} {off : Nat} {f : NodeData → NodeData} {p q : PState}
    (h : addChild tag off f p = .ok q) : q.cursor = p.cursor := by
  unfold addChild at h
  simp only [bind, Except.bind] at h
  split at h
  · cases h
  · rename_i v hv
    simp only [pure, Except.pure, Except.ok.injEq] at h
    subst h
    have h2 := cursor_addChildLoop _ hv
    exact h2

/-- What a block start does to the cursor. -/
def StartCol (r : Start) (p q : PState) : Prop := (r = .none → q.cursor = p.cursor) ∧ Col q

theorem startCol_none {p : PState} (h : ColN p) : StartCol .none p p := ⟨fun _ => rfl, h.col⟩

theorem startCol_other {r : Start} {p q : PState} (hr : r ≠ .none) (h : Col q) : StartCol r p q :=
  ⟨fun e => absurd e hr, h⟩

theorem col_quote {p q : PState} {r : Start} (h : ColN p) (e : startBlockQuote p = .ok (r, q)) : StartCol r p q := by
  unfold startBlockQuote at e
  split at e
  · simp only [bind, Except.bind, pure, Except.pure] at e
    split at e
    · cases e
    · rename_i v hv
      split at e
      · cases e
      · rename_i u hu
        simp only [Except.ok.injEq, Prod.mk.injEq] at e
        obtain ⟨rfl, rfl⟩ := e
        exact startCol_other (by decide) ((h.eat.frame (cursor_close hv)).frame (cursor_addChild hu))
  · simp only [Except.ok.injEq, Prod.mk.injEq] at e
    obtain ⟨rfl, rfl⟩ := e
    exact startCol_none h

theorem col_atx {p q : PState} {r : Start} (h : ColN p) (e : startAtx p = .ok (r, q)) : StartCol r p q := by
  unfold startAtx at e
  split at e
  · simp only [Except.ok.injEq, Prod.mk.injEq] at e
    obtain ⟨rfl, rfl⟩ := e
    exact startCol_none h
  · split at e
    · simp only [Except.ok.injEq, Prod.mk.injEq] at e
      obtain ⟨rfl, rfl⟩ := e
      exact startCol_none h
    · simp only [bind, Except.bind, pure, Except.pure] at e
      split at e
      · cases e
      · rename_i v hv
        split at e
        · cases e
        · rename_i u hu
          simp only [Except.ok.injEq, Prod.mk.injEq] at e
          obtain ⟨rfl, rfl⟩ := e
          exact startCol_other (by decide)
            ((((h.advance.advance _ _).frame (cursor_close hv)).frame (cursor_addChild hu)).advance _ _)

theorem col_fenced {p q : PState} {r : Start} (h : ColN p) (e : startFenced p = .ok (r, q)) : StartCol r p q := by
  unfold startFenced at e
  split at e
  · simp only [Except.ok.injEq, Prod.mk.injEq] at e
    obtain ⟨rfl, rfl⟩ := e
    exact startCol_none h
  · split at e
    · simp only [Except.ok.injEq, Prod.mk.injEq] at e
      obtain ⟨rfl, rfl⟩ := e
      exact startCol_none h
    · simp only [bind, Except.bind, pure, Except.pure] at e
      split at e
      · cases e
      · rename_i v hv
        split at e
        · cases e
        · rename_i u hu
          simp only [Except.ok.injEq, Prod.mk.injEq] at e
          obtain ⟨rfl, rfl⟩ := e
          exact startCol_other (by decide) (((h.frame (cursor_close hv)).frame (cursor_addChild hu)).advance.advance _ _)

theorem col_html {k : Kind} {p q : PState} {r : Start} (h : ColN p) (e : startHtml k p = .ok (r, q)) : StartCol r p q := by
  unfold startHtml at e
  split at e
  · split at e
    · simp only [bind, Except.bind, pure, Except.pure] at e
      split at e
      · cases e
      · rename_i v hv
        split at e
        · cases e
        · rename_i u hu
          simp only [Except.ok.injEq, Prod.mk.injEq] at e
          obtain ⟨rfl, rfl⟩ := e
          exact startCol_other (by decide) ((h.frame (cursor_close hv)).frame (cursor_addChild hu)).col
    · simp only [Except.ok.injEq, Prod.mk.injEq] at e
      obtain ⟨rfl, rfl⟩ := e
      exact startCol_none h
  · simp only [Except.ok.injEq, Prod.mk.injEq] at e
    obtain ⟨rfl, rfl⟩ := e
    exact startCol_none h

theorem col_setext {k : Kind} {p q : PState} {r : Start} (h : ColN p) (e : startSetext k p = .ok (r, q)) :
    StartCol r p q := by
  unfold startSetext at e
  split at e
  · split at e
    · simp only [Except.ok.injEq, Prod.mk.injEq] at e
      obtain ⟨rfl, rfl⟩ := e
      exact startCol_none h
    · simp only [bind, Except.bind, pure, Except.pure] at e
      split at e
      · cases e
      · rename_i v hv
        split at e
        · cases e
        · split at e
          · cases e
          · split at e
            · cases e
            · split at e
              · simp only [Except.ok.injEq, Prod.mk.injEq] at e
                obtain ⟨rfl, rfl⟩ := e
                have h2 := cursor_close hv
                exact ⟨fun _ => h2, h.col.frame h2⟩
              · simp only [Except.ok.injEq, Prod.mk.injEq] at e
                obtain ⟨rfl, rfl⟩ := e
                refine startCol_other (by decide) (Col.advance ?_ _ _)
                have h2 := cursor_close hv
                exact h.col.frame h2
  · simp only [Except.ok.injEq, Prod.mk.injEq] at e
    obtain ⟨rfl, rfl⟩ := e
    exact startCol_none h

theorem col_thematic {p q : PState} {r : Start} (h : ColN p) (e : startThematic p = .ok (r, q)) : StartCol r p q := by
  unfold startThematic at e
  split at e
  · simp only [bind, Except.bind, pure, Except.pure] at e
    split at e
    · cases e
    · rename_i v hv
      split at e
      · cases e
      · rename_i u hu
        simp only [Except.ok.injEq, Prod.mk.injEq] at e
        obtain ⟨rfl, rfl⟩ := e
        exact startCol_other (by decide) (((h.frame (cursor_close hv)).frame (cursor_addChild hu)).col.advance _ _)
  · simp only [Except.ok.injEq, Prod.mk.injEq] at e
    obtain ⟨rfl, rfl⟩ := e
    exact startCol_none h

theorem col_indented {p q : PState} {r : Start} (h : ColN p) (e : startIndented p = .ok (r, q)) : StartCol r p q := by
  unfold startIndented at e
  split at e
  · simp only [bind, Except.bind, pure, Except.pure] at e
    split at e
    · cases e
    · rename_i v hv
      split at e
      · cases e
      · rename_i u hu
        simp only [Except.ok.injEq, Prod.mk.injEq] at e
        obtain ⟨rfl, rfl⟩ := e
        exact startCol_other (by decide) (((h.col.advance 4 true).frame (cursor_close hv)).frame (cursor_addChild hu))
  · simp only [Except.ok.injEq, Prod.mk.injEq] at e
    obtain ⟨rfl, rfl⟩ := e
    exact startCol_none h

theorem col_markerSpaces {s : Nat} : ∀ (fuel : Nat) {p q : PState}, Col p → markerSpaces s fuel p = .ok q →
    Col q ∧ q.currentLine = p.currentLine
  | 0, p, q, _, e => by cases e
  | fuel + 1, p, q, h, e => by
    unfold markerSpaces at e
    simp only at e
    split at e
    · have := col_markerSpaces fuel (p := advanceOffset 1 true p) (h.advance 1 true) e
      exact this
    · simp only [Except.ok.injEq] at e
      subst e
      exact ⟨h.advance 1 true, rfl⟩

theorem listMarker_text {k : Kind} {s m : Str} {x : ListType × Option Char × Option Nat × Option Char}
    (h : listMarker k s = some (m, x)) : (∃ t, s = m ++ t) ∧ '\t' ∉ m := by
  unfold listMarker at h
  split at h
  · cases h
  · rename_i c cs
    split at h
    · rename_i hb
      simp only [Option.some.injEq, Prod.mk.injEq] at h
      rw [← h.1]
      refine ⟨⟨cs, rfl⟩, ?_⟩
      simp only [List.mem_singleton]
      rintro rfl
      exact absurd hb (by decide)
    · split at h
      · cases h
      · rename_i m' hm
        split at h
        · simp only [Option.some.injEq, Prod.mk.injEq] at h
          rw [← h.1]
          obtain ⟨t, _, ht⟩ := Re.matchPrefix_append hm
          refine ⟨⟨t, ht⟩, ?_⟩
          obtain ⟨ds, c, rfl, _, _, hd, hc⟩ := ordered_marker hm
          simp only [List.mem_append, List.mem_singleton, not_or]
          refine ⟨fun hx => absurd (hd _ hx) (by decide +kernel), ?_⟩
          rintro rfl
          rcases hc with hc | hc <;> cases hc
        · cases h

theorem markerSpaces_none {s fuel : Nat} {p q : PState} (hc : p.currentLine[p.offset]? = none)
    (e : markerSpaces s (fuel + 1) p = .ok q) : q = p := by
  unfold markerSpaces at e
  simp only [advance_none hc] at e
  rw [if_neg (by simp [peekAt, hc, isSpTabOpt])] at e
  simp only [Except.ok.injEq] at e
  exact e.symm

/-- The first step to the right does not look at the flag for a split tab. -/
theorem advance_flag {p : PState} {c : Char} (hc : p.currentLine[p.offset]? = some c) (b : Bool) :
    advanceOffset 1 true { p with partiallyConsumedTab := b } = advanceOffset 1 true p := by
  simp only [advanceOffset, advanceLoop, hc]
  rfl

theorem col_marker {k : Kind} {p q : PState} {r : Option ListData} (h : ColN p)
    (e : parseListMarker k p = .ok (r, q)) : (r = none → q = p) ∧ Col q := by
  unfold parseListMarker at e
  split at e
  · simp only [Except.ok.injEq, Prod.mk.injEq] at e
    obtain ⟨rfl, rfl⟩ := e
    exact ⟨fun _ => rfl, h.col⟩
  split at e
  · simp only [Except.ok.injEq, Prod.mk.injEq] at e
    obtain ⟨rfl, rfl⟩ := e
    exact ⟨fun _ => rfl, h.col⟩
  rename_i m ty bullet start delim hm
  simp only at e
  split at e
  · simp only [Except.ok.injEq, Prod.mk.injEq] at e
    obtain ⟨rfl, rfl⟩ := e
    exact ⟨fun _ => rfl, h.col⟩
  rename_i hnext
  split at e
  · simp only [Except.ok.injEq, Prod.mk.injEq] at e
    obtain ⟨rfl, rfl⟩ := e
    exact ⟨fun _ => rfl, h.col⟩
  simp only [bind, Except.bind, pure, Except.pure] at e
  split at e
  · cases e
  rename_i v hv
  simp only [Except.ok.injEq, Prod.mk.injEq] at e
  obtain ⟨rfl, rfl⟩ := e
  refine ⟨fun e => by simp at e, ?_⟩
  obtain ⟨⟨t, ht⟩, htab⟩ := listMarker_text hm
  have hq0 : Col (advanceOffset m.length true (advanceNextNonspace p)) := h.advance.advance _ _
  have hoff : (advanceOffset m.length true (advanceNextNonspace p)).offset = p.nextNonspace + m.length := by
    have := advanceLoop_plain (b := true) m t p.nextNonspace p.nextNonspaceColumn false ht htab
    show (advanceLoop p.currentLine true m.length m.length p.nextNonspace p.nextNonspaceColumn false).1 = _
    rw [this]
  have hline : (advanceOffset m.length true (advanceNextNonspace p)).currentLine = p.currentLine := rfl
  generalize advanceOffset m.length true (advanceNextNonspace p) = q0 at hq0 hoff hline hv
  obtain ⟨hcv, hlv⟩ := col_markerSpaces 6 hq0 hv
  split
  · rw [← hoff, ← hline] at hnext
    split
    · rename_i hsp
      cases hc : q0.currentLine[q0.offset]? with
      | none =>
        exfalso
        rw [← hlv] at hc
        simp [peekAt, hc, isSpTabOpt] at hsp
      | some c =>
        have h1 := advance_flag (p := { v with column := q0.column, offset := q0.offset }) (c := c)
          (by show v.currentLine[q0.offset]? = _; rw [hlv]; exact hc) q0.partiallyConsumedTab
        simp only at h1 ⊢
        rw [← h1]
        apply Col.advance
        unfold Col
        simp only
        rw [hlv]
        exact hq0
    · rename_i hsp
      have hc : q0.currentLine[q0.offset]? = none := by
        simp only [peekAt, hlv] at hsp
        simp only [peekAt, Bool.not_eq_true, Bool.not_eq_false', Bool.or_eq_true, Option.isNone_iff_eq_none] at hnext
        rcases hnext with hnext | hnext
        · exact hnext
        · exact absurd hnext hsp
      have := markerSpaces_none hc hv
      subst this
      exact hq0
  · exact hcv

theorem col_item {c : NodeData} {p q : PState} {r : Start} (h : ColN p) (e : startListItem c p = .ok (r, q)) :
    StartCol r p q := by
  unfold startListItem at e
  split at e
  · simp only [bind, Except.bind, pure, Except.pure] at e
    split at e
    · cases e
    · rename_i v hv
      obtain ⟨r1, q1⟩ := v
      have hm := col_marker h hv
      simp only at e
      split at e
      · simp only [Except.ok.injEq, Prod.mk.injEq] at e
        obtain ⟨rfl, rfl⟩ := e
        exact ⟨fun _ => by rw [hm.1 rfl], hm.2⟩
      · split at e
        · cases e
        · rename_i w hw
          have hw' := hm.2.frame (cursor_close hw)
          split at e
          · split at e
            · cases e
            · rename_i u hu
              split at e
              · cases e
              · rename_i z hz
                simp only [Except.ok.injEq, Prod.mk.injEq] at e
                obtain ⟨rfl, rfl⟩ := e
                exact startCol_other (by decide) ((hw'.frame (cursor_addChild hu)).frame (cursor_addChild hz))
          · split at e
            · cases e
            · rename_i u hu
              simp only [Except.ok.injEq, Prod.mk.injEq] at e
              obtain ⟨rfl, rfl⟩ := e
              exact startCol_other (by decide) (hw'.frame (cursor_addChild hu))
  · simp only [Except.ok.injEq, Prod.mk.injEq] at e
    obtain ⟨rfl, rfl⟩ := e
    exact startCol_none h

theorem col_tryStarts : ∀ (fs : List (PState → Except PyErr (Start × PState))),
    (∀ f ∈ fs, ∀ (p q : PState) (r : Start), ColN p → f p = .ok (r, q) → StartCol r p q) →
    ∀ {p q : PState} {r : Start}, ColN p → tryStarts fs p = .ok (r, q) → StartCol r p q
  | [], _, p, q, r, h, e => by
    simp only [tryStarts, Except.ok.injEq, Prod.mk.injEq] at e
    obtain ⟨rfl, rfl⟩ := e
    exact startCol_none h
  | f :: fs, hf, p, q, r, h, e => by
    simp only [tryStarts, bind, Except.bind, pure, Except.pure] at e
    split at e
    · cases e
    · rename_i v hv
      obtain ⟨r1, q1⟩ := v
      have h1 := hf f (by simp) p q1 r1 h hv
      cases r1 with
      | none =>
        have hc := h1.1 rfl
        have h2 := col_tryStarts fs (fun g hg => hf g (by simp [hg])) (h.frame hc) e
        exact ⟨fun e => (h2.1 e).trans hc, h2.2⟩
      | container =>
        simp only [Except.ok.injEq, Prod.mk.injEq] at e
        obtain ⟨rfl, rfl⟩ := e
        exact h1
      | leaf =>
        simp only [Except.ok.injEq, Prod.mk.injEq] at e
        obtain ⟨rfl, rfl⟩ := e
        exact h1

theorem col_blockStarts (c : NodeData) : ∀ f ∈ blockStarts c, ∀ (p q : PState) (r : Start), ColN p →
    f p = .ok (r, q) → StartCol r p q := by
  intro f hf p q r h e
  simp only [blockStarts, List.mem_cons, List.not_mem_nil, or_false] at hf
  rcases hf with rfl | rfl | rfl | rfl | rfl | rfl | rfl | rfl
  · exact col_quote h e
  · exact col_atx h e
  · exact col_fenced h e
  · exact col_html h e
  · exact col_setext h e
  · exact col_thematic h e
  · exact col_item h e
  · exact col_indented h e

theorem ColN.advanceOf {p q : PState} (h : ColN p) (e : q.cursor = p.cursor) : Col (advanceNextNonspace q) :=
  (h.frame e).advance

theorem col_startsLoop : ∀ (fuel : Nat) {c : NodeData} {p q : PState}, Col p → startsLoop fuel c p = .ok q → Col q
  | 0, c, p, q, _, e => by cases e
  | fuel + 1, c, p, q, h, e => by
    have hN := colN_find h
    simp only [startsLoop, bind, Except.bind, pure, Except.pure] at e
    split at e
    all_goals
    split at e
    · simp only [Except.ok.injEq] at e
      subst e
      exact hN.advance
    · split at e
      · cases e
      · rename_i v hv
        obtain ⟨r1, q1⟩ := v
        have h1 := col_tryStarts _ (col_blockStarts c) hN hv
        cases r1 with
        | none =>
          simp only [Except.ok.injEq] at e
          subst e
          exact hN.advanceOf (h1.1 rfl)
        | leaf =>
          simp only [Except.ok.injEq] at e
          subst e
          exact h1.2
        | container =>
          simp only at e
          split at e
          · cases e
          · exact col_startsLoop fuel h1.2 e

theorem col_continue {d : NodeData} {b : Bool} {p : PState} (h : ColN p) : Col (continueBlock d b p).2 := by
  unfold continueBlock
  split
  · exact h.col
  · exact h.col
  · split
    · exact h.eat
    · exact h.col
  · split
    · split
      · exact h.advance
      · exact h.col
    · simp only
      split
      all_goals
      split
      · exact h.col.advance _ _
      · exact h.col
  · split
    · split
      · exact h.col
      · exact h.col.fence _
    · split
      · exact h.col.advance _ _
      · split
        · exact h.advance
        · exact h.col
  · split <;> exact h.col
  · split <;> exact h.col
  · exact h.col

theorem col_contLoop : ∀ (bs : List OpenBlk) (n : Nat) {p : PState} {r : PState ⊕ (Nat × PState)}, Col p →
    contLoop bs n p = .ok r → match r with
      | .inl q => Col q
      | .inr (_, q) => Col q
  | [], n, p, r, h, e => by
    simp only [contLoop, Except.ok.injEq] at e
    subst e
    exact h
  | b :: bs, n, p, r, h, e => by
    have hN := colN_find h
    have hc := col_continue (d := b.data) (b := !b.children.isEmpty || !bs.isEmpty) hN
    simp only [contLoop] at e
    split at e
    · rename_i q hq
      rw [hq] at hc
      exact col_contLoop bs (n + 1) hc e
    · rename_i q hq
      rw [hq] at hc
      simp only [Except.ok.injEq] at e
      subst e
      exact hc
    · rename_i q hq
      rw [hq] at hc
      simp only [bind, Except.bind, pure, Except.pure] at e
      split at e
      · cases e
      · rename_i v hv
        simp only [Except.ok.injEq] at e
        subst e
        have h2 := cursor_finalizeTip hv
        exact hc.frame h2

end CM
