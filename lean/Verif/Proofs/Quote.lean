import Verif.Proofs.Nest
import Verif.Proofs.History
/-
Block quotes add structure only (C50): the quoted lines and the lines themselves.
-/
namespace CM
open Spec

theorem skipWs_replicate (n : Nat) (c : Char) (r : Str) (h1 : c ≠ ' ') (h2 : c ≠ '\t') : ∀ i cols,
    skipWs (List.replicate n ' ' ++ c :: r) i cols = (i + n, cols + n, some c) := by
  induction n with
  | zero =>
    intro i cols
    simp [skipWs, h1, h2]
  | succ n ih =>
    intro i cols
    rw [List.replicate_succ, List.cons_append, skipWs, if_pos (by rfl), ih]
    simp only [Prod.mk.injEq, and_true]
    omega

/-- The marker of a quoted line is found and consumed. -/
theorem eat_marker {pre l : Str} (hm : QuoteMarker pre l) {q : PState} (hl : q.currentLine = pre ++ l)
    (ho : q.offset = 0) (hc : q.column = 0) :
    (findNextNonspace q).indented = false ∧ peekAt (findNextNonspace q).currentLine (findNextNonspace q).nextNonspace = some '>' ∧
      (eatQuoteMarker (findNextNonspace q)).offset = pre.length ∧ (eatQuoteMarker (findNextNonspace q)).column = pre.length ∧
      (eatQuoteMarker (findNextNonspace q)).partiallyConsumedTab = false ∧
      (eatQuoteMarker (findNextNonspace q)).currentLine = pre ++ l := by
  obtain ⟨n, hn, hp⟩ := hm
  have hline : ∃ r, q.currentLine = List.replicate n ' ' ++ '>' :: r := by
    rw [hl]
    rcases hp with rfl | ⟨rfl, _⟩
    · exact ⟨' ' :: l, by simp⟩
    · exact ⟨l, by simp⟩
  obtain ⟨r, hr⟩ := hline
  have hs : skipWs (q.currentLine.drop q.offset) q.offset q.column = (n, n, some '>') := by
    rw [ho, hc, List.drop_zero, hr, skipWs_replicate n '>' r (by decide) (by decide)]
    simp
  have e1 : (findNextNonspace q).nextNonspace = n := by show (skipWs _ _ _).1 = n; rw [hs]
  have e2 : (findNextNonspace q).nextNonspaceColumn = n := by show (skipWs _ _ _).2.1 = n; rw [hs]
  have e3 : (findNextNonspace q).indented = false := by
    show decide ((skipWs _ _ _).2.1 - q.column ≥ 4) = false
    rw [hs, hc]
    simp; omega
  have hg : ∀ i, q.currentLine[n + i]? = ('>' :: r)[i]? := by
    intro i
    rw [hr, List.getElem?_append_right (by simp)]
    simp
  have e4 : peekAt (findNextNonspace q).currentLine (findNextNonspace q).nextNonspace = some '>' := by
    rw [e1]
    exact hg 0
  refine ⟨e3, e4, ?_⟩
  generalize hp1 : advanceNextNonspace (findNextNonspace q) = p1
  have f1 : p1.currentLine = q.currentLine := by rw [← hp1]; rfl
  have f2 : p1.offset = n := by rw [← hp1]; exact e1
  have f3 : p1.column = n := by rw [← hp1]; exact e2
  have a1 : advanceLoop p1.currentLine false 1 1 p1.offset p1.column p1.partiallyConsumedTab = (n + 1, n + 1, false) := by
    rw [f1, f2, f3]
    have := hg 0
    simp only [Nat.add_zero] at this
    simp [advanceLoop, this]
  generalize hp2 : advanceOffset 1 false p1 = p2
  have g1 : p2.currentLine = q.currentLine := by rw [← hp2, ← f1]; rfl
  have g2 : p2.offset = n + 1 := by rw [← hp2]; simp only [advanceOffset, a1]
  have g3 : p2.column = n + 1 := by rw [← hp2]; simp only [advanceOffset, a1]
  have g4 : p2.partiallyConsumedTab = false := by rw [← hp2]; simp only [advanceOffset, a1]
  have hpk : peekAt p2.currentLine p2.offset = r[0]? := by
    rw [g1, g2]; exact hg 1
  unfold eatQuoteMarker
  simp only [hp1, hp2, hpk]
  rcases hp with rfl | ⟨rfl, hh⟩
  · have hrl : r = ' ' :: l := by
      have := hl.symm.trans hr
      rw [List.append_assoc] at this
      have := List.append_cancel_left this
      simpa using this.symm
    have a2 : advanceLoop p2.currentLine true 1 1 p2.offset p2.column p2.partiallyConsumedTab = (n + 2, n + 2, false) := by
      rw [g1, g2, g3]
      have := hg 1
      rw [hrl] at this
      simp only [List.getElem?_cons_succ, List.getElem?_cons_zero] at this
      simp [advanceLoop, this]
    rw [hrl]
    simp only [List.getElem?_cons_zero]
    rw [if_pos (by rfl)]
    refine ⟨?_, ?_, ?_, ?_⟩
    · simp only [advanceOffset, a2]; simp
    · simp only [advanceOffset, a2]; simp
    · simp only [advanceOffset, a2]
    · exact g1.trans hl
  · have hrl : r = l := by
      have := hl.symm.trans hr
      rw [List.append_assoc] at this
      have := List.append_cancel_left this
      simpa using this.symm
    have : isSpTabOpt r[0]? = false := by
      rw [hrl]
      cases l with
      | nil => rfl
      | cons c l =>
        simp only [List.head?_cons, ne_eq, Option.some.injEq] at hh
        simp [isSpTabOpt, isSpTab, hh]
    rw [this]
    simp only [Bool.false_eq_true, if_false]
    refine ⟨by rw [g2]; simp, by rw [g3]; simp, g4, g1.trans hl⟩

theorem SpineRel.split {X : Sim} {l l' : List OpenBlk} (h : SpineRel X l l') : ∃ b b' O cs,
    b.data.t = .document ∧ erL X.φ b.children = erL X.ψ cs ∧ b'.children = X.A ++ cs ∧
    { b'.data with lastLineBlank := false } = X.β ∧ O.map unflag = X.o ∧
    ∃ A A', l = A ++ [b] ∧ l' = A' ++ b' :: O ∧ A.map (erase X.φ) = A'.map (erase X.ψ) := by
  induction h with
  | @base b b' O cs h1 h2 hA h3 h4 _ => exact ⟨b, b', O, cs, h1, h2, hA, h3, h4, [], [], rfl, rfl, rfl⟩
  | @cons a a' r r' he hr ih =>
    obtain ⟨b, b', O, cs, h1, h2, hA, h3, h4, A, A', rfl, rfl, h5⟩ := ih
    exact ⟨b, b', O, cs, h1, h2, hA, h3, h4, a :: A, a' :: A', rfl, rfl, by simp [he, h5]⟩

/-- A line, if the second run gets through the additional containers. -/
theorem line_rel {k : Nat} {X : Sim} {p q q1 : PState} {l l' : Str} (hX : X.Ok) (h : Sp X p q) (hlen : l.length ≤ l'.length)
    (h1 : q1.core = (atStart q l').core) (h2 : q1.books = (atStart q l').books) (hcu : Cu k (atStart p l).curs q1.curs)
    (hc : ∀ A b A' b' O cs, p.spine = A ++ [b] → q.spine = A' ++ b' :: O → A.length = A'.length → b'.children = X.A ++ cs →
      erL X.φ b.children = erL X.ψ cs → { b'.data with lastLineBlank := false } = X.β → O.map unflag = X.o →
      contLoop (q.spine.reverse.drop 1) 1 (atStart q l') = contLoop A'.reverse (1 + X.o.length) q1)
    (hk : Keeps X (contLoop ((atStart p l).spine.reverse.drop 1) 1 (atStart p l) >>= afterCont l)) :
    ERel (Sp X) (contLoop ((atStart p l).spine.reverse.drop 1) 1 (atStart p l) >>= afterCont l)
      (contLoop ((atStart q l').spine.reverse.drop 1) 1 (atStart q l') >>= afterCont l') := by
  obtain ⟨b, b', O, cs, _, g2, gA, g3, g4, A, A', hp, hq, hA⟩ := h.spine.split
  have hAl : A.length = A'.length := by simpa using congrArg List.length hA
  have e3 := hc A b A' b' O cs hp hq hAl gA g2 g3 g4
  have e1 : (atStart p l).spine.reverse.drop 1 = A.reverse := by
    show p.spine.reverse.drop 1 = _
    rw [hp]; simp
  rw [e1] at hk
  rw [e1, show (atStart q l').spine = q.spine from rfl, e3]
  have hsp : Sp X (atStart p l) q1 := by
    refine Sp.congr (p := atStart p l) (q := atStart q l') ⟨h.spine, h.refmap, ?_, fun _ => h.spine.length, h.lastMatched, h.allClosed, Nat.le_succ_of_le h.low⟩ rfl rfl h1 h2
    show q.lineNumber + 1 = p.lineNumber + 1 + X.N
    rw [h.line]; omega
  refine ERel.bind (contLoop_rel hX (N := A ≠ []) 1 (by simp [hA]) (Nat.le_refl _) hsp hcu ?_ ?_).run ?_
  · intro h h'
    exact absurd (by simpa using h') h
  · intro h
    show 2 ≤ p.spine.length
    have : A ≠ [] := by simpa using h
    rw [hp]
    have := List.length_pos_iff.2 this
    simp; omega
  · rintro a b ⟨hab, ha⟩
    refine afterCont_rel hX hlen hab rfl ?_ ?_ ?_ ?_
    · have : q1.oldtip = (atStart q l').oldtip := congrArg Books.oldtip h2
      rw [this]
      exact h.spine.length
    · intro h2
      have h2 : 2 ≤ p.spine.length := h2
      rintro rfl
      rw [hp] at h2
      simp at h2
    · show X.K < p.lineNumber + 1
      have := h.low
      omega
    · intro hkid p' hp'
      rw [ha] at hk
      exact hk hkid p' hp'

theorem noTab_nul {l : Str} (h : '\t' ∉ l) : '\t' ∉ replaceChar (Char.ofNat 0) (Char.ofNat 0xFFFD) l := by
  intro h'
  simp only [replaceChar, List.mem_map] at h'
  obtain ⟨c, hc, e⟩ := h'
  split at e
  · exact absurd e (by decide)
  · subst e; exact h hc

theorem marker_nul {pre l : Str} (h : QuoteMarker pre l) : QuoteMarker pre (replaceChar (Char.ofNat 0) (Char.ofNat 0xFFFD) l) ∧
    replaceChar (Char.ofNat 0) (Char.ofNat 0xFFFD) (pre ++ l) = pre ++ replaceChar (Char.ofNat 0) (Char.ofNat 0xFFFD) l := by
  obtain ⟨n, hn, hp⟩ := h
  have hrep : ∀ n, replaceChar (Char.ofNat 0) (Char.ofNat 0xFFFD) (List.replicate n ' ') = List.replicate n ' ' := by
    intro n
    simp [replaceChar]
  have happ : ∀ a b, replaceChar (Char.ofNat 0) (Char.ofNat 0xFFFD) (a ++ b) =
      replaceChar (Char.ofNat 0) (Char.ofNat 0xFFFD) a ++ replaceChar (Char.ofNat 0) (Char.ofNat 0xFFFD) b := by
    intro a b; simp [replaceChar]
  rcases hp with rfl | ⟨rfl, hh⟩
  · refine ⟨⟨n, hn, .inl rfl⟩, ?_⟩
    rw [happ, happ, hrep]; rfl
  · refine ⟨⟨n, hn, .inr ⟨rfl, ?_⟩⟩, ?_⟩
    · cases l with
      | nil => simp [replaceChar]
      | cons c l =>
        simp only [List.head?_cons, ne_eq, Option.some.injEq] at hh
        simp only [replaceChar, List.map_cons, List.head?_cons, ne_eq, Option.some.injEq]
        split
        · decide
        · exact hh
    · rw [happ, happ, hrep]; rfl

/-- A further line of the quote. -/
theorem quote_line {X : Sim} {p q : PState} {pre l : Str} (hX : X.Ok) (hβ : X.β.t = .blockQuote) (ho : X.o.length = 1) (hk : ¬ X.kid)
    (h : Sp X p q) (hm : QuoteMarker pre l) (ht : '\t' ∉ l ∨ pre.length = 4) :
    ERel (Sp X) (incorporateLine p l) (incorporateLine q (pre ++ l)) := by
  rw [incorporateLine_eq, incorporateLine_eq, (marker_nul hm).2]
  have hm := (marker_nul hm).1
  have ht := ht.imp_left noTab_nul
  generalize replaceChar (Char.ofNat 0) (Char.ofNat 0xFFFD) l = l at hm ht
  obtain ⟨m1, m2, m3, m4, m5, m6⟩ := eat_marker hm (q := atStart q (pre ++ l)) rfl rfl rfl
  refine line_rel (k := pre.length) (q1 := eatQuoteMarker (findNextNonspace (atStart q (pre ++ l)))) hX h (by simp) (core_eat _) (books_eat _)
    ⟨⟨pre, rfl, m6⟩, m3, m4, m5, ?_⟩ ?_ (fun h => absurd h hk)
  · rcases ht with ht | ht
    · exact .inr ⟨ht, rfl⟩
    · exact .inl (by omega)
  · intro A b A' b' O cs hp hq _ _ _ h3 h4
    have hO : O.length = 1 := by rw [← ho, ← h4, List.length_map]
    obtain ⟨x, rfl⟩ : ∃ x, O = [x] := by
      cases O with
      | nil => simp at hO
      | cons x O =>
        cases O with
        | nil => exact ⟨x, rfl⟩
        | cons => simp at hO
    have e2 : q.spine.reverse.drop 1 = b' :: A'.reverse := by
      rw [hq]; simp
    have hb' : b'.data.t = .blockQuote := by rw [← h3] at hβ; exact hβ
    rw [e2]
    simp only [contLoop, continueBlock, hb', m1, m2]
    rw [ho]
    rfl

end CM
