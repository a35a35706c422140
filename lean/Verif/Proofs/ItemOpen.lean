import Verif.Proofs.Item
import Verif.Proofs.Origin
/-
List items add structure only (C56): the line with the marker.
-/
namespace CM
open Spec

theorem ascii_of_numeral {ds : Str} {n : Nat} (h : numeral 10 ds = some n) : ∀ c ∈ ds, AsciiDigit c := by
  intro c hc
  obtain ⟨d, h1, h2⟩ := numeral_digits h c hc
  unfold digit at h1
  split at h1
  · assumption
  · split at h1
    · rename_i h3
      have := (char_le_iff _ _).1 h3.1
      have e : 'a'.toNat = 97 := rfl
      simp only [Option.some.injEq] at h1
      omega
    · split at h1
      · rename_i h3
        have := (char_le_iff _ _).1 h3.1
        have e : 'A'.toNat = 65 := rfl
        simp only [Option.some.injEq] at h1
        omega
      · cases h1

theorem isPyDigit_ascii {c : Char} (h : AsciiDigit c) : isPyDigit c = true := by
  obtain ⟨h1, h2⟩ := h
  rw [char_le_iff] at h1 h2
  have e1 : '0'.toNat = 48 := rfl
  have e2 : '9'.toNat = 57 := rfl
  simp only [isPyDigit, ndRanges, ndRanges0, List.any_cons]
  simp only [Bool.or_eq_true, Bool.and_eq_true, decide_eq_true_eq]
  left; omega

/-- The longest run of digits is unique. -/
theorem digits_unique : ∀ {ds ds' : Str} {d d' : Char} {r r' : Str}, (∀ c ∈ ds, isPyDigit c = true) → (∀ c ∈ ds', isPyDigit c = true) →
    isPyDigit d = false → isPyDigit d' = false → ds ++ d :: r = ds' ++ d' :: r' → ds = ds' ∧ d = d'
  | [], [], _, _, _, _, _, _, _, _, h => by cases h; exact ⟨rfl, rfl⟩
  | [], x :: xs, _, _, _, _, _, h2, h3, _, h => by
    cases h
    rw [h2 x (by simp)] at h3; cases h3
  | x :: xs, [], _, _, _, _, h1, _, _, h4, h => by
    cases h
    rw [h1 x (by simp)] at h4; cases h4
  | x :: xs, y :: ys, _, _, _, _, h1, h2, h3, h4, h => by
    rw [List.cons_append, List.cons_append] at h
    obtain ⟨rfl, hh⟩ := List.cons.inj h
    obtain ⟨e1, e2⟩ := digits_unique (fun c hc => h1 c (List.mem_cons_of_mem _ hc)) (fun c hc => h2 c (List.mem_cons_of_mem _ hc)) h3 h4 hh
    exact ⟨by rw [e1], e2⟩

theorem listMarker_ok {m : Str} {ty : ListType} {b : Option Char} {st : Option Nat} {dl : Option Char} (h : ListMark m ty b st dl)
    {k : Kind} (hk : k ≠ .paragraph) (rest : Str) : listMarker k (m ++ rest) = some (m, ty, b, st, dl) := by
  cases h with
  | @bullet c hc =>
    show (if isBulletChar c then _ else _) = _
    rw [if_pos (by rcases hc with rfl | rfl | rfl <;> rfl)]
  | @ordered ds n d h1 h2 h3 h4 =>
    have ha := ascii_of_numeral h3
    have hdig : ∀ c ∈ ds, isPyDigit c = true := fun c hc => isPyDigit_ascii (ha c hc)
    have hd : isPyDigit d = false := by rcases h4 with rfl | rfl <;> decide +kernel
    have hm : reOrderedListMarker.matchPrefix (ds ++ [d] ++ rest) = some (ds ++ [d]) := by
      have hs : (reOrderedListMarker.matchPrefix (ds ++ [d] ++ rest)).isSome = true := by
        rw [matchPrefix_iff]
        refine ⟨ds ++ [d], rest, rfl, ds, [d], rfl, (den_between_chr (by omega)).2 ⟨h1, h2, hdig⟩, d, ?_, rfl⟩
        rcases h4 with rfl | rfl <;> rfl
      obtain ⟨m', hm'⟩ := Option.isSome_iff_exists.1 hs
      obtain ⟨ds', d', rfl, _, _, g3, g4⟩ := ordered_marker hm'
      obtain ⟨t, ht, _⟩ := Re.matchPrefix_den hm'
      have hd' : isPyDigit d' = false := by rcases g4 with rfl | rfl <;> decide +kernel
      rw [List.append_assoc, List.append_assoc] at ht
      obtain ⟨rfl, rfl⟩ := digits_unique hdig g3 hd hd' ht
      exact hm'
    have hn : pyInt ds = n := by
      have := pyInt_ascii ha
      rw [h3] at this
      exact (Option.some.inj this).symm
    have hpos : ∃ x xs, ds = x :: xs := by
      cases ds with
      | nil => simp at h1
      | cons x xs => exact ⟨x, xs, rfl⟩
    obtain ⟨x, xs, rfl⟩ := hpos
    have hx : isBulletChar x = false := by
      obtain ⟨a1, a2⟩ := ha x (by simp)
      rw [char_le_iff] at a1
      have e1 : '0'.toNat = 48 := rfl
      simp only [isBulletChar, Bool.or_eq_false_iff, beq_eq_false_iff_ne]
      refine ⟨⟨?_, ?_⟩, ?_⟩ <;> (rintro rfl; revert a1; decide)
    show (if isBulletChar x then _ else _) = _
    rw [hx]
    simp only [Bool.false_eq_true, if_false]
    rw [hm]
    have : (k != .paragraph) = true := by simpa using hk
    simp only [this, Bool.true_or, if_true, List.dropLast_concat, hn]
    rw [List.getLast?_concat]

theorem mark_head {m : Str} {ty : ListType} {b : Option Char} {st : Option Nat} {dl : Option Char} (h : ListMark m ty b st dl) :
    ∃ x xs, m = x :: xs ∧ isMaybeSpecial x = true ∧ x ≠ ' ' ∧ x ≠ '\t' ∧ x ≠ '>' ∧ x ≠ '<' ∧ x ≠ '#' ∧ x ≠ '`' ∧ x ≠ '~' ∧ x ≠ '\n' := by
  cases h with
  | @bullet c hc =>
    refine ⟨c, [], rfl, ?_⟩
    rcases hc with rfl | rfl | rfl <;> decide
  | @ordered ds n d h1 h2 h3 h4 =>
    obtain ⟨x, xs, rfl⟩ : ∃ x xs, ds = x :: xs := by
      cases ds with
      | nil => simp at h1
      | cons x xs => exact ⟨x, xs, rfl⟩
    obtain ⟨a1, a2⟩ := ascii_of_numeral h3 x (by simp)
    rw [char_le_iff] at a1 a2
    refine ⟨x, xs ++ [d], rfl, ?_, ?_⟩
    · simp only [isMaybeSpecial, isDig, inRange, Bool.or_eq_true, Bool.and_eq_true, decide_eq_true_eq]
      right; exact ⟨a1, a2⟩
    · refine ⟨?_, ?_, ?_, ?_, ?_, ?_, ?_, ?_⟩ <;> (rintro rfl; revert a1 a2; decide)

theorem mark_chars {m : Str} {ty : ListType} {b : Option Char} {st : Option Nat} {dl : Option Char} (h : ListMark m ty b st dl) :
    ∀ x ∈ m, x ≠ '\t' ∧ x ≠ '\n' ∧ x ≠ Char.ofNat 0 := by
  cases h with
  | @bullet c hc =>
    intro x hx
    obtain rfl : x = c := by simpa using hx
    rcases hc with rfl | rfl | rfl <;> decide
  | @ordered ds n d h1 h2 h3 h4 =>
    intro x hx
    rcases List.mem_append.1 hx with hx | hx
    · obtain ⟨a1, a2⟩ := ascii_of_numeral h3 x hx
      rw [char_le_iff] at a1 a2
      refine ⟨?_, ?_, ?_⟩ <;> (rintro rfl; revert a1 a2; decide)
    · obtain rfl : x = d := by simpa using hx
      rcases h4 with rfl | rfl <;> decide

theorem markerSpaces_run {c : Char} (h1 : c ≠ ' ') (h2 : c ≠ '\t') {s : Nat} : ∀ (j fuel : Nat) {p : PState}, 1 ≤ j → j ≤ fuel →
    p.column + j ≤ s + 4 → (∀ i, i < j → p.currentLine[p.offset + i]? = some ' ') → p.currentLine[p.offset + j]? = some c →
    markerSpaces s fuel p = .ok { p with offset := p.offset + j, column := p.column + j, partiallyConsumedTab := false } := by
  intro j
  induction j with
  | zero => intro _ _ h; omega
  | succ j ih =>
    intro fuel p _ hf hs hsp hc
    obtain ⟨f, rfl⟩ : ∃ f, fuel = f + 1 := ⟨fuel - 1, by omega⟩
    unfold markerSpaces
    rw [advance_plain (k := 1) true (by omega) fun i hi => ⟨' ', hsp i (by omega), by decide⟩]
    by_cases hj : j = 0
    · subst hj
      have hcond : (decide (p.column + 1 - s < 5) && isSpTabOpt (peekAt p.currentLine (p.offset + 1))) = false := by
        rw [show peekAt p.currentLine (p.offset + 1) = some c from hc]
        simp [isSpTabOpt, isSpTab, h1, h2]
      simp only [hcond, Bool.false_eq_true, if_false]
    · have hcond : (decide (p.column + 1 - s < 5) && isSpTabOpt (peekAt p.currentLine (p.offset + 1))) = true := by
        rw [show peekAt p.currentLine (p.offset + 1) = some ' ' from hsp 1 (by omega)]
        simp only [Bool.and_eq_true, decide_eq_true_eq]
        exact ⟨by omega, rfl⟩
      simp only [hcond, if_true]
      · have := ih f (p := { p with offset := p.offset + 1, column := p.column + 1, partiallyConsumedTab := false }) (by omega) (by omega)
          (by show p.column + 1 + j ≤ _; omega)
          (by intro i hi; show p.currentLine[p.offset + 1 + i]? = _; rw [show p.offset + 1 + i = p.offset + (i + 1) by omega]; exact hsp _ (by omega))
          (by show p.currentLine[p.offset + 1 + j]? = _; rw [show p.offset + 1 + j = p.offset + (j + 1) by omega]; exact hc)
        rw [this]
        simp only [Except.ok.injEq, PState.mk.injEq, and_true, true_and]
        omega

/-- The data of a list with this marker and of its items. -/
abbrev markData (ty : ListType) (b : Option Char) (st : Option Nat) (dl : Option Char) (pad off : Nat) : ListData :=
  ⟨ty, true, b, st, dl, pad, off⟩

/-- A list or item that was just opened. -/
abbrev opened (t : Kind) (l : ListData) (line col : Nat) : NodeData :=
  { t := t, sourcepos := some ((line, col), (0, 0)), listData := some l }

/-- The line that opens the item. -/
theorem item_open {q : PState} (N : Nat) {m : Str} {ty : ListType} {b : Option Char} {st : Option Nat} {dl : Option Char}
    (hm : ListMark m ty b st dl) {n k : Nat} {c : Char} {r : Str} (hn : n ≤ 3) (hk : 1 ≤ k) (hk4 : k ≤ 4) (hc1 : c ≠ ' ') (hc2 : c ≠ '\t')
    (hnl : '\n' ∉ c :: r) (hth : ¬ ThematicBreak (m ++ List.replicate k ' ' ++ c :: r))
    (hl : q.currentLine = List.replicate n ' ' ++ (m ++ List.replicate k ' ' ++ c :: r)) (ho : q.offset = 0) (hc : q.column = 0)
    (hs : q.spine = [⟨docNode, []⟩]) (ha : q.allClosed = true) :
    ∃ q', q'.core = { q.core with spine := ⟨opened .item (markData ty b st dl (m.length + k) n) q.lineNumber (n + 1), []⟩ ::
        ⟨opened .list (markData ty b st dl (m.length + k) n) q.lineNumber (n + 1), []⟩ :: q.spine } ∧
      q'.allClosed = true ∧ startsLoop (N + 1) docNode q =
        startsLoop N (opened .item (markData ty b st dl (m.length + k) n) q.lineNumber (n + 1)) q' ∧
      q'.offset = n + m.length + k ∧ q'.column = n + m.length + k ∧ q'.partiallyConsumedTab = false ∧ q'.currentLine = q.currentLine := by
  obtain ⟨x, xs, rfl, x1, x2, x3, x4, x5, x6, x7, x8, x9⟩ := mark_head hm
  have hch := mark_chars hm
  generalize hrest : List.replicate k ' ' ++ c :: r = rest at *
  have hl' : q.currentLine = List.replicate n ' ' ++ x :: (xs ++ rest) := by
    rw [hl, ← hrest]; simp
  have hss : skipWs (q.currentLine.drop q.offset) q.offset q.column = (n, n, some x) := by
    rw [ho, hc, List.drop_zero, hl', skipWs_replicate n x _ x2 x3]
    simp
  generalize hf : findNextNonspace q = f
  have f1 : f.nextNonspace = n := by rw [← hf]; show (skipWs _ _ _).1 = n; rw [hss]
  have f2 : f.nextNonspaceColumn = n := by rw [← hf]; show (skipWs _ _ _).2.1 = n; rw [hss]
  have f3 : f.indent = n := by rw [← hf]; show (skipWs _ _ _).2.1 - q.column = n; rw [hss, hc]; rfl
  have f4 : f.indented = false := by
    rw [← hf]
    show decide ((skipWs _ _ _).2.1 - q.column ≥ 4) = false
    rw [hss, hc]
    simp; omega
  have f5 : f.currentLine = q.currentLine := by rw [← hf]; rfl
  have f6 : f.allClosed = true := by rw [← hf]; exact ha
  have f7 : f.spine = [⟨docNode, []⟩] := by rw [← hf]; exact hs
  have f8 : f.core = q.core := by rw [← hf]; rfl
  have f9 : f.lineNumber = q.lineNumber := by rw [← hf]; rfl
  have hg : ∀ i, q.currentLine[n + i]? = (x :: xs ++ rest)[i]? := by
    intro i
    rw [hl', List.getElem?_append_right (by simp)]
    simp
  have hdrop : f.currentLine.drop f.nextNonspace = x :: xs ++ rest := by
    rw [f5, f1, hl', List.drop_append_of_le_length (by simp), List.drop_of_length_le (by simp)]
    simp
  have hpk : peekAt f.currentLine f.nextNonspace = some x := by
    rw [f5, f1]; exact hg 0
  have hnl' : '\n' ∉ x :: xs ++ rest := by
    intro h
    rcases List.mem_append.1 h with h | h
    · exact (hch _ h).2.1 rfl
    · rw [← hrest] at h
      rcases List.mem_append.1 h with h | h
      · have := List.eq_of_mem_replicate h
        revert this; decide
      · exact hnl h
  have hline : x :: xs ++ List.replicate k ' ' ++ c :: r = x :: xs ++ rest := by rw [← hrest, List.append_assoc]
  rw [hline] at hth
  -- the other block starts
  have e1 : startBlockQuote f = .ok (.none, f) := by
    unfold startBlockQuote
    rw [if_neg (by rw [hpk]; simp [x4])]
  have e2 : startAtx f = .ok (.none, f) := by
    unfold startAtx
    rw [if_neg (by simp [f4]), hdrop]
    have : reATXHeadingMarker.matchPrefix (x :: xs ++ rest) = none := by
      rw [← Option.not_isSome_iff_eq_none, atx_iff hnl']
      rintro ⟨j, h1, h2, rr, hrr, _⟩
      obtain ⟨j, rfl⟩ : ∃ i, j = i + 1 := ⟨j - 1, by omega⟩
      rw [List.replicate_succ, List.cons_append, List.cons_append] at hrr
      exact x6 (List.cons.inj hrr).1
    rw [this]
  have e3 : startFenced f = .ok (.none, f) := by
    unfold startFenced
    rw [if_neg (by simp [f4]), hdrop]
    have : reCodeFence.matchPrefix (x :: xs ++ rest) = none := by
      rw [← Option.not_isSome_iff_eq_none, fence_iff hnl']
      rintro ⟨y, j, info, h1, h2, _, h3⟩
      obtain ⟨j, rfl⟩ : ∃ i, j = i + 1 := ⟨j - 1, by omega⟩
      rw [List.replicate_succ, List.cons_append, List.cons_append] at h2
      have := (List.cons.inj h2).1
      rcases h3 with ⟨rfl, _⟩ | rfl
      · exact x7 this
      · exact x8 this
    rw [this]
  have e4 : startHtml docNode.t f = .ok (.none, f) := by
    unfold startHtml
    rw [if_neg (by rw [hpk]; simp [x5])]
  have e5 : startSetext docNode.t f = .ok (.none, f) := by
    unfold startSetext
    rw [if_neg (by simp [docNode])]
  have e6 : startThematic f = .ok (.none, f) := by
    unfold startThematic
    rw [if_neg]
    rw [hdrop]
    simp only [Bool.and_eq_true, not_and]
    intro _
    rw [thematic_iff hnl']
    exact hth
  -- the marker
  generalize hmm : x :: xs = m at *
  have hmpos : 1 ≤ m.length := by rw [← hmm]; simp
  have a1 : advanceNextNonspace f = { f with offset := n, column := n, partiallyConsumedTab := false } := by
    unfold advanceNextNonspace; rw [f1, f2]
  have a2 : advanceOffset m.length true (advanceNextNonspace f) =
      { f with offset := n + m.length, column := n + m.length, partiallyConsumedTab := false } := by
    rw [a1, advance_plain true hmpos]
    intro i hi
    have : (f.currentLine)[n + i]? = (m ++ rest)[i]? := by rw [f5]; exact hg i
    refine ⟨m[i], ?_, (hch _ (List.getElem_mem hi)).1⟩
    show f.currentLine[n + i]? = _
    rw [this, List.getElem?_append_left hi, List.getElem?_eq_getElem hi]
  have gr : ∀ i, f.currentLine[n + m.length + i]? = rest[i]? := by
    intro i
    rw [f5, Nat.add_assoc, hg, List.getElem?_append_right (by omega)]
    congr 1; omega
  have a3 : markerSpaces (n + m.length) 6 { f with offset := n + m.length, column := n + m.length, partiallyConsumedTab := false } =
      .ok { f with offset := n + m.length + k, column := n + m.length + k, partiallyConsumedTab := false } := by
    rw [markerSpaces_run hc1 hc2 k 6 hk (by omega)]
    · show n + m.length + k ≤ _; omega
    · intro i hi
      show f.currentLine[n + m.length + i]? = _
      rw [gr, ← hrest, List.getElem?_append_left (by simpa using hi)]
      simp [hi]
    · show f.currentLine[n + m.length + k]? = _
      rw [gr, ← hrest, List.getElem?_append_right (by simp)]
      simp
  have hnext : peekAt f.currentLine (n + m.length) = some ' ' := by
    have := gr 0
    rw [Nat.add_zero] at this
    show f.currentLine[n + m.length]? = _
    rw [this, ← hrest]
    obtain ⟨k, rfl⟩ : ∃ i, k = i + 1 := ⟨k - 1, by omega⟩
    rfl
  have hend : peekAt f.currentLine (n + m.length + k) = some c := by
    show f.currentLine[n + m.length + k]? = _
    rw [gr, ← hrest, List.getElem?_append_right (by simp)]
    simp
  have e7 : parseListMarker docNode.t f = .ok (some (markData ty b st dl (m.length + k) n),
      { f with offset := n + m.length + k, column := n + m.length + k, partiallyConsumedTab := false }) := by
    unfold parseListMarker
    rw [if_neg (by rw [f3]; omega), hdrop, listMarker_ok hm (by decide)]
    simp only [f1, hnext]
    rw [if_neg (by decide), if_neg (by simp [docNode])]
    simp only [a2, a3, bind, Except.bind, hend]
    rw [show n + m.length + k - (n + m.length) = k by omega]
    have : (decide (k ≥ 5) || decide (k < 1) || (some c).isNone) = false := by
      simp; omega
    simp only [this, Bool.false_eq_true, if_false, f3, f1]
    rfl
  generalize hf' : ({ f with offset := n + m.length + k, column := n + m.length + k, partiallyConsumedTab := false } : PState) = f' at e7
  have g1 : f'.spine = [⟨docNode, []⟩] := by rw [← hf']; exact f7
  have g2 : f'.allClosed = true := by rw [← hf']; exact f6
  have g3 : f'.nextNonspace = n := by rw [← hf']; exact f1
  have g4 : f'.lineNumber = q.lineNumber := by rw [← hf']; exact f9
  have g5 : f'.core = q.core := by rw [← hf']; exact f8
  refine ⟨{ f' with spine := ⟨opened .item (markData ty b st dl (m.length + k) n) q.lineNumber (n + 1), []⟩ ::
        ⟨opened .list (markData ty b st dl (m.length + k) n) q.lineNumber (n + 1), []⟩ :: f'.spine }, ?_, g2, ?_, ?_, ?_, ?_, ?_⟩
  · rw [← g5, g1, hs]; rfl
  · have hst : startListItem docNode f = .ok (.container, { f' with spine := ⟨opened .item (markData ty b st dl (m.length + k) n) q.lineNumber (n + 1), []⟩ ::
        ⟨opened .list (markData ty b st dl (m.length + k) n) q.lineNumber (n + 1), []⟩ :: f'.spine }) := by
      unfold startListItem
      rw [if_pos (by simp [f4]), e7]
      have hk : (tipKind f' != some .list || !(listsMatch docNode.listData (markData ty b st dl (m.length + k) n))) = true := by
        unfold tipKind; rw [g1]; rfl
      have hl : ∀ (off : Nat) (g : NodeData → NodeData), addChild .list off g f' =
        .ok { f' with spine := ⟨g { t := .list, sourcepos := some ((f'.lineNumber, off + 1), (0, 0)) }, []⟩ :: f'.spine } :=
          fun off f => addChild_doc (k := .list) g1 rfl
      simp only [bind, Except.bind, closeUnmatched, g2, if_true, hk, hl]
      rw [addChild_doc (k := .item) rfl rfl]
      simp only [g3, g4, pure, Except.pure]
    conv => lhs; unfold startsLoop
    simp only [hf, hpk, x1]
    rw [if_neg (by simp)]
    have hb : tryStarts (blockStarts docNode) f = .ok (.container, { f' with spine := ⟨opened .item (markData ty b st dl (m.length + k) n) q.lineNumber (n + 1), []⟩ ::
        ⟨opened .list (markData ty b st dl (m.length + k) n) q.lineNumber (n + 1), []⟩ :: f'.spine }) := by
      unfold blockStarts
      simp only [tryStarts, e1, e2, e3, e4, e5, e6, hst, Except.bind, bind]
      rfl
    simp only [hb, Except.bind, bind]
  · rw [← hf']
  · rw [← hf']
  · rw [← hf']
  · rw [← hf']; exact f5

end CM
