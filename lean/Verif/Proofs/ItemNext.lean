import Verif.Proofs.RunQuote
/-
A further item of a list (C57): the line with the marker.
-/
namespace CM
open Spec

/-- A line with a list marker, in the document or in a list. -/
theorem mark_line {q : PState} {d : NodeData} (hdp : d.t ≠ .paragraph) (N : Nat) {m : Str} {ty : ListType} {b : Option Char} {st : Option Nat} {dl : Option Char}
    (hm : ListMark m ty b st dl) {n k : Nat} {c : Char} {r : Str} (hn : n ≤ 3) (hk : 1 ≤ k) (hk4 : k ≤ 4) (hc1 : c ≠ ' ') (hc2 : c ≠ '\t')
    (hnl : '\n' ∉ c :: r) (hth : ¬ ThematicBreak (m ++ List.replicate k ' ' ++ c :: r))
    (hl : q.currentLine = List.replicate n ' ' ++ (m ++ List.replicate k ' ' ++ c :: r)) (ho : q.offset = 0) (hc : q.column = 0) :
    ∃ f, f.core = q.core ∧ f.books = q.books ∧ f.nextNonspace = n ∧ f.offset = n + m.length + k ∧ f.column = n + m.length + k ∧
      f.partiallyConsumedTab = false ∧ f.currentLine = q.currentLine ∧
      ∀ p1 p2 p3 bk up, closeUnmatched f = .ok p1 →
        (if tipKind p1 != some .list || !(listsMatch d.listData (markData ty b st dl (m.length + k) n)) then
          addChild .list p1.nextNonspace (fun d => { d with listData := some (markData ty b st dl (m.length + k) n) }) p1 else pure p1) = .ok p2 →
        addChild .item p2.nextNonspace (fun d => { d with listData := some (markData ty b st dl (m.length + k) n) }) p2 = .ok p3 → p3.spine = bk :: up →
        startsLoop (N + 1) d q = startsLoop N bk.data p3 := by
  obtain ⟨x, xs, rfl, x1, x2, x3, x4, x5, x6, x7, x8, x9⟩ := mark_head hm
  have hch := mark_chars hm
  generalize hrest : List.replicate k ' ' ++ c :: r = rest at *
  have hl' : q.currentLine = List.replicate n ' ' ++ x :: (xs ++ rest) := by
    rw [hl, ← hrest]; simp
  have hss : skipWs (q.currentLine.drop q.offset) q.offset q.column = (n, n, some x) := by
    rw [ho, hc, List.drop_zero, hl', skipWs_replicate n x _ x2 x3]
    simp
  generalize hf : findNextNonspace q = f
  have f1 : f.nextNonspace = n := by rw [← hf]; show (skipWs _ _ _).1 = n; rw [hss]
  have f2 : f.nextNonspaceColumn = n := by rw [← hf]; show (skipWs _ _ _).2.1 = n; rw [hss]
  have f3 : f.indent = n := by rw [← hf]; show (skipWs _ _ _).2.1 - q.column = n; rw [hss, hc]; rfl
  have f4 : f.indented = false := by
    rw [← hf]
    show decide ((skipWs _ _ _).2.1 - q.column ≥ 4) = false
    rw [hss, hc]
    simp; omega
  have f5 : f.currentLine = q.currentLine := by rw [← hf]; rfl
  have f8 : f.core = q.core := by rw [← hf]; rfl
  have f9 : f.books = q.books := by rw [← hf]; rfl
  have hg : ∀ i, q.currentLine[n + i]? = (x :: xs ++ rest)[i]? := by
    intro i
    rw [hl', List.getElem?_append_right (by simp)]
    simp
  have hdrop : f.currentLine.drop f.nextNonspace = x :: xs ++ rest := by
    rw [f5, f1, hl', List.drop_append_of_le_length (by simp), List.drop_of_length_le (by simp)]
    simp
  have hpk : peekAt f.currentLine f.nextNonspace = some x := by
    rw [f5, f1]; exact hg 0
  have hnl' : '\n' ∉ x :: xs ++ rest := by
    intro h
    rcases List.mem_append.1 h with h | h
    · exact (hch _ h).2.1 rfl
    · rw [← hrest] at h
      rcases List.mem_append.1 h with h | h
      · have := List.eq_of_mem_replicate h
        revert this; decide
      · exact hnl h
  have hline : x :: xs ++ List.replicate k ' ' ++ c :: r = x :: xs ++ rest := by rw [← hrest, List.append_assoc]
  rw [hline] at hth
  -- the other block starts
  have e1 : startBlockQuote f = .ok (.none, f) := by
    unfold startBlockQuote
    rw [if_neg (by rw [hpk]; simp [x4])]
  have e2 : startAtx f = .ok (.none, f) := by
    unfold startAtx
    rw [if_neg (by simp [f4]), hdrop]
    have : reATXHeadingMarker.matchPrefix (x :: xs ++ rest) = none := by
      rw [← Option.not_isSome_iff_eq_none, atx_iff hnl']
      rintro ⟨j, h1, h2, rr, hrr, _⟩
      obtain ⟨j, rfl⟩ : ∃ i, j = i + 1 := ⟨j - 1, by omega⟩
      rw [List.replicate_succ, List.cons_append, List.cons_append] at hrr
      exact x6 (List.cons.inj hrr).1
    rw [this]
  have e3 : startFenced f = .ok (.none, f) := by
    unfold startFenced
    rw [if_neg (by simp [f4]), hdrop]
    have : reCodeFence.matchPrefix (x :: xs ++ rest) = none := by
      rw [← Option.not_isSome_iff_eq_none, fence_iff hnl']
      rintro ⟨y, j, info, h1, h2, _, h3⟩
      obtain ⟨j, rfl⟩ : ∃ i, j = i + 1 := ⟨j - 1, by omega⟩
      rw [List.replicate_succ, List.cons_append, List.cons_append] at h2
      have := (List.cons.inj h2).1
      rcases h3 with ⟨rfl, _⟩ | rfl
      · exact x7 this
      · exact x8 this
    rw [this]
  have e4 : startHtml d.t f = .ok (.none, f) := by
    unfold startHtml
    rw [if_neg (by rw [hpk]; simp [x5])]
  have e5 : startSetext d.t f = .ok (.none, f) := by
    unfold startSetext
    rw [if_neg (by simp [hdp])]
  have e6 : startThematic f = .ok (.none, f) := by
    unfold startThematic
    rw [if_neg]
    rw [hdrop]
    simp only [Bool.and_eq_true, not_and]
    intro _
    rw [thematic_iff hnl']
    exact hth
  -- the marker
  generalize hmm : x :: xs = m at *
  have hmpos : 1 ≤ m.length := by rw [← hmm]; simp
  have a1 : advanceNextNonspace f = { f with offset := n, column := n, partiallyConsumedTab := false } := by
    unfold advanceNextNonspace; rw [f1, f2]
  have a2 : advanceOffset m.length true (advanceNextNonspace f) =
      { f with offset := n + m.length, column := n + m.length, partiallyConsumedTab := false } := by
    rw [a1, advance_plain true hmpos]
    intro i hi
    have : (f.currentLine)[n + i]? = (m ++ rest)[i]? := by rw [f5]; exact hg i
    refine ⟨m[i], ?_, (hch _ (List.getElem_mem hi)).1⟩
    show f.currentLine[n + i]? = _
    rw [this, List.getElem?_append_left hi, List.getElem?_eq_getElem hi]
  have gr : ∀ i, f.currentLine[n + m.length + i]? = rest[i]? := by
    intro i
    rw [f5, Nat.add_assoc, hg, List.getElem?_append_right (by omega)]
    congr 1; omega
  have a3 : markerSpaces (n + m.length) 6 { f with offset := n + m.length, column := n + m.length, partiallyConsumedTab := false } =
      .ok { f with offset := n + m.length + k, column := n + m.length + k, partiallyConsumedTab := false } := by
    rw [markerSpaces_run hc1 hc2 k 6 hk (by omega)]
    · show n + m.length + k ≤ _; omega
    · intro i hi
      show f.currentLine[n + m.length + i]? = _
      rw [gr, ← hrest, List.getElem?_append_left (by simpa using hi)]
      simp [hi]
    · show f.currentLine[n + m.length + k]? = _
      rw [gr, ← hrest, List.getElem?_append_right (by simp)]
      simp
  have hnext : peekAt f.currentLine (n + m.length) = some ' ' := by
    have := gr 0
    rw [Nat.add_zero] at this
    show f.currentLine[n + m.length]? = _
    rw [this, ← hrest]
    obtain ⟨k, rfl⟩ : ∃ i, k = i + 1 := ⟨k - 1, by omega⟩
    rfl
  have hend : peekAt f.currentLine (n + m.length + k) = some c := by
    show f.currentLine[n + m.length + k]? = _
    rw [gr, ← hrest, List.getElem?_append_right (by simp)]
    simp
  have e7 : parseListMarker d.t f = .ok (some (markData ty b st dl (m.length + k) n),
      { f with offset := n + m.length + k, column := n + m.length + k, partiallyConsumedTab := false }) := by
    unfold parseListMarker
    rw [if_neg (by rw [f3]; omega), hdrop, listMarker_ok hm hdp]
    simp only [f1, hnext]
    rw [if_neg (by decide), if_neg (by simp [hdp])]
    simp only [a2, a3, bind, Except.bind, hend]
    rw [show n + m.length + k - (n + m.length) = k by omega]
    have : (decide (k ≥ 5) || decide (k < 1) || (some c).isNone) = false := by
      simp; omega
    simp only [this, Bool.false_eq_true, if_false, f3, f1]
    rfl
  refine ⟨{ f with offset := n + m.length + k, column := n + m.length + k, partiallyConsumedTab := false }, ?_, ?_, ?_, ?_, ?_, ?_, ?_, ?_⟩
  rotate_left 7
  · intro p1 p2 p3 bk up h1 h2 h3 h4
    have hst : startListItem d f = .ok (.container, p3) := by
      unfold startListItem
      rw [if_pos (by simp [f4]), e7]
      simp only [bind, Except.bind, h1]
      split at h2
      · rename_i hcond
        rw [if_pos hcond]
        simp only [h2, h3, pure, Except.pure]
      · rename_i hcond
        cases h2
        rw [if_neg hcond]
        simp only [h3, pure, Except.pure]
    conv => lhs; unfold startsLoop
    simp only [hf, hpk, x1]
    rw [if_neg (by simp)]
    have hb : tryStarts (blockStarts d) f = .ok (.container, p3) := by
      unfold blockStarts
      simp only [tryStarts, e1, e2, e3, e4, e5, e6, hst, Except.bind, bind]
      rfl
    simp only [hb, Except.bind, bind, h4]
  · exact f8
  · exact f9
  · exact f1
  · rfl
  · rfl
  · rfl
  · exact f5

/-- The parser is in an item of a list; `f`: after blank lines. -/
structure ListAt (q : PState) (f : Bool) (ld : ListData) (w : Nat) (Q : List OpenBlk) (i y d : OpenBlk) (ics : List Tree) : Prop where
  spine : q.spine = Q ++ [i, y, d]
  item : i.data.t = .item
  width : ∃ li, i.data.listData = some li ∧ li.markerOffset + li.padding = w
  list : y.data.t = .list
  data : y.data.listData = some ld
  unchecked : y.data.lastLineChecked = false
  doc : d.data.t = .document
  only : d.children = []
  refmap : q.refmap = []
  flags : ∀ x ∈ q.spine, x.data.lastLineBlank = f
  close : ∀ r : PState, r.spine = q.spine → r.refmap = [] → r.lastLineLength = q.lastLineLength →
    closeN q.lineNumber Q.length r = .ok { r with spine := [⟨i.data, ics⟩, y, d] }

/-- The item when it is closed. -/
def itemTree (q : PState) (i : OpenBlk) (ics : List Tree) : Tree := .node (closeData q.lineNumber q.lastLineLength i.data) ics

theorem ListAt.closeItem {q : PState} {f : Bool} {ld : ListData} {w : Nat} {Q : List OpenBlk} {i y d : OpenBlk} {ics : List Tree} (h : ListAt q f ld w Q i y d ics)
    {r : PState} (h1 : r.spine = q.spine) (h2 : r.refmap = []) (h3 : r.lastLineLength = q.lastLineLength) :
    closeN q.lineNumber (Q.length + 1) r = .ok { r with spine := [⟨y.data, y.children ++ [itemTree q i ics]⟩, d] } := by
  rw [closeN_add, h.close r h1 h2 h3]
  simp only [Except.bind, closeN]
  rw [finalizeTip_run (b := ⟨i.data, ics⟩) (par := y) (up := [d]) (t := some (itemTree q i ics)) (m := r.refmap) rfl]
  · rfl
  · unfold finalizeBlock
    have : (closeData q.lineNumber r.lastLineLength i.data).t = .item := h.item
    simp only [this]
    rw [h3]
    rfl

/-- A further item. -/
def nextSim (l : ListData) (N col : Nat) (Y d : OpenBlk) : Sim :=
  { concatSim (opened .item l (N + 1) col) [] N with o := [unflag Y, unflag d], flag := Eq, kid := True }

theorem nextSim_ok {l : ListData} {N col w : Nat} {Y d : OpenBlk} (hw : l.markerOffset + l.padding = w) (hY : Y.data.t = .list) : ItemSim (nextSim l N col Y d) w where
  doc := .inr (.inr rfl)
  new := (concatSim_ok (β := docNode) (cs := []) (N := N) rfl).new
  close := (concatSim_ok (β := docNode) (cs := []) (N := N) rfl).close
  start := (concatSim_ok (β := docNode) (cs := []) (N := N) rfl).start
  mark := .inl trivial
  flag := fun _ _ _ h => (h (.inr ⟨rfl, trivial⟩)).symm
  ref := refKeeps_id
  item := rfl
  width := ⟨l, rfl, hw⟩
  outer := ⟨_, _, rfl, hY⟩
  before := rfl

theorem item_next {p q : PState} (hp : NewParse p) {f : Bool} {ld : ListData} {w : Nat} {Q : List OpenBlk} {i y d : OpenBlk} {ics : List Tree}
    (hq : ListAt q f ld w Q i y d ics) {m : Str} {ty : ListType} {b : Option Char} {st : Option Nat}
    {dl : Option Char} (hm : ListMark m ty b st dl) (h1 : ld.type = ty) (h2 : ld.bulletChar = b) (h3 : ld.delimiter = dl)
    {n k : Nat} {c : Char} {r : Str} (hn : n ≤ 3) (hnw : n < w) (hk : 1 ≤ k) (hk4 : k ≤ 4)
    (hc1 : c ≠ ' ') (hc2 : c ≠ '\t') (hnl : '\n' ∉ c :: r) (ht : '\t' ∉ c :: r ∨ (n + m.length + k) % 4 = 0)
    (hth : ¬ ThematicBreak (m ++ List.replicate k ' ' ++ c :: r))
    (hkeep : ∀ p', incorporateLine p (c :: r) = .ok p' → Kid p'.spine) :
    ERel (Sp (nextSim (markData ty b st dl (m.length + k) n) q.lineNumber (n + 1) ⟨y.data, y.children ++ [itemTree q i ics]⟩ d))
      (incorporateLine p (c :: r)) (incorporateLine q (List.replicate n ' ' ++ m ++ List.replicate k ' ' ++ c :: r)) := by
  have hch := mark_chars hm
  rw [incorporateLine_eq] at hkeep ⊢
  rw [incorporateLine_eq]
  have hrepl : replaceChar (Char.ofNat 0) (Char.ofNat 0xFFFD) (List.replicate n ' ' ++ m ++ List.replicate k ' ' ++ c :: r) =
      List.replicate n ' ' ++ (m ++ List.replicate k ' ' ++ replaceChar (Char.ofNat 0) (Char.ofNat 0xFFFD) (c :: r)) := by
    have := mark_nul fun x hx => (hch x hx).2.2
    rw [nul_append, nul_append, nul_append, this]
    simp [replaceChar]
  rw [hrepl]
  have ht := ht.imp_left noTab_nul
  have hnl := nul_not_mem hnl (by decide)
  have hth : ¬ ThematicBreak (m ++ List.replicate k ' ' ++ replaceChar (Char.ofNat 0) (Char.ofNat 0xFFFD) (c :: r)) := by
    intro h
    apply hth
    apply thematic_nul
    have e1 := mark_nul fun x hx => (hch x hx).2.2
    have e2 : replaceChar (Char.ofNat 0) (Char.ofNat 0xFFFD) (List.replicate k ' ') = List.replicate k ' ' := by simp [replaceChar]
    rw [nul_append, nul_append, e1, e2]
    exact h
  obtain ⟨c', r', hcr, hc1', hc2'⟩ : ∃ c' r', replaceChar (Char.ofNat 0) (Char.ofNat 0xFFFD) (c :: r) = c' :: r' ∧ c' ≠ ' ' ∧ c' ≠ '\t' := by
    refine ⟨_, _, rfl, ?_⟩
    simp only
    split
    · decide
    · exact ⟨hc1, hc2⟩
  rw [hcr] at hth hnl ht hkeep ⊢
  clear hrepl hcr hc1 hc2
  generalize hpre : List.replicate n ' ' ++ (m ++ List.replicate k ' ' ++ c' :: r') = pre
  have hprel : pre.length = n + m.length + k + (c' :: r').length := by rw [← hpre]; simp; omega
  generalize hl : c' :: r' = l at *
  have e1 : (atStart p l).spine.reverse.drop 1 = [] := by
    show p.spine.reverse.drop 1 = _
    rw [hp.spine]; rfl
  have e2 : (atStart q pre).spine.reverse.drop 1 = y :: i :: Q.reverse := by
    show q.spine.reverse.drop 1 = _
    rw [hq.spine]; simp
  have hloop : contLoop (y :: i :: Q.reverse) 1 (atStart q pre) = .ok (.inr (2, findNextNonspace (findNextNonspace (atStart q pre)))) := by
    obtain ⟨x, xs, rfl, x1, x2, x3, -, -, -, -, -, x9⟩ := mark_head hm
    have hss : ∀ q0 : PState, q0.currentLine = pre → q0.offset = 0 → q0.column = 0 → (findNextNonspace q0).blank = false ∧ (findNextNonspace q0).indent = n := by
      intro q0 z1 z2 z3
      have : skipWs (q0.currentLine.drop q0.offset) q0.offset q0.column = (n, n, some x) := by
        rw [z1, z2, z3, List.drop_zero, ← hpre, List.cons_append, List.cons_append, skipWs_replicate n x _ x2 x3]
        simp
      refine ⟨?_, ?_⟩
      · show (match (skipWs _ _ _).2.2 with | none => true | some c => c == '\n' || c == '\r') = false
        rw [this]
        have x10 : x ≠ '\r' := by rintro rfl; revert x1; decide
        simp [x9, x10]
      · show (skipWs _ _ _).2.1 - q0.column = n
        rw [this, z3]; rfl
    obtain ⟨s1, s2⟩ := hss (findNextNonspace (atStart q pre)) rfl rfl rfl
    obtain ⟨li, l1, l2⟩ := hq.width
    simp only [contLoop, continueBlock, hq.list, hq.item, l1, s1, s2, Bool.false_eq_true, if_false]
    rw [if_neg (by omega)]
  rw [e1] at hkeep ⊢
  rw [e2, hloop]
  generalize hq0 : findNextNonspace (findNextNonspace (atStart q pre)) = q0
  have q01 : q0.core = (atStart q pre).core := by rw [← hq0]; rfl
  have q02 : q0.books = (atStart q pre).books := by rw [← hq0]; rfl
  have q03 : q0.currentLine = pre := by rw [← hq0]; rfl
  have q04 : q0.offset = 0 := by rw [← hq0]; rfl
  have q05 : q0.column = 0 := by rw [← hq0]; rfl
  simp only [contLoop, Except.bind, bind, afterCont] at hkeep ⊢
  have bp : blockAt { atStart p l with allClosed := 1 == (atStart p l).oldtip, lastMatched := 1 } 1 = some docNode := by
    show (p.spine.reverse[0]?).map _ = _
    rw [hp.spine]; rfl
  have op : (1 == (atStart p l).oldtip) = true := by
    show (1 == p.spine.length) = true
    rw [hp.spine]; rfl
  have q06 : q0.oldtip = Q.length + 3 := by
    have : q0.oldtip = q.spine.length := (congrArg Books.oldtip q02 :)
    rw [this, hq.spine]; simp
  have q07 : q0.spine = q.spine := (congrArg Core.spine q01 :)
  have bq : blockAt { q0 with allClosed := 2 == q0.oldtip, lastMatched := 2 } 2 = some y.data := by
    show (q0.spine.reverse[1]?).map _ = _
    rw [q07, hq.spine]; simp
  rw [op] at bp hkeep ⊢
  simp only [bp] at hkeep
  simp only [bp, bq]
  generalize hq1 : ({ q0 with allClosed := 2 == q0.oldtip, lastMatched := 2 } : PState) = q1
  generalize hp1 : ({ atStart p l with allClosed := true, lastMatched := 1 } : PState) = p1 at hkeep
  have hcl : q1.currentLine = pre := by rw [← hq1]; exact q03
  obtain ⟨f', g1, g2, g3, g4, g5, g6, g7, g8⟩ := mark_line (q := q1) (d := y.data) (by rw [hq.list]; decide) pre.length hm hn hk hk4 hc1' hc2' (hl ▸ hnl) (hl ▸ hth)
    (by rw [hcl, ← hpre, ← hl])
    (by rw [← hq1]; exact q04) (by rw [← hq1]; exact q05)
  have k1 : f'.spine = q.spine := by
    have : q1.spine = q0.spine := by rw [← hq1]
    rw [← q07, ← this]; exact (congrArg Core.spine g1 :)
  have k2 : f'.refmap = [] := by
    have a : q1.refmap = q0.refmap := by rw [← hq1]
    have c : q0.refmap = q.refmap := (congrArg Core.refmap q01 :)
    rw [← hq.refmap, ← c, ← a]; exact (congrArg Core.refmap g1 :)
  have k3 : f'.lastLineLength = q.lastLineLength := by
    have a : q1.lastLineLength = q0.lastLineLength := by rw [← hq1]
    have c : q0.lastLineLength = q.lastLineLength := (congrArg Core.prevLen q01 :)
    rw [← c, ← a]; exact (congrArg Core.prevLen g1 :)
  have k4 : f'.lineNumber = q.lineNumber + 1 := by
    have a : q1.lineNumber = q0.lineNumber := by rw [← hq1]
    have c : q0.lineNumber = q.lineNumber + 1 := (congrArg Core.line q01 :)
    rw [← c, ← a]; exact (congrArg Core.line g1 :)
  have k5 : f'.oldtip = Q.length + 3 := by
    have a : q1.oldtip = q0.oldtip := by rw [← hq1]
    rw [← q06, ← a]; exact (congrArg Books.oldtip g2 :)
  have k6 : f'.allClosed = false := by
    have a : q1.allClosed = false := by rw [← hq1]; show (2 == q0.oldtip) = false; rw [q06]; simp
    rw [← a]; exact (congrArg Books.allClosed g2 :)
  have k7 : f'.lastMatched = 2 := by
    have a : q1.lastMatched = 2 := by rw [← hq1]
    rw [← a]; exact (congrArg Books.lastMatched g2 :)
  have hclose := hq.closeItem k1 k2 k3
  rw [show q.lineNumber = f'.lineNumber - 1 by omega] at hclose
  have hcu := closeUnmatched_closeN hclose (by rw [k5, k7]; omega) (by rw [k1, hq.spine]; simp) (by rw [k6]; simp)
  generalize hmd : markData ty b st dl (m.length + k) n = md at g8 ⊢
  generalize hY : (⟨y.data, y.children ++ [itemTree q i ics]⟩ : OpenBlk) = Y at hcu ⊢
  have hYt : Y.data.t = .list := by rw [← hY]; exact hq.list
  have hYl : Y.data.listData = some ld := by rw [← hY]; exact hq.data
  have hstart := g8 _ _ { f' with spine := ⟨opened .item md (q.lineNumber + 1) (n + 1), []⟩ :: [Y, d], oldtip := 2, allClosed := true } ⟨opened .item md (q.lineNumber + 1) (n + 1), []⟩ [Y, d] hcu (by
      rw [if_neg]
      · rfl
      · simp [tipKind, hYt, hq.data, listsMatch, ← hmd, h1, h2, h3])
    (by
      unfold addChild
      rw [addChildLoop_zero (b := Y) (r := [d]) rfl (by rw [hYt]; rfl)]
      simp only [bind, Except.bind, pure, Except.pure]
      rw [k4, k7, g3]) rfl
  rw [if_neg (by decide)] at hkeep ⊢
  rw [if_neg (by rw [hq.list]; decide), hstart]
  generalize hq' : ({ f' with spine := ⟨opened .item md (q.lineNumber + 1) (n + 1), []⟩ :: [Y, d], oldtip := 2, allClosed := true } : PState) = q'
  have hX := nextSim_ok (l := md) (N := q.lineNumber) (col := n + 1) (d := d) rfl hYt
  generalize hXX : nextSim md q.lineNumber (n + 1) Y d = X at hX ⊢
  have hsp : Sp X.weak p1 q' := by
    refine ⟨?_, ?_, ?_, ?_, ?_, ?_, by rw [← hXX]; exact Nat.zero_le _⟩
    · rw [← hq', ← hp1]
      show SpineRel _ p.spine (_ :: _ :: _)
      rw [hp.spine, ← hXX]
      exact .base (cs := []) rfl rfl rfl rfl rfl fun _ _ => trivial
    · rw [← hq', ← hp1, ← hXX]
      show f'.refmap = p.refmap
      rw [k2, hp.refmap]
    · rw [← hq', ← hp1, ← hXX]
      show f'.lineNumber = p.lineNumber + 1 + q.lineNumber
      rw [k4, hp.line]; omega
    · intro h; rw [← hp1] at h; cases h
    · intro h; rw [← hp1] at h; cases h
    · rw [← hq', ← hp1]
  have hcu : Cu (n + m.length + k) p1.curs q'.curs := by
    rw [← hp1, ← hq']
    refine ⟨⟨List.replicate n ' ' ++ m ++ List.replicate k ' ', by simp [Nat.add_assoc], ?_⟩, g4, g5, g6, ?_⟩
    · show f'.currentLine = _ ++ l
      rw [g7, hcl, ← hpre]; simp
    · rcases ht with ht | ht
      · exact .inr ⟨ht, rfl⟩
      · exact .inl ht
  have hps : p1.spine = [⟨docNode, []⟩] := by rw [← hp1]; exact hp.spine
  have hpc : p1.allClosed = true := by rw [← hp1]
  have hr : ReadyFor docNode p1 := ready_of_closed hpc hps
  have hlen : l.length + 1 ≤ pre.length := by omega
  have hpos : 1 ≤ p1.lineNumber := by rw [← hp1]; show 1 ≤ p.lineNumber + 1; omega
  have hXt : X.β = opened .item md (q.lineNumber + 1) (n + 1) := by rw [← hXX]; rfl
  refine ERel.bind (R := fun p' q' => Rel _ X.weak p' q' ∧ (∃ e, ReadyFor e p') ∧ p'.allClosed = true ∧ startsLoop (l.length + 1) docNode p1 = .ok p')
    ((startsLoop_rel hX.toOk.weak _ _ hlen (.inr ⟨rfl, .inr (.inr rfl)⟩) hsp hcu (by rw [← hXX]; exact hpos) hr).mono
      fun _ _ ha hab => ⟨hab.1, hab.2, closed_starts hpc ha, ha⟩) ?_
  rintro p1 q1 ⟨f1, ⟨e, f2⟩, f3, f4⟩
  refine ERel.bind (addText_rel hX.toOk f1 (.inl f3) (keeps_of_kid fun p' hp' => ?_) f2) ?_
  · rw [f4] at hkeep
    simp only [hp'] at hkeep
    exact hkeep { p' with lastLineLength := l.length } rfl
  intro p2 q2 f
  exact .ok ⟨f.spine, f.refmap, f.line, f.oldtip, f.lastMatched, f.allClosed, f.low⟩

end CM
