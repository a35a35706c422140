import Verif.Proofs.Interrupt
/-
The state of the parser after the lines of a document (C57), and the line that follows.
-/
namespace CM
open Spec

/-- The open blocks after a block of this kind; `f`: blank lines follow it. -/
def Shape (k : BKind) (f : Bool) (P : List OpenBlk) : Prop :=
  match k with
  | .para => if f then P = [] else ∃ x, P = [x] ∧ x.data.t = .paragraph
  | .heading => P = [] ∨ ∃ x, P = [x] ∧ x.data.t = .heading
  | .rule => P = [] ∨ ∃ x, P = [x] ∧ x.data.t = .thematicBreak
  | .fenced | .html => P = []
  | .tag => if f then P = [] else ∃ x, P = [x] ∧ x.data.t = .htmlBlock ∧ (x.data.htmlBlockType = 6 ∨ x.data.htmlBlockType = 7)
  | .indented => ∃ x, P = [x] ∧ x.data.t = .codeBlock ∧ x.data.isFenced = false
  | .quote => if f then P = [] else ∃ P' x, P = P' ++ [x] ∧ x.data.t = .blockQuote
  | .list ty b dl => ∃ P' i l ld li, P = P' ++ [i, l] ∧ i.data.t = .item ∧ i.data.listData = some li ∧ 1 ≤ li.markerOffset + li.padding ∧
      l.data.t = .list ∧ l.data.listData = some ld ∧ ld.type = ty ∧ ld.bulletChar = b ∧ ld.delimiter = dl ∧ l.data.lastLineChecked = false

/-- All blocks can be closed, which leaves the blocks `cs` in the document. -/
structure Closes (p : PState) (P : List OpenBlk) (b : OpenBlk) (cs : List Tree) : Prop where
  spine : p.spine = P ++ [b]
  doc : b.data.t = .document
  refmap : p.refmap = []
  close : closeN p.lineNumber P.length p = .ok { p with spine := [{ b with children := cs }] }

structure AtWith (sm : Reading) (o : HtmlOpts) (p : PState) (bs : List Blk) (g f : Bool) (P : List OpenBlk) (b : OpenBlk) (cs : List Tree) (fs : List Bool) : Prop
    extends Closes p P b cs where
  flags : ∀ x ∈ p.spine, x.data.lastLineBlank = f
  shows : Shows sm o cs bs
  marks : Marks cs fs
  gap : fs.dropLast.any id = g
  last : fs.getLast? = some f
  shape : ∃ x, bs.getLast? = some x ∧ Shape x.kind f P
  tip : f = true → tipKind p ≠ some .paragraph

/-- The parser has read the blocks `bs`; `g`: there are blank lines between them, `f`: after them. -/
def At (sm : Reading) (o : HtmlOpts) (p : PState) (bs : List Blk) (g f : Bool) : Prop := ∃ P b cs fs, AtWith sm o p bs g f P b cs fs

/-! ### Looking at a line -/

theorem find_start {p : PState} {c : Char} {r : Str} (hl : p.currentLine = c :: r) (ho : p.offset = 0) (hc : p.column = 0)
    (h1 : c ≠ ' ') (h2 : c ≠ '\t') (hone : OneLine (c :: r)) :
    findNextNonspace p = { p with blank := false, nextNonspace := 0, nextNonspaceColumn := 0, indent := 0, indented := false } := by
  have h3 := (hone c (by simp)).1
  have h4 := (hone c (by simp)).2
  simp [findNextNonspace, hl, ho, hc, skipWs, h1, h2, h3, h4]

/-- At the beginning of the line `l`. -/
structure Begins (l : Str) (q : PState) : Prop where
  line : q.currentLine = l
  off : q.offset = 0
  col : q.column = 0
  pct : q.partiallyConsumedTab = false

theorem Begins.find {l : Str} {q : PState} (h : Begins l q) : Begins l (findNextNonspace q) := ⟨h.line, h.off, h.col, h.pct⟩

theorem begins_start (q : PState) (l : Str) : Begins l (atStart q l) := ⟨rfl, rfl, rfl, rfl⟩

/-- The first character of the line is neither a space nor a tab. -/
structure Sees (l : Str) (f : PState) : Prop where
  rest : f.currentLine.drop f.nextNonspace = l
  flat : f.indented = false
  zero : f.indent = 0
  text : f.blank = false

theorem sees_of {l : Str} {q : PState} (h : Begins l q) (hs : StartsText l) (hone : OneLine l) : Sees l (findNextNonspace q) := by
  obtain ⟨c, r, rfl, h1, h2⟩ := hs
  rw [find_start h.line h.off h.col h1 h2 hone]
  exact ⟨h.line, rfl, rfl, rfl⟩

theorem interrupts_text {l : Str} (h : Interrupts l) : StartsText l := by
  obtain ⟨c, r, h1, _, h2, h3⟩ := interrupts_head h
  exact ⟨c, r, h1, h2, h3⟩

/-- The line does not begin with a marker of the list. -/
theorem other_list {ty : ListType} {b dl : Option Char} {l : Str} (h : ¬ SameItem ty b dl l) {f : PState} (hf : f.currentLine.drop f.nextNonspace = l)
    {ld : ListData} (h1 : ld.type = ty) (h2 : ld.bulletChar = b) (h3 : ld.delimiter = dl) {x : ListData} {p' : PState}
    (hp : parseListMarker .document f = .ok (some x, p')) : listsMatch (some ld) x = false := by
  cases hm : listsMatch (some ld) x with
  | false => rfl
  | true =>
    exfalso
    simp only [listsMatch, Bool.and_eq_true, beq_iff_eq] at hm
    obtain ⟨⟨m1, m2⟩, m3⟩ := hm
    unfold parseListMarker at hp
    split at hp
    · cases hp
    · rw [hf] at hp
      cases hl : listMarker .document l with
      | none => rw [hl] at hp; cases hp
      | some y =>
        obtain ⟨m, ty', b', st, dl'⟩ := y
        rw [hl] at hp
        simp only at hp
        split at hp
        · cases hp
        · rename_i hnext
          rw [if_neg (by simp)] at hp
          cases ha : markerSpaces (advanceOffset m.length true (advanceNextNonspace f)).column 6 (advanceOffset m.length true (advanceNextNonspace f)) with
          | error => rw [ha] at hp; cases hp
          | ok q =>
            rw [ha] at hp
            simp only [Except.bind, bind, pure, Except.pure, Except.ok.injEq, Prod.mk.injEq, Option.some.injEq] at hp
            obtain ⟨rfl, _⟩ := hp
            have m1 : ld.type = ty' := m1
            have m2 : ld.delimiter = dl' := m2
            have m3 : ld.bulletChar = b' := m3
            have hsp : EndOrSpace (l.drop m.length) := by
              rw [← head?_peek, ← List.drop_drop, hf] at hnext
              cases hd : l.drop m.length with
              | nil => exact .inl rfl
              | cons z zs =>
                rw [hd] at hnext
                right
                rw [Classical.or_iff_not_imp_left]
                simpa [isSpTabOpt, isSpTab] using hnext
            apply h
            cases l with
            | nil => cases hl
            | cons c r =>
              simp only [listMarker] at hl
              split at hl
              · cases hl
                rw [← h1, m1]
                exact ⟨c, r, by rw [← h2, m3], rfl, hsp⟩
              · cases hm : reOrderedListMarker.matchPrefix (c :: r) with
                | none => rw [hm] at hl; cases hl
                | some m' =>
                  rw [hm] at hl
                  have hk : (Kind.document != Kind.paragraph) = true := by decide
                  simp only [hk, Bool.true_or, if_true, Option.some.injEq, Prod.mk.injEq] at hl
                  obtain ⟨rfl, rfl, rfl, rfl, rfl⟩ := hl
                  obtain ⟨ds, e, rfl, g1, _, g3, _⟩ := ordered_marker hm
                  obtain ⟨t, ht, _⟩ := Re.matchPrefix_den hm
                  rw [← h1, m1]
                  refine ⟨ds, e, t, ?_, ?_, g3, ?_⟩
                  · rw [← h3, m2, List.getLast?_concat]
                  · rw [ht]; simp
                  · rw [ht, List.drop_left] at hsp
                    exact hsp

/-! ### The open blocks that the line continues -/

/-- What is known when the matched blocks have been found. -/
structure Leaves (l : Str) (q : PState) (P : List OpenBlk) (b : OpenBlk) (k : BKind) (f : Bool) (m : Nat) (c : NodeData) (q1 : PState) : Prop where
  run : contLoop P.reverse 1 (atStart q l) = .ok (.inr (m, q1))
  core : q1.core = (atStart q l).core
  books : q1.books = (atStart q l).books
  cur : Begins l q1
  place : (m = 1 ∧ c = b.data) ∨ (m = 2 ∧ ∃ P' y, P = P' ++ [y] ∧ c = y.data ∧ (y.data.t = .list ∨ y.data.t = .paragraph))
  line : HatLine c (findNextNonspace { q1 with allClosed := m == q1.oldtip, lastMatched := m })
  none : ∀ (S : List OpenBlk) (d : NodeData), d.t = .document →
    NoStart d ((findNextNonspace { q1 with allClosed := m == q1.oldtip, lastMatched := m }).put S m) →
    tipKind q ≠ some .paragraph ∧ (m = 1 ∨ (f = true ∧ StartsText l ∧ ∃ ty b dl, k = .list ty b dl))

/-- No block of the first text is continued. -/
theorem out_one {l : Str} {q : PState} {P : List OpenBlk} {b : OpenBlk} {k : BKind} {f : Bool} {q1 : PState} (hb : b.data.t = .document)
    (hone : OneLine l)
    (run : contLoop P.reverse 1 (atStart q l) = .ok (.inr (1, q1))) (core : q1.core = (atStart q l).core)
    (books : q1.books = (atStart q l).books) (cur : Begins l q1) (h : tipKind q ≠ some .paragraph ∨ Interrupts l) : Leaves l q P b k f 1 b.data q1 := by
  have cur2 : Begins l { q1 with allClosed := 1 == q1.oldtip, lastMatched := 1 } := ⟨cur.line, cur.off, cur.col, cur.pct⟩
  have hs : q1.spine = q.spine := (congrArg Core.spine core :)
  refine ⟨run, core, books, cur, .inl ⟨rfl, rfl⟩, ⟨?_, ?_, ?_⟩, ?_⟩
  · intro h; rw [hb] at h; cases h
  · intro h; rw [hb] at h; cases h
  · intro hi
    rcases h with h | h
    · show (q1.spine.head?.map _) ≠ _
      rw [hs]; exact h
    · rw [(sees_of cur2 (interrupts_text h) hone).flat] at hi; cases hi
  · intro S d hd hn
    rcases h with h | h
    · exact ⟨h, .inl rfl⟩
    · have := sees_of cur2 (interrupts_text h) hone
      exact absurd hn (interrupts_fire h hone hd this.rest this.flat (by show (findNextNonspace _).indent < 4; rw [this.zero]; omega))

theorem out_fail {l : Str} {q : PState} {P' : List OpenBlk} {x b : OpenBlk} {k : BKind} {f : Bool} (hb : b.data.t = .document) (hone : OneLine l)
    (hf : ∀ y, continueBlock x.data y (findNextNonspace (atStart q l)) = (.failed, findNextNonspace (atStart q l)))
    (h : tipKind q ≠ some .paragraph ∨ Interrupts l) : ∃ q1, Leaves l q (P' ++ [x]) b k f 1 b.data q1 := by
  refine ⟨findNextNonspace (atStart q l), out_one hb hone ?_ (core_find _) (books_find _) (begins_start q l).find h⟩
  rw [List.reverse_append]
  show contLoop (x :: P'.reverse) 1 _ = _
  simp only [contLoop, hf]

theorem out_none {l : Str} {q : PState} {b : OpenBlk} {k : BKind} {f : Bool} (hb : b.data.t = .document) (hone : OneLine l)
    (h : tipKind q ≠ some .paragraph ∨ Interrupts l) : ∃ q1, Leaves l q [] b k f 1 b.data q1 :=
  ⟨atStart q l, out_one hb hone rfl rfl rfl (begins_start q l) h⟩

theorem tip_of {q : PState} {x : OpenBlk} {r : List OpenBlk} (h : q.spine = x :: r) : tipKind q = some x.data.t := by
  simp [tipKind, h]

theorem out_of {l : Str} {q : PState} {P : List OpenBlk} {b : OpenBlk} {k : BKind} {f : Bool} (hs : q.spine = P ++ [b]) (hb : b.data.t = .document)
    (hone : OneLine l) (hshape : Shape k f P) (htip : f = true → tipKind q ≠ some .paragraph) (hfol : Follows k f l) :
    ∃ m c q1, Leaves l q P b k f m c q1 := by
  have fin : (∃ q1, Leaves l q P b k f 1 b.data q1) → ∃ m c q1, Leaves l q P b k f m c q1 := fun ⟨q1, h⟩ => ⟨_, _, q1, h⟩
  have hnil : P = [] → tipKind q ≠ some .paragraph := by
    rintro rfl; rw [tip_of hs, hb]; simp
  have hcons : ∀ x, P = [x] → x.data.t ≠ .paragraph → tipKind q ≠ some .paragraph := by
    rintro x rfl hx; rw [tip_of hs]; simpa using hx
  cases k with
  | para =>
    simp only [Shape] at hshape
    by_cases hf : f = true
    · rw [if_pos hf] at hshape
      subst hshape
      exact fin (out_none hb hone (.inl (hnil rfl)))
    · rw [if_neg hf] at hshape
      obtain ⟨x, rfl, hx⟩ := hshape
      obtain ⟨hint, hset⟩ := hfol.resolve_left hf
      have hst := interrupts_text hint
      have h0 := sees_of (begins_start q l) hst hone
      have hc : ∀ y, continueBlock x.data y (findNextNonspace (atStart q l)) = (.matched, findNextNonspace (atStart q l)) := by
        intro y
        simp only [continueBlock, hx, h0.text, Bool.false_eq_true, if_false]
      have cur : Begins l (findNextNonspace (atStart q l)) := (begins_start q l).find
      have cur2 : Begins l { findNextNonspace (atStart q l) with allClosed := 2 == (findNextNonspace (atStart q l)).oldtip, lastMatched := 2 } :=
        ⟨cur.line, cur.off, cur.col, cur.pct⟩
      have h2 := sees_of cur2 hst hone
      refine ⟨2, x.data, findNextNonspace (atStart q l), ?_, core_find _, books_find _, cur, .inr ⟨rfl, [], x, rfl, rfl, .inr hx⟩, ⟨?_, ?_, ?_⟩, ?_⟩
      · show contLoop [x] 1 _ = _
        simp only [contLoop, hc]
      · intro _
        refine ⟨?_, ?_, interrupts_marker hint hone h2.rest⟩
        · rw [h2.rest]
          exact interrupts_html hint hone
        · rw [h2.rest]
          exact none_of_not_isSome fun hh => hset ((setext_iff (fun hm => (hone _ hm).1 rfl)).1 hh)
      · intro h; rw [hx] at h; cases h
      · intro hi; rw [h2.flat] at hi; cases hi
      · intro S d hd hn
        exact absurd hn (interrupts_fire hint hone hd h2.rest h2.flat (by show (findNextNonspace _).indent < 4; rw [h2.zero]; omega))
  | heading =>
    rcases hshape with rfl | ⟨x, rfl, hx⟩
    · exact fin (out_none hb hone (.inl (hnil rfl)))
    · exact fin (out_fail (P' := []) hb hone (fun y => by simp only [continueBlock, hx]) (.inl (hcons x rfl (by rw [hx]; decide))))
  | rule =>
    rcases hshape with rfl | ⟨x, rfl, hx⟩
    · exact fin (out_none hb hone (.inl (hnil rfl)))
    · exact fin (out_fail (P' := []) hb hone (fun y => by simp only [continueBlock, hx]) (.inl (hcons x rfl (by rw [hx]; decide))))
  | fenced =>
    obtain rfl : P = [] := hshape
    exact fin (out_none hb hone (.inl (hnil rfl)))
  | html =>
    obtain rfl : P = [] := hshape
    exact fin (out_none hb hone (.inl (hnil rfl)))
  | tag =>
    simp only [Shape] at hshape
    rw [if_pos (show f = true from hfol)] at hshape
    subst hshape
    exact fin (out_none hb hone (.inl (hnil rfl)))
  | indented =>
    obtain ⟨x, rfl, hx, hx'⟩ := hshape
    have h0 := sees_of (begins_start q l) hfol hone
    refine fin (out_fail (P' := []) hb hone (fun y => ?_) (.inl (hcons x rfl (by rw [hx]; decide))))
    simp only [continueBlock, hx, hx', h0.text, h0.zero, Bool.false_eq_true, if_false]
    rfl
  | quote =>
    simp only [Shape] at hshape
    by_cases hf : f = true
    · rw [if_pos hf] at hshape
      subst hshape
      exact fin (out_none hb hone (.inl (hnil rfl)))
    · rw [if_neg hf] at hshape
      obtain ⟨P', x, rfl, hx⟩ := hshape
      obtain ⟨hint, hne⟩ := hfol.resolve_left hf
      have h0 := sees_of (begins_start q l) (interrupts_text hint) hone
      refine fin (out_fail hb hone (fun y => ?_) (.inr hint))
      simp only [continueBlock, hx]
      rw [if_neg]
      rw [← head?_peek, h0.rest]
      simp [hne]
  | list ty bu dl =>
    obtain ⟨P', i, li, ld, lx, rfl, i1, i2, i3, l1, l2, l3, l4, l5, l6⟩ := hshape
    obtain ⟨hst, hno, hor⟩ := hfol
    have b0 := (begins_start q l).find
    have h0 := sees_of b0 hst hone
    have cur : Begins l (findNextNonspace (findNextNonspace (atStart q l))) := b0.find
    have cur2 : Begins l { findNextNonspace (findNextNonspace (atStart q l)) with
        allClosed := 2 == (findNextNonspace (findNextNonspace (atStart q l))).oldtip, lastMatched := 2 } := ⟨cur.line, cur.off, cur.col, cur.pct⟩
    have h2 := sees_of cur2 hst hone
    refine ⟨2, li.data, findNextNonspace (findNextNonspace (atStart q l)), ?_, rfl, rfl, cur,
      .inr ⟨rfl, P' ++ [i], li, by simp, rfl, .inl l1⟩, ⟨?_, ?_, ?_⟩, ?_⟩
    · rw [List.reverse_append]
      show contLoop (li :: i :: P'.reverse) 1 _ = _
      simp only [contLoop, continueBlock, l1, i1, i2, h0.text, h0.zero, Bool.false_eq_true, if_false]
      rw [if_neg (by omega)]
    · intro h; rw [l1] at h; cases h
    · intro _ x p' hp
      rw [l2]
      exact other_list hno h2.rest l3 l4 l5 hp
    · intro hi; rw [h2.flat] at hi; cases hi
    · intro S d hd hn
      rcases hor with hf | hint
      · exact ⟨htip hf, .inr ⟨hf, hst, ty, bu, dl, rfl⟩⟩
      · exact absurd hn (interrupts_fire hint hone hd h2.rest h2.flat (by show (findNextNonspace _).indent < 4; rw [h2.zero]; omega))

end CM
