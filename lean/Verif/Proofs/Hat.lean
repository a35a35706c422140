import Verif.Proofs.CloseN
/-
The first line of a text that follows another one (C57): its block starts close the blocks of the
other text, and do then what they do in a document that has no open blocks.
-/
namespace CM
open Spec

/-- The same line, with other blocks. -/
def PState.put (S : List OpenBlk) (o : Nat) (p : PState) : PState := { p with spine := S, refmap := [], allClosed := true, oldtip := o }

theorem put_close (S : List OpenBlk) (o : Nat) (p : PState) : closeUnmatched (p.put S o) = .ok (p.put S o) := by
  simp [closeUnmatched, PState.put]

/-- Adding a block of any kind but an item to `q`, whose matched container is `c`, leaves `S` before. -/
structure Hat (c : NodeData) (q : PState) (S : List OpenBlk) (o : Nat) : Prop where
  doc : ∃ b, S = [b] ∧ b.data.t = .document
  add : ∀ f : PState, f.core = q.core → f.books = q.books → ∃ f1, closeUnmatched f = .ok f1 ∧ f1.curs = f.curs ∧
    (tipKind f1 = some .list → c.t = .list) ∧
    ∀ tag off g, tag ≠ .item → addChild tag off g f1 = addChild tag off g (f.put S o)

/-- The same block start, or none. -/
def SameStart (S : List OpenBlk) (o : Nat) (f : PState) (x y : Except PyErr (Start × PState)) : Prop :=
  (x = .ok (.none, f) ∧ y = .ok (.none, f.put S o)) ∨ (x = y ∧ ∀ z, y ≠ .ok (.none, z))

theorem sameStart_none {S : List OpenBlk} {o : Nat} {f : PState} : SameStart S o f (.ok (.none, f)) (.ok (.none, f.put S o)) :=
  .inl ⟨rfl, rfl⟩

section
variable {c d : NodeData} {q f : PState} {S : List OpenBlk} {o : Nat}

theorem bind_ne_none {x : Except PyErr PState} {g : PState → PState} {r : Start} (hr : r ≠ .none) :
    ∀ z, (x >>= fun p => (pure (r, g p) : Except PyErr (Start × PState))) ≠ .ok (.none, z) := by
  intro z h
  cases x with
  | error => cases h
  | ok p =>
    simp only [Except.bind, bind, pure, Except.pure, Except.ok.injEq, Prod.mk.injEq] at h
    exact hr h.1

theorem hat_quote (h : Hat c q S o) (h1 : f.core = q.core) (h2 : f.books = q.books) :
    SameStart S o f (startBlockQuote f) (startBlockQuote (f.put S o)) := by
  unfold startBlockQuote
  rw [show (f.put S o).indented = f.indented from rfl, show (f.put S o).currentLine = f.currentLine from rfl,
    show (f.put S o).nextNonspace = f.nextNonspace from rfl]
  by_cases hc : (!f.indented && peekAt f.currentLine f.nextNonspace == some '>') = true
  · rw [if_pos hc, if_pos hc]
    obtain ⟨f1, e1, e2, _, e4⟩ := h.add (eatQuoteMarker f) ((core_eat f).trans h1) ((books_eat f).trans h2)
    have he : eatQuoteMarker (f.put S o) = (eatQuoteMarker f).put S o := by
      unfold eatQuoteMarker
      simp only []
      rw [show (advanceOffset 1 false (advanceNextNonspace (f.put S o))).currentLine =
        (advanceOffset 1 false (advanceNextNonspace f)).currentLine from rfl,
        show (advanceOffset 1 false (advanceNextNonspace (f.put S o))).offset =
        (advanceOffset 1 false (advanceNextNonspace f)).offset from rfl]
      split <;> rfl
    refine .inr ⟨?_, ?_⟩
    · simp only [he, e1, put_close, Except.bind, bind]
      rw [show f1.nextNonspace = ((eatQuoteMarker f).put S o).nextNonspace from congrArg CursorAt.nn e2, e4 _ _ _ (by decide)]
    · simp only [he, put_close]
      exact bind_ne_none (g := id) (by decide)
  · rw [if_neg hc, if_neg hc]; exact sameStart_none

theorem hat_atx (h : Hat c q S o) (h1 : f.core = q.core) (h2 : f.books = q.books) :
    SameStart S o f (startAtx f) (startAtx (f.put S o)) := by
  unfold startAtx
  rw [show (f.put S o).indented = f.indented from rfl, show (f.put S o).currentLine = f.currentLine from rfl,
    show (f.put S o).nextNonspace = f.nextNonspace from rfl]
  by_cases hc : f.indented = true
  · rw [if_pos hc, if_pos hc]; exact sameStart_none
  · rw [if_neg hc, if_neg hc]
    cases reATXHeadingMarker.matchPrefix (f.currentLine.drop f.nextNonspace) with
    | none => exact sameStart_none
    | some m =>
      obtain ⟨f1, e1, e2, _, e4⟩ := h.add (advanceOffset m.length false (advanceNextNonspace f)) h1 h2
      have he : advanceOffset m.length false (advanceNextNonspace (f.put S o)) =
        (advanceOffset m.length false (advanceNextNonspace f)).put S o := rfl
      refine .inr ⟨?_, ?_⟩
      · simp only [he, e1, put_close, Except.bind, bind]
        rw [show f1.nextNonspace = ((advanceOffset m.length false (advanceNextNonspace f)).put S o).nextNonspace from congrArg CursorAt.nn e2,
          show f1.currentLine = ((advanceOffset m.length false (advanceNextNonspace f)).put S o).currentLine from congrArg CursorAt.line e2,
          show f1.offset = ((advanceOffset m.length false (advanceNextNonspace f)).put S o).offset from congrArg CursorAt.off e2,
          e4 _ _ _ (by decide)]
      · simp only [he, put_close]
        exact bind_ne_none (g := advanceToEnd) (by decide)

theorem hat_fenced (h : Hat c q S o) (h1 : f.core = q.core) (h2 : f.books = q.books) :
    SameStart S o f (startFenced f) (startFenced (f.put S o)) := by
  unfold startFenced
  rw [show (f.put S o).indented = f.indented from rfl, show (f.put S o).currentLine = f.currentLine from rfl,
    show (f.put S o).nextNonspace = f.nextNonspace from rfl]
  by_cases hc : f.indented = true
  · rw [if_pos hc, if_pos hc]; exact sameStart_none
  · rw [if_neg hc, if_neg hc]
    cases reCodeFence.matchPrefix (f.currentLine.drop f.nextNonspace) with
    | none => exact sameStart_none
    | some m =>
      obtain ⟨f1, e1, e2, _, e4⟩ := h.add f h1 h2
      refine .inr ⟨?_, ?_⟩
      · simp only [e1, put_close, Except.bind, bind]
        rw [show f1.nextNonspace = (f.put S o).nextNonspace from congrArg CursorAt.nn e2,
          show f1.indent = (f.put S o).indent from congrArg CursorAt.ind e2, e4 _ _ _ (by decide)]
      · simp only [put_close]
        exact bind_ne_none (g := fun p => advanceOffset m.length false (advanceNextNonspace p)) (by decide)

theorem hat_html (h : Hat c q S o) (h1 : f.core = q.core) (h2 : f.books = q.books) (hd : d.t = .document)
    (hp : c.t = .paragraph → htmlBlockType .paragraph (f.currentLine.drop f.nextNonspace) = htmlBlockType .document (f.currentLine.drop f.nextNonspace)) :
    SameStart S o f (startHtml c.t f) (startHtml d.t (f.put S o)) := by
  unfold startHtml
  rw [show (f.put S o).indented = f.indented from rfl, show (f.put S o).currentLine = f.currentLine from rfl,
    show (f.put S o).nextNonspace = f.nextNonspace from rfl]
  by_cases hc : (!f.indented && peekAt f.currentLine f.nextNonspace == some '<') = true
  · rw [if_pos hc, if_pos hc]
    have hk : htmlBlockType c.t (f.currentLine.drop f.nextNonspace) = htmlBlockType d.t (f.currentLine.drop f.nextNonspace) := by
      by_cases hn : c.t = .paragraph
      · rw [hn, hd]; exact hp hn
      unfold htmlBlockType
      have e1 : (c.t != .paragraph) = true := by simp [hn]
      have e2 : (d.t != .paragraph) = true := by rw [hd]; rfl
      simp only [e1, e2]
    rw [hk]
    cases htmlBlockType d.t (f.currentLine.drop f.nextNonspace) with
    | none => exact sameStart_none
    | some m =>
      obtain ⟨f1, e1, e2, _, e4⟩ := h.add f h1 h2
      refine .inr ⟨?_, ?_⟩
      · simp only [e1, put_close, Except.bind, bind]
        rw [show f1.offset = (f.put S o).offset from congrArg CursorAt.off e2, e4 _ _ _ (by decide)]
      · simp only [put_close]
        exact bind_ne_none (g := id) (by decide)
  · rw [if_neg hc, if_neg hc]; exact sameStart_none

theorem hat_setext (hd : d.t = .document)
    (hp : c.t = .paragraph → reSetextHeadingLine.matchPrefix (f.currentLine.drop f.nextNonspace) = none) :
    SameStart S o f (startSetext c.t f) (startSetext d.t (f.put S o)) := by
  unfold startSetext
  rw [hd, if_neg (c := (!(f.put S o).indented && Kind.document == .paragraph) = true) (by simp)]
  split
  · rename_i hc
    simp only [Bool.and_eq_true, beq_iff_eq] at hc
    rw [hp hc.2]
    exact sameStart_none
  · exact sameStart_none

theorem hat_thematic (h : Hat c q S o) (h1 : f.core = q.core) (h2 : f.books = q.books) :
    SameStart S o f (startThematic f) (startThematic (f.put S o)) := by
  unfold startThematic
  rw [show (f.put S o).indented = f.indented from rfl, show (f.put S o).currentLine = f.currentLine from rfl,
    show (f.put S o).nextNonspace = f.nextNonspace from rfl]
  by_cases hc : (!f.indented && (reThematicBreak.matchPrefix (f.currentLine.drop f.nextNonspace)).isSome) = true
  · rw [if_pos hc, if_pos hc]
    obtain ⟨f1, e1, e2, _, e4⟩ := h.add f h1 h2
    refine .inr ⟨?_, ?_⟩
    · simp only [e1, put_close, Except.bind, bind]
      rw [show f1.nextNonspace = (f.put S o).nextNonspace from congrArg CursorAt.nn e2, e4 _ _ _ (by decide)]
    · simp only [put_close]
      exact bind_ne_none (g := advanceToEnd) (by decide)
  · rw [if_neg hc, if_neg hc]; exact sameStart_none

theorem hat_indented (h : Hat c q S o) (h1 : f.core = q.core) (h2 : f.books = q.books) (ht : f.indented = true → tipKind f ≠ some .paragraph) :
    SameStart S o f (startIndented f) (startIndented (f.put S o)) := by
  obtain ⟨b, hS, hb⟩ := h.doc
  have ht' : tipKind (f.put S o) = some .document := by
    show (S.head?.map _) = _
    rw [hS]; simp [hb]
  unfold startIndented
  rw [ht', show (f.put S o).indented = f.indented from rfl, show (f.put S o).blank = f.blank from rfl]
  have hc : (f.indented && tipKind f != some .paragraph && !f.blank) = (f.indented && some Kind.document != some .paragraph && !f.blank) := by
    cases hi : f.indented with
    | false => rfl
    | true =>
      have e : (tipKind f != some .paragraph) = true := by simpa using ht hi
      rw [e]; rfl
  rw [hc]
  by_cases hc : (f.indented && some Kind.document != some .paragraph && !f.blank) = true
  · rw [if_pos hc, if_pos hc]
    obtain ⟨f1, e1, e2, _, e4⟩ := h.add (advanceOffset 4 true f) h1 h2
    have he : advanceOffset 4 true (f.put S o) = (advanceOffset 4 true f).put S o := rfl
    refine .inr ⟨?_, ?_⟩
    · simp only [he, e1, put_close, Except.bind, bind]
      rw [show f1.offset = ((advanceOffset 4 true f).put S o).offset from congrArg CursorAt.off e2, e4 _ _ _ (by decide)]
    · simp only [he, put_close]
      exact bind_ne_none (g := id) (by decide)
  · rw [if_neg hc, if_neg hc]; exact sameStart_none

theorem markerSpaces_put {S : List OpenBlk} {o : Nat} {sc : Nat} : ∀ (n : Nat) (p : PState),
    markerSpaces sc n (p.put S o) = (markerSpaces sc n p).map (PState.put S o) := by
  intro n
  induction n with
  | zero => intro p; rfl
  | succ n ih =>
    intro p
    simp only [markerSpaces]
    rw [show advanceOffset 1 true (p.put S o) = (advanceOffset 1 true p).put S o from rfl]
    rw [show ((advanceOffset 1 true p).put S o).column = (advanceOffset 1 true p).column from rfl,
      show ((advanceOffset 1 true p).put S o).currentLine = (advanceOffset 1 true p).currentLine from rfl,
      show ((advanceOffset 1 true p).put S o).offset = (advanceOffset 1 true p).offset from rfl]
    split
    · exact ih _
    · rfl

theorem markerSpaces_core {sc : Nat} : ∀ (n : Nat) {p p' : PState}, markerSpaces sc n p = .ok p' → p'.core = p.core ∧ p'.books = p.books := by
  intro n
  induction n with
  | zero => intro p p' h; cases h
  | succ n ih =>
    intro p p' h
    simp only [markerSpaces] at h
    split at h
    · have := ih h; exact this
    · cases h; exact ⟨rfl, rfl⟩

/-- Reading a list marker depends on the line only. -/
theorem parseListMarker_put (κ : Kind) (p : PState) :
    parseListMarker κ (p.put S o) = (parseListMarker κ p).map fun x => (x.1, x.2.put S o) := by
  unfold parseListMarker
  rw [show (p.put S o).indent = p.indent from rfl, show (p.put S o).currentLine = p.currentLine from rfl,
    show (p.put S o).nextNonspace = p.nextNonspace from rfl]
  split
  · rfl
  · split
    · rfl
    · rename_i m ty b st dl _
      simp only []
      split
      · rfl
      · split
        · rfl
        · rw [show advanceOffset m.length true (advanceNextNonspace (p.put S o)) =
            (advanceOffset m.length true (advanceNextNonspace p)).put S o from rfl]
          rw [show ((advanceOffset m.length true (advanceNextNonspace p)).put S o).column =
            (advanceOffset m.length true (advanceNextNonspace p)).column from rfl,
            show ((advanceOffset m.length true (advanceNextNonspace p)).put S o).offset =
            (advanceOffset m.length true (advanceNextNonspace p)).offset from rfl, markerSpaces_put]
          cases markerSpaces (advanceOffset m.length true (advanceNextNonspace p)).column 6
              (advanceOffset m.length true (advanceNextNonspace p)) with
          | error => rfl
          | ok p1 =>
            simp only [Except.map, Except.bind, bind, pure, Except.pure]
            rw [show (p1.put S o).column = p1.column from rfl, show (p1.put S o).currentLine = p1.currentLine from rfl,
              show (p1.put S o).offset = p1.offset from rfl]
            split
            · split
              · rename_i h
                have h' : isSpTabOpt (peekAt p1.currentLine (advanceOffset m.length true (advanceNextNonspace p)).offset) = true := h
                simp only [h', if_true]; rfl
              · rename_i h
                have h' : isSpTabOpt (peekAt p1.currentLine (advanceOffset m.length true (advanceNextNonspace p)).offset) = false := by simpa using h
                simp only [h', Bool.false_eq_true, if_false]; rfl
            · rfl

theorem parseListMarker_core {κ : Kind} {p : PState} {x : Option ListData × PState} (h : parseListMarker κ p = .ok x) :
    x.2.core = p.core ∧ x.2.books = p.books ∧ (x.1 = none → x.2 = p) := by
  unfold parseListMarker at h
  split at h
  · cases h; exact ⟨rfl, rfl, fun _ => rfl⟩
  · split at h
    · cases h; exact ⟨rfl, rfl, fun _ => rfl⟩
    · rename_i m ty b st dl _
      simp only [] at h
      split at h
      · cases h; exact ⟨rfl, rfl, fun _ => rfl⟩
      · split at h
        · cases h; exact ⟨rfl, rfl, fun _ => rfl⟩
        · cases hm : markerSpaces (advanceOffset m.length true (advanceNextNonspace p)).column 6
              (advanceOffset m.length true (advanceNextNonspace p)) with
          | error => rw [hm] at h; cases h
          | ok p1 =>
            rw [hm] at h
            obtain ⟨e1, e2⟩ := markerSpaces_core _ hm
            simp only [Except.bind, bind, pure, Except.pure] at h
            have k1 : p1.core = p.core := e1
            have k2 : p1.books = p.books := e2
            split at h
            · cases h
              refine ⟨?_, ?_, fun h => by cases h⟩
              · simp only []; split <;> exact k1
              · simp only []; split <;> exact k2
            · cases h
              exact ⟨k1, k2, fun h => by cases h⟩

theorem parseListMarker_kind {κ : Kind} (h : κ ≠ .paragraph) (p : PState) : parseListMarker κ p = parseListMarker .document p := by
  have e : (κ == .paragraph) = (Kind.document == .paragraph) := by
    rw [show (Kind.document == .paragraph) = false from rfl]; simp [h]
  have e' : (κ != .paragraph) = (Kind.document != .paragraph) := by
    simp only [bne, e]
  unfold parseListMarker listMarker
  simp only [e, e']

theorem hat_item (h : Hat c q S o) (h1 : f.core = q.core) (h2 : f.books = q.books) (hd : d.t = .document) (hi : f.indented = decide (f.indent ≥ 4))
    (hp : c.t = .paragraph → parseListMarker .paragraph f = parseListMarker .document f)
    (hl : c.t = .list → ∀ l p', parseListMarker .document f = .ok (some l, p') → listsMatch c.listData l = false) :
    SameStart S o f (startListItem c f) (startListItem d (f.put S o)) := by
  obtain ⟨b, hS, hb⟩ := h.doc
  have hk : parseListMarker c.t f = parseListMarker .document f := by
    by_cases hc : c.t = .paragraph
    · rw [hc]; exact hp hc
    · exact parseListMarker_kind hc f
  have main : SameStart S o f
      (do let (data, p) ← parseListMarker c.t f
          match data with
          | none => return (.none, p)
          | some l =>
            let p ← closeUnmatched p
            let p ←
              if tipKind p != some .list || !(listsMatch c.listData l) then
                addChild .list p.nextNonspace (fun d => { d with listData := some l }) p
              else pure p
            let p ← addChild .item p.nextNonspace (fun d => { d with listData := some l }) p
            return (.container, p))
      (do let (data, p) ← parseListMarker d.t (f.put S o)
          match data with
          | none => return (.none, p)
          | some l =>
            let p ← closeUnmatched p
            let p ←
              if tipKind p != some .list || !(listsMatch d.listData l) then
                addChild .list p.nextNonspace (fun d => { d with listData := some l }) p
              else pure p
            let p ← addChild .item p.nextNonspace (fun d => { d with listData := some l }) p
            return (.container, p)) := by
    rw [hk, hd, parseListMarker_put]
    cases hm : parseListMarker .document f with
    | error => exact .inr ⟨rfl, fun z h => by cases h⟩
    | ok x =>
      obtain ⟨x, p1⟩ := x
      obtain ⟨k1, k2, k3⟩ := parseListMarker_core hm
      cases x with
      | none =>
        obtain rfl : p1 = f := k3 rfl
        exact sameStart_none
      | some l =>
        obtain ⟨f1, e1, e2, e3, e4⟩ := h.add p1 (k1.trans h1) (k2.trans h2)
        have ht : (tipKind f1 != some .list || !(listsMatch c.listData l)) = true := by
          by_cases ht : tipKind f1 = some .list
          · rw [hl (e3 ht) l p1 hm]; simp
          · simp [ht]
        have ht' : (tipKind (p1.put S o) != some .list || !(listsMatch d.listData l)) = true := by
          have : tipKind (p1.put S o) = some .document := by
            show (S.head?.map _) = _
            rw [hS]; simp [hb]
          rw [this]; rfl
        refine .inr ⟨?_, ?_⟩
        · simp only [Except.map, Except.bind, bind, e1, put_close, ht, ht', if_true]
          rw [show f1.nextNonspace = (p1.put S o).nextNonspace from congrArg CursorAt.nn e2, e4 _ _ _ (by decide)]
        · simp only [Except.map, Except.bind, bind, put_close, ht', if_true]
          cases addChild Kind.list (p1.put S o).nextNonspace (fun d => { d with listData := some l }) (p1.put S o) with
          | error => intro z h; cases h
          | ok p2 => exact bind_ne_none (g := id) (by decide)
  unfold startListItem
  rw [show (f.put S o).indented = f.indented from rfl]
  by_cases hn : f.indented = true
  · rw [if_neg (c := (!f.indented || d.t == .list) = true) (by rw [hn, hd]; decide)]
    by_cases hc : c.t = .list
    · rw [if_pos (by rw [hc]; simp)]
      have : parseListMarker c.t f = .ok (none, f) := by
        unfold parseListMarker
        rw [if_pos (by rw [hi] at hn; simpa using hn)]
      rw [this]
      exact sameStart_none
    · rw [if_neg (by simp [hn, hc])]
      exact sameStart_none
  · rw [if_pos (by simp [hn]), if_pos (by simp [hn])]
    exact main

theorem hat_tryStarts {S : List OpenBlk} {o : Nat} {f : PState} : ∀ {fs gs : List (PState → Except PyErr (Start × PState))},
    List.Forall₂ (fun a b => SameStart S o f (a f) (b (f.put S o))) fs gs → SameStart S o f (tryStarts fs f) (tryStarts gs (f.put S o)) := by
  intro fs gs h
  induction h with
  | nil => exact sameStart_none
  | @cons a b fs gs h _ ih =>
    simp only [tryStarts]
    rcases h with ⟨e1, e2⟩ | ⟨e1, e2⟩
    · rw [e1, e2]; exact ih
    · rw [e1]
      cases hb : b (f.put S o) with
      | error => exact .inr ⟨rfl, fun z h => by cases h⟩
      | ok x =>
        obtain ⟨r, p⟩ := x
        cases r with
        | none => exact absurd hb (e2 p)
        | container => exact .inr ⟨rfl, fun z h => by cases h⟩
        | leaf => exact .inr ⟨rfl, fun z h => by cases h⟩

/-- What the line must satisfy. -/
structure HatLine (c : NodeData) (f : PState) : Prop where
  para : c.t = .paragraph → htmlBlockType .paragraph (f.currentLine.drop f.nextNonspace) = htmlBlockType .document (f.currentLine.drop f.nextNonspace) ∧
    reSetextHeadingLine.matchPrefix (f.currentLine.drop f.nextNonspace) = none ∧
    parseListMarker .paragraph f = parseListMarker .document f
  list : c.t = .list → ∀ l p', parseListMarker .document f = .ok (some l, p') → listsMatch c.listData l = false
  tip : f.indented = true → tipKind f ≠ some .paragraph

/-- No block starts at this line. -/
def NoStart (d : NodeData) (f : PState) : Prop :=
  (f.indented = false ∧ ∀ ch, peekAt f.currentLine f.nextNonspace = some ch → isMaybeSpecial ch = false) ∨
    ∃ z, tryStarts (blockStarts d) f = .ok (.none, z)

theorem hat_starts (h : Hat c q S o) (hd : d.t = .document) (hl : HatLine c (findNextNonspace q)) (n : Nat) :
    startsLoop (n + 1) c q = startsLoop (n + 1) d (q.put S o) ∨
    (startsLoop (n + 1) c q = .ok (advanceNextNonspace (findNextNonspace q)) ∧
      startsLoop (n + 1) d (q.put S o) = .ok ((advanceNextNonspace (findNextNonspace q)).put S o) ∧
      NoStart d ((findNextNonspace q).put S o)) := by
  simp only [startsLoop]
  rw [show findNextNonspace (q.put S o) = (findNextNonspace q).put S o from rfl]
  have h1 : (findNextNonspace q).core = q.core := rfl
  have h2 : (findNextNonspace q).books = q.books := rfl
  have hi : (findNextNonspace q).indented = decide ((findNextNonspace q).indent ≥ 4) := rfl
  generalize findNextNonspace q = f at *
  rw [show (f.put S o).currentLine = f.currentLine from rfl, show (f.put S o).nextNonspace = f.nextNonspace from rfl,
    show (f.put S o).indented = f.indented from rfl]
  have key : ∀ sp : Bool, (sp = false → ∀ ch, peekAt f.currentLine f.nextNonspace = some ch → isMaybeSpecial ch = false) →
      ∀ x y : Except PyErr PState, (x = y ∨ (x = .ok (advanceNextNonspace f) ∧ y = .ok ((advanceNextNonspace f).put S o) ∧ NoStart d (f.put S o))) →
      (if (!f.indented && !sp) = true then pure (advanceNextNonspace f) else x) =
        (if (!f.indented && !sp) = true then pure (advanceNextNonspace (f.put S o)) else y) ∨
      ((if (!f.indented && !sp) = true then pure (advanceNextNonspace f) else x) = .ok (advanceNextNonspace f) ∧
        (if (!f.indented && !sp) = true then pure (advanceNextNonspace (f.put S o)) else y) = .ok ((advanceNextNonspace f).put S o) ∧
        NoStart d (f.put S o)) := by
    intro sp hsp x y hxy
    by_cases hc : (!f.indented && !sp) = true
    · right
      rw [if_pos hc, if_pos hc]
      simp only [Bool.and_eq_true, Bool.not_eq_true'] at hc
      exact ⟨rfl, rfl, .inl ⟨hc.1, hsp hc.2⟩⟩
    · rw [if_neg hc, if_neg hc]; exact hxy
  refine key _ ?_ _ _ ?_
  · intro hs ch hch
    rw [hch] at hs
    exact hs
  · have ht : SameStart S o f (tryStarts (blockStarts c) f) (tryStarts (blockStarts d) (f.put S o)) := by
      refine hat_tryStarts ?_
      unfold blockStarts
      exact .cons (hat_quote h h1 h2) <| .cons (hat_atx h h1 h2) <| .cons (hat_fenced h h1 h2) <|
        .cons (hat_html h h1 h2 hd fun hp => (hl.para hp).1) <| .cons (hat_setext hd fun hp => (hl.para hp).2.1) <|
        .cons (hat_thematic h h1 h2) <| .cons (hat_item h h1 h2 hd hi (fun hp => (hl.para hp).2.2) hl.list) <|
        .cons (hat_indented h h1 h2 hl.tip) .nil
    rcases ht with ⟨e1, e2⟩ | ⟨e1, e2⟩
    · right
      exact ⟨by rw [e1]; rfl, by rw [e2]; rfl, .inr ⟨_, e2⟩⟩
    · left
      rw [e1]

end
end CM
