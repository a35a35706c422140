import Verif.Proofs.ColumnsRun
import Verif.Proofs.LineKinds
import Verif.Proofs.Fenced
/-
C34 (line classifiers) and C35 (tab stops).
-/
namespace CM
open Spec

/-! ### C34 -/

/-- C34: thematic breaks. -/
theorem C34_thematic_break (l : Str) (hl : '\n' ∉ l) :
    (reThematicBreak.matchPrefix l).isSome = true ↔ ThematicBreak l := thematic_iff hl

/-- C34: ATX headings. -/
theorem C34_atx_heading (l : Str) (hl : '\n' ∉ l) :
    (reATXHeadingMarker.matchPrefix l).isSome = true ↔ ∃ n, AtxMarker n l := atx_iff hl

/-- C34: setext underlines. -/
theorem C34_setext_underline (l : Str) (hl : '\n' ∉ l) :
    (reSetextHeadingLine.matchPrefix l).isSome = true ↔ ∃ c, SetextUnderline c l := setext_iff hl

/-- C34: code fences. -/
theorem C34_code_fence (l : Str) (hl : '\n' ∉ l) :
    (reCodeFence.matchPrefix l).isSome = true ↔ ∃ c n info, CodeFence c n info l := fence_iff hl

/-- C34: the text taken as the fence is the whole run. -/
theorem C34_code_fence_run {c : Char} {n : Nat} {info l : Str} (h : CodeFence c n info l) :
    reCodeFence.matchPrefix l = some (List.replicate n c) := fence_match h

/-- C34: closing fences. -/
theorem C34_closing_fence (l : Str) (hl : '\n' ∉ l) :
    (reClosingCodeFence.matchPrefix l).isSome = true ↔ ∃ c n, ClosingFence c n l := closing_iff hl

example : ThematicBreak "* *\t* ".toList :=
  ⟨'*', Or.inl rfl, rfl, by decide, by decide⟩
example : ¬ ThematicBreak "* * -".toList := by
  rw [← C34_thematic_break _ (by decide)]; decide +kernel
example : AtxMarker 2 "## a".toList := ⟨by decide, by decide, " a".toList, rfl, by decide⟩
example : SetextUnderline '=' "=== ".toList := ⟨Or.inl rfl, 3, [' '], by decide, rfl, by simp [OnlySpTab]⟩
example : CodeFence '`' 4 " py".toList "```` py".toList := ⟨by decide, rfl, by decide, Or.inl ⟨rfl, by decide⟩⟩
example : ¬ ∃ c n info, CodeFence c n info "``` a`".toList := by
  rw [← C34_code_fence _ (by decide)]; decide +kernel

/-! ### C35 -/

/-- C35: looking for the next character that is neither space nor tab finds it (or the end of the line), with its
visual column and its distance from the current column. -/
theorem C35_find {p : PState} (h : ColumnOf p.currentLine p.offset p.column p.partiallyConsumedTab) :
    let q := findNextNonspace p
    (∃ w t, p.currentLine.drop p.offset = w ++ t ∧ OnlySpTab w ∧ (∀ c, t.head? = some c → c ≠ ' ' ∧ c ≠ '\t') ∧
      q.nextNonspace = p.offset + w.length) ∧
    q.nextNonspaceColumn = columnFrom 0 (p.currentLine.take q.nextNonspace) ∧
    q.indent = q.nextNonspaceColumn - p.column := by
  obtain ⟨w, t, h1, h2, h3, h4, h5, h6, _⟩ := find_column h
  refine ⟨⟨w, t, h1, spTab_iff.1 h2, ?_, h4⟩, h5, h6⟩
  intro c hc
  have := h3 c hc
  simpa [isSpTab] using this

/-- C35: advancing by `n` columns moves by `n` columns, or to the end of the line. -/
theorem C35_advance_columns {p : PState} (h : ColumnOf p.currentLine p.offset p.column p.partiallyConsumedTab) (n : Nat) :
    let q := advanceOffset n true p
    ColumnOf q.currentLine q.offset q.column q.partiallyConsumedTab ∧ q.currentLine = p.currentLine ∧
      p.offset ≤ q.offset ∧
      q.column = min (p.column + n) (columnFrom p.column (p.currentLine.drop p.offset)) := by
  obtain ⟨h1, h2, h3⟩ := advanceLoop_columnOf n n p.offset p.column p.partiallyConsumedTab (Nat.le_refl _) h
  exact ⟨h1, rfl, h3, h2⟩

/-- C35: advancing by `n` characters moves by `n` characters, or to the end of the line. -/
theorem C35_advance_characters {p : PState} (h : ColumnOf p.currentLine p.offset p.column p.partiallyConsumedTab) (n : Nat) :
    let q := advanceOffset n false p
    ColumnOf q.currentLine q.offset q.column q.partiallyConsumedTab ∧ q.currentLine = p.currentLine ∧
      q.offset = min (p.offset + n) p.currentLine.length := by
  obtain ⟨h1, h2⟩ := advanceLoop_charsOf n n p.offset p.column p.partiallyConsumedTab (Nat.le_refl _) h
  exact ⟨h1, rfl, h2⟩

/-- C35: on every line, whatever blocks are open, the column is the visual column of the offset after the open
blocks have been matched. -/
theorem C35_matching (blocks : List OpenBlk) (depth d : Nat) (p q : PState)
    (h : ColumnOf p.currentLine p.offset p.column p.partiallyConsumedTab)
    (e : contLoop blocks depth p = .ok (.inr (d, q))) :
    ColumnOf q.currentLine q.offset q.column q.partiallyConsumedTab := col_contLoop blocks depth h e

/-- C35: and after the new blocks have been opened. -/
theorem C35_starting (fuel : Nat) (container : NodeData) (p q : PState)
    (h : ColumnOf p.currentLine p.offset p.column p.partiallyConsumedTab)
    (e : startsLoop fuel container p = .ok q) :
    ColumnOf q.currentLine q.offset q.column q.partiallyConsumedTab := col_startsLoop fuel h e

/-- C35: the beginning of a line. -/
theorem C35_line_start (line : Str) : ColumnOf line 0 0 false := col_line line

/-- C35: the text that is then added to a block has the width of the rest of the line: what is left of a partially
used tab is replaced by spaces. -/
theorem C35_added_text {p q : PState} (h : ColumnOf p.currentLine p.offset p.column p.partiallyConsumedTab)
    {b : OpenBlk} {r : List OpenBlk} {x : Str} (hs : p.spine = b :: r) (hx : b.data.stringContent = some x)
    (e : addLine p = .ok q) :
    ∃ text, q.spine = { b with data := { b.data with stringContent := some (x ++ text ++ ['\n']) } } :: r ∧
      columnFrom p.column text = columnFrom 0 p.currentLine ∧
      (p.partiallyConsumedTab = false → text = p.currentLine.drop p.offset) ∧
      (p.partiallyConsumedTab = true → ∃ k, text = List.replicate k ' ' ++ p.currentLine.drop (p.offset + 1)) := by
  obtain ⟨h1, h2⟩ := h
  have hline : ∀ k, columnFrom 0 p.currentLine =
      columnFrom (columnFrom 0 (p.currentLine.take k)) (p.currentLine.drop k) := by
    intro k
    rw [← columnFrom_append, List.take_append_drop]
  unfold addLine at e
  cases hp : p.partiallyConsumedTab with
  | false =>
    rw [hp] at e h2
    simp only [Bool.false_eq_true, ↓reduceIte, appendContent, hs, hx, Except.ok.injEq] at e h2
    refine ⟨p.currentLine.drop p.offset, ?_, ?_, fun _ => rfl, fun h => by cases h⟩
    · rw [← e, List.append_assoc]
    · rw [h2, ← hline]
  | true =>
    rw [hp] at e h2
    simp only [↓reduceIte, appendContent, hs, hx, Except.ok.injEq] at e h2
    obtain ⟨⟨s, hr⟩, hlt1, hlt2⟩ := h2
    refine ⟨List.replicate (4 - p.column % 4) ' ' ++ p.currentLine.drop (p.offset + 1), ?_, ?_,
      fun h => by (cases h), fun _ => ⟨_, rfl⟩⟩
    · rw [← e]; simp
    · rw [hline p.offset, hr, columnFrom_append, columnFrom_noTab _ (s := List.replicate (4 - p.column % 4) ' ') (by simp [List.mem_replicate]), List.length_replicate,
        tab_stop]
      have hd : p.currentLine.drop (p.offset + 1) = s := by rw [← List.drop_drop, hr]; rfl
      rw [hd]
      simp only [columnFrom, if_true]
      congr 1
      unfold nextStop at *
      omega

/-- A tab after two characters goes to column 4; two columns of a tab at column 0 leave the offset on it. -/
example : columnFrom 0 "ab\tc".toList = 5 := by decide
example : ColumnOf "\tx".toList 0 2 true := ⟨by decide, by
  simp only [if_true]; exact ⟨⟨"x".toList, rfl⟩, by decide, by decide⟩⟩
example : (parse false "-\t\tfoo".toList).toOption.map (fun t =>
    t.children.map fun l => l.children.map fun i => i.children.map fun c => c.data.literal) =
    some [[[some "  foo\n".toList]]] := by decide +kernel

end CM
