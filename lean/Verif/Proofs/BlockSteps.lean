import Mathlib.Logic.Relation
import Mathlib.Data.List.TakeWhile
import Verif.Proofs.RegexLen
import Verif.Model.Blocks
/-
The block phase as a sequence of primitive steps on the part of the parser state that matters for
the tree (`Core`), and the proof that `incorporateLine` never fails and performs such steps.
-/
namespace CM

/-- The parser state without the cursor. -/
structure Core where
  spine : List OpenBlk
  refmap : RefMap
  line : Nat
  text : Str
  prevLen : Nat

def PState.core (p : PState) : Core :=
  ⟨p.spine, p.refmap, p.lineNumber, p.currentLine, p.lastLineLength⟩

/-- Bookkeeping of the closing of blocks. -/
structure Books where
  allClosed : Bool
  oldtip : Nat
  lastMatched : Nat
  doc : Option Tree

def PState.books (p : PState) : Books := ⟨p.allClosed, p.oldtip, p.lastMatched, p.doc⟩

/-! ### The cursor -/

theorem core_find (p : PState) : (findNextNonspace p).core = p.core := rfl
theorem books_find (p : PState) : (findNextNonspace p).books = p.books := rfl
theorem core_advN (p : PState) : (advanceNextNonspace p).core = p.core := rfl
theorem books_advN (p : PState) : (advanceNextNonspace p).books = p.books := rfl
theorem core_adv (n b) (p : PState) : (advanceOffset n b p).core = p.core := rfl
theorem books_adv (n b) (p : PState) : (advanceOffset n b p).books = p.books := rfl

theorem core_fence (n) (p : PState) : (skipFenceOffset n p).core = p.core := by
  induction n generalizing p with
  | zero => rfl
  | succ n ih => simp only [skipFenceOffset]; split
                 · rw [ih]; rfl
                 · rfl

theorem books_fence (n) (p : PState) : (skipFenceOffset n p).books = p.books := by
  induction n generalizing p with
  | zero => rfl
  | succ n ih => simp only [skipFenceOffset]; split
                 · rw [ih]; rfl
                 · rfl

theorem core_eat (p : PState) : (eatQuoteMarker p).core = p.core := by
  simp only [eatQuoteMarker]; split <;> rfl
theorem books_eat (p : PState) : (eatQuoteMarker p).books = p.books := by
  simp only [eatQuoteMarker]; split <;> rfl
theorem core_end (p : PState) : (advanceToEnd p).core = p.core := rfl
theorem books_end (p : PState) : (advanceToEnd p).books = p.books := rfl

/-- What `skipWs` returns. -/
theorem skipWs_spec (s : Str) : ∀ (i cols : Nat), i ≤ (skipWs s i cols).1 ∧
    (skipWs s i cols).1 ≤ i + s.length ∧ (skipWs s i cols).2.2 = s[(skipWs s i cols).1 - i]? ∧
    cols ≤ (skipWs s i cols).2.1 := by
  induction s with
  | nil => intro i cols; simp [skipWs]
  | cons c cs ih =>
    intro i cols
    simp only [skipWs]
    split
    · obtain ⟨h1, h2, h3, h4⟩ := ih (i + 1) (cols + 1)
      refine ⟨by omega, by simp only [List.length_cons]; omega, ?_, by omega⟩
      rw [h3]
      rw [show (skipWs cs (i + 1) (cols + 1)).1 - i = ((skipWs cs (i + 1) (cols + 1)).1 - (i + 1)) + 1 by omega]
      rfl
    · split
      · generalize hk : cols + (4 - cols % 4) = k at *
        obtain ⟨h1, h2, h3, h4⟩ := ih (i + 1) k
        refine ⟨by omega, by simp only [List.length_cons]; omega, ?_, by omega⟩
        rw [h3]
        rw [show (skipWs cs (i + 1) k).1 - i = ((skipWs cs (i + 1) k).1 - (i + 1)) + 1 by omega]
        rfl
      · simp

/-- The offset is inside the line. -/
def Cur (p : PState) : Prop := p.offset ≤ p.currentLine.length

theorem skipWs_stop (s : Str) : ∀ (i cols : Nat), (skipWs s i cols).2.2 ≠ some '\t' ∧
    (skipWs s i cols).2.2 ≠ some ' ' := by
  induction s with
  | nil => intro i cols; simp [skipWs]
  | cons c cs ih =>
    intro i cols
    simp only [skipWs]
    split
    · exact ih _ _
    · split
      · exact ih _ _
      · simp_all

/-- What `skipWs` passes. -/
theorem skipWs_white (s : Str) : ∀ (i cols j : Nat), i ≤ j → j < (skipWs s i cols).1 →
    s[j - i]? = some ' ' ∨ s[j - i]? = some '\t' := by
  induction s with
  | nil => intro i cols j h1 h2; simp [skipWs] at h2; omega
  | cons c cs ih =>
    intro i cols j h1 h2
    simp only [skipWs] at h2
    have step : ∀ k, j < (skipWs cs (i + 1) k).1 → (c = ' ' ∨ c = '\t') →
        (c :: cs)[j - i]? = some ' ' ∨ (c :: cs)[j - i]? = some '\t' := by
      intro k hk hc
      by_cases e : j = i
      · subst e; simpa using hc
      · have := ih (i + 1) k j (by omega) hk
        rw [show j - i = (j - (i + 1)) + 1 by omega]
        simpa using this
    split at h2
    · rename_i hc; exact step _ h2 (Or.inl (by simpa using hc))
    · split at h2
      · rename_i hc; exact step _ h2 (Or.inr (by simpa using hc))
      · simp at h2; omega

/-- Going forward by no more columns than there are spaces and tabs stays within them. -/
theorem advanceLoop_le (line : Str) : ∀ (fuel n off col : Nat) (b : Bool), off ≤ line.length →
    n ≤ (skipWs (line.drop off) off col).2.1 - col →
    (advanceLoop line true fuel n off col b).1 ≤ (skipWs (line.drop off) off col).1 := by
  intro fuel
  induction fuel with
  | zero => intro n off col b _ _; simp only [advanceLoop]; exact (skipWs_spec _ _ _).1
  | succ fuel ih =>
    intro n off col b ho hn
    simp only [advanceLoop]
    split
    · exact (skipWs_spec _ _ _).1
    · rename_i hn0
      split
      · exact (skipWs_spec _ _ _).1
      · rename_i c hc
        obtain ⟨hlt, rfl⟩ := List.getElem?_eq_some_iff.1 hc
        have hd := List.drop_eq_getElem_cons hlt
        split
        · rename_i htab
          have htab : line[off] = '\t' := by simpa using htab
          have e : skipWs (line.drop off) off col = skipWs (line.drop (off + 1)) (off + 1) (col + (4 - col % 4)) := by
            rw [hd, htab]; rfl
          by_cases hp : 4 - col % 4 > n
          · have hm : min n (4 - col % 4) = n := by omega
            simp only [hp, decide_true, if_true, hm, Nat.sub_self]
            cases fuel with
            | zero => exact (skipWs_spec _ _ _).1
            | succ k => simp only [advanceLoop]; exact (skipWs_spec _ _ _).1
          · have hm : min n (4 - col % 4) = 4 - col % 4 := by omega
            simp only [hp, decide_false, if_false, hm, Bool.false_eq_true, if_true]
            rw [e] at hn ⊢
            exact ih _ _ _ _ (by omega) (by omega)
        · rename_i htab
          have htab : ¬ line[off] = '\t' := by simpa using htab
          by_cases hs : line[off] = ' '
          · have e : skipWs (line.drop off) off col = skipWs (line.drop (off + 1)) (off + 1) (col + 1) := by
              rw [hd, hs]; rfl
            rw [e] at hn ⊢
            exact ih _ _ _ _ (by omega) (by omega)
          · have e : skipWs (line.drop off) off col = (off, col, some line[off]) := by
              rw [hd]; simp [skipWs, hs, htab]
            rw [e] at hn
            simp only [Nat.sub_self] at hn
            simp only [beq_iff_eq] at hn0
            omega

/-- `nextNonspace` and the other results of `find_next_nonspace` are up to date. -/
structure CurN (p : PState) : Prop where
  cur : Cur p
  ge : p.offset ≤ p.nextNonspace
  le : p.nextNonspace ≤ p.currentLine.length
  nospace : p.currentLine[p.nextNonspace]? ≠ some '\t' ∧ p.currentLine[p.nextNonspace]? ≠ some ' '
  indented : p.indented = decide (p.indent ≥ 4)
  blank : p.blank = match p.currentLine[p.nextNonspace]? with
    | none => true
    | some c => c == '\n' || c == '\r'
  adv : ∀ n, n ≤ p.indent → (advanceOffset n true p).offset ≤ p.nextNonspace
  white : ∀ j, p.offset ≤ j → j < p.nextNonspace → p.currentLine[j]? = some ' ' ∨ p.currentLine[j]? = some '\t'

theorem curN_find {p : PState} (h : Cur p) : CurN (findNextNonspace p) := by
  have hs := skipWs_spec (p.currentLine.drop p.offset) p.offset p.column
  have hn := skipWs_stop (p.currentLine.drop p.offset) p.offset p.column
  simp only [List.length_drop] at hs
  have e1 : (findNextNonspace p).nextNonspace =
    (skipWs (p.currentLine.drop p.offset) p.offset p.column).1 := rfl
  have e2 : (findNextNonspace p).offset = p.offset := rfl
  have e3 : (findNextNonspace p).currentLine = p.currentLine := rfl
  have e4 : p.currentLine[(skipWs (p.currentLine.drop p.offset) p.offset p.column).1]? =
      (skipWs (p.currentLine.drop p.offset) p.offset p.column).2.2 := by
    rw [hs.2.2.1, List.getElem?_drop]
    congr 1
    have := hs.1
    omega
  simp only [Cur] at h
  refine ⟨?_, ?_, ?_, ?_, rfl, ?_, fun n hn => advanceLoop_le _ _ _ _ _ _ h hn, ?_⟩
  · simp only [Cur, e2, e3]; exact h
  · rw [e1, e2]; exact hs.1
  · rw [e1, e3]; omega
  · rw [e1, e3, e4]; exact hn
  · rw [e1, e3, e4]; rfl
  · intro j h1 h2
    rw [e2] at h1
    rw [e1] at h2
    have := skipWs_white _ _ _ j h1 h2
    rw [List.getElem?_drop, show p.offset + (j - p.offset) = j by omega] at this
    exact this

theorem cur_advN {p : PState} (h : CurN p) : Cur (advanceNextNonspace p) := h.le

theorem advanceLoop_spec (line : Str) (columns : Bool) : ∀ (fuel count off col : Nat) (pct : Bool),
    off ≤ line.length → off ≤ (advanceLoop line columns fuel count off col pct).1 ∧
      (advanceLoop line columns fuel count off col pct).1 ≤ line.length ∧
      col ≤ (advanceLoop line columns fuel count off col pct).2.1 := by
  intro fuel
  induction fuel with
  | zero => intro count off col pct h; simp [advanceLoop, h]
  | succ fuel ih =>
    intro count off col pct h
    simp only [advanceLoop]
    split
    · simp [h]
    · split
      · simp [h]
      · rename_i c hc
        have hlt : off < line.length := (List.getElem?_eq_some_iff.1 hc).1
        split
        · split
          · have key : ∀ (o : Nat) (k : Nat) (c' : Nat) (b : Bool), (o = off ∨ o = off + 1) → col ≤ c' →
                off ≤ (advanceLoop line columns fuel k o c' b).1 ∧
                (advanceLoop line columns fuel k o c' b).1 ≤ line.length ∧
                col ≤ (advanceLoop line columns fuel k o c' b).2.1 := by
              intro o k c' b ho hc'
              obtain ⟨h1, h2, h3⟩ := ih k o c' b (by omega)
              exact ⟨by omega, h2, by omega⟩
            refine key _ _ _ _ ?_ (Nat.le_add_right _ _)
            split
            · exact Or.inl rfl
            · exact Or.inr rfl
          · obtain ⟨h1, h2, h3⟩ := ih (count - 1) (off + 1) (col + (4 - col % 4)) false (by omega)
            exact ⟨by omega, h2, by omega⟩
        · obtain ⟨h1, h2, h3⟩ := ih (count - 1) (off + 1) (col + 1) false (by omega)
          exact ⟨by omega, h2, by omega⟩

theorem offset_adv {p : PState} (h : Cur p) (n : Nat) (b : Bool) :
    p.offset ≤ (advanceOffset n b p).offset := (advanceLoop_spec _ b n n _ _ _ h).1

theorem cur_adv {p : PState} (h : Cur p) (n : Nat) (b : Bool) : Cur (advanceOffset n b p) :=
  (advanceLoop_spec _ b n n _ _ _ h).2.1

theorem column_adv {p : PState} (h : Cur p) (n : Nat) (b : Bool) :
    p.column ≤ (advanceOffset n b p).column := (advanceLoop_spec _ b n n _ _ _ h).2.2

/-- Skipping one character. -/
theorem advanceLoop_chars (line : Str) : ∀ (n off col : Nat) (pct : Bool),
    off + n ≤ line.length → (advanceLoop line false n n off col pct).1 = off + n := by
  intro n
  induction n with
  | zero => intro off col pct _; simp [advanceLoop]
  | succ n ih =>
    intro off col pct h
    simp only [advanceLoop]
    rw [if_neg (by simp)]
    have : ∃ c, line[off]? = some c := ⟨line[off]'(by omega), List.getElem?_eq_getElem _⟩
    obtain ⟨c, hc⟩ := this
    rw [hc]
    simp only []
    split
    · rw [if_neg (by simp), Nat.add_sub_cancel, ih _ _ _ (by omega)]; omega
    · rw [Nat.add_sub_cancel, ih _ _ _ (by omega)]; omega

theorem offset_chars {p : PState} {n : Nat} (h : p.offset + n ≤ p.currentLine.length) :
    (advanceOffset n false p).offset = p.offset + n := advanceLoop_chars _ n _ _ _ h

theorem offset_end {p : PState} (h : Cur p) : (advanceToEnd p).offset = p.currentLine.length := by
  have h' : p.offset ≤ p.currentLine.length := h
  simp only [advanceToEnd]
  rw [offset_chars (by omega)]
  omega

theorem cur_fence {p : PState} (h : Cur p) (n : Nat) : Cur (skipFenceOffset n p) := by
  induction n generalizing p with
  | zero => exact h
  | succ n ih =>
    simp only [skipFenceOffset]
    split
    · exact ih (cur_adv h _ _)
    · exact h

theorem cur_eat {p : PState} (h : CurN p) : Cur (eatQuoteMarker p) := by
  simp only [eatQuoteMarker]
  split
  · exact cur_adv (cur_adv (cur_advN h) _ _) _ _
  · exact cur_adv (cur_advN h) _ _

/-- `>` is consumed. -/
theorem offset_eat {p : PState} (h : CurN p) {c : Char} (hc : peekAt p.currentLine p.nextNonspace = some c) :
    p.offset < (eatQuoteMarker p).offset := by
  have hlt : p.nextNonspace < p.currentLine.length := (List.getElem?_eq_some_iff.1 hc).1
  have e : (advanceOffset 1 false (advanceNextNonspace p)).offset = p.nextNonspace + 1 :=
    offset_chars (p := advanceNextNonspace p) hlt
  have ho := h.ge
  simp only [eatQuoteMarker]
  split
  · have := offset_adv (cur_adv (cur_advN h) 1 false) 1 true
    rw [e] at this
    omega
  · rw [e]; omega

/-! ### Primitive steps -/

/-- First line of a block. -/
def startLine (d : NodeData) : Nat := (d.sourcepos.map (·.1.1)).getD 0

/-- Containers other than lists: they accept every block but items. -/
def wide (k : Kind) : Prop := k = .document ∨ k = .blockQuote ∨ k = .item

theorem wide_canContain {k tag : Kind} (h : wide k) (ht : tag ≠ .item) : canContain k tag = true := by
  rcases h with rfl | rfl | rfl <;> simpa [canContain] using ht

/-- The node that `finalize` works on. -/
def closeData (line len : Nat) (d : NodeData) : NodeData :=
  { d with isOpen := false, sourcepos := d.sourcepos.map fun sp => (sp.1, (line, len)) }

/-- A new node on the current line. -/
def atLine (t : Kind) (line col : Nat) : NodeData := { t := t, sourcepos := some ((line, col + 1), (0, 0)) }

/-- The nodes that block starts create (list items apart). -/
inductive NewBlock (c : Core) : NodeData → Prop
  | quote (col : Nat) : col < c.text.length → c.text[col]? = some '>' → NewBlock c (atLine .blockQuote c.line col)
  | atx (col : Nat) (m : Str) (k : Nat) : col < c.text.length →
      reATXHeadingMarker.matchPrefix (c.text.drop col) = some m →
      NewBlock c { atLine .heading c.line col with
        level := some (strip m).length, stringContent := some (atxContent (c.text.drop k)) }
  | fenced (col : Nat) (m : Str) (k : Nat) : col < c.text.length →
      reCodeFence.matchPrefix (c.text.drop col) = some m → k ≤ 3 →
      NewBlock c { atLine .codeBlock c.line col with
        isFenced := true, fenceLength := m.length, fenceChar := m.head?, fenceOffset := k }
  | html (col i : Nat) : col < c.text.length → 1 ≤ i → i ≤ 7 →
      (∃ k n, col ≤ n ∧ (∀ j, col ≤ j → j < n → c.text[j]? = some ' ' ∨ c.text[j]? = some '\t') ∧
        htmlBlockType k (c.text.drop n) = some i) →
      NewBlock c { atLine .htmlBlock c.line col with htmlBlockType := i }
  | thematic (col : Nat) : col < c.text.length → (reThematicBreak.matchPrefix (c.text.drop col)).isSome = true →
      NewBlock c (atLine .thematicBreak c.line col)
  | indented (col : Nat) : col < c.text.length →
      (∃ j ch, col ≤ j ∧ c.text[j]? = some ch ∧ ch ≠ ' ' ∧ ch ≠ '\t') → NewBlock c (atLine .codeBlock c.line col)

/-- The data of a list marker on the current line at column `col`. -/
structure MarkerAt (c : Core) (col : Nat) (l : ListData) : Prop where
  inside : col < c.text.length
  tight : l.tight = true
  marker : ∃ k m, listMarker k (c.text.drop col) = some (m, l.type, l.bulletChar, l.start, l.delimiter) ∧
    ((c.text[col + m.length]?).isNone || isSpTabOpt c.text[col + m.length]?) = true

/-- `node.string_content = x`. -/
def setContent (d : NodeData) (x : Str) : NodeData := { d with stringContent := some x }

/-- The rest of the current line as `add_line` writes it. -/
def lineText (c : Core) (k off : Nat) : Str := List.replicate k ' ' ++ (c.text.drop off ++ ['\n'])

/-- The blank-line flags of the open blocks. -/
def flagSpine (blank flag : Bool) (b : OpenBlk) (r : List OpenBlk) : List OpenBlk :=
  ((if blank then { b with children := markLastChild b.children } else b) :: r).map
    fun x => { x with data := { x.data with lastLineBlank := flag } }

/-- A setext heading made from a paragraph. -/
def setextData (d : NodeData) (lvl : Nat) (x : Str) : NodeData :=
  { t := .heading, sourcepos := d.sourcepos, level := some lvl, stringContent := some x }

/-- One step of the block phase. -/
inductive Step (c : Core) : Core → Prop
  /-- `finalize(self.tip, l)` -/
  | close (l : Nat) {b par : OpenBlk} {up : List OpenBlk} {t : Option Tree} {m : RefMap} :
      c.spine = b :: par :: up → startLine b.data ≤ l → l + 1 = c.line →
      finalizeBlock (closeData l c.prevLen b.data) b.children c.refmap = .ok (t, m) →
      Step c { c with spine := { par with children := par.children ++ t.toList } :: up, refmap := m }
  /-- a new block -/
  | push {b : OpenBlk} {r : List OpenBlk} {d : NodeData} : c.spine = b :: r →
      canContain b.data.t d.t = true → NewBlock c d → Step c { c with spine := ⟨d, []⟩ :: c.spine }
  /-- a new paragraph, starting at a character that is neither a space nor a tab -/
  | paragraph {b : OpenBlk} {r : List OpenBlk} {ch : Char} (off : Nat) : c.spine = b :: r →
      canContain b.data.t .paragraph = true → c.text[off]? = some ch → ch ≠ ' ' → ch ≠ '\t' →
      Step c { c with spine :=
        ⟨setContent (atLine .paragraph c.line off) (lineText c 0 off), []⟩ :: c.spine }
  /-- a new item of the list at the tip -/
  | pushItem {b : OpenBlk} {r : List OpenBlk} (col : Nat) (l : ListData) : c.spine = b :: r →
      b.data.t = .list → listsMatch b.data.listData l = true → MarkerAt c col l →
      Step c { c with spine := ⟨{ atLine .item c.line col with listData := some l }, []⟩ :: c.spine }
  /-- a new list with its first item -/
  | pushList {b : OpenBlk} {r : List OpenBlk} (col : Nat) (l : ListData) : c.spine = b :: r →
      canContain b.data.t .list = true → MarkerAt c col l →
      Step c { c with spine := ⟨{ atLine .item c.line col with listData := some l }, []⟩ ::
        ⟨{ atLine .list c.line col with listData := some l }, []⟩ :: c.spine }
  /-- the rest of the line is added to the tip -/
  | addLine {b : OpenBlk} {r : List OpenBlk} (x : Str) (k off : Nat) : c.spine = b :: r →
      acceptsLines b.data.t = true → b.data.stringContent = some x →
      Step c { c with spine := { b with data := setContent b.data (x ++ lineText c k off) } :: r }
  /-- the blank-line flags -/
  | flags {b : OpenBlk} {r : List OpenBlk} (blank flag : Bool) : c.spine = b :: r →
      Step c { c with spine := flagSpine blank flag b r }
  /-- a setext underline below a paragraph of reference definitions -/
  | refs {b : OpenBlk} {r : List OpenBlk} {x : Str} {m : RefMap} {h : Bool} : c.spine = b :: r →
      b.data.t = .paragraph → b.data.stringContent = some x →
      refLoop (x.length + 1) x c.refmap false = .ok ([], m, h) →
      Step c { c with refmap := m, spine := { b with data := { b.data with stringContent := some [] } } :: r }
  /-- a setext heading -/
  | setext {b : OpenBlk} {r : List OpenBlk} {x x' : Str} {m : RefMap} {h : Bool} (lvl : Nat) :
      c.spine = b :: r → b.data.t = .paragraph → b.data.stringContent = some x →
      refLoop (x.length + 1) x c.refmap false = .ok (x', m, h) → x' ≠ [] → lvl = 1 ∨ lvl = 2 →
      (∃ col m, reSetextHeadingLine.matchPrefix (c.text.drop col) = some m ∧ lvl = if m.head? == some '=' then 1 else 2) →
      startLine b.data ≤ c.line →
      Step c { c with refmap := m, spine := ⟨setextData b.data lvl x', []⟩ :: r }

/-- The step that closes the tip. -/
def Closing (c c' : Core) : Prop := ∃ (l : Nat) (b par : OpenBlk) (up : List OpenBlk) (t : Option Tree) (m : RefMap),
  c.spine = b :: par :: up ∧ startLine b.data ≤ l ∧ l + 1 = c.line ∧
  finalizeBlock (closeData l c.prevLen b.data) b.children c.refmap = .ok (t, m) ∧
  c' = { c with spine := { par with children := par.children ++ t.toList } :: up, refmap := m }

theorem Closing.step {c c' : Core} (h : Closing c c') : Step c c' := by
  obtain ⟨l, b, par, up, t, m, h1, h2, h3, h4, rfl⟩ := h
  exact .close l h1 h2 h3 h4

/-- Any number of steps. -/
abbrev Steps : Core → Core → Prop := Relation.ReflTransGen Step

/-- A block that can end on a line of its own: a fenced code block, or an HTML block of the first five kinds. -/
def EndsHere (d : NodeData) : Prop :=
  (d.t = .codeBlock ∧ d.isFenced = true) ∨ (d.t = .htmlBlock ∧ 1 ≤ d.htmlBlockType ∧ d.htmlBlockType ≤ 5)

/-- The end of a fenced code block or of an HTML block on the current line: always the last thing
that happens on a line. -/
inductive Final (c : Core) : Core → Prop
  | close {b par : OpenBlk} {up : List OpenBlk} {t : Option Tree} {m : RefMap} :
      c.spine = b :: par :: up → startLine b.data ≤ c.line →
      EndsHere b.data →
      finalizeBlock (closeData c.line c.prevLen b.data) b.children c.refmap = .ok (t, m) →
      Final c { c with spine := { par with children := par.children ++ t.toList } :: up, refmap := m }

/-- All that happens on one line. -/
inductive LineSteps (c : Core) : Core → Prop
  | steps {c' : Core} : Steps c c' → LineSteps c c'
  | final {c1 c' : Core} : Steps c c1 → Final c1 c' → LineSteps c c'

theorem LineSteps.head {c c1 c' : Core} (h : Steps c c1) (h' : LineSteps c1 c') : LineSteps c c' := by
  cases h' with
  | steps h' => exact .steps (h.trans h')
  | final h' hf => exact .final (h.trans h') hf

/-! ### The chain of open blocks -/

/-- The data of the open blocks, tip first: the innermost is the document, every other block is
allowed in the next one and does not start before it. -/
inductive Chain : List NodeData → Prop
  | doc {d : NodeData} : d.t = .document → Chain [d]
  | cons {d e : NodeData} {r : List NodeData} : canContain e.t d.t = true → d.t ≠ .document →
      startLine e ≤ startLine d → Chain (e :: r) → Chain (d :: e :: r)

/-- A block that can be closed. -/
structure Closable (d : NodeData) : Prop where
  content : ∃ x, d.stringContent = some x
  fence : d.t = .codeBlock → d.isFenced = true → ∃ x, d.stringContent = some x ∧ '\n' ∈ x
  pos : ∃ sp, d.sourcepos = some sp

/-- The data of the open blocks. -/
def PState.ds (p : PState) : List NodeData := p.spine.map (·.data)

/-- All open blocks are in order. -/
structure GoodChain (ds : List NodeData) : Prop where
  chain : Chain ds
  closable : ∀ d ∈ ds, Closable d

theorem Chain.ne_nil {ds : List NodeData} (h : Chain ds) : ds ≠ [] := by cases h <;> simp

theorem Chain.drop {ds : List NodeData} (h : Chain ds) : ∀ k, k < ds.length → Chain (ds.drop k) := by
  induction h with
  | doc h => intro k hk; obtain rfl : k = 0 := by simpa using hk
             exact .doc h
  | cons h1 h2 h3 h4 ih =>
    intro k hk
    cases k with
    | zero => exact .cons h1 h2 h3 h4
    | succ k => exact ih k (by simpa using hk)

theorem GoodChain.drop {ds : List NodeData} (h : GoodChain ds) (k : Nat) (hk : k < ds.length) : GoodChain (ds.drop k) :=
  ⟨h.chain.drop k hk, fun d hd => h.closable d (List.mem_of_mem_drop hd)⟩

theorem GoodChain.tail {d e : NodeData} {r : List NodeData} (h : GoodChain (d :: e :: r)) : GoodChain (e :: r) :=
  h.drop 1 (by simp)

theorem Chain.not_doc {d e : NodeData} {r : List NodeData} (h : Chain (d :: e :: r)) :
    d.t ≠ .document := by
  cases h with
  | cons _ h _ _ => exact h

/-- A leaf is the tip. -/
theorem Chain.leaf_tip {ds : List NodeData} (h : Chain ds) : ∀ {d : NodeData} (k : Nat),
    ds[k]? = some d → (∀ t, canContain d.t t = false) → k = 0 := by
  induction h with
  | doc h => intro d k hk _; have := (List.getElem?_eq_some_iff.1 hk).1; simpa using this
  | @cons a e r h1 h2 h3 h4 ih =>
    intro d k hk hl
    cases k with
    | zero => rfl
    | succ k =>
      exfalso
      simp only [List.getElem?_cons_succ] at hk
      obtain rfl := ih k hk hl
      simp only [List.getElem?_cons_zero, Option.some.injEq] at hk
      subst hk
      rw [hl] at h1; simp at h1

/-- Blocks below the tip started no later. -/
theorem Chain.mono {ds : List NodeData} (h : Chain ds) : ∀ {d : NodeData} {r : List NodeData},
    ds = d :: r → ∀ e ∈ ds, startLine e ≤ startLine d := by
  induction h with
  | doc h => intro d r hr e he; cases hr; simp at he; subst he; exact Nat.le_refl _
  | cons h1 h2 h3 h4 ih =>
    intro d r hr e he
    cases hr
    rcases List.mem_cons.1 he with rfl | he
    · exact Nat.le_refl _
    · exact Nat.le_trans (ih rfl e he) h3

/-! ### Closing one block -/

theorem refLoop_ok : ∀ (fuel : Nat) (x : Str) (m : RefMap) (h : Bool), x.length < fuel →
    ∃ r, refLoop fuel x m h = .ok r := by
  intro fuel
  induction fuel with
  | zero => intro x m h hx; omega
  | succ fuel ih =>
    intro x m h hx
    simp only [refLoop]
    by_cases hp : (peekAt x 0 == some '[') = true
    · rw [if_pos hp]
      have hne : x ≠ [] := by rintro rfl; simp [peekAt] at hp
      have hl : 0 < x.length := List.length_pos_iff.2 hne
      by_cases hn : ((parseReference x m).1 == 0) = true
      · rw [if_pos hn]; exact ⟨_, rfl⟩
      · rw [if_neg hn]
        apply ih
        simp only [beq_iff_eq] at hn
        rw [List.length_drop]; omega
    · rw [if_neg hp]; exact ⟨_, rfl⟩

theorem splitFirstLine_ok {x : Str} (h : '\n' ∈ x) : ∃ r, splitFirstLine x = some r := by
  simp only [splitFirstLine]
  cases hd : x.dropWhile (· != '\n') with
  | nil =>
    rw [List.dropWhile_eq_nil_iff] at hd
    have := hd _ h
    simp at this
  | cons a b => exact ⟨_, rfl⟩

theorem finalizeBlock_ok {d : NodeData} (h : Closable d) (cs : List Tree) (m : RefMap) (l len : Nat) :
    ∃ t m', finalizeBlock (closeData l len d) cs m = .ok (t, m') := by
  obtain ⟨x, hx⟩ := h.content
  have hx' : (closeData l len d).stringContent = some x := hx
  have ht : (closeData l len d).t = d.t := rfl
  have hf : (closeData l len d).isFenced = d.isFenced := rfl
  generalize closeData l len d = d' at hx' ht hf
  simp only [finalizeBlock]
  split
  · exact ⟨_, _, rfl⟩
  · rename_i hk
    simp only [finalizeCode, hx']
    by_cases hfe : d'.isFenced = true
    · rw [if_pos hfe]
      obtain ⟨y, hy, hn⟩ := h.fence (ht ▸ hk) (hf ▸ hfe)
      rw [hx] at hy; cases hy
      obtain ⟨⟨a, b⟩, hr⟩ := splitFirstLine_ok hn
      rw [hr]
      exact ⟨_, _, rfl⟩
    · rw [if_neg hfe]; exact ⟨_, _, rfl⟩
  · simp only [finalizeHtml, hx']; exact ⟨_, _, rfl⟩
  · simp only [finalizeParagraph, hx']
    obtain ⟨⟨c', m', b⟩, hr⟩ := refLoop_ok (x.length + 1) x m false (by omega)
    rw [hr]
    simp only [bind, Except.bind]
    by_cases hb : (b && isBlank c') = true
    · rw [if_pos hb]; exact ⟨_, _, rfl⟩
    · rw [if_neg hb]; exact ⟨_, _, rfl⟩
  · exact ⟨_, _, rfl⟩

/-- Closing the tip. -/
theorem finalizeTip_ok {p : PState} {b par : OpenBlk} {up : List OpenBlk} (hs : p.spine = b :: par :: up)
    (hc : Closable b.data) (l : Nat) : ∃ t m,
    finalizeBlock (closeData l p.lastLineLength b.data) b.children p.refmap = .ok (t, m) ∧
    finalizeTip l p = .ok { p with
      spine := { par with children := par.children ++ t.toList } :: up, refmap := m } := by
  obtain ⟨t, m, h⟩ := finalizeBlock_ok hc b.children p.refmap l p.lastLineLength
  refine ⟨t, m, h, ?_⟩
  simp only [finalizeTip, hs]
  simp only [closeData] at h
  rw [h]
  rfl

end CM
