import Verif.Proofs.HtmlTree
import Verif.Proofs.Rst
import Verif.Spec.RstTree
/-
The output of the reStructuredText renderer is the tree.
-/
namespace CM
open Spec

/-! ### Lines of code -/

theorem endsLine_eq (c : Char) : isLineBoundary c = endsLine c := by
  have key : isLineBoundary c = true ↔ endsLine c = true := by
    simp only [isLineBoundary, endsLine, Bool.or_eq_true, Bool.and_eq_true, decide_eq_true_eq, beq_iff_eq, List.contains_iff_mem, List.mem_cons,
      List.not_mem_nil, or_false]
    constructor
    · intro h
      have : ∀ d : Char, c.toNat = d.toNat → c = d := fun d h => Char.toNat_inj.1 h
      have hc : c.toNat = 10 ∨ c.toNat = 13 ∨ c.toNat = 11 ∨ c.toNat = 12 ∨ c.toNat = 28 ∨ c.toNat = 29 ∨ c.toNat = 30 ∨ c.toNat = 0x85 ∨
          c.toNat = 0x2028 ∨ c.toNat = 0x2029 := by omega
      rcases hc with h | h | h | h | h | h | h | h | h | h
      · exact .inl (this '\n' h)
      · exact .inr (.inl (this '\r' h))
      · exact .inr (.inr (.inl (this _ h)))
      · exact .inr (.inr (.inr (.inl (this _ h))))
      · exact .inr (.inr (.inr (.inr (.inl (this _ h)))))
      · exact .inr (.inr (.inr (.inr (.inr (.inl (this _ h))))))
      · exact .inr (.inr (.inr (.inr (.inr (.inr (.inl (this _ h)))))))
      · exact .inr (.inr (.inr (.inr (.inr (.inr (.inr (.inl (this _ h))))))))
      · exact .inr (.inr (.inr (.inr (.inr (.inr (.inr (.inr (.inl (this _ h)))))))))
      · exact .inr (.inr (.inr (.inr (.inr (.inr (.inr (.inr (.inr (this _ h)))))))))
    · rintro (rfl | rfl | rfl | rfl | rfl | rfl | rfl | rfl | rfl | rfl) <;> decide
  cases h : isLineBoundary c <;> cases h' : endsLine c <;> simp_all

/-- The lines with a text put before the first one. -/
def headed (cur : Str) : List Str → List Str
  | [] => if cur.isEmpty then [] else [cur]
  | l :: ls => (cur ++ l) :: ls

theorem pyLines_cons {c : Char} {r : Str} (h : ¬ (c = '\r' ∧ r.head? = some '\n')) : pyLines (c :: r) =
    if endsLine c then [] :: pyLines r else headed [c] (pyLines r) := by
  rw [pyLines]
  · split
    · rfl
    · cases pyLines r <;> rfl
  · rintro r' rfl rfl
    exact h ⟨rfl, rfl⟩

theorem splitLines_go : ∀ (s cur : Str), splitLines.go cur false s = headed cur.reverse (pyLines s) ∧
    splitLines.go [] true s = (match s with | '\n' :: r => pyLines r | _ => pyLines s)
  | [], cur => by
    constructor
    · rw [splitLines.go, pyLines, headed]
      cases cur <;> simp
    · simp [splitLines.go, pyLines]
  | c :: r, cur => by
    have ih := splitLines_go r
    have hh : ∀ ls, headed [] ls = ls := by intro ls; cases ls <;> simp [headed]
    have first : ∀ cur, splitLines.go cur false (c :: r) = headed cur.reverse (pyLines (c :: r)) := by
      intro cur
      rw [splitLines.go]
      simp only [Bool.and_false, Bool.false_eq_true, if_false, endsLine_eq]
      by_cases hb : endsLine c = true
      · rw [if_pos hb]
        by_cases hr : c = '\r'
        · subst hr
          rw [show ('\r' == '\r') = true from rfl, (ih []).2]
          cases r with
          | nil => simp [pyLines, headed, hb]
          | cons d r =>
            by_cases hd : d = '\n'
            · subst hd
              simp [pyLines, headed]
            · rw [pyLines_cons (c := '\r') (r := d :: r) (by simp [hd]), if_pos hb]
              simp only [headed, List.append_nil]
              split
              · rename_i h; cases h; exact absurd rfl hd
              · rfl
        · rw [show (c == '\r') = false by simpa using hr, (ih []).1, pyLines_cons (fun h => hr h.1), if_pos hb]
          rw [List.reverse_nil, hh, headed, List.append_nil]
      · rw [if_neg hb, (ih (c :: cur)).1, pyLines_cons (by rintro ⟨rfl, _⟩; exact hb rfl), if_neg hb]
        cases pyLines r <;> simp [headed]
    refine ⟨first cur, ?_⟩
    by_cases hc : c = '\n'
    · subst hc
      rw [splitLines.go]
      simp only [beq_self_eq_true, Bool.and_self, if_true]
      rw [(ih []).1]; simp [hh]
    · rw [splitLines.go]
      have h1 : (c == '\n' && true) = false := by simp [hc]
      have h2 := first []
      rw [splitLines.go] at h2
      simp only [Bool.and_false, Bool.false_eq_true, if_false] at h2
      rw [h1]
      simp only [Bool.false_eq_true, if_false]
      rw [h2]
      simp only [List.reverse_nil, hh]
      split
      · rename_i h; cases h; exact absurd rfl hc
      · rfl

theorem splitLines_eq (s : Str) : splitLines s = pyLines s := by
  rw [splitLines, (splitLines_go s []).1]
  cases pyLines s <;> simp [headed]

theorem codeText_join (ic : Str) (ls : List Str) : joinWith ['\n'] (ls.map fun l => repeatStr ic 4 ++ l) = codeText ic ls := by
  induction ls with
  | nil => rfl
  | cons l ls ih =>
    cases ls with
    | nil => rfl
    | cons m ls =>
      simp only [List.map_cons, joinWith, codeText] at ih ⊢
      rw [ih]
      simp [repeatStr]

theorem codeHead_eq (info : Option Str) : codeDirective info = codeHead info := by
  cases info with
  | none => rfl
  | some s =>
    unfold codeDirective codeHead
    simp only [Option.getD_some]
    rcases splitWords_first s with ⟨h1, h2⟩ | ⟨ws, h1, h2⟩
    · rw [h1, h2]; rfl
    · rw [h1, if_neg h2]

/-! ### Writing pieces -/

/-- The state after writing pieces. -/
def putR (ic : Str) : RState → List RPiece → RState
  | st, [] => st
  | st, (n, s) :: r => putR ic { (RState.lit ic s { st with indentLength := n }) with indentLength := st.indentLength } r

theorem putR_append (ic : Str) : ∀ (st : RState) (a b : List RPiece), putR ic st (a ++ b) = putR ic (putR ic st a) b
  | _, [], _ => rfl
  | st, (n, s) :: a, b => by rw [List.cons_append, putR, putR, putR_append]

theorem putR_indent (ic : Str) : ∀ (st : RState) (ps : List RPiece) , (putR ic st ps).indentLength = st.indentLength
  | _, [] => rfl
  | st, (n, s) :: ps => by rw [putR, putR_indent]

/-- Pieces of another indentation. -/
theorem putR_at (ic : Str) (i j : Int) : ∀ (st : RState) (ps : List RPiece), putR ic { st with indentLength := i } ps =
    { putR ic { st with indentLength := j } ps with indentLength := i }
  | _, [] => rfl
  | st, (n, s) :: ps => by
    rw [putR, putR]
    exact putR_at ic i j { (RState.lit ic s { st with indentLength := n }) with indentLength := 0 } ps

theorem putR_layout {ic : Str} (hic : '\n' ∉ ic) : ∀ (st : RState) (ps : List RPiece),
    (putR ic st ps).buf = st.buf ++ layout ic (st.lastOut == ['\n']) ps
  | st, [] => by simp [putR, layout]
  | st, (n, s) :: ps => by
    rw [putR, putR_layout hic, layout]
    by_cases hs : s = ['\n']
    · subst hs
      simp [RState.lit]
    · have hs' : (s == ['\n']) = false := by simpa using hs
      rw [if_neg hs]
      simp only [RState.lit, hs', Bool.false_eq_true, if_false]
      have hrep : repeatStr ic (n : Int) = (List.replicate n ic).flatten := by simp [repeatStr]
      have hne : ∀ k : Nat, ((List.replicate k ic).flatten ++ s == ['\n']) = false := by
        intro k
        simp only [beq_eq_false_iff_ne, ne_eq]
        intro h
        cases hx : (List.replicate k ic).flatten with
        | nil => rw [hx] at h; exact hs h
        | cons a x =>
          rw [hx] at h
          simp only [List.cons_append, List.cons.injEq] at h
          have : '\n' ∈ (List.replicate k ic).flatten := by rw [hx, h.1]; simp
          rw [List.mem_flatten] at this
          obtain ⟨y, hy, hm⟩ := this
          rw [List.eq_of_mem_replicate hy] at hm
          exact hic hm
      cases hl : st.lastOut == ['\n'] with
      | true =>
        have : (st.lastOut != ['\n']) = false := by simp [bne, hl]
        simp only [this, Bool.false_eq_true, if_false, if_true, hrep, hne n]
        simp
      | false =>
        have : (st.lastOut != ['\n']) = true := by simp [bne, hl]
        simp only [this, if_true, Bool.false_eq_true, if_false, List.nil_append]
        rw [hs']
        simp

/-! ### The run of the renderer -/

theorem lit_put (ic s : Str) (st : RState) (n : Nat) (h : st.indentLength = n) : st.lit ic s = putR ic st [(n, s)] := by
  obtain ⟨b, l, i⟩ := st
  cases h
  rfl

theorem putR_cons_at {ic s : Str} {st : RState} {n : Nat} {r : List RPiece} (h : st.indentLength = n) :
    putR ic st ((n, s) :: r) = putR ic (st.lit ic s) r := by
  obtain ⟨b, l, i⟩ := st
  cases h
  rfl

theorem indentBy_back (st : RState) (a : Int) : (st.indentBy a).indentBy (-a) = st := by
  obtain ⟨b, l, i⟩ := st
  simp only [RState.indentBy, RState.mk.injEq, true_and]
  omega

/-- Content that is further indented. -/
theorem putR_within (ic : Str) (st : RState) (a : Int) (ps : List RPiece) :
    (putR ic (st.indentBy a) ps).indentBy (-a) = putR ic st ps := by
  have h := putR_at ic (st.indentLength + a) st.indentLength st ps
  have h2 : st.indentBy a = { st with indentLength := st.indentLength + a } := rfl
  rw [h2, h]
  have h3 := putR_indent ic st ps
  have h4 : ({ st with indentLength := st.indentLength } : RState) = st := rfl
  rw [h4]
  cases hp : putR ic st ps with
  | mk b l i =>
    rw [hp] at h3
    simp only at h3
    subst h3
    simp only [RState.indentBy, RState.mk.injEq, true_and]
    omega

theorem rcr_put (ic : Str) (st : RState) (n : Nat) (h : st.indentLength = n) : st.cr ic = putR ic st [(n, ['\n'])] := lit_put ic _ st n h

theorem underline_eq (l : Nat) : headingChar l = underlineChar (some l) := by
  unfold headingChar underlineChar
  split <;> first | rfl | (split <;> simp_all)

theorem itemTag_eq (l : ListData) : itemTag l.type = bullet (some l) := by
  unfold itemTag bullet
  simp only [beq_iff_eq]

/-- The pieces of a node without content. -/
theorem rst_leaf {ic : Str} {d : NodeData} {p g f : Option NodeData} {st st' : RState} {n : Nat} {b : Bool} {kids : List RPiece}
    (hc : isContainer d.t = false) (hn : st.indentLength = n) (h : rstEvent ic st ⟨true, d, p, g, f⟩ = .ok st') :
    st' = putR ic st (rstElement ic n b d f kids) := by
  have i1 : ∀ s, (st.lit ic s).indentLength = n := fun s => by simpa using hn
  cases hd : d.t <;> rw [hd] at hc <;> first | exact absurd hc (by decide) | skip
  all_goals simp only [rstEvent, hd, rstElement] at h ⊢
  case codeBlock =>
    cases hl : d.literal with
    | none => rw [hl] at h; cases h
    | some l =>
      rw [hl] at h
      simp only [Except.ok.injEq] at h
      subst h
      rw [indentLines, codeText_join, splitLines_eq, codeHead_eq]
      simp only [Option.getD_some]
      rw [putR_cons_at (by simpa using hn), putR_cons_at (by simpa using hn), putR_cons_at (by simpa using hn), putR_cons_at (by simpa using hn),
        putR_cons_at (by simpa using hn), putR_cons_at (by simpa using hn)]
      rfl
  case text =>
    cases hl : d.literal with
    | none => rw [hl] at h; cases h
    | some l =>
      rw [hl] at h
      cases h
      exact lit_put ic _ _ n hn
  case code =>
    cases hl : d.literal with
    | none => rw [hl] at h; cases h
    | some l =>
      rw [hl] at h
      cases h
      rw [putR_cons_at (by simpa using hn), putR_cons_at (by simpa using hn), putR_cons_at (by simpa using hn)]
      rfl
  case softbreak => cases h; exact rcr_put ic _ n hn
  case linebreak =>
    cases h
    rw [rcr_put ic _ n hn, rcr_put ic _ n (by simpa [putR_indent] using hn), ← putR_append]
    rfl
  all_goals cases h; rfl

/-- A node with content: entering, its content, leaving. -/
theorem rst_container {ic : Str} {d : NodeData} {p g f : Option NodeData} {st s1 s2 st' : RState} {n : Nat} {kids : List RPiece}
    (hc : isContainer d.t = true) (hn : st.indentLength = n) (h1 : rstEvent ic st ⟨true, d, p, g, f⟩ = .ok s1)
    (h2 : s1.indentLength = ((n + inner d : Nat) : Int) → s2 = putR ic s1 kids) (h3 : rstEvent ic s2 ⟨false, d, p, g, f⟩ = .ok st') :
    st' = putR ic st (rstElement ic n (p.any (·.t == .item)) d f kids) := by
  cases hd : d.t <;> rw [hd] at hc <;> first | exact absurd hc (by decide) | skip
  all_goals simp only [rstEvent, hd, rstElement, inner, if_true, Bool.false_eq_true, if_false] at h1 h2 h3 ⊢
  case blockQuote =>
    cases h1; cases h3
    rw [h2 (by simp [RState.indentBy, hn])]
    exact putR_within ic st 4 kids
  case item =>
    cases hl : d.listData with
    | none => rw [hl] at h1; cases h1
    | some l =>
      rw [hl] at h1 h2 h3
      simp only [itemTag_eq, Except.ok.injEq] at h1 h3
      subst h1
      rw [h2 (by simp [RState.indentBy, hn])] at h3
      subst h3
      rw [putR_within, lit_put ic _ _ n hn, ← putR_append, rcr_put ic _ n (by simpa [putR_indent] using hn), ← putR_append]
      simp
  case image =>
    cases hl : d.destination with
    | none => rw [hl] at h1; cases h1
    | some dest =>
      rw [hl] at h1 h3
      simp only [Except.ok.injEq] at h1 h3
      rw [lit_put ic _ _ n hn, rcr_put ic _ n (by simpa [putR_indent] using hn), ← putR_append,
        lit_put ic _ _ (n + 4) (by simp [RState.indentBy, putR_indent, hn])] at h1
      have h4 : s1.indentLength = ((n + 4 : Nat) : Int) := by
        rw [← h1, putR_indent]; simp [RState.indentBy, putR_indent, hn]
      rw [← h3, h2 h4, ← h1, ← putR_append, putR_within, ← putR_append]
      rfl
  case paragraph =>
    cases p with
    | none => cases h1
    | some p =>
      simp only [Option.any_some] at h1 h3 ⊢
      by_cases hp : (p.t == Kind.item) = true
      · rw [if_pos hp] at h1 h3 ⊢
        cases h1; cases h3
        exact h2 (by simpa using hn)
      · rw [if_neg hp] at h1 h3 ⊢
        cases h1; cases h3
        rw [h2 (by simpa using hn), rcr_put ic _ n (by simpa [putR_indent] using hn), rcr_put ic st n hn, ← putR_append, ← putR_append]
        simp
  case heading =>
    unfold rstHeading at h1 h3
    cases hlv : d.level with
    | none => simp only [hlv] at h1; cases h1
    | some lv =>
      cases f with
      | none => simp only [hlv] at h1; cases h1
      | some f =>
        cases hl : f.literal with
        | none => simp only [hlv, hl] at h1; cases h1
        | some l =>
          simp only [hlv, hl, if_true, Bool.false_eq_true, if_false, Except.ok.injEq] at h1 h3
          subst h1
          rw [h2 (by simpa using hn)] at h3
          rw [← h3, rcr_put ic st n hn, rcr_put ic _ n (by simpa [putR_indent] using hn), ← putR_append,
            lit_put ic _ _ n (by simpa [putR_indent] using hn), ← putR_append,
            rcr_put ic _ n (by simpa [putR_indent] using hn), ← putR_append, ← putR_append, underline_eq]
          simp [hl]
  case list =>
    cases h1; cases h3
    rw [h2 (by simpa using hn), rcr_put ic st n hn, ← putR_append]
    rfl
  case emph | strong | link =>
    cases h1; cases h3
    rw [h2 (by simpa using hn), lit_put ic _ _ n (by simpa [putR_indent] using hn), lit_put ic _ st n hn, ← putR_append, ← putR_append]
    simp [lit]
  all_goals
    cases h1; cases h3
    exact h2 (by simpa using hn)

theorem rst_ok_container {ic : Str} {a b : Event} {es : List Event} {st st' : RState}
    (h : (a :: (es ++ [b])).foldlM (rstEvent ic) st = .ok st') :
    ∃ s1 s2, rstEvent ic st a = .ok s1 ∧ es.foldlM (rstEvent ic) s1 = .ok s2 ∧ rstEvent ic s2 b = .ok st' := by
  rw [List.foldlM_cons] at h
  obtain ⟨s1, h1, h⟩ := ok_bind h
  rw [List.foldlM_append] at h
  obtain ⟨s2, h2, h⟩ := ok_bind h
  rw [List.foldlM_cons] at h
  obtain ⟨s3, h3, h⟩ := ok_bind h
  rw [List.foldlM_nil] at h
  cases h
  exact ⟨s1, s2, h1, h2, h3⟩

mutual
theorem rst_written (ic : Str) : ∀ (t : Tree) {p g : Option NodeData} {st st' : RState} {n : Nat}, st.indentLength = n →
    (events p g t).foldlM (rstEvent ic) st = .ok st' → st' = putR ic st (rstPieces ic n (p.any (·.t == .item)) t)
  | .node d cs, p, g, st, st', n, hn, h => by
    rw [events] at h
    rw [rstPieces]
    by_cases hc : isContainer d.t = true
    · rw [if_pos hc] at h
      obtain ⟨s1, s2, h1, h2, h3⟩ := rst_ok_container h
      exact rst_container hc hn h1 (fun hk => rstList_written ic cs hk h2) h3
    · rw [if_neg hc, List.foldlM_cons] at h
      obtain ⟨s1, h1, h⟩ := ok_bind h
      rw [List.foldlM_nil] at h; cases h
      exact rst_leaf (by simpa using hc) hn h1
theorem rstList_written (ic : Str) : ∀ (ts : List Tree) {p g : Option NodeData} {st st' : RState} {n : Nat}, st.indentLength = n →
    (eventsList p g ts).foldlM (rstEvent ic) st = .ok st' → st' = putR ic st (rstPiecesList ic n (p.any (·.t == .item)) ts)
  | [], p, g, st, st', n, hn, h => by
    rw [eventsList, List.foldlM_nil] at h; cases h
    rfl
  | t :: ts, p, g, st, st', n, hn, h => by
    rw [eventsList, List.foldlM_append] at h
    obtain ⟨s1, h1, h2⟩ := ok_bind h
    have e1 := rst_written ic t hn h1
    have e2 := rstList_written ic ts (n := n) (by rw [e1, putR_indent]; exact hn) h2
    rw [rstPiecesList, putR_append, ← e1]
    exact e2
end

theorem renderRst_layout {ic : Str} {t : Tree} {out : Str} (hic : '\n' ∉ ic) (h : renderRst ic t = .ok out) :
    out = layout ic true (rstPieces ic 0 false t) := by
  obtain ⟨st, h1, h2⟩ := ok_bind (x := renderRstWith ic 0 t) (f := fun st => .ok st.buf) h
  cases h2
  rw [rst_written ic t (n := 0) rfl h1, putR_layout hic]
  simp

end CM
