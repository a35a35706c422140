import Verif.Proofs.Runs
/-
Blank lines after a document (C57).
-/
namespace CM
open Spec

/-- Blocks that a blank line ends. -/
def EndedByBlank : BKind → Prop
  | .indented | .list _ _ _ => False
  | _ => True

theorem marks_mark : ∀ {cs : List Tree} {fs : List Bool}, List.Forall₂ EndsIn cs fs → fs ≠ [] → Marks (markLastChild cs) (fs.dropLast ++ [true])
  | _, _, .nil, h => absurd rfl h
  | _, _, .cons (a := t) _ .nil, _ => by
    obtain ⟨d, cs⟩ := t
    simp only [markLastChild, List.dropLast_singleton, List.nil_append]
    exact .cons (ends_flag rfl) .nil
  | _, _, .cons h1 (.cons h2 h3), _ => by
    simp only [markLastChild, List.dropLast_cons_cons, List.cons_append]
    exact .cons h1 (marks_mark (.cons h2 h3) (by simp))

theorem at_blank {sm : Reading} {o : HtmlOpts} (ho : o.sourcepos = false) {p : PState} {bs : List Blk} {g f : Bool} (h : At sm o p bs g f)
    (hk : ∀ x, bs.getLast? = some x → EndedByBlank x.kind) :
    ∃ p', incorporateLine p [] = .ok p' ∧ p'.lineNumber = p.lineNumber + 1 ∧ At sm o p' bs g true := by
  obtain ⟨P, b, cs, fs, h⟩ := h
  have hfin := finalizeAll_closeN P.length h.close (by rw [h.spine]; simp) rfl h.doc
  obtain ⟨x, hx, hshape⟩ := h.shape
  have hA : ∀ c, P.getLast? = some c → EndsAtEmpty c.data := by
    intro c hc
    have hk := hk x hx
    have nil : P = [] → EndsAtEmpty c.data := by rintro rfl; cases hc
    have one : ∀ (Q : List OpenBlk) (y : OpenBlk), P = Q ++ [y] → EndsAtEmpty y.data → EndsAtEmpty c.data := by
      rintro Q y rfl hy
      rw [List.getLast?_concat] at hc
      cases hc; exact hy
    cases hxk : x.kind with
    | para =>
      rw [hxk] at hshape
      simp only [Shape] at hshape
      split at hshape
      · exact nil hshape
      · obtain ⟨y, h1, h2⟩ := hshape
        exact one [] y h1 (.inl (by rw [h2]; decide))
    | heading =>
      rw [hxk] at hshape
      rcases hshape with h1 | ⟨y, h1, h2⟩
      · exact nil h1
      · exact one [] y h1 (.inl (by rw [h2]; decide))
    | rule =>
      rw [hxk] at hshape
      rcases hshape with h1 | ⟨y, h1, h2⟩
      · exact nil h1
      · exact one [] y h1 (.inl (by rw [h2]; decide))
    | fenced => rw [hxk] at hshape; exact nil hshape
    | html => rw [hxk] at hshape; exact nil hshape
    | tag =>
      rw [hxk] at hshape
      simp only [Shape] at hshape
      split at hshape
      · exact nil hshape
      · obtain ⟨y, h1, h2⟩ := hshape
        exact one [] y h1 (.inr h2)
    | indented => rw [hxk] at hk; exact hk.elim
    | quote =>
      rw [hxk] at hshape
      simp only [Shape] at hshape
      split at hshape
      · exact nil hshape
      · obtain ⟨Q, y, h1, h2⟩ := hshape
        exact one Q y h1 (.inl (by rw [h2]; decide))
    | list => rw [hxk] at hk; exact hk.elim
  obtain ⟨q', e1, e2, e3, e4, _⟩ := blank_line_of h.spine h.doc rfl hfin rfl hA
  have hfs : fs ≠ [] := by intro e; have := h.last; rw [e] at this; cases this
  have hm := marks_mark h.marks hfs
  refine ⟨q', e1, e4, [], ⟨{ b.data with lastLineBlank := true }, markLastChild cs⟩, markLastChild cs, fs.dropLast ++ [true],
    ⟨e2, h.doc, e3.trans h.refmap, ?_⟩, ?_, shows_bare ho (bareL_mark cs).symm h.shows, hm, ?_, List.getLast?_concat .., ⟨x, hx, ?_⟩, ?_⟩
  · show Except.ok q' = _
    rw [← e2]
  · intro y hy
    rw [e2] at hy
    obtain rfl := List.mem_singleton.1 hy
    rfl
  · rw [List.dropLast_concat]; exact h.gap
  · have hk := hk x hx
    cases hxk : x.kind with
    | para => simp only [Shape, if_true]
    | heading => exact .inl rfl
    | rule => exact .inl rfl
    | fenced => rfl
    | html => rfl
    | tag => simp only [Shape, if_true]
    | indented => rw [hxk] at hk; exact hk.elim
    | quote => simp only [Shape, if_true]
    | list => rw [hxk] at hk; exact hk.elim
  · intro _
    rw [tip_of e2]
    show some b.data.t ≠ _
    rw [h.doc]; simp

/-- It is enough to look at the text without blank lines after it. -/
theorem runs_blanks {sm : Reading} {o : HtmlOpts} (ho : o.sourcepos = false) {ls : List Str} {bs : List Blk} {g : Bool} (hk : ∀ x, bs.getLast? = some x → EndedByBlank x.kind)
    {p0 : PState} (h : ∃ p, ls.foldlM incorporateLine p0.reset = .ok p ∧ p.lineNumber = ls.length ∧ At sm o p bs g false) (n : Nat) :
    ∃ p, (ls ++ List.replicate n []).foldlM incorporateLine p0.reset = .ok p ∧ p.lineNumber = ls.length + n ∧ At sm o p bs g (decide (0 < n)) := by
  induction n with
  | zero =>
    obtain ⟨p, h1, h2, h3⟩ := h
    exact ⟨p, by simpa using h1, h2, h3⟩
  | succ n ih =>
    obtain ⟨p, h1, h2, h3⟩ := ih
    obtain ⟨p', e1, e2, e3⟩ := at_blank ho h3 hk
    refine ⟨p', ?_, by rw [e2, h2]; omega, by simpa using e3⟩
    rw [List.replicate_succ', ← List.append_assoc, List.foldlM_append, h1]
    show List.foldlM _ _ _ = _
    simp only [List.foldlM_cons, List.foldlM_nil, e1]
    rfl

end CM
