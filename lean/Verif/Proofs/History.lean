import Verif.Proofs.Parsed
import Verif.Spec.Lines
/-
Lines of a text, reuse of a parser, the reference map over time, and which map the inline phase uses.
-/
set_option linter.unusedVariables false
namespace CM
open Spec

/-! ### Lines -/

theorem split_line_cr {l : Str} (h : OneLine l) {r : Str} (hr : r.head? ≠ some '\n') :
    splitLineEndings (l ++ '\r' :: r) = l :: splitLineEndings r := by
  induction l with
  | nil => exact split_cr r hr
  | cons c l ih =>
    have hc := h c (by simp)
    rw [List.cons_append, split_other hc.1 hc.2, ih fun c hc => h c (by simp [hc])]

theorem split_line_crlf {l : Str} (h : OneLine l) {r : Str} :
    splitLineEndings (l ++ '\r' :: '\n' :: r) = l :: splitLineEndings r := by
  induction l with
  | nil => exact split_crlf r
  | cons c l ih =>
    have hc := h c (by simp)
    rw [List.cons_append, split_other hc.1 hc.2, ih fun c hc => h c (by simp [hc])]

theorem inputLines_of {s : Str} {ls : List Str} (h : TextLines s ls) : inputLines s = ls := by
  have getLast : ∀ (a r : Str), r ≠ [] → (a ++ r).getLast? = r.getLast? := by
    intro a r hr
    rw [List.getLast?_append]
    cases h : r.getLast? with
    | none => rw [List.getLast?_eq_none_iff] at h; exact absurd h hr
    | some c => rfl
  have grow : ∀ (l e r : Str), r ≠ [] → splitLineEndings (l ++ e ++ r) = l :: splitLineEndings r →
      inputLines (l ++ e ++ r) = l :: inputLines r := by
    intro l e r hr h
    unfold inputLines
    dsimp only
    rw [getLast _ r hr, h]
    split
    · rw [List.dropLast_cons_of_ne_nil (split_ne_nil r)]
    · rfl
  induction h with
  | @last l h =>
    unfold inputLines
    dsimp only
    rw [split_line l h, if_neg]
    simp only [beq_iff_eq]
    intro e
    exact (h _ (List.mem_of_getLast? e)).1 rfl
  | @lastLf l h =>
    unfold inputLines
    dsimp only
    rw [split_line_append l h []]
    rw [show splitLineEndings [] = [[]] from by rw [splitLineEndings]]
    simp
  | @lastCrLf l h =>
    unfold inputLines
    dsimp only
    rw [split_line_crlf h (r := [])]
    rw [show splitLineEndings [] = [[]] from by rw [splitLineEndings]]
    simp
  | @lf l r ls h hr _ ih =>
    have := grow l ['\n'] r hr (by simpa using split_line_append l h r)
    rw [ih] at this
    simpa using this
  | @crlf l r ls h hr _ ih =>
    have := grow l ['\r', '\n'] r hr (by simpa using split_line_crlf h (r := r))
    rw [ih] at this
    simpa using this
  | @cr l r ls h hr _ ih =>
    cases r with
    | nil =>
      have e : inputLines [] = [[]] := by decide
      rw [e] at ih; subst ih
      unfold inputLines
      dsimp only
      rw [split_line_cr h (by simp)]
      rw [show splitLineEndings [] = [[]] from by rw [splitLineEndings]]
      simp
    | cons c r =>
      have := grow l ['\r'] (c :: r) (by simp) (by simpa using split_line_cr h hr)
      rw [ih] at this
      simpa using this

theorem textLines_exists : ∀ (n : Nat) (s : Str), s.length ≤ n → ∃ ls, TextLines s ls := by
  intro n
  induction n with
  | zero =>
    intro s hs
    obtain rfl : s = [] := by simpa using hs
    exact ⟨[[]], .last fun c hc => by simp at hc⟩
  | succ n ih =>
    intro s hs
    -- split off the first line
    have hsplit : ∃ l r, s = l ++ r ∧ OneLine l ∧ ∀ c ∈ r.head?, c = '\n' ∨ c = '\r' := by
      refine ⟨s.takeWhile fun c => c != '\n' && c != '\r', s.dropWhile fun c => c != '\n' && c != '\r',
        (List.takeWhile_append_dropWhile).symm, ?_, ?_⟩
      · intro c hc
        have := List.mem_takeWhile_imp hc
        simpa using this
      · intro c hc
        have := List.head?_dropWhile_not (fun c => c != '\n' && c != '\r') s
        rw [Option.mem_def] at hc
        rw [hc] at this
        simp only [Bool.and_eq_false_iff, bne_eq_false_iff_eq] at this
        exact this
    obtain ⟨l, r, rfl, hl, hr⟩ := hsplit
    rw [List.length_append] at hs
    cases r with
    | nil => exact ⟨[l], by simpa using TextLines.last hl⟩
    | cons c r =>
      rcases hr c (by simp) with rfl | rfl
      · cases r with
        | nil => exact ⟨[l], .lastLf hl⟩
        | cons c r =>
          obtain ⟨ls, h⟩ := ih (c :: r) (by simp at hs ⊢; omega)
          exact ⟨l :: ls, .lf hl (by simp) h⟩
      · by_cases h : r.head? = some '\n'
        · cases r with
          | nil => simp at h
          | cons d r =>
            simp only [List.head?_cons, Option.some.injEq] at h
            subst h
            cases r with
            | nil => exact ⟨[l], .lastCrLf hl⟩
            | cons c r =>
              obtain ⟨ls, h⟩ := ih (c :: r) (by simp at hs ⊢; omega)
              exact ⟨l :: ls, .crlf hl (by simp) h⟩
        · obtain ⟨ls, h'⟩ := ih r (by simp at hs; omega)
          exact ⟨l :: ls, .cr hl h h'⟩

theorem textLines_iff (s : Str) (ls : List Str) : TextLines s ls ↔ inputLines s = ls := by
  constructor
  · exact inputLines_of
  · rintro rfl
    obtain ⟨ls, h⟩ := textLines_exists s.length s (Nat.le_refl _)
    rw [inputLines_of h]; exact h

/-! ### Reuse -/

theorem incorporateLine_reset (p : PState) (ln : Str) :
    incorporateLine p.reset ln = incorporateLine PState.init ln := rfl

theorem blockPhase_reuse (p : PState) (s : Str) : blockPhase p s = blockPhase PState.init s := by
  simp only [blockPhase]
  cases h : inputLines s with
  | nil => exact absurd h (inputLines_ne_nil s)
  | cons l ls =>
    simp only [List.foldlM_cons]
    rw [incorporateLine_reset p l]
    rfl

theorem parseWith_reuse (smart : Bool) (p : PState) (s : Str) :
    parseWith smart p s = parseWith smart PState.init s := by
  simp only [parseWith, blockPhase_reuse p s]

/-! ### The reference map over time -/

theorem lines_refs : ∀ (ls done : List Str) (p : PState), Ready p → Reaches done p.core →
    ∃ p', ls.foldlM incorporateLine p = .ok p' ∧ Ready p' ∧ Reaches (done ++ ls) p'.core ∧
      ∀ k d, p.refmap.get k = some d → p'.refmap.get k = some d := by
  intro ls
  induction ls with
  | nil => intro done p h hr; exact ⟨p, rfl, h, by simpa using hr, fun _ _ h => h⟩
  | cons ln ls ih =>
    intro done p h hr
    obtain ⟨p1, c, e1, e2, e3, e4⟩ := incorporateLine_ok h ln
    have hr' : Reaches (done ++ [ln]) p1.core := by rw [e3]; exact .line hr e2
    obtain ⟨p', f1, f2, f3, f4⟩ := ih (done ++ [ln]) p1 e4 hr'
    refine ⟨p', ?_, f2, by simpa using f3, ?_⟩
    · rw [List.foldlM_cons, e1]
      exact f1
    · intro k d hk
      apply f4
      have hi := (reaches_inv (T := fun _ => True) (G := fun _ => True) charsOk_true (fun _ _ _ _ => trivial)
        (fun _ _ _ => trivial) trivial hr fun _ _ => trivial).1
      have := (lineSteps_inv (T := fun _ => True) (G := fun _ => True) charsOk_true (fun _ _ _ _ => trivial)
        (fun _ _ _ => trivial) (c := nextLine p.core ln) ⟨hi.spine, hi.tip, hi.refs⟩ trivial (Nat.succ_pos _) e2).2 k d hk
      have e : p1.refmap = c.refmap := congrArg Core.refmap e3
      rw [e]; exact this

theorem blockPhase_refs (p : PState) (s : Str) (n : Nat) :
    ∃ p1 p', ((inputLines s).take n).foldlM incorporateLine p.reset = .ok p1 ∧ blockPhase p s = .ok p' ∧
      ∀ k d, p1.refmap.get k = some d → p'.refmap.get k = some d := by
  obtain ⟨p1, e1, e2, e3, _⟩ := lines_refs ((inputLines s).take n) [] p.reset (ready_reset p).1 (ready_reset p).2
  rw [List.nil_append] at e3
  obtain ⟨p2, f1, f2, f3, f4⟩ := lines_refs ((inputLines s).drop n) _ p1 e2 e3
  rw [List.take_append_drop] at f3
  have hl := f3.line_eq
  obtain ⟨p', c2, b, g1, g2, g3, g4, g5, g6, g7, g8⟩ := finalizeAll_ok p2.spine (p2.spine.length + 1) (inputLines s).length
    { p2 with lineNumber := (inputLines s).length + 1 } rfl (by omega) f2.good rfl
    (by
      intro d hd hnd
      rcases f2.le d hd with h | h
      · exact Nat.le_trans h (Nat.le_of_eq hl)
      · exact absurd h.1 hnd)
  rw [finalizeAll_line] at g1
  cases hfin : finalizeAll (inputLines s).length (p2.spine.length + 1) p2 with
  | error e => rw [hfin] at g1; simp [Except.map] at g1
  | ok q =>
    rw [hfin] at g1
    simp only [Except.map, Except.ok.injEq] at g1
    refine ⟨p1, q, e1, ?_, ?_⟩
    · simp only [blockPhase]
      have : (inputLines s).foldlM incorporateLine p.reset = .ok p2 := by
        conv => lhs; rw [← List.take_append_drop n (inputLines s)]
        rw [List.foldlM_append, e1]; exact f1
      rw [this]; exact hfin
    · intro k d hk
      have h1 := f4 k d hk
      have hi := (reaches_inv (T := fun _ => True) (G := fun _ => True) charsOk_true (fun _ _ _ _ => trivial)
        (fun _ _ _ => trivial) trivial f3 fun _ _ => trivial).1
      have := (steps_inv (T := fun _ => True) (G := fun _ => True) charsOk_true (fun _ _ _ _ => trivial)
        (fun _ _ _ => trivial) (c := ({ p2 with lineNumber := (inputLines s).length + 1 } : PState).core)
        (by
          rw [show ({ p2 with lineNumber := (inputLines s).length + 1 } : PState).core.line = p2.core.line + 1 from by
            rw [hl]; rfl]
          exact ⟨hi.spine, hi.tip, hi.refs⟩) trivial (Nat.succ_pos _) (Relation.ReflTransGen.mono (fun _ _ h => Closing.step h) _ _ g2)).2 k d h1
      rw [← g8, ← g1] at this
      exact this

/-! ### The map that the inline phase uses -/

/-- A paragraph or heading holds the inlines of its text, read with the map `m`. -/
def InlinesFrom (smart : Bool) (m : RefMap) (d : NodeData) (cs : List Tree) : Prop :=
  d.t = .paragraph ∨ d.t = .heading → ∃ x, d.stringContent = some x ∧ parseInlines smart m x = .ok cs

theorem everySubtree_inline {P : NodeData → List Tree → Prop} {G : Char → Prop}
    (hP : ∀ d cs, d.t ∈ inlineKinds → P d cs) {t : Tree} (h : InlineTree G t) : EverySubtree P t := by
  have key : ∀ (ts : List Tree), (∀ t ∈ ts, EverySubtree P t) → EverySubtreeList P ts := by
    intro ts
    induction ts with
    | nil => intro _; trivial
    | cons t ts ih => intro h; exact ⟨h t (by simp), ih fun t ht => h t (by simp [ht])⟩
  induction h with
  | text h => exact ⟨hP _ _ (by show Kind.text ∈ _; decide), trivial⟩
  | code h => exact ⟨hP _ _ (by show Kind.code ∈ _; decide), trivial⟩
  | html h => exact ⟨hP _ _ (by show Kind.htmlInline ∈ _; decide), trivial⟩
  | soft => exact ⟨hP _ _ (by show Kind.softbreak ∈ _; decide), trivial⟩
  | hard => exact ⟨hP _ _ (by show Kind.linebreak ∈ _; decide), trivial⟩
  | emph h ih => exact ⟨hP _ _ (by show Kind.emph ∈ _; decide), key _ ih⟩
  | strong h ih => exact ⟨hP _ _ (by show Kind.strong ∈ _; decide), key _ ih⟩
  | link h1 h ih => exact ⟨hP _ _ (by show Kind.link ∈ _; decide), key _ ih⟩
  | image h1 h ih => exact ⟨hP _ _ (by show Kind.image ∈ _; decide), key _ ih⟩

theorem everySubtreeList_iff {P : NodeData → List Tree → Prop} {ts : List Tree} :
    EverySubtreeList P ts ↔ ∀ t ∈ ts, EverySubtree P t := by
  induction ts with
  | nil => simp [EverySubtreeList]
  | cons t ts ih => simp [EverySubtreeList, ih]

mutual
theorem processInlines_from {T : Str → Prop} {G : Char → Prop} (hG : CharsOk G) (smart : Bool) {m : RefMap} (hm : RefsOk G m) :
    ∀ t t' : Tree, EveryNode (BlockOk T G) t → processInlines smart m t = .ok t' →
    EverySubtree (InlinesFrom smart m) t'
  | .node d cs, t' => by
    intro h e
    have hb := everyNode_iff.1 h
    have hok := processInlinesList_ok hG smart hm cs (everyNodeList_iff.2 hb.2)
    simp only [processInlines, bind, Except.bind] at e
    cases hc : processInlinesList smart m cs with
    | error er => rw [hc] at e; cases e
    | ok cs' =>
      rw [hc] at e hok
      have ih := processInlinesList_from hG smart hm cs cs' (everyNodeList_iff.2 hb.2) hc
      dsimp only at e
      by_cases hp : d.t = .paragraph ∨ d.t = .heading
      · rw [if_pos (by simpa using hp)] at e
        have hcs : cs = [] := by
          cases hcc : cs with
          | nil => rfl
          | cons t ts =>
            have := hb.1.fits t.data (by rw [hcc]; simp)
            rcases this with ⟨hw, _⟩ | ⟨hl, _⟩
            · rcases hw with h | h | h <;> rw [h] at hp <;> simp at hp
            · rw [hl] at hp; simp at hp
        subst hcs
        simp only [processInlinesList, Except.ok.injEq] at hc
        subst hc
        cases hx : d.stringContent with
        | none => rw [hx] at e; cases e
        | some x =>
          rw [hx] at e
          dsimp only at e
          have hxs : Strs G x := hb.1.data.chars x (Or.inl hx)
          have hin := parseInlines_ok (src_of hG (smart := smart) hm (strs_infix hxs (strip_infix x)))
          cases hi : parseInlines smart m x with
          | error er => rw [hi] at e; cases e
          | ok ts =>
            rw [hi] at e hin
            simp only [pure, Except.pure, List.nil_append, Except.ok.injEq] at e
            subst e
            refine ⟨fun _ => ⟨x, hx, hi⟩, everySubtreeList_iff.2 fun t ht => ?_⟩
            rcases hin with ⟨ts', e', hts⟩ | ⟨e', _⟩
            · simp only [Except.ok.injEq] at e'
              subst e'
              refine everySubtree_inline ?_ (hts t ht)
              intro d cs hk hor
              exfalso; rcases hor with h | h <;> rw [h] at hk <;> revert hk <;> decide
            · cases e'
      · rw [if_neg (by simpa [not_or] using hp)] at e
        simp only [pure, Except.pure, Except.ok.injEq] at e
        subst e
        exact ⟨fun h => absurd h hp, ih⟩
theorem processInlinesList_from {T : Str → Prop} {G : Char → Prop} (hG : CharsOk G) (smart : Bool) {m : RefMap} (hm : RefsOk G m) :
    ∀ ts ts' : List Tree, EveryNodeList (BlockOk T G) ts → processInlinesList smart m ts = .ok ts' →
    EverySubtreeList (InlinesFrom smart m) ts'
  | [], ts' => by
    intro _ e
    simp only [processInlinesList, Except.ok.injEq] at e
    subst e; trivial
  | t :: ts, ts' => by
    intro h e
    simp only [processInlinesList, bind, Except.bind] at e
    cases h1 : processInlines smart m t with
    | error er => rw [h1] at e; cases e
    | ok t1 =>
      rw [h1] at e
      dsimp only at e
      cases h2 : processInlinesList smart m ts with
      | error er => rw [h2] at e; cases e
      | ok ts1 =>
        rw [h2] at e
        simp only [pure, Except.pure, Except.ok.injEq] at e
        subst e
        exact ⟨processInlines_from hG smart hm t t1 h.1 h1, processInlinesList_from hG smart hm ts ts1 h.2 h2⟩
end

theorem parseWith_from (smart : Bool) (p : PState) (s : Str) {t : Tree} {p' : PState}
    (h : parseWith smart p s = .ok (t, p')) :
    EverySubtree (InlinesFrom smart p'.refmap) t ∧ ∃ p1, blockPhase p s = .ok p1 ∧ p1.refmap = p'.refmap := by
  obtain ⟨p1, d, cs, h1, h2, h3, h4, h5, h6, h7, h8⟩ := blockPhase_tree (T := fun _ => True) (G := fun _ => True)
    charsOk_true (fun _ _ _ _ => trivial) (fun _ _ _ => trivial) trivial p s (fun _ _ => trivial)
  simp only [parseWith, h1, bind, Except.bind, h3] at h
  cases hp : processInlines smart p1.refmap (.node d cs) with
  | error e => rw [hp] at h; cases h
  | ok t' =>
    rw [hp] at h
    simp only [pure, Except.pure, Except.ok.injEq, Prod.mk.injEq] at h
    obtain ⟨rfl, rfl⟩ := h
    exact ⟨processInlines_from charsOk_true smart h8 _ _ h4 hp, p1, h1, rfl⟩

end CM
