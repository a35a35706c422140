import Verif.Proofs.Unescape
/-
Evaluating the inline parser on texts of known shape.
-/
set_option linter.unusedVariables false
namespace CM
open Spec

/-- From `st` the loop ends in `r`. -/
def Run (c : Ctx) (st r : IState) : Prop :=
  ∀ fuel, c.subject.length - st.pos < fuel → inlineLoop c fuel st = .ok r

theorem Run.step {c : Ctx} {st st' r : IState} (h : parseInline c st = .ok (some st'))
    (hp : st.pos < st'.pos) (hl : st.pos < c.subject.length) (hr : Run c st' r) : Run c st r := by
  intro fuel hf
  cases fuel with
  | zero => omega
  | succ fuel =>
    rw [inlineLoop, h]
    exact hr fuel (by omega)

theorem Run.stop {c : Ctx} {st : IState} (h : c.rest st.pos = []) : Run c st st := by
  intro fuel hf
  cases fuel with
  | zero => omega
  | succ fuel =>
    have hn : c.peek st.pos = none := by
      simp only [Ctx.rest, List.drop_eq_nil_iff] at h
      simp [Ctx.peek, h]
    rw [inlineLoop]
    simp [parseInline, hn, bind, Except.bind, pure, Except.pure]

theorem rest_peek {c : Ctx} {pos : Nat} {ch : Char} {t : Str} (h : c.rest pos = ch :: t) : c.peek pos = some ch := by
  have := congrArg List.head? h
  simpa [Ctx.rest, Ctx.peek] using this

theorem rest_lt {c : Ctx} {pos : Nat} {ch : Char} {t : Str} (h : c.rest pos = ch :: t) : pos < c.subject.length := by
  have := congrArg List.length h
  simp [Ctx.rest] at this
  omega

theorem rest_add {c : Ctx} {pos : Nat} {m t : Str} (h : c.rest pos = m ++ t) : c.rest (pos + m.length) = t := by
  have := congrArg (List.drop m.length) h
  simpa [Ctx.rest] using this

theorem rest_succ {c : Ctx} {pos : Nat} {ch : Char} {t : Str} (h : c.rest pos = ch :: t) : c.rest (pos + 1) = t :=
  rest_add (m := [ch]) h

theorem match_of_rest {c : Ctx} {pos : Nat} {r : Re} {m t : Str} (h : c.rest pos = m ++ t)
    (hr : r.rest (m ++ t) = some t) : c.match_ r pos = some (m, pos + m.length) := by
  rw [Ctx.match_, h, Re.matchPrefix_of_rest hr]; rfl

theorem match_none {c : Ctx} {pos : Nat} {r : Re} {s : Str} (h : c.rest pos = s) (hr : r.rest s = none) :
    c.match_ r pos = none := by
  rw [Ctx.match_, h, Re.matchPrefix, hr]; rfl

/-- The state after a node has been appended. -/
def IState.add (st : IState) (n : Nat) (t : Tree) : IState := { st with pos := st.pos + n }.push t

@[simp] theorem add_pos (st : IState) (n : Nat) (t : Tree) : (st.add n t).pos = st.pos + n := rfl
@[simp] theorem add_delims (st : IState) (n : Nat) (t : Tree) : (st.add n t).delims = st.delims := rfl
@[simp] theorem add_brackets (st : IState) (n : Nat) (t : Tree) : (st.add n t).brackets = st.brackets := rfl
@[simp] theorem add_children (st : IState) (n : Nat) (t : Tree) :
    (st.add n t).children = st.children ++ [⟨0, t⟩] := rfl

/-! ### Steps -/

theorem reMain_noBos : reMain.noBos = true := by decide

theorem takeMain {m t : Str} (hm : ∀ c ∈ m, isMain c = true) (ht : ∀ c, t.head? = some c → isMain c = false) :
    (m ++ t).dropWhile isMain = t := by
  rw [List.dropWhile_append_of_pos hm]
  cases t with
  | nil => rfl
  | cons x xs => rw [List.dropWhile_cons, ht x rfl]; rfl

theorem reMain_rest {m t : Str} (hn : m ≠ []) (hm : ∀ c ∈ m, isMain c = true)
    (ht : ∀ c, t.head? = some c → isMain c = false) : reMain.rest (m ++ t) = some t := by
  cases m with
  | nil => exact absurd rfl hn
  | cons x xs =>
    have hx : isMain x = true := hm x (by simp)
    have h := takeMain (m := xs) (t := t) (fun c hc => hm c (by simp [hc])) ht
    rw [Re.rest, reMain, Re.plus, Re.run]
    simp only [List.cons_append, Re.run_chr_cons, hx, if_true]
    rw [Re.run_star_chr_some, h]

theorem isMain_ne {c d : Char} (h : isMain c = true) (hd : isMain d = false) : (c == d) = false := by
  rw [beq_eq_false_iff_ne]; rintro rfl; rw [h] at hd; cases hd

/-- A run of ordinary characters becomes a text node. -/
theorem step_main {c : Ctx} (hs : c.smart = false) {st : IState} {m t : Str} (h : c.rest st.pos = m ++ t) (hn : m ≠ [])
    (hm : ∀ c ∈ m, isMain c = true) (ht : ∀ c, t.head? = some c → isMain c = false) :
    parseInline c st = .ok (some (st.add m.length (textNode m))) := by
  have hmatch := match_of_rest h (reMain_rest hn hm ht)
  cases m with
  | nil => exact absurd rfl hn
  | cons x xs =>
    have hx : isMain x = true := hm x (by simp)
    have hp := rest_peek (t := xs ++ t) h
    have ne : ∀ d, isMain d = false → (x == d) = false := fun d hd => isMain_ne hx hd
    rw [parseInline, hp]
    simp only [ne '\n' (by decide), ne '\\' (by decide), ne '`' (by decide), ne '*' (by decide), ne '_' (by decide),
      ne '\'' (by decide), ne '"' (by decide), ne '[' (by decide), ne '!' (by decide), ne ']' (by decide),
      ne '<' (by decide), ne '&' (by decide), Bool.or_self, Bool.false_eq_true, if_false]
    rw [parseString, hmatch]
    simp [hs, fallback, IState.add]

/-- A backslash escape. -/
theorem step_escape {c : Ctx} {st : IState} {x : Char} {t : Str} (h : c.rest st.pos = '\\' :: x :: t)
    (hx : isEscapable x = true) : parseInline c st = .ok (some (st.add 2 (textNode [x]))) := by
  have hp := rest_peek h
  have hp2 := rest_peek (rest_succ h)
  have hnl : (x == '\n') = false := by
    rw [beq_eq_false_iff_ne]; rintro rfl; revert hx; decide
  rw [parseInline, hp]
  simp only [show ('\\' == '\n') = false by decide, Bool.false_eq_true, if_false, beq_self_eq_true, if_true]
  rw [parseBackslash]
  simp only [hp2, hnl, Bool.false_eq_true, if_false, hx, if_true]
  rfl

/-- A backslash that escapes nothing. -/
theorem step_backslash {c : Ctx} {st : IState} {t : Str} (h : c.rest st.pos = '\\' :: t)
    (ht : ∀ x, t.head? = some x → isEscapable x = false ∧ x ≠ '\n') :
    parseInline c st = .ok (some (st.add 1 (textNode ['\\']))) := by
  have hp := rest_peek h
  have hr := rest_succ h
  rw [parseInline, hp]
  simp only [show ('\\' == '\n') = false by decide, Bool.false_eq_true, if_false, beq_self_eq_true, if_true]
  rw [parseBackslash]
  cases t with
  | nil =>
    have : c.peek (st.pos + 1) = none := by
      simp only [Ctx.rest, List.drop_eq_nil_iff] at hr
      simp [Ctx.peek, hr]
    simp only [this]
    rfl
  | cons x t =>
    have hp2 := rest_peek hr
    obtain ⟨h1, h2⟩ := ht x rfl
    simp only [hp2, beq_eq_false_iff_ne.2 h2, Bool.false_eq_true, if_false, h1]
    rfl

/-- A backslash at the end of a line. -/
theorem step_hardbreak {c : Ctx} {st : IState} {t : Str} (h : c.rest st.pos = '\\' :: '\n' :: t) :
    parseInline c st = .ok (some (st.add 2 (mkNode .linebreak []))) := by
  have hp := rest_peek h
  have hp2 := rest_peek (rest_succ h)
  rw [parseInline, hp]
  simp only [show ('\\' == '\n') = false by decide, Bool.false_eq_true, if_false, beq_self_eq_true, if_true]
  rw [parseBackslash]
  simp only [hp2, beq_self_eq_true, if_true]
  rfl

/-- Quotation marks are ordinary without the smart option. -/
theorem step_quote {c : Ctx} (hs : c.smart = false) {st : IState} {q : Char} {t : Str} (h : c.rest st.pos = q :: t)
    (hq : q = '\'' ∨ q = '"') : parseInline c st = .ok (some (st.add 1 (textNode [q]))) := by
  have hp := rest_peek h
  rw [parseInline, hp]
  rcases hq with rfl | rfl <;> simp [hs, fallback, IState.add]

/-- An exclamation mark that does not start an image. -/
theorem step_bang {c : Ctx} {st : IState} {t : Str} (h : c.rest st.pos = '!' :: t) (ht : t.head? ≠ some '[') :
    parseInline c st = .ok (some (st.add 1 (textNode ['!']))) := by
  have hp := rest_peek h
  have hr := rest_succ h
  have hb : (c.peek (st.pos + 1) == some '[') = false := by
    rw [beq_eq_false_iff_ne]
    cases t with
    | nil =>
      simp only [Ctx.rest, List.drop_eq_nil_iff] at hr
      simp [Ctx.peek, hr]
    | cons x t => rw [rest_peek hr]; exact ht
  rw [parseInline, hp]
  simp [parseBang, hb, IState.add]
  rfl

/-- A closing bracket without an opening one. -/
theorem step_close {c : Ctx} {st : IState} {t : Str} (h : c.rest st.pos = ']' :: t) (hb : st.brackets = []) :
    parseInline c st = .ok (some (st.add 1 (textNode [']']))) := by
  have hp := rest_peek h
  rw [parseInline, hp]
  simp [parseCloseBracket, hb, IState.add, bind, Except.bind, pure, Except.pure]
  rfl

/-- A character reference. -/
theorem step_entity {c : Ctx} {st : IState} {k : Nat} {m t : Str} (h : c.rest st.pos = m ++ t)
    (hd : Den k reENTITY m t) : parseInline c st = .ok (some (st.add m.length (textNode (htmlUnescape m)))) := by
  have hmatch := match_of_rest h (entity_rest hd)
  obtain ⟨x, rfl⟩ := entity_amp hd
  have hp := rest_peek (t := x ++ t) h
  rw [parseInline, hp]
  simp [parseEntity, hmatch, fallback, IState.add]

/-- An ampersand that starts no reference. -/
theorem step_amp {c : Ctx} {st : IState} {t : Str} (h : c.rest st.pos = '&' :: t)
    (hd : reENTITY.rest ('&' :: t) = none) : parseInline c st = .ok (some (st.add 1 (textNode ['&']))) := by
  have hmatch := match_none h hd
  have hp := rest_peek h
  rw [parseInline, hp]
  simp [parseEntity, hmatch, fallback, IState.add]

/-! ### The end of `parseInlines` -/

theorem processEmphasis_nil (its : List Item) : processEmphasis [] its = .ok its := by
  simp [processEmphasis, emphFuel, emphLoop]

theorem parseInlines_run {smart : Bool} {refmap : RefMap} {content : Str} {r : IState}
    (h : Run ⟨strip content, refmap, smart⟩ ⟨0, [], [], [], 1⟩ r) (hd : r.delims = []) :
    parseInlines smart refmap content = .ok (r.children.map (·.node)) := by
  unfold parseInlines
  have := h ((strip content).length + 1) (by simp)
  simp only [this, bind, Except.bind, hd, List.reverse_nil, processEmphasis_nil]
  rfl

end CM
