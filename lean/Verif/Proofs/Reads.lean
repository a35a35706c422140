import Verif.Proofs.Autolink
import Verif.Proofs.BlockTree
import Verif.Props.Smart
/-
The inline parser reads a text the way `Spec.Reads` says.
-/
set_option linter.unusedVariables false
namespace CM
open Spec

/-! ### Remaining steps -/

theorem ordinary_main {c : Char} : isMain c = true ↔ Ordinary c := by
  simp [isMain, Ordinary, lit]

theorem ordinary_space : Ordinary ' ' := ordinary_main.1 (by decide)

theorem gobble_eq {c : Ctx} {pos : Nat} {j : Nat} {t : Str} (h : c.rest pos = List.replicate j ' ' ++ t)
    (ht : t.head? ≠ some ' ') : c.gobble pos = pos + j := by
  have hr : reInitialSpace.rest (List.replicate j ' ' ++ t) = some t := by
    rw [Re.rest, reInitialSpace, Re.lit1, Re.run_star_chr_some, List.dropWhile_append_of_pos (by simp)]
    cases t with
    | nil => rfl
    | cons x xs =>
      rw [List.dropWhile_cons]
      have : (x == ' ') = false := by
        rw [beq_eq_false_iff_ne]; rintro rfl; exact ht rfl
      simp [this]
  rw [Ctx.gobble, match_of_rest h hr]; simp

/-- The last child can be followed by a line ending without being changed. -/
def NlOk (st : IState) (t : Str) : Prop :=
  t.head? = some '\n' → ∀ it, st.children.getLast? = some it → it.node.data.t = .text →
    ∃ l ch, it.node.data.literal = some l ∧ l.getLast? = some ch ∧ ch ≠ ' '

theorem step_newline {c : Ctx} {st : IState} {j : Nat} {t : Str} (h : c.rest st.pos = '\n' :: List.replicate j ' ' ++ t)
    (ht : t.head? ≠ some ' ') (hl : NlOk st ('\n' :: List.replicate j ' ' ++ t)) :
    parseInline c st = .ok (some (st.add (1 + j) (mkNode .softbreak []))) := by
  have hp : c.peek st.pos = some '\n' := rest_peek (by rw [h]; rfl)
  have hg : c.gobble (st.pos + 1) = st.pos + 1 + j := gobble_eq (rest_succ h) ht
  have key : parseNewline c st = .ok (st.add (1 + j) (mkNode .softbreak [])) := by
    have e : ({ st with pos := st.pos + 1 + j } : IState).push (mkNode .softbreak []) =
        st.add (1 + j) (mkNode .softbreak []) := by
      simp [IState.add, Nat.add_assoc]
    rw [parseNewline]
    simp only [hg]
    cases hc : st.children.getLast? with
    | none => simp only; rw [e]
    | some it =>
      obtain ⟨i, ⟨d, cs⟩⟩ := it
      simp only
      by_cases hd : d.t = .text
      · obtain ⟨l, ch, h1, h2, h3⟩ := hl rfl _ hc hd
        have h1 : d.literal = some l := h1
        simp only [hd, beq_self_eq_true, if_true, h1, h2, beq_eq_false_iff_ne.2 h3, Bool.false_eq_true, if_false]
        rw [e]
      · have : (d.t == Kind.text) = false := by rw [beq_eq_false_iff_ne]; exact hd
        simp only [this, Bool.false_eq_true, if_false]
        rw [e]
  rw [parseInline, hp]
  simp only [beq_self_eq_true, if_true, key, bind, Except.bind, pure, Except.pure]

theorem setLastLiteral_append (s l : Str) (a : List Item) :
    setLastLiteral s (a ++ [⟨0, textNode l⟩]) = a ++ [⟨0, textNode s⟩] := by
  induction a with
  | nil => rfl
  | cons x a ih =>
    cases a with
    | nil => simp [setLastLiteral, textNode]
    | cons y a => simp only [List.cons_append] at ih ⊢; rw [setLastLiteral, ih]

/-- The line ending after a text node that ends with `k` spaces. -/
theorem step_lineEnd {c : Ctx} {st : IState} {m : Str} {k j : Nat} {t : Str} {its : List Item}
    (h : c.rest st.pos = '\n' :: List.replicate j ' ' ++ t) (ht : t.head? ≠ some ' ')
    (hc : st.children = its ++ [⟨0, textNode (m ++ List.replicate k ' ')⟩]) (hn : m ≠ [] ∨ 1 ≤ k)
    (hm : m.getLast? ≠ some ' ') :
    parseInline c st = .ok (some ({ st with
      pos := st.pos + (1 + j)
      children := its ++ [⟨0, textNode m⟩, ⟨0, mkNode (if 2 ≤ k then .linebreak else .softbreak) []⟩] })) := by
  cases k with
  | zero =>
    have hne : m ≠ [] := hn.resolve_right (by omega)
    simp only [List.replicate_zero, List.append_nil] at hc
    rw [step_newline h ht]
    · simp [IState.add, IState.push, hc]
    · intro _ it hit _
      rw [hc, List.getLast?_concat] at hit
      obtain rfl := Option.some.inj hit
      obtain ⟨ch, hch⟩ : ∃ ch, m.getLast? = some ch := by
        cases hx : m.getLast? with
        | none => exact absurd (List.getLast?_eq_none_iff.1 hx) hne
        | some ch => exact ⟨ch, rfl⟩
      exact ⟨m, ch, rfl, hch, by rintro rfl; exact hm hch⟩
  | succ k =>
    have hp : c.peek st.pos = some '\n' := rest_peek (by rw [h]; rfl)
    have hg : c.gobble (st.pos + 1) = st.pos + 1 + j := gobble_eq (rest_succ h) ht
    have hl : (m ++ List.replicate (k + 1) ' ').getLast? = some ' ' := by
      rw [List.replicate_succ', ← List.append_assoc, List.getLast?_concat]
    have hs : stripFinalSpace (m ++ List.replicate (k + 1) ' ') = m := by
      refine rstripBy_append (by intro x hx; rw [List.eq_of_mem_replicate hx]; rfl) ?_
      intro ch hch
      rw [beq_eq_false_iff_ne]; rintro rfl; exact hm hch
    have hh : (decide ((m ++ List.replicate (k + 1) ' ').length ≥ 2) &&
        (m ++ List.replicate (k + 1) ' ')[(m ++ List.replicate (k + 1) ' ').length - 2]? == some ' ') =
        decide (2 ≤ k + 1) := by
      have hlen : (m ++ List.replicate (k + 1) ' ').length = m.length + k + 1 := by simp; omega
      rw [hlen]
      cases k with
      | zero =>
        rcases List.eq_nil_or_concat m with rfl | ⟨w, y, rfl⟩
        · rfl
        · rw [List.concat_eq_append] at hm ⊢
          rw [List.getLast?_concat] at hm
          have : (w ++ [y]).length + 0 + 1 - 2 = w.length := by simp
          rw [this]
          have : (w ++ [y] ++ List.replicate (0 + 1) ' ')[w.length]? = some y := by simp
          rw [this]
          have : (some y == some ' ') = false := by rw [beq_eq_false_iff_ne]; exact hm
          simp [this]
      | succ k =>
        have : (m ++ List.replicate (k + 1 + 1) ' ')[m.length + (k + 1) + 1 - 2]? = some ' ' := by
          rw [List.getElem?_append_right (by omega), List.getElem?_replicate]
          rw [if_pos (by omega)]
        rw [this]; simp; omega
    rw [parseInline, hp]
    simp only [beq_self_eq_true, if_true]
    rw [parseNewline, hc, List.getLast?_concat]
    simp only [textNode, beq_self_eq_true, if_true, hl, hh, hs, hg, bind, Except.bind, pure, Except.pure]
    rw [show (Tree.node { t := .text, literal := some (m ++ List.replicate (k + 1) ' ') } [] : Tree) =
      textNode (m ++ List.replicate (k + 1) ' ') from rfl, setLastLiteral_append]
    simp only [IState.push, decide_eq_true_eq, List.append_assoc, List.cons_append, List.nil_append, Nat.add_assoc]
    rfl

theorem step_openB {c : Ctx} {st : IState} {t : Str} (h : c.rest st.pos = '[' :: t) :
    ∃ st', parseInline c st = .ok (some st') ∧ st'.pos = st.pos + 1 ∧ st'.delims = st.delims ∧
      st'.children.map (·.node) = st.children.map (·.node) ++ [textNode ['[']] ∧
      (∃ i, st'.children.getLast? = some ⟨i, textNode ['[']⟩) := by
  have hp := rest_peek h
  rw [parseInline, hp]
  exact ⟨_, rfl, rfl, rfl, by simp [parseOpenBracket, addBracket, lit], st.nextId,
    by simp [parseOpenBracket, addBracket, lit]⟩

theorem step_openImg {c : Ctx} {st : IState} {t : Str} (h : c.rest st.pos = '!' :: '[' :: t) :
    ∃ st', parseInline c st = .ok (some st') ∧ st'.pos = st.pos + 2 ∧ st'.delims = st.delims ∧
      st'.children.map (·.node) = st.children.map (·.node) ++ [textNode ['!', '[']] ∧
      (∃ i, st'.children.getLast? = some ⟨i, textNode ['!', '[']⟩) := by
  have hp := rest_peek h
  have hp2 := rest_peek (rest_succ h)
  have e : parseInline c st = .ok (some (addBracket { st with pos := st.pos + 2 } (lit "![") (st.pos + 1) true)) := by
    rw [parseInline, hp]
    simp [parseBang, hp2]
  exact ⟨_, e, rfl, rfl, by simp [addBracket, lit], st.nextId, by simp [addBracket, lit]⟩

theorem step_closeB {c : Ctx} (hr : c.refmap = []) {st : IState} {t : Str} (h : c.rest st.pos = ']' :: t)
    (ht : t.head? ≠ some '(') :
    ∃ bs, parseInline c st = .ok (some { st.add 1 (textNode [']']) with brackets := bs }) := by
  have hp := rest_peek h
  have hrs := rest_succ h
  have hq : (c.peek (st.pos + 1) == some '(') = false := by
    rw [beq_eq_false_iff_ne]
    cases t with
    | nil =>
      simp only [Ctx.rest, List.drop_eq_nil_iff] at hrs
      simp [Ctx.peek, hrs]
    | cons x t => rw [rest_peek hrs]; exact ht
  have hil : inlineLink c (st.pos + 1) = (none, st.pos + 1) := by simp [inlineLink, hq]
  have href : ∀ o p q, (referenceLink c o p q).1 = none := by
    intro o p q
    simp only [referenceLink, hr, RefMap.get, List.find?_nil, Option.map_none]
    split <;> split <;> rfl
  have key : ∃ bs, parseCloseBracket c st = .ok { st.add 1 (textNode [']']) with brackets := bs } := by
    rw [parseCloseBracket]
    simp only
    cases hb : st.brackets with
    | nil => exact ⟨[], by simp only [IState.add, IState.push, lit]; rw [← hb]; rfl⟩
    | cons o bs =>
      simp only [hil]
      by_cases ho : o.active = true
      · simp only [ho, Bool.not_true, Bool.false_eq_true, if_false]
        have := href o (st.pos + 1) (st.pos + 1)
        cases hx : referenceLink c o (st.pos + 1) (st.pos + 1) with
        | mk a b =>
          rw [hx] at this
          simp only at this
          subst this
          exact ⟨bs, rfl⟩
      · have ho : o.active = false := by simpa using ho
        simp only [ho, Bool.not_false, if_true]
        exact ⟨bs, rfl⟩
  obtain ⟨bs, key⟩ := key
  refine ⟨bs, ?_⟩
  rw [parseInline, hp]
  simp [key, bind, Except.bind, pure, Except.pure]

/-- A delimiter that will not be used. -/
structure Neutral (op : Bool) (d : Delim) : Prop where
  star : d.cc = '*' ∨ d.cc = '_'
  close : op = true → d.canClose = false
  opn : op = false → d.canOpen = false

theorem step_delims {op : Bool} {b t : Str} {n : Nat} {ch : Char} {c : Ctx} {st : IState}
    (hsub : c.subject = b ++ (List.replicate n ch ++ t)) (hpos : st.pos = b.length) (hn : 1 ≤ n)
    (hch : ch = '*' ∨ ch = '_') (ht : t.head? ≠ some ch)
    (h1 : op = true → ¬ CanClose (isPySpace · = true) (isPunct · = true) ch b.getLast? t.head?)
    (h2 : op = false → ¬ CanOpen (isPySpace · = true) (isPunct · = true) ch b.getLast? t.head?) :
    ∃ st' d, parseInline c st = .ok (some st') ∧ st'.pos = st.pos + n ∧ st'.delims = d :: st.delims ∧ Neutral op d ∧
      st'.children.map (·.node) = st.children.map (·.node) ++ [textNode (List.replicate n ch)] ∧
      (∃ i, st'.children.getLast? = some ⟨i, textNode (List.replicate n ch)⟩) := by
  obtain ⟨o, cl, hs, ho, hc⟩ := C37_scanDelims b t c.refmap c.smart ch n hch hn ht
  have hce : c = ⟨b ++ (List.replicate n ch ++ t), c.refmap, c.smart⟩ := by rw [← hsub]
  rw [← hce, ← hpos] at hs
  have hp : c.peek st.pos = some ch := by
    refine rest_peek (t := List.replicate (n - 1) ch ++ t) ?_
    rw [Ctx.rest, hsub, hpos, List.drop_left]
    obtain ⟨k, rfl⟩ : ∃ k, n = k + 1 := ⟨n - 1, by omega⟩
    rfl
  have hsl : slice c.subject st.pos (st.pos + n) = List.replicate n ch := by
    rw [slice, hsub, hpos, ← List.append_assoc, List.take_left' (by simp), List.drop_left]
  have e1 : (ch == '\'') = false := by rcases hch with rfl | rfl <;> rfl
  have e2 : (ch == '"') = false := by rcases hch with rfl | rfl <;> rfl
  have e3 : (ch == '\n') = false := by rcases hch with rfl | rfl <;> rfl
  have e4 : (ch == '\\') = false := by rcases hch with rfl | rfl <;> rfl
  have e5 : (ch == '`') = false := by rcases hch with rfl | rfl <;> rfl
  have e6 : (ch == '*' || ch == '_') = true := by rcases hch with rfl | rfl <;> rfl
  have e : parseInline c st = .ok (some { st with
      pos := st.pos + n
      children := st.children ++ [⟨st.nextId, textNode (List.replicate n ch)⟩]
      delims := ⟨ch, n, n, st.nextId, o, cl⟩ :: st.delims
      nextId := st.nextId + 1 }) := by
    rw [parseInline, hp]
    simp only [e3, e4, e5, e6, Bool.false_eq_true, if_false, if_true]
    rw [handleDelim, hs]
    simp only [e1, e2, Bool.false_eq_true, if_false, hsl, fallback, if_true]
  refine ⟨_, _, e, rfl, rfl, ⟨hch, ?_, ?_⟩, by simp, st.nextId, by simp⟩
  · intro hop
    cases hcl : cl with
    | false => rfl
    | true => exact absurd (hc.1 hcl) (h1 hop)
  · intro hop
    cases hoo : o with
    | false => rfl
    | true => exact absurd (ho.1 hoo) (h2 hop)

/-! ### References -/

theorem isAlphaCI_iff {c : Char} : isAlphaCI c = true ↔ NameLetter c := by
  simp only [isAlphaCI, isAlpha, isCiExtra, NameLetter, AsciiLetter, Bool.or_eq_true, inRange_char, beq_iff_eq]
  tauto

theorem isAlnumCI_iff {c : Char} : isAlnumCI c = true ↔ NameLetter c ∨ ('0' ≤ c ∧ c ≤ '9') := by
  simp only [isAlnumCI, Bool.or_eq_true, isAlphaCI_iff, isDig, inRange_char]

theorem den_refForm {n : Nat} {m t : Str} (h : Den n reENTITY m t) : RefForm m := by
  rcases entity_shape h with ⟨x, ds, rfl, h1, h2, h3, h4⟩ | ⟨ds, rfl, h2, h3, h4⟩ | ⟨x, ds, rfl, h1, h2, h3, h4⟩
  · exact Or.inl ⟨_, Or.inr ⟨x, ds, rfl, h1, h2, h3, numeral_intBase fun c hc => digit_hex (h4 c hc)⟩⟩
  · exact Or.inl ⟨_, Or.inl ⟨ds, rfl, h2, h3, numeral_intBase fun c hc => digit_dec (h4 c hc)⟩⟩
  · exact Or.inr ⟨_, rfl, x, ds, rfl, isAlphaCI_iff.1 h1, h2, h3, fun c hc => isAlnumCI_iff.1 (h4 c hc)⟩

theorem not_ref_rest {t : Str} (h : ¬ ∃ m r, '&' :: t = m ++ r ∧ RefForm m) : reENTITY.rest ('&' :: t) = none := by
  cases hr : reENTITY.rest ('&' :: t) with
  | none => rfl
  | some r =>
    obtain ⟨m, h1, h2⟩ := (Re.mem_all_iff _ _ _ _).1 (Re.run_some_mem hr)
    exact absurd ⟨m, r, h1, den_refForm h2⟩ h

theorem html5Prefix_some {s v : Str} {k : Nat} (hk : 2 ≤ k) (hv : html5Get (s.take k) = some v)
    (hno : ∀ k', k < k' → 2 ≤ k' → html5Get (s.take k') = none) : ∀ n, k ≤ n → html5Prefix s n = some (v ++ s.drop k)
  | 0, h => by omega
  | 1, h => by omega
  | n + 2, h => by
    rw [html5Prefix]
    rcases Nat.lt_or_ge k (n + 2) with h' | h'
    · rw [hno (n + 2) h' (by omega)]
      exact html5Prefix_some hk hv hno (n + 1) (by omega)
    · rw [show n + 2 = k by omega, hv]

theorem decodes_entity {m x : Str} (h : Decodes m x) : (∀ t, Den 0 reENTITY m t) ∧ htmlUnescape m = x := by
  cases h with
  | char h h0 h1 h2 =>
    obtain ⟨hd, he⟩ := numericRef_entity h
    exact ⟨hd 0, by rw [he, numCharref_plain h0 h1 h2]⟩
  | bad h h0 =>
    obtain ⟨hd, he⟩ := numericRef_entity h
    exact ⟨hd 0, by rw [he, numCharref_noChar h0]⟩
  | c1 h h0 =>
    obtain ⟨hd, he⟩ := numericRef_entity h
    exact ⟨hd 0, by rw [he, numCharref_1252 h0]⟩
  | refused h h0 =>
    obtain ⟨hd, he⟩ := numericRef_entity h
    exact ⟨hd 0, by rw [he, numCharref_of_refused h0]⟩
  | @known e h hs =>
    have hg := List.all_eq_true.1 html5_names e h
    rw [hs] at hg
    simp only [bne_self_eq_false, Bool.false_or] at hg
    obtain ⟨y, ds, he, h1, h2, h3, h4⟩ := goodName_shape hg
    have hn := html5Get_mem h
    rw [he] at hn ⊢
    exact ⟨fun t => den_entity_name 0 h1 h2 h3 h4, by rw [nameRef_unescape h1 h2 h3 h4, named_known hn]⟩
  | @unknown nm h hu =>
    obtain ⟨y, ds, rfl, h1, h2, h3, h4⟩ := h
    have h1 := isAlphaCI_iff.2 h1
    have h4 : ∀ c ∈ ds, isAlnumCI c = true := fun c hc => isAlnumCI_iff.2 (h4 c hc)
    refine ⟨fun t => den_entity_name 0 h1 h2 h3 h4, ?_⟩
    rw [nameRef_unescape h1 h2 h3 h4]
    have hk : ∀ k, 2 ≤ k → html5Get ((y :: (ds ++ [';'])).take k) = none :=
      fun k hk => html5Get_none fun e he => hu e he k hk
    have h0 : html5Get (y :: (ds ++ [';'])) = none := by
      have := hk (y :: (ds ++ [';'])).length (by simp)
      rwa [List.take_length] at this
    unfold named
    rw [h0, html5Prefix_none fun k h1 _ => hk k h1]
    rfl
  | @shorter nm e k h he hk hkl hek hno =>
    obtain ⟨y, ds, rfl, h1, h2, h3, h4⟩ := h
    have h1 := isAlphaCI_iff.2 h1
    have h4 : ∀ c ∈ ds, isAlnumCI c = true := fun c hc => isAlnumCI_iff.2 (h4 c hc)
    refine ⟨fun t => den_entity_name 0 h1 h2 h3 h4, ?_⟩
    rw [nameRef_unescape h1 h2 h3 h4]
    have hk' : ∀ k', k < k' → html5Get ((y :: (ds ++ [';'])).take k') = none :=
      fun k' hk => html5Get_none fun e he => hno e he k' hk
    have h0 : html5Get (y :: (ds ++ [';'])) = none := by
      have := hk' (y :: (ds ++ [';'])).length hkl
      rwa [List.take_length] at this
    have h5 := html5Get_mem he
    rw [hek] at h5
    unfold named
    rw [h0, html5Prefix_some hk h5 (fun k' hk _ => hk' k' hk) _ (by omega)]
    rfl

theorem html5Get_some {s v : Str} (h : html5Get s = some v) :
    ∃ e ∈ html5Tab, e.1.toList = s ∧ e.2.map Char.ofNat = v := by
  simp only [html5Get, Option.map_eq_some_iff] at h
  obtain ⟨e, he, rfl⟩ := h
  refine ⟨e, List.mem_of_find?_eq_some he, ?_, rfl⟩
  have := List.find?_some he
  rw [beq_iff_eq] at this
  rw [this, String.toList_ofList]

theorem html5Get_ne {s : Str} (h : html5Get s = none) : ∀ e ∈ html5Tab, e.1.toList ≠ s := by
  rintro e he rfl
  rw [html5Get_mem he] at h
  cases h

theorem html5Prefix_cases {s : Str} : ∀ (n : Nat), (html5Prefix s n = none ∧ ∀ k, 2 ≤ k → k ≤ n → html5Get (s.take k) = none) ∨
    ∃ k v, 2 ≤ k ∧ k ≤ n ∧ html5Get (s.take k) = some v ∧ html5Prefix s n = some (v ++ s.drop k) ∧
      ∀ k', k < k' → k' ≤ n → html5Get (s.take k') = none
  | 0 => Or.inl ⟨rfl, by omega⟩
  | 1 => Or.inl ⟨rfl, by omega⟩
  | n + 2 => by
    rw [html5Prefix]
    cases hg : html5Get (s.take (n + 2)) with
    | some v => exact Or.inr ⟨n + 2, v, by omega, Nat.le_refl _, hg, rfl, by omega⟩
    | none =>
      rcases html5Prefix_cases (s := s) (n + 1) with ⟨h1, h2⟩ | ⟨k, v, h1, h2, h3, h4, h5⟩
      · refine Or.inl ⟨h1, fun k hk hk2 => ?_⟩
        rcases Nat.lt_or_ge k (n + 2) with h | h
        · exact h2 k hk (by omega)
        · rw [show k = n + 2 by omega]; exact hg
      · refine Or.inr ⟨k, v, h1, by omega, h3, h4, fun k' hk hk2 => ?_⟩
        rcases Nat.lt_or_ge k' (n + 2) with h | h
        · exact h5 k' hk (by omega)
        · rw [show k' = n + 2 by omega]; exact hg

/-- Every reference stands for the text that it is replaced by. -/
theorem entity_decodes {n : Nat} {m t : Str} (h : Den n reENTITY m t) : Decodes m (htmlUnescape m) := by
  rcases den_refForm h with ⟨v, hv⟩ | ⟨nm, rfl, hn⟩
  · rw [(numericRef_entity hv).2]
    by_cases h1 : NoCharacter v
    · rw [numCharref_noChar h1]; exact .bad hv h1
    by_cases h2 : Refused v
    · rw [numCharref_of_refused h2]; exact .refused hv h2
    by_cases h3 : ∃ w, (v, w) ∈ windows1252
    · obtain ⟨w, hw⟩ := h3
      rw [numCharref_1252 hw]; exact .c1 hv hw
    · rw [numCharref_plain h1 h2 fun w hw => h3 ⟨w, hw⟩]
      exact .char hv h1 h2 fun w hw => h3 ⟨w, hw⟩
  · have hn' := hn
    obtain ⟨y, ds, rfl, h1, h2, h3, h4⟩ := hn
    rw [nameRef_unescape (isAlphaCI_iff.2 h1) h2 h3 fun c hc => isAlnumCI_iff.2 (h4 c hc)]
    have hlast : (y :: (ds ++ [';'])).getLast? = some ';' := by rw [← List.cons_append, List.getLast?_concat]
    generalize y :: (ds ++ [';']) = nm at *
    unfold named
    cases hg : html5Get nm with
    | some v =>
      obtain ⟨e, he, rfl, rfl⟩ := html5Get_some hg
      exact .known he hlast
    | none =>
      have hbig : ∀ k, nm.length ≤ k → html5Get (nm.take k) = none := by
        intro k hk; rw [List.take_of_length_le hk]; exact hg
      rcases html5Prefix_cases (s := nm) (nm.length - 1) with ⟨g1, g2⟩ | ⟨k, v, g1, g2, g3, g4, g5⟩
      · rw [g1]
        refine .unknown hn' fun e he k hk => html5Get_ne ?_ e he
        by_cases hkl : nm.length ≤ k
        · exact hbig k hkl
        · exact g2 k hk (by omega)
      · rw [g4]
        obtain ⟨e, he, h5, rfl⟩ := html5Get_some g3
        refine .shorter hn' he g1 (by omega) h5 fun e' he' k' hk' => html5Get_ne ?_ e' he'
        by_cases hkl : nm.length ≤ k'
        · exact hbig k' hkl
        · exact g5 k' hk' (by omega)

/-! ### Delimiters that are not used -/

theorem findOpener_none {cl : Delim} {bot : Option Nat} : ∀ {ds : List Delim} {odd : Bool}, (∀ d ∈ ds, d.canOpen = false) →
    (findOpener cl bot ds odd).1 = none
  | [], _, _ => rfl
  | d :: ds, odd, h => by
    rw [findOpener]
    split
    · rfl
    · simp only [h d (by simp), Bool.and_false, Bool.false_and, Bool.false_eq_true, if_false]
      exact findOpener_none fun x hx => h x (by simp [hx])

theorem emphLoop_neutral {op : Bool} : ∀ (fuel : Nat) (st : EmphState), st.after.length < fuel →
    (∀ d ∈ st.before, Neutral op d) → (∀ d ∈ st.after, Neutral op d) → emphLoop fuel st = .ok st.items
  | 0, st, h, _, _ => by omega
  | fuel + 1, st, h, hb, ha => by
    rw [emphLoop]
    cases hs : st.after with
    | nil => rfl
    | cons cl rest =>
      rw [hs] at ha h
      simp only [List.length_cons] at h
      have hcl := ha cl (by simp)
      have hrest : ∀ d ∈ rest, Neutral op d := fun d hd => ha d (by simp [hd])
      have key : (emphStep st cl rest).items = st.items ∧ (emphStep st cl rest).after = rest ∧
          ∀ d ∈ (emphStep st cl rest).before, Neutral op d := by
        have hcons : ∀ d ∈ cl :: st.before, Neutral op d := by
          intro d hd
          rcases List.mem_cons.1 hd with rfl | hd
          · exact hcl
          · exact hb d hd
        unfold emphStep
        by_cases hc : cl.canClose = true
        · have hop : op = false := by
            cases op with
            | false => rfl
            | true => have := hcl.close rfl; rw [hc] at this; cases this
          have hf := findOpener_none (cl := cl) (bot := st.openersBottom cl.cc) (odd := st.oddMatch) (ds := st.before)
            fun d hd => (hb d hd).opn hop
          have e6 : (cl.cc == '*' || cl.cc == '_') = true := by rcases hcl.star with h | h <;> rw [h] <;> rfl
          cases hfo : findOpener cl (st.openersBottom cl.cc) st.before st.oddMatch with
          | mk f odd =>
            rw [hfo] at hf
            simp only at hf
            subst hf
            simp only [hc, Bool.not_true, Bool.false_eq_true, if_false, e6, if_true]
            split
            · exact ⟨rfl, rfl, hcons⟩
            · refine ⟨rfl, rfl, ?_⟩
              intro d hd
              simp only at hd
              split at hd
              · exact hcons d hd
              · exact hb d hd
        · have hc : cl.canClose = false := by simpa using hc
          simp only [hc, Bool.not_false, if_true]
          exact ⟨trivial, trivial, hcons⟩
      simp only
      rw [emphLoop_neutral fuel _ (by rw [key.2.1]; omega) key.2.2 (by rw [key.2.1]; exact hrest), key.1]

theorem processEmphasis_neutral {op : Bool} {ds : List Delim} {its : List Item} (h : ∀ d ∈ ds, Neutral op d) :
    processEmphasis ds its = .ok its := by
  rw [processEmphasis, emphLoop_neutral (op := op)]
  · simp only [emphFuel]
    have : ds.length ≤ (ds.map fun d => d.numdelims + 1).sum := by
      clear h
      induction ds with
      | nil => simp
      | cons d ds ih => simp only [List.length_cons, List.map_cons, List.sum_cons]; omega
    omega
  · simp
  · exact h

/-! ### The whole text -/

/-- From any state at the beginning of `t` (after `b`), the pieces `ps` are appended. -/
def Continues (c : Ctx) (op : Bool) (b t : Str) (ps : List Piece) : Prop :=
  ∀ st : IState, c.subject = b ++ t → st.pos = b.length → NlOk st t → (∀ d ∈ st.delims, Neutral op d) →
    ∃ r, Run c st r ∧ r.children.map (·.node) = st.children.map (·.node) ++ ps.map pieceTree ∧
      ∀ d ∈ r.delims, Neutral op d

theorem nlOk_text {st : IState} {t : Str} {i : Nat} {l : Str} {ch : Char} (h : st.children.getLast? = some ⟨i, textNode l⟩)
    (hl : l.getLast? = some ch) (hc : ch ≠ ' ') : NlOk st t := by
  intro _ it hit _
  rw [h] at hit
  obtain rfl := Option.some.inj hit
  exact ⟨l, ch, rfl, hl, hc⟩

theorem nlOk_other {st : IState} {t : Str} {i : Nat} {n : Tree} (h : st.children.getLast? = some ⟨i, n⟩)
    (hn : n.data.t ≠ .text) : NlOk st t := by
  intro _ it hit ht
  rw [h] at hit
  obtain rfl := Option.some.inj hit
  exact absurd ht hn

theorem add_last (st : IState) (n : Nat) (t : Tree) : (st.add n t).children.getLast? = some ⟨0, t⟩ := by
  simp

theorem add_nodes (st : IState) (n : Nat) (t : Tree) :
    (st.add n t).children.map (·.node) = st.children.map (·.node) ++ [t] := by simp

theorem continues_step {c : Ctx} {op : Bool} {b m t : Str} {p : Piece} {ps : List Piece} (hm : m ≠ [])
    (ih : Continues c op (b ++ m) t ps)
    (hst : ∀ st : IState, c.subject = b ++ (m ++ t) → st.pos = b.length → c.rest st.pos = m ++ t → NlOk st (m ++ t) →
      (∀ d ∈ st.delims, Neutral op d) → ∃ st', parseInline c st = .ok (some st') ∧ st'.pos = st.pos + m.length ∧
        (∀ d ∈ st'.delims, Neutral op d) ∧ st'.children.map (·.node) = st.children.map (·.node) ++ [pieceTree p] ∧
        NlOk st' t) : Continues c op b (m ++ t) (p :: ps) := by
  intro st hsub hpos hl hd
  have hrest : c.rest st.pos = m ++ t := by rw [Ctx.rest, hsub, hpos, List.drop_left]
  obtain ⟨st', h1, h2, h3, h4, h5⟩ := hst st hsub hpos hrest hl hd
  obtain ⟨r, h6, h7, h8⟩ := ih st' (by rw [hsub]; simp) (by rw [h2, hpos]; simp) h5 h3
  have hml : 0 < m.length := List.length_pos_iff.2 hm
  refine ⟨r, Run.step h1 (by omega) ?_ h6, ?_, h8⟩
  · rw [hsub, hpos]; simp; omega
  · rw [h7, h4]; simp

/-- A step that appends one node. -/
theorem continues_add {c : Ctx} {op : Bool} {b m t : Str} {p : Piece} {ps : List Piece} (hm : m ≠ [])
    (ih : Continues c op (b ++ m) t ps)
    (hst : ∀ st : IState, c.rest st.pos = m ++ t → parseInline c st = .ok (some (st.add m.length (pieceTree p))))
    (hp : t.head? = some '\n' → ∀ l, p = .text l → ∃ ch, l.getLast? = some ch ∧ ch ≠ ' ') :
    Continues c op b (m ++ t) (p :: ps) := by
  refine continues_step hm ih fun st hsub hpos hrest hl hd => ⟨_, hst st hrest, rfl, hd, add_nodes _ _ _, ?_⟩
  intro ht it hit htt
  rw [add_last] at hit
  obtain rfl := Option.some.inj hit
  cases p with
  | text l =>
    obtain ⟨ch, h1, h2⟩ := hp ht l rfl
    exact ⟨l, ch, rfl, h1, h2⟩
  | code s => cases htt
  | link d l => cases htt
  | soft => cases htt
  | hard => cases htt

theorem last_of_single {x ch : Char} (h : x ≠ ' ') : ∀ l, Piece.text [x] = .text l → ∃ ch, l.getLast? = some ch ∧ ch ≠ ' ' := by
  intro l hl
  cases hl
  exact ⟨x, rfl, h⟩

theorem punct_ne_space {c : Char} (h : c ∈ asciiPunctuation) : c ≠ ' ' := by
  rintro rfl; revert h; decide

theorem reads_continues {c : Ctx} (hs : c.smart = false) (hr : c.refmap = []) {op : Bool} {b s : Str} {ps : List Piece}
    (h : Reads op b s ps) : Continues c op b s ps := by
  induction h with
  | nil =>
    intro st hsub hpos _ hd
    refine ⟨st, Run.stop ?_, by simp, hd⟩
    rw [Ctx.rest, hsub, hpos]; simp
  | @plain b m t ps h1 h2 h3 _ ih =>
    refine continues_add h1 ih (fun st hrest => ?_) ?_
    · refine step_main hs hrest h1 (fun x hx => ordinary_main.2 (h2 x hx)) ?_
      intro x hx
      cases hh : isMain x with
      | false => rfl
      | true => exact absurd (ordinary_main.1 hh) (h3 x hx).1
    · intro ht
      exact absurd rfl (h3 _ ht).2
  | @lineEnd b m t k j ps h1 h2 h3 h4 _ ih =>
    intro st hsub hpos hl hd
    have hne : m ++ List.replicate k ' ' ≠ [] := by
      rcases h1 with h1 | h1
      · simp [h1]
      · obtain ⟨k, rfl⟩ : ∃ i, k = i + 1 := ⟨k - 1, by omega⟩
        simp [List.replicate_succ]
    have hrest : c.rest st.pos = (m ++ List.replicate k ' ') ++ ('\n' :: List.replicate j ' ' ++ t) := by
      rw [Ctx.rest, hsub, hpos, List.drop_left]; simp
    have s1 : parseInline c st = .ok (some (st.add (m ++ List.replicate k ' ').length (textNode (m ++ List.replicate k ' ')))) := by
      refine step_main hs hrest hne ?_ ?_
      · intro x hx
        rcases List.mem_append.1 hx with hx | hx
        · exact ordinary_main.2 (h2 x hx)
        · rw [List.eq_of_mem_replicate hx]; decide
      · intro x hx
        have : x = '\n' := by simpa using hx.symm
        rw [this]; decide
    have hrest2 := rest_add hrest
    have s2 := step_lineEnd (st := st.add (m ++ List.replicate k ' ').length (textNode (m ++ List.replicate k ' ')))
      (its := st.children) hrest2 h4 rfl h1 h3
    obtain ⟨r, h6, h7, h8⟩ := ih { st.add (m ++ List.replicate k ' ').length (textNode (m ++ List.replicate k ' ')) with
        pos := st.pos + (m ++ List.replicate k ' ').length + (1 + j)
        children := st.children ++ [⟨0, textNode m⟩, ⟨0, mkNode (if 2 ≤ k then .linebreak else .softbreak) []⟩] }
      (by rw [hsub]; simp) (by simp [hpos]; omega)
      (by
        refine nlOk_other (i := 0) (n := mkNode (if 2 ≤ k then .linebreak else .softbreak) []) (by simp) ?_
        split <;> simp [mkNode, Tree.data]) hd
    have hpl : 0 < (m ++ List.replicate k ' ').length := List.length_pos_iff.2 hne
    refine ⟨r, Run.step s1 (by simp only [add_pos]; omega) (by rw [hsub, hpos]; simp; omega)
      (Run.step s2 (by simp only [add_pos]; omega) (rest_lt hrest2) h6), ?_, h8⟩
    · rw [h7]
      by_cases hk : 2 ≤ k <;> simp [hk, pieceTree, textNode, mkNode]
  | @newline b t j ps h1 _ ih =>
    refine continues_step (m := '\n' :: List.replicate j ' ') (by simp) ih fun st hsub hpos hrest hl hd => ?_
    refine ⟨_, step_newline hrest h1 hl, by simp; omega, hd, add_nodes _ _ _, nlOk_other (add_last _ _ _) ?_⟩
    simp [mkNode, Tree.data]
  | @escape b t x ps h1 _ ih =>
    refine continues_add (m := ['\\', x]) (by simp) ih (fun st hrest => ?_) fun _ => last_of_single (ch := x) (punct_ne_space h1)
    exact step_escape hrest ((isEscapable_iff x).2 h1)
  | @backslash b t ps h1 _ ih =>
    refine continues_add (m := ['\\']) (by simp) ih (fun st hrest => ?_) fun _ => last_of_single (ch := 'x') (by decide)
    refine step_backslash hrest fun x hx => ⟨?_, (h1 x hx).2⟩
    cases hh : isEscapable x with
    | false => rfl
    | true => exact absurd ((isEscapable_iff x).1 hh) (h1 x hx).1
  | @hardBreak b t ps _ ih =>
    refine continues_add (m := ['\\', '\n']) (by simp) ih (fun st hrest => ?_) (by intro _ l hl; cases hl)
    exact step_hardbreak hrest
  | @code b x y t n ps h1 h2 h3 h4 h5 h6 h7 _ ih =>
    refine continues_add (m := List.replicate n '`' ++ (x ++ List.replicate n '`')) (by simp [h2]) ih (fun st hrest => ?_)
      (by intro _ l hl; cases hl)
    have := step_code hrest h1 h2 h3 h4 h5 h6 h7
    rw [this]
    simp [pieceTree, textNode, codeNode, linkNode]
  | @ticks b t n ps h1 h2 h3 _ ih =>
    have hn : List.replicate n '`' ≠ [] := by
      obtain ⟨k, rfl⟩ : ∃ i, n = i + 1 := ⟨n - 1, by omega⟩
      simp [List.replicate_succ]
    refine continues_add hn ih (fun st hrest => ?_) ?_
    · rw [List.length_replicate]; exact step_ticks hrest h1 h2 h3
    · intro _ l hl
      cases hl
      obtain ⟨k, rfl⟩ : ∃ i, n = i + 1 := ⟨n - 1, by omega⟩
      exact ⟨'`', by rw [List.replicate_succ', List.getLast?_concat], by decide⟩
  | @uri b u t ps h1 _ ih =>
    refine continues_add (m := '<' :: (u ++ ['>'])) (by simp) ih (fun st hrest => ?_) (by intro _ l hl; cases hl)
    rw [step_uri hrest h1]
    simp [pieceTree, textNode, codeNode, linkNode]
  | @email b u t ps h1 _ ih =>
    refine continues_add (m := '<' :: (u ++ ['>'])) (by simp) ih (fun st hrest => ?_) (by intro _ l hl; cases hl)
    rw [step_email hrest h1]
    simp [pieceTree, textNode, codeNode, linkNode]
  | @less b t ps h1 _ ih =>
    refine continues_add (m := ['<']) (by simp) ih (fun st hrest => ?_) fun _ => last_of_single (ch := 'x') (by decide)
    exact step_less hrest h1
  | @ref b m x t ps h1 h2 _ ih =>
    obtain ⟨hd, he⟩ := decodes_entity h1
    obtain ⟨w, hw⟩ := entity_amp (hd t)
    refine continues_add (by rw [hw]; simp) ih (fun st hrest => ?_) ?_
    · rw [step_entity hrest (hd t), he]; rfl
    · intro ht l hl
      cases hl
      obtain ⟨a, b⟩ := h2 ht
      cases hx : x.getLast? with
      | none => exact absurd (List.getLast?_eq_none_iff.1 hx) a
      | some ch => exact ⟨ch, rfl, by rintro rfl; exact b hx⟩
  | @amp b t ps h1 _ ih =>
    refine continues_add (m := ['&']) (by simp) ih (fun st hrest => ?_) fun _ => last_of_single (ch := 'x') (by decide)
    exact step_amp hrest (not_ref_rest h1)
  | @quote b t x ps h1 _ ih =>
    refine continues_add (m := [x]) (by simp) ih (fun st hrest => ?_)
      fun _ => last_of_single (ch := 'x') (by rcases h1 with rfl | rfl <;> decide)
    exact step_quote hs hrest h1
  | @bang b t ps h1 _ ih =>
    refine continues_add (m := ['!']) (by simp) ih (fun st hrest => ?_) fun _ => last_of_single (ch := 'x') (by decide)
    exact step_bang hrest h1
  | @openB b t ps _ ih =>
    refine continues_step (m := ['[']) (by simp) ih fun st hsub hpos hrest hl hd => ?_
    obtain ⟨st', a1, a2, a3, a4, i, a5⟩ := step_openB hrest
    exact ⟨st', a1, a2, by rw [a3]; exact hd, a4, nlOk_text a5 (ch := '[') rfl (by decide)⟩
  | @openImg b t ps _ ih =>
    refine continues_step (m := ['!', '[']) (by simp) ih fun st hsub hpos hrest hl hd => ?_
    obtain ⟨st', a1, a2, a3, a4, i, a5⟩ := step_openImg hrest
    exact ⟨st', a1, a2, by rw [a3]; exact hd, a4, nlOk_text a5 (ch := '[') rfl (by decide)⟩
  | @closeB b t ps h1 _ ih =>
    refine continues_step (m := [']']) (by simp) ih fun st hsub hpos hrest hl hd => ?_
    obtain ⟨bs, a1⟩ := step_closeB hr hrest h1
    exact ⟨_, a1, rfl, hd, by simp [pieceTree, textNode], nlOk_text (i := 0) (l := [']']) (ch := ']') (by simp) rfl (by decide)⟩
  | @delims b t n x ps h1 h2 h3 h4 h5 _ ih =>
    have hn : List.replicate n x ≠ [] := by
      obtain ⟨k, rfl⟩ : ∃ i, n = i + 1 := ⟨n - 1, by omega⟩
      simp [List.replicate_succ]
    refine continues_step hn ih fun st hsub hpos hrest hl hd => ?_
    obtain ⟨st', d, a1, a2, a3, a4, a5, i, a6⟩ := step_delims hsub hpos h1 h2 h3 h4 h5
    refine ⟨st', a1, by rw [List.length_replicate]; exact a2, ?_, a5, nlOk_text a6 (ch := x) ?_ ?_⟩
    · rw [a3]
      intro e he
      rcases List.mem_cons.1 he with rfl | he
      · exact a4
      · exact hd e he
    · obtain ⟨k, rfl⟩ : ∃ i, n = i + 1 := ⟨n - 1, by omega⟩
      rw [List.replicate_succ', List.getLast?_concat]
    · rcases h2 with rfl | rfl <;> decide

/-- The inline content of a block whose text reads as `ps`. -/
theorem parseInlines_reads {op : Bool} {content s : Str} {ps : List Piece} (hc : strip content = s)
    (h : Reads op [] s ps) : parseInlines false [] content = .ok (ps.map pieceTree) := by
  obtain ⟨r, h1, h2, h3⟩ := reads_continues (c := ⟨s, [], false⟩) rfl rfl h ⟨0, [], [], [], 1⟩ rfl rfl
    (by intro _ it hit; cases hit) (by simp)
  unfold parseInlines
  have := h1 (s.length + 1) (by simp)
  simp only [hc, this, bind, Except.bind]
  rw [processEmphasis_neutral (op := op) (ds := r.delims.reverse) (by simpa using h3)]
  simp only [pure, Except.pure, h2, List.map_nil, List.nil_append]

end CM
