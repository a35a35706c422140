import Verif.Proofs.EmphReach
import Verif.Proofs.Reads
import Verif.Proofs.HtmlEnd
import Verif.Proofs.RefsComplete
import Verif.Spec.Phrase
import Verif.Proofs.Typeset
/-
The inline parser reads a text the way `Spec.Phrase` says.
-/
set_option linter.unusedVariables false
namespace CM
open Spec

/-! ### Spans -/

theorem spanTrees_append : ∀ (xs ys : List Span), spanTrees (xs ++ ys) = spanTrees xs ++ spanTrees ys
  | [], ys => rfl
  | x :: xs, ys => by simp only [List.cons_append, spanTrees, spanTrees_append xs ys]

theorem anyLink_append : ∀ (xs ys : List Span), anyLink (xs ++ ys) = (anyLink xs || anyLink ys)
  | [], ys => by simp [anyLink]
  | x :: xs, ys => by simp only [List.cons_append, anyLink, anyLink_append xs ys, Bool.or_assoc]

theorem spanTrees_emphasis : ∀ (n : Nat) (xs : List Span), spanTrees (emphasis n xs) = wrapTrees n (spanTrees xs)
  | 0, xs => rfl
  | 1, xs => rfl
  | n + 2, xs => by rw [emphasis, spanTrees_emphasis n, wrapTrees]; rfl

theorem anyLink_emphasis : ∀ (n : Nat) (xs : List Span), anyLink (emphasis n xs) = anyLink xs
  | 0, xs => rfl
  | 1, xs => by simp [emphasis, anyLink, hasLink]
  | n + 2, xs => by rw [emphasis, anyLink_emphasis n]; simp [anyLink, hasLink]

theorem deactivate_twice (bs : List Bracket) : deactivate (deactivate bs) = deactivate bs := by
  simp only [deactivate, List.map_map]
  refine List.map_congr_left fun b _ => ?_
  simp only [Function.comp]
  cases hb : b.image <;> simp [hb]

/-! ### Runs of the loop -/

inductive RunTo (c : Ctx) : IState → IState → Prop
  | refl {st : IState} : RunTo c st st
  | step {st st' st'' : IState} : parseInline c st = .ok (some st') → st.pos < st'.pos → st.pos < c.subject.length →
      RunTo c st' st'' → RunTo c st st''

theorem RunTo.trans {c : Ctx} {a b d : IState} (h : RunTo c a b) (h' : RunTo c b d) : RunTo c a d := by
  induction h with
  | refl => exact h'
  | step h1 h2 h3 _ ih => exact .step h1 h2 h3 (ih h')

theorem RunTo.run {c : Ctx} {a b r : IState} (h : RunTo c a b) (h' : Run c b r) : Run c a r := by
  induction h with
  | refl => exact h'
  | step h1 h2 h3 _ ih => exact Run.step h1 h2 h3 (ih h')

/-- The ids in a state are below the next one. -/
structure IdsOk (st : IState) : Prop where
  pos : 1 ≤ st.nextId
  items : ∀ it ∈ st.children, it.id < st.nextId
  delims : ∀ d ∈ st.delims, d.node < st.nextId

/-- From `st` the parser reads `t`, and gets to `st'`, with nodes that become `xs`. -/
def Appends (c : Ctx) (E : List Char) (n : Nat) (xs : List Span) (st st' : IState) : Prop :=
  ∃ its ds, RunTo c st st' ∧ st'.pos = st.pos + n ∧ st'.children = st.children ++ its ∧ st'.delims = ds.reverse ++ st.delims ∧
    st'.brackets = (if anyLink xs then deactivate st.brackets else st.brackets) ∧
    Stretch E st.nextId st'.nextId its ds (spanTrees xs)

theorem Appends.ids {c : Ctx} {E : List Char} {n : Nat} {xs : List Span} {st st' : IState} (h : Appends c E n xs st st')
    (hs : IdsOk st) : IdsOk st' := by
  obtain ⟨its, ds, h1, h2, h3, h4, h5, h6⟩ := h
  have hle := h6.le
  have h0 := hs.pos
  refine ⟨by omega, ?_, ?_⟩
  · rw [h3]
    intro it hit
    rcases List.mem_append.1 hit with hit | hit
    · have := hs.items it hit; omega
    · have := h6.ids it hit; omega
  · rw [h4]
    intro d hd
    rcases List.mem_append.1 hd with hd | hd
    · have := h6.nodes d (by simpa using hd); omega
    · have := hs.delims d hd; omega

theorem Appends.trans {c : Ctx} {E : List Char} {n m : Nat} {xs ys : List Span} {a b d : IState} (h : Appends c E n xs a b)
    (h' : Appends c E m ys b d) : Appends c E (n + m) (xs ++ ys) a d := by
  obtain ⟨its, ds, h1, h2, h3, h4, h5, h6⟩ := h
  obtain ⟨its', ds', g1, g2, g3, g4, g5, g6⟩ := h'
  refine ⟨its ++ its', ds ++ ds', h1.trans g1, by omega, by rw [g3, h3]; simp, by rw [g4, h4]; simp, ?_, ?_⟩
  · rw [g5, h5, anyLink_append]
    cases anyLink xs <;> cases anyLink ys <;> simp [deactivate_twice]
  · rw [spanTrees_append]; exact h6.append g6

theorem rest_of_subject {c : Ctx} {b t : Str} {st : IState} (h : c.subject = b ++ t) (hp : st.pos = b.length) :
    c.rest st.pos = t := by rw [Ctx.rest, h, hp, List.drop_left]

theorem lt_of_subject {c : Ctx} {b t k : Str} {st : IState} (h : c.subject = b ++ (t ++ k)) (hp : st.pos = b.length) (ht : t ≠ []) :
    st.pos < c.subject.length := by
  have := List.length_pos_iff.2 ht
  rw [h, hp]; simp; omega

/-- From `st` the parser reads `t`, and gets to `st'`, with the nodes of `xs`. -/
structure AddsAll (c : Ctx) (n : Nat) (xs : List Span) (st st' : IState) : Prop where
  run : RunTo c st st'
  pos : st'.pos = st.pos + n
  children : st'.children = st.children ++ xs.map fun x => ⟨0, spanTree x⟩
  delims : st'.delims = st.delims
  brackets : st'.brackets = st.brackets
  nextId : st'.nextId = st.nextId
  plain : anyLink xs = false

theorem stretch_plain {E : List Char} {lo : Nat} (h : 1 ≤ lo) : ∀ xs : List Span,
    Stretch E lo lo (xs.map fun x => ⟨0, spanTree x⟩) [] (spanTrees xs)
  | [] => by simpa [spanTrees] using Stretch.nil h
  | x :: xs => by
    have := (Stretch.one (E := E) (lo := lo) (hi := lo) (it := ⟨0, spanTree x⟩) h (.inl rfl) (Nat.le_refl _)).append (stretch_plain h xs)
    simpa [spanTrees] using this

theorem AddsAll.appends {c : Ctx} {E : List Char} {n : Nat} {xs : List Span} {st st' : IState} (h : AddsAll c n xs st st') (hid : IdsOk st) :
    Appends c E n xs st st' := by
  refine ⟨_, [], h.run, h.pos, h.children, h.delims, by rw [h.plain]; exact h.brackets, ?_⟩
  rw [h.nextId]
  exact stretch_plain hid.pos xs

/-- Texts without emphasis and brackets. -/
theorem atom_adds {c : Ctx} {b t k : Str} {xs : List Span} (h : Atom c.smart t k xs) {st : IState}
    (hsub : c.subject = b ++ (t ++ k)) (hpos : st.pos = b.length) (hnl : NlOk st (t ++ k)) :
    ∃ st', AddsAll c t.length xs st st' ∧ NlOk st' k := by
  have hrest := rest_of_subject hsub hpos
  have one : ∀ (x : Span), t ≠ [] → hasLink x = false →
      parseInline c st = .ok (some (st.add t.length (spanTree x))) →
      (k.head? = some '\n' → ∀ l, x = .text l → ∃ ch, l.getLast? = some ch ∧ ch ≠ ' ') →
      ∃ st', AddsAll c t.length [x] st st' ∧ NlOk st' k := by
    intro x ht hx he hp
    have hn := List.length_pos_iff.2 ht
    refine ⟨_, ⟨.step he (by simp; omega) (lt_of_subject hsub hpos ht) .refl, rfl, rfl, rfl, rfl, rfl, by simp [anyLink, hx]⟩, ?_⟩
    intro hk it hit htt
    rw [add_last] at hit
    obtain rfl := Option.some.inj hit
    cases x with
    | text l =>
      obtain ⟨ch, h1, h2⟩ := hp hk l rfl
      exact ⟨l, ch, rfl, h1, h2⟩
    | _ => cases htt
  have nosp : ∀ {x : Char}, x ≠ ' ' → ∀ l, Span.text [x] = .text l → ∃ ch, l.getLast? = some ch ∧ ch ≠ ' ' := by
    intro x hx l hl
    cases hl
    exact ⟨x, rfl, hx⟩
  cases h with
  | plain h1 h2 h3 =>
    refine one _ h1 rfl ?_ fun hk => absurd rfl (h3 _ hk).2
    refine step_typeset hrest h1 (fun x hx => ordinary_main.2 (h2 x hx)) ?_
    intro x hx
    cases hh : isMain x with
    | false => rfl
    | true => exact absurd (ordinary_main.1 hh) (h3 x hx).1
  | @lineEnd m _ i j h1 h2 h3 h4 =>
    have hne : m ++ List.replicate i ' ' ≠ [] := by
      rcases h1 with h1 | h1
      · simp [h1]
      · obtain ⟨i, rfl⟩ : ∃ a, i = a + 1 := ⟨i - 1, by omega⟩
        simp [List.replicate_succ]
    have hrest1 : c.rest st.pos = (m ++ List.replicate i ' ') ++ ('\n' :: List.replicate j ' ' ++ k) := by
      rw [hrest]; simp
    have s1 : parseInline c st =
        .ok (some (st.add (m ++ List.replicate i ' ').length (textNode (typeset c.smart m ++ List.replicate i ' ')))) := by
      rw [← typeset_spaces]
      refine step_typeset hrest1 hne ?_ ?_
      · intro x hx
        rcases List.mem_append.1 hx with hx | hx
        · exact ordinary_main.2 (h2 x hx)
        · rw [List.eq_of_mem_replicate hx]; decide
      · intro x hx
        have : x = '\n' := by simpa using hx.symm
        rw [this]; decide
    have hrest2 := rest_add hrest1
    have s2 := step_lineEnd (st := st.add (m ++ List.replicate i ' ').length (textNode (typeset c.smart m ++ List.replicate i ' ')))
      (its := st.children) hrest2 h4 rfl (h1.imp_left typeset_ne) (typeset_last h3)
    have hpl : 0 < (m ++ List.replicate i ' ').length := List.length_pos_iff.2 hne
    refine ⟨_, ⟨.step s1 (by simp only [add_pos]; omega) (rest_lt (ch := (m ++ List.replicate i ' ').head hne)
        (t := (m ++ List.replicate i ' ').tail ++ ('\n' :: List.replicate j ' ' ++ k)) (by
          rw [hrest1, ← List.cons_append, List.cons_head_tail]))
        (.step s2 (by simp only [add_pos]; omega) (rest_lt hrest2) .refl), ?_, ?_, rfl, rfl, rfl, ?_⟩, ?_⟩
    · simp only [add_pos, List.length_append, List.length_replicate, List.length_cons]; omega
    · by_cases hi : 2 ≤ i <;> simp [hi, spanTree, textNode, mkNode, IState.add, IState.push]
    · by_cases hi : 2 ≤ i <;> simp [hi, anyLink, hasLink]
    · refine nlOk_other (i := 0) (n := mkNode (if 2 ≤ i then .linebreak else .softbreak) []) (by simp) ?_
      split <;> simp [mkNode, Tree.data]
  | @newline _ j h1 =>
    refine one .soft (by simp) rfl ?_ (by intro _ l hl; cases hl)
    rw [step_newline hrest h1 hnl, List.length_cons, List.length_replicate, Nat.add_comm 1 j]
    rfl
  | @escape _ x h1 =>
    exact one _ (by simp) rfl (step_escape hrest ((isEscapable_iff x).2 h1)) fun _ => nosp (punct_ne_space h1)
  | backslash h1 =>
    refine one _ (by simp) rfl (step_backslash hrest fun x hx => ⟨?_, (h1 x hx).2⟩) fun _ => nosp (by decide)
    cases hh : isEscapable x with
    | false => rfl
    | true => exact absurd ((isEscapable_iff x).1 hh) (h1 x hx).1
  | hardBreak => exact one .hard (by simp) rfl (step_hardbreak hrest) (by intro _ l hl; cases hl)
  | @code x y _ n h1 h2 h3 h4 h5 h6 h7 =>
    refine one (.code y) (by simp [h2]) rfl ?_ (by intro _ l hl; cases hl)
    rw [step_code hrest h1 h2 h3 h4 h5 h6 h7]
    simp [spanTree, codeNode]
  | @ticks _ n h1 h2 h3 =>
    have hn : List.replicate n '`' ≠ [] := by
      obtain ⟨a, rfl⟩ : ∃ i, n = i + 1 := ⟨n - 1, by omega⟩
      simp [List.replicate_succ]
    refine one (.text (List.replicate n '`')) hn rfl (by rw [List.length_replicate]; exact step_ticks hrest h1 h2 h3) ?_
    intro _ l hl
    cases hl
    obtain ⟨a, rfl⟩ : ∃ i, n = i + 1 := ⟨n - 1, by omega⟩
    exact ⟨'`', by rw [List.replicate_succ', List.getLast?_concat], by decide⟩
  | @uri u _ h1 =>
    refine one (.autolink u u) (by simp) rfl ?_ (by intro _ l hl; cases hl)
    rw [step_autouri hrest h1]
    simp [spanTree, textNode, linkNode]
  | @email u _ h1 =>
    refine one (.autolink ("mailto:".toList ++ u) u) (by simp) rfl ?_ (by intro _ l hl; cases hl)
    rw [step_email hrest h1]
    simp [spanTree, textNode, linkNode]
  | html h1 h2 =>
    refine one (.html t) ?_ rfl (step_tag hrest h1 h2) (by intro _ l hl; cases hl)
    rintro rfl
    exact absurd (htmlTag_ends h1).1 (by simp)
  | less h1 => exact one _ (by simp) rfl (step_plain_less hrest h1) fun _ => nosp (by decide)
  | @ref _ x _ h1 h2 =>
    obtain ⟨hd, he⟩ := decodes_entity h1
    obtain ⟨w, hw⟩ := entity_amp (hd k)
    refine one (.text x) (by rw [hw]; simp) rfl (by rw [step_entity hrest (hd k), he]; rfl) ?_
    intro hk l hl
    cases hl
    obtain ⟨a, b⟩ := h2 hk
    cases hx : x.getLast? with
    | none => exact absurd (List.getLast?_eq_none_iff.1 hx) a
    | some ch => exact ⟨ch, rfl, by rintro rfl; exact b hx⟩
  | amp h1 => exact one _ (by simp) rfl (step_amp hrest (not_ref_rest h1)) fun _ => nosp (by decide)
  | quote hs h1 => exact one _ (by simp) rfl (step_quote hs hrest h1) fun _ => nosp (by rcases h1 with rfl | rfl <;> decide)
  | bang h1 => exact one _ (by simp) rfl (step_bang hrest h1) fun _ => nosp (by decide)

theorem atom_run {c : Ctx} {E : List Char} {b t k : Str} {xs : List Span} (h : Atom c.smart t k xs) {st : IState}
    (hsub : c.subject = b ++ (t ++ k)) (hpos : st.pos = b.length) (hid : IdsOk st) (hnl : NlOk st (t ++ k)) :
    ∃ st', Appends c E t.length xs st st' ∧ NlOk st' k := by
  obtain ⟨st', h1, h2⟩ := atom_adds h hsub hpos hnl
  exact ⟨st', h1.appends hid, h2⟩

/-! ### Delimiters -/

theorem step_run {b t : Str} {n : Nat} {ch : Char} {c : Ctx} {st : IState}
    (hsub : c.subject = b ++ (List.replicate n ch ++ t)) (hpos : st.pos = b.length) (hn : 1 ≤ n)
    (hch : ch = '*' ∨ ch = '_') (ht : t.head? ≠ some ch) :
    ∃ o cl, parseInline c st = .ok (some { st with
      pos := st.pos + n
      children := st.children ++ [⟨st.nextId, textNode (List.replicate n ch)⟩]
      delims := ⟨ch, n, n, st.nextId, o, cl⟩ :: st.delims
      nextId := st.nextId + 1 }) ∧
      (o = true ↔ CanOpen (isPySpace · = true) (isPunct · = true) ch b.getLast? t.head?) ∧
      (cl = true ↔ CanClose (isPySpace · = true) (isPunct · = true) ch b.getLast? t.head?) := by
  obtain ⟨o, cl, hs, ho, hc⟩ := C37_scanDelims b t c.refmap c.smart ch n hch hn ht
  have hce : c = ⟨b ++ (List.replicate n ch ++ t), c.refmap, c.smart⟩ := by rw [← hsub]
  rw [← hce, ← hpos] at hs
  have hp : c.peek st.pos = some ch := by
    refine rest_peek (t := List.replicate (n - 1) ch ++ t) ?_
    rw [Ctx.rest, hsub, hpos, List.drop_left]
    obtain ⟨k, rfl⟩ : ∃ k, n = k + 1 := ⟨n - 1, by omega⟩
    rfl
  have hsl : slice c.subject st.pos (st.pos + n) = List.replicate n ch := by
    rw [slice, hsub, hpos, ← List.append_assoc, List.take_left' (by simp), List.drop_left]
  have e1 : (ch == '\'') = false := by rcases hch with rfl | rfl <;> rfl
  have e2 : (ch == '"') = false := by rcases hch with rfl | rfl <;> rfl
  have e3 : (ch == '\n') = false := by rcases hch with rfl | rfl <;> rfl
  have e4 : (ch == '\\') = false := by rcases hch with rfl | rfl <;> rfl
  have e5 : (ch == '`') = false := by rcases hch with rfl | rfl <;> rfl
  have e6 : (ch == '*' || ch == '_') = true := by rcases hch with rfl | rfl <;> rfl
  refine ⟨o, cl, ?_, ho, hc⟩
  rw [parseInline, hp]
  simp only [e3, e4, e5, e6, Bool.false_eq_true, if_false, if_true]
  rw [handleDelim, hs]
  simp only [e1, e2, Bool.false_eq_true, if_false, hsl, fallback, if_true]

theorem scan_quote {b t : Str} {q : Char} {m : RefMap} {smart : Bool} (hq : q = '\'' ∨ q = '"') :
    ∃ o cl, scanDelims ⟨b ++ q :: t, m, smart⟩ q b.length = some ⟨1, o, cl⟩ ∧ (o = true ↔ OpensQuote b.getLast? t.head?) ∧
      (cl = true ↔ RightFlanking (isPySpace · = true) (isPunct · = true) b.getLast? t.head?) := by
  refine ⟨(flanking q (b.getLast?.getD '\n') (t.head?.getD '\n')).1, (flanking q (b.getLast?.getD '\n') (t.head?.getD '\n')).2, ?_, ?_, ?_⟩
  · have hc : countDelims ⟨b ++ q :: t, m, smart⟩ q b.length = 1 := by
      unfold countDelims
      rcases hq with rfl | rfl <;> rfl
    unfold scanDelims
    simp only [hc]
    rw [if_neg (by decide)]
    have h1 : (if (b.length == 0) = true then '\n' else (b ++ q :: t)[b.length - 1]?.getD '\n') = b.getLast?.getD '\n' := by
      rcases List.eq_nil_or_concat b with rfl | ⟨u, d, rfl⟩
      · rfl
      · simp
    have h2 : (Ctx.peek ⟨b ++ q :: t, m, smart⟩ (b.length + 1)).getD '\n' = t.head?.getD '\n' := by
      simp only [Ctx.peek]
      rw [List.getElem?_append_right (by omega)]
      cases t <;> simp
    simp only [h1, h2]
  all_goals
    have hws : ∀ x : Option Char, isUniWhitespace (x.getD '\n') = true ↔ White (isPySpace · = true) x := by
      intro x
      cases x with
      | none => simp only [Option.getD_none, White, iff_true]; decide
      | some d =>
        simp only [Option.getD_some, isUniWhitespace, White, Bool.or_eq_true, beq_iff_eq]
        constructor
        · rintro (h | h)
          · exact h
          · simp [isPySpace, h]
        · exact .inl
    have hpu : ∀ x : Option Char, isPunct (x.getD '\n') = true ↔ Punct (isPunct · = true) x := by
      intro x
      cases x with
      | none => simp only [Option.getD_none, Punct, iff_false]; decide +kernel
      | some d => rfl
    have a1 := hws b.getLast?
    have a2 := hws t.head?
    have a3 := hpu b.getLast?
    have a4 := hpu t.head?
    revert a1 a2 a3 a4
    unfold flanking
    generalize isUniWhitespace (b.getLast?.getD '\n') = b1
    generalize isUniWhitespace (t.head?.getD '\n') = b2
    generalize isPunct (b.getLast?.getD '\n') = b3
    generalize isPunct (t.head?.getD '\n') = b4
    intro a1 a2 a3 a4
    simp only [OpensQuote, LeftFlanking, RightFlanking, ← a1, ← a2, ← a3, ← a4]
    clear a1 a2 a3 a4
    rcases hq with rfl | rfl <;> revert b1 b2 b3 b4 <;> decide

/-- What is first written for a quotation mark. -/
def firstQuote (q : Char) : Char := if q = '\'' then rsquo else ldquo

/-- A quotation mark, with smart punctuation. -/
theorem step_smart {b t : Str} {q : Char} {c : Ctx} {st : IState} (hs : c.smart = true) (hsub : c.subject = b ++ q :: t)
    (hpos : st.pos = b.length) (hq : q = '\'' ∨ q = '"') :
    ∃ o cl, parseInline c st = .ok (some { st with
      pos := st.pos + 1
      children := st.children ++ [⟨st.nextId, textNode [firstQuote q]⟩]
      delims := ⟨q, 1, 1, st.nextId, o, cl⟩ :: st.delims
      nextId := st.nextId + 1 }) ∧ (o = true ↔ OpensQuote b.getLast? t.head?) ∧
      (cl = true ↔ RightFlanking (isPySpace · = true) (isPunct · = true) b.getLast? t.head?) := by
  obtain ⟨o, cl, h1, h2, h3⟩ := scan_quote (b := b) (t := t) (m := c.refmap) (smart := c.smart) hq
  have hce : c = ⟨b ++ q :: t, c.refmap, c.smart⟩ := by rw [← hsub]
  rw [← hce, ← hpos] at h1
  have hp : c.peek st.pos = some q := rest_peek (t := t) (by rw [Ctx.rest, hsub, hpos, List.drop_left])
  refine ⟨o, cl, ?_, h2, h3⟩
  rw [parseInline, hp]
  rcases hq with rfl | rfl <;> simp [hs, handleDelim, h1, fallback, firstQuote]

/-! ### Emphasis of a stretch -/

theorem processEmphasis_stretch {lo hi : Nat} {its : List Item} {ds : List Delim} {ts : List Tree}
    (h : Stretch [] lo hi its ds ts) : ∃ its', processEmphasis ds its = .ok its' ∧ its'.map (·.node) = ts := by
  obtain ⟨N, its', bot', odd', h1, h2, _⟩ := h.run [] [] [] [] (fun _ => none) false (by simp) (by simp) (by simp) (by simp) (by simp)
  simp only [List.append_nil, List.nil_append] at h1
  exact ⟨its', processEmphasis_reach h1 rfl, h2⟩

/-! ### The part of a link after its text -/

theorem scanDest_paren {k l : Nat} {d : Str} (h : Bare k d l) : ∀ {t : Str}, l = 0 → d.getLast? ≠ some '\\' →
    scanDest k (d ++ ')' :: t) = d.length := by
  induction h with
  | nil =>
    intro t hl hd
    subst hl
    rfl
  | @escape k l c s hc _ ih =>
    intro t hl hd
    have : s.getLast? ≠ some '\\' := by
      intro hs; apply hd
      rw [List.getLast?_cons, List.getLast?_cons, hs]; rfl
    rw [List.cons_append, List.cons_append, scanDest, if_pos ((isEscapable_iff c).2 hc), ih hl this]
    simp; omega
  | @backslash k l s hc hb ih =>
    intro t hl hd
    cases s with
    | nil => exact absurd rfl hd
    | cons x s =>
      have : (x :: s).getLast? ≠ some '\\' := by
        intro hs; apply hd; rw [List.getLast?_cons, hs]; rfl
      have e : isEscapable x = false := by
        cases hh : isEscapable x with
        | false => rfl
        | true => exact absurd ((isEscapable_iff x).1 hh) (hc x rfl)
      rw [List.cons_append, List.cons_append, scanDest, e, if_neg (by simp), ← List.cons_append, ih hl this]
      simp; omega
  | @openP k l s _ ih =>
    intro t hl hd
    have : s.getLast? ≠ some '\\' := by
      intro hs; apply hd; rw [List.getLast?_cons, hs]; rfl
    rw [List.cons_append, scanDest, if_pos (by decide), ih hl this]
    · simp; omega
    · intro x xs h; cases h
  | @closeP k l s _ ih =>
    intro t hl hd
    have : s.getLast? ≠ some '\\' := by
      intro hs; apply hd; rw [List.getLast?_cons, hs]; rfl
    rw [List.cons_append, scanDest, if_neg (by decide), if_pos (by decide), if_neg (by omega), Nat.add_sub_cancel, ih hl this]
    · simp; omega
    · intro x xs h; cases h
  | @plain k l c s h1 h2 h3 _ ih =>
    intro t hl hd
    have : s.getLast? ≠ some '\\' := by
      intro hs; apply hd; rw [List.getLast?_cons, hs]; rfl
    rw [show "\\()".toList = ['\\', '(', ')'] from rfl] at h1
    simp only [List.mem_cons, List.not_mem_nil, or_false, not_or] at h1
    have hw : isWhitespaceChar c = false := by
      simp only [isWhitespaceChar, Bool.or_eq_false_iff, beq_eq_false_iff_ne, Bool.and_eq_false_iff, decide_eq_false_iff_not]
      exact ⟨h2, by omega⟩
    rw [List.cons_append, scanDest]
    · simp only [beq_iff_eq, h1.2.1, h1.2.2, if_false, hw, Bool.false_eq_true, ih hl this, List.length_cons]
      omega
    · rintro x xs rfl; exact absurd rfl h1.1

theorem peek_head {c : Ctx} {pos : Nat} : c.peek pos = (c.rest pos).head? := by simp [Ctx.peek, Ctx.rest]

theorem parseLinkDestination_paren {c : Ctx} {pos : Nat} {d raw t : Str} (h : c.rest pos = d ++ ')' :: t)
    (hd : Destination d raw (')' :: t)) (ht : d.getLast? ≠ some '\\') :
    parseLinkDestination c pos = some (normalizeUri (unescapeString raw), pos + d.length) := by
  cases hd with
  | angle hx =>
    obtain ⟨m', p, h1, h2, h3, h4⟩ := match_some_of h (angle_den hx _)
    obtain ⟨y, rfl, hy⟩ := angle_of_den h4
    rw [h] at h3
    have : raw = y := by
      refine inAngle_unique hx hy (t := ')' :: t) (u := c.rest p) ?_
      simpa using h3
    subst this
    unfold parseLinkDestination
    rw [h1]
    simp [chop, h2]
  | bare h1 h2 h3 h4 =>
    have hlt : (d ++ ')' :: t).head? ≠ some '<' := by
      cases d with
      | nil => simp
      | cons => exact h1
    have hm : c.match_ reLinkDestinationBraces pos = none := by
      rw [match_none_iff]
      rintro ⟨m, u, e, hm⟩
      obtain ⟨y, rfl, _⟩ := angle_of_den hm
      rw [h] at e
      rw [e] at hlt
      exact hlt rfl
    have hpk : (c.peek pos == some '<') = false := by
      rw [peek_head, h]
      simpa using hlt
    unfold parseLinkDestination
    rw [hm]
    simp only [hpk, Bool.false_eq_true, if_false]
    rw [h, scanDest_paren h2 (h4 rfl) ht]
    have h0 : (d.length == 0 && c.peek pos != some ')') = false := by
      cases d with
      | nil => rw [peek_head, h]; rfl
      | cons => rfl
    have hs : slice c.subject pos (pos + d.length) = d := by
      have h' : c.subject.drop pos = d ++ ')' :: t := h
      rw [slice, List.drop_take, h']
      simp
    simp only [h0, hs, Bool.false_eq_true, if_false]

theorem dest_start {d raw t : Str} (h : Destination d raw t) (ht : ∀ ch, t.head? = some ch → isWhitespaceChar ch = true ∨ ch = ')') :
    (d ++ t).head? ≠ some ' ' ∧ (d ++ t).head? ≠ some '\n' := by
  cases h with
  | angle h => exact ⟨by simp, by simp⟩
  | bare h1 h2 h3 h4 =>
    have hb := bare_head h2
    cases d with
    | nil => rw [List.nil_append, h3 rfl]; exact ⟨by simp, by simp⟩
    | cons c d =>
      have := hb c rfl
      constructor
      · intro h; cases h; exact absurd this (by decide)
      · intro h; cases h; exact absurd this (by decide)

theorem title_none {c : Ctx} {pos : Nat} {t : Str} (h : c.rest pos = ')' :: t) : parseLinkTitle c pos = none := by
  unfold parseLinkTitle
  have : c.match_ reLinkTitle pos = none := by
    rw [match_none_iff]
    rintro ⟨m, u, e, hm⟩
    have hx := title_of_den hm
    rw [h] at e
    generalize chop m = x at hx
    cases hx <;> cases e
  rw [this]; rfl

theorem spnl_last {s : Str} (h : Spnl s) (hs : s ≠ []) : ∃ ch, s.getLast? = some ch ∧ isWhitespaceChar ch = true := by
  obtain ⟨a, rfl | ⟨b, rfl⟩⟩ := h
  · cases a with
    | zero => exact absurd rfl hs
    | succ a => exact ⟨' ', by rw [List.replicate_succ', List.getLast?_concat], rfl⟩
  · cases b with
    | zero => exact ⟨'\n', by simp, rfl⟩
    | succ b => exact ⟨' ', by rw [List.replicate_succ', ← List.cons_append, ← List.append_assoc, List.getLast?_concat], rfl⟩

theorem inlineLink_inline {c : Ctx} {pos : Nat} {s1 d raw s2 k : Str}
    (h : c.rest pos = '(' :: (s1 ++ (d ++ (s2 ++ ')' :: k)))) (h1 : Spnl s1) (h2 : Destination d raw (s2 ++ ')' :: k)) (h3 : Spnl s2)
    (h4 : s2 = [] → d.getLast? ≠ some '\\') :
    inlineLink c pos = (some (normalizeUri (unescapeString raw), none), pos + (s1.length + d.length + s2.length + 2)) := by
  have hh : ∀ ch, (s2 ++ ')' :: k).head? = some ch → isWhitespaceChar ch = true ∨ ch = ')' := by
    intro ch hc
    cases s2 with
    | nil => cases hc; exact .inr rfl
    | cons x s2 => exact .inl (spnl_head h3 ch hc)
  have hp : c.peek pos = some '(' := by rw [peek_head, h]; rfl
  have r1 := rest_succ h
  have ds := dest_start h2 hh
  have e1 := spnl_of r1 h1 ds.1 ds.2
  have r2 := rest_add r1
  have e2 : parseLinkDestination c (pos + 1 + s1.length) = some (normalizeUri (unescapeString raw), pos + 1 + s1.length + d.length) := by
    cases s2 with
    | nil => exact parseLinkDestination_paren r2 h2 (h4 rfl)
    | cons x s2 => exact parseLinkDestination_of r2 h2 fun ch hc => spnl_head h3 ch hc
  have r3 := rest_add r2
  have e3 := spnl_of r3 h3 (by simp) (by simp)
  have r4 := rest_add r3
  have e4 : c.spnl (pos + 1 + s1.length + d.length + s2.length) = pos + 1 + s1.length + d.length + s2.length :=
    spnl_of (s := []) r4 ⟨0, .inl rfl⟩ (by simp) (by simp)
  have e5 : c.peek (pos + 1 + s1.length + d.length + s2.length) = some ')' := by rw [peek_head, r4]; rfl
  have e6 := title_none r4
  unfold inlineLink
  simp only [hp, beq_self_eq_true, if_true, e1, e2, e3, e6]
  cases hc : c.subject[pos + 1 + s1.length + d.length + s2.length - 1]? with
  | none => simp only [e4, e5, beq_self_eq_true, if_true, Prod.mk.injEq, true_and]; omega
  | some ch =>
    cases hw : isWhitespaceChar ch <;>
    · simp only [hw, Bool.false_eq_true, if_false, if_true, e4, e5, beq_self_eq_true, Prod.mk.injEq, true_and]; omega

theorem inlineLink_titled {c : Ctx} {pos : Nat} {s1 d raw s2 tl y s3 k : Str}
    (h : c.rest pos = '(' :: (s1 ++ (d ++ (s2 ++ (tl ++ (s3 ++ ')' :: k)))))) (h1 : Spnl s1)
    (h2 : Destination d raw (s2 ++ (tl ++ (s3 ++ ')' :: k)))) (h3 : Spnl s2) (h4 : s2 ≠ []) (h5 : ClearTitle tl y) (h6 : Spnl s3) :
    inlineLink c pos = (some (normalizeUri (unescapeString raw), some (unescapeString y)),
      pos + (s1.length + d.length + s2.length + tl.length + s3.length + 2)) := by
  have hh : ∀ ch, (s2 ++ (tl ++ (s3 ++ ')' :: k))).head? = some ch → isWhitespaceChar ch = true := by
    intro ch hc
    cases s2 with
    | nil => exact absurd rfl h4
    | cons x s2 => exact spnl_head h3 ch hc
  have hp : c.peek pos = some '(' := by rw [peek_head, h]; rfl
  have r1 := rest_succ h
  have ds := dest_start h2 fun ch hc => .inl (hh ch hc)
  have e1 := spnl_of r1 h1 ds.1 ds.2
  have r2 := rest_add r1
  have e2 := parseLinkDestination_of r2 h2 hh
  have r3 := rest_add r2
  obtain ⟨q, tr, rfl, q1, q2⟩ := title_start (clearTitle_title h5)
  have e3 := spnl_of r3 h3 (by simp [q1]) (by simp [q2])
  have r4 := rest_add r3
  have e4 := parseLinkTitle_of r4 h5
  have r5 := rest_add r4
  have e5 := spnl_of r5 h6 (by simp) (by simp)
  have r6 := rest_add r5
  have e6 : c.peek (pos + 1 + s1.length + d.length + s2.length + (q :: tr).length + s3.length) = some ')' := by
    rw [peek_head, r6]; rfl
  obtain ⟨ch, g1, g2⟩ := spnl_last h3 h4
  have e7 : c.subject[pos + 1 + s1.length + d.length + s2.length - 1]? = some ch := by
    have h' : c.subject.drop (pos + 1 + s1.length + d.length) = s2 ++ (q :: tr ++ (s3 ++ ')' :: k)) := r3
    have hl : 0 < s2.length := List.length_pos_iff.2 h4
    have := congrArg (·[s2.length - 1]?) h'
    simp only [List.getElem?_drop] at this
    rw [List.getElem?_append_left (by omega), ← List.getLast?_eq_getElem?, g1] at this
    rw [← this]
    congr 1
    omega
  unfold inlineLink
  simp only [hp, beq_self_eq_true, if_true, e1, e2, e3, e7, g2, e4, e5, e6, Prod.mk.injEq, true_and]
  omega

theorem inlineLink_no {c : Ctx} {pos : Nat} (h : (c.rest pos).head? ≠ some '(') : inlineLink c pos = (none, pos) := by
  unfold inlineLink
  rw [peek_head]
  simp [h]

theorem label_no {c : Ctx} {pos : Nat} (h : (c.rest pos).head? ≠ some '[') : parseLinkLabel c pos = (0, pos) := by
  unfold parseLinkLabel
  have : c.match_ reLinkLabel pos = none := by
    rw [match_none_iff]
    rintro ⟨m, t, e, hm⟩
    obtain ⟨y, rfl, _⟩ := label_of_den' hm
    rw [e] at h
    exact h rfl
  rw [this]

/-- What a link target does. -/
theorem target_of {c : Ctx} {refs : Str → Option RefDef} (hr : ∀ l, c.refmap.get l = refs l) {x w k dest title : Str} {pos i : Nat}
    {o : Bracket} (h : Target refs x w k dest title) (hrest : c.rest pos = w ++ k)
    (hi : slice c.subject o.index pos = '[' :: (x ++ [']'])) :
    (∃ t, inlineLink c pos = (some (dest, t), pos + w.length) ∧ t.getD [] = title) ∨
      ∃ p, inlineLink c pos = (none, p) ∧ referenceLink c o pos p = (some (dest, title), pos + w.length) := by
  cases h with
  | inline h1 h2 h3 h4 =>
    refine .inl ⟨none, ?_, rfl⟩
    rw [inlineLink_inline (by rw [hrest]; simp) h1 h2 h3 h4]
    simp; omega
  | @titled _ _ _ _ _ y _ _ h1 h2 h3 h4 h5 h6 =>
    refine .inl ⟨some (unescapeString y), ?_, rfl⟩
    rw [inlineLink_titled (by rw [hrest]; simp) h1 h2 h3 h4 h5 h6]
    simp; omega
  | full h1 h2 h3 =>
    refine .inr ⟨pos, inlineLink_no ?_, ?_⟩
    · obtain ⟨z, rfl, _⟩ := h1
      rw [hrest]; simp
    · have hs : slice c.subject pos (pos + w.length) = w := by
        have h' : c.subject.drop pos = w ++ k := hrest
        rw [slice, List.drop_take, h']
        simp
      have hne : w.isEmpty = false := by cases w with
        | nil => simp at h2
        | cons => rfl
      have h0 : (w.length == 0) = false := by rw [beq_eq_false_iff_ne]; omega
      unfold referenceLink
      simp only [parseLinkLabel_of hrest h1, gt_iff_lt, h2, if_true, hs, hne, Bool.false_eq_true, if_false, hr, h3, h0]
  | collapsed h1 =>
    refine .inr ⟨pos, inlineLink_no (by rw [hrest]; simp), ?_⟩
    have hl : LinkLabel ['[', ']'] := ⟨[], rfl, .nil, by simp⟩
    unfold referenceLink
    rw [parseLinkLabel_of (l := ['[', ']']) hrest hl]
    simp [hi, hr, h1]
  | shortcut h1 h2 h3 =>
    rw [List.nil_append] at hrest
    refine .inr ⟨pos, inlineLink_no (by rw [hrest]; exact h2), ?_⟩
    unfold referenceLink
    rw [label_no (by rw [hrest]; exact h3)]
    simp [hi, hr, h1]

theorem noTarget {c : Ctx} {refs : Str → Option RefDef} (hr : ∀ l, c.refmap.get l = refs l) {x k : Str} {pos : Nat}
    {o : Bracket} (h1 : k.head? ≠ some '(') (h2 : k.head? ≠ some '[') (h3 : refs (normalizeReference ('[' :: (x ++ [']']))) = none)
    (hrest : c.rest pos = k) (hi : slice c.subject o.index pos = '[' :: (x ++ [']'])) :
    inlineLink c pos = (none, pos) ∧ ∃ p, referenceLink c o pos pos = (none, p) := by
  refine ⟨inlineLink_no (by rw [hrest]; exact h1), ?_⟩
  unfold referenceLink
  rw [label_no (by rw [hrest]; exact h2)]
  exact ⟨pos, by simp [hi, hr, h3]⟩

/-! ### Phrases -/

theorem splitAtId_mid {id : Nat} {x : Item} (hx : x.id = id) : ∀ {a b : List Item}, (∀ it ∈ a, it.id ≠ id) →
    splitAtId id (a ++ x :: b) = some (a, x, b)
  | [], b, _ => by simp [splitAtId, hx]
  | y :: a, b, h => by
    have h1 := h y (by simp)
    rw [List.cons_append, splitAtId, splitAtId_mid hx fun it hit => h it (by simp [hit])]
    simp [h1]

theorem splitDelims_of {lo : Nat} {ds old : List Delim} (h1 : ∀ d ∈ ds, lo ≤ d.node) (h2 : ∀ d ∈ old, d.node < lo) :
    splitDelims (old.head?.map (·.node)) (ds.reverse ++ old) = (ds, old) := by
  have h3 : (ds.reverse ++ old).takeWhile (fun d => some d.node != old.head?.map (·.node)) = ds.reverse := by
    rw [List.takeWhile_append_of_pos]
    · cases old with
      | nil => simp
      | cons d old => simp
    · intro d hd
      cases old with
      | nil => rfl
      | cons e old =>
        have := h1 d (by simpa using hd)
        have := h2 e (by simp)
        simp; omega
  unfold splitDelims
  simp only [h3]
  simp

theorem closeLink_of {lo hi : Nat} {o : Bracket} {bs : List Bracket} {dest title : Str} {st : IState} {a its : List Item}
    {x : Item} {ds old : List Delim} {ts : List Tree} (hx : x.id = o.node) (ha : ∀ it ∈ a, it.id ≠ o.node)
    (hc : st.children = a ++ x :: its) (hd : st.delims = ds.reverse ++ old) (hp : o.prevDelim = old.head?.map (·.node))
    (h : Stretch [] lo hi its ds ts) (ho : ∀ d ∈ old, d.node < lo) :
    closeLink o bs dest title st = .ok { st with
      children := a ++ [⟨0, linkNode (if o.image then .image else .link) dest title ts⟩]
      delims := old
      brackets := if o.image then bs else deactivate bs } := by
  obtain ⟨its', h1, h2⟩ := processEmphasis_stretch h
  unfold closeLink
  rw [hc, splitAtId_mid hx ha, hd, hp, splitDelims_of (fun d hd => (h.nodes d hd).1) ho]
  simp only [h1, h2, bind, Except.bind, pure, Except.pure]

theorem step_opening {c : Ctx} {st : IState} {image : Bool} {t : Str} (h : c.rest st.pos = opening image ++ t) :
    parseInline c st = .ok (some { st with
      pos := st.pos + (opening image).length
      children := st.children ++ [⟨st.nextId, textNode (opening image)⟩]
      brackets := ⟨st.nextId, st.delims.head?.map (·.node), st.pos + (opening image).length - 1, image, true⟩ :: st.brackets
      nextId := st.nextId + 1 }) := by
  cases image with
  | false =>
    have hp := rest_peek h
    rw [parseInline, hp]
    rfl
  | true =>
    have hp := rest_peek (t := '[' :: t) h
    have hp2 := rest_peek (rest_succ (t := '[' :: t) h)
    have e : parseInline c st = .ok (some (addBracket { st with pos := st.pos + 2 } (lit "![") (st.pos + 1) true)) := by
      rw [parseInline, hp]
      simp [parseBang, hp2]
    rw [e]
    rfl

theorem nlOk_last {st : IState} {t : Str} {i : Nat} {n : Tree} (h : st.children.getLast? = some ⟨i, n⟩)
    (hn : n.data.t = .text → ∃ l ch, n.data.literal = some l ∧ l.getLast? = some ch ∧ ch ≠ ' ') : NlOk st t := by
  intro _ it hit ht
  rw [h] at hit
  obtain rfl := Option.some.inj hit
  exact hn ht

theorem step_bracket {c : Ctx} {st st' : IState} {t : Str} (h : c.rest st.pos = ']' :: t) (hc : parseCloseBracket c st = .ok st') :
    parseInline c st = .ok (some st') := by
  rw [parseInline, rest_peek h]
  simp [hc, bind, Except.bind, pure, Except.pure]

theorem opening_last (image : Bool) : (opening image).getLast? = some '[' := by cases image <;> rfl

/-- A bracket that was pushed with the text `[` or `![`, before what follows changed the ones below. -/
theorem brackets_top {xs : List Span} {o : Bracket} {bs r : List Bracket}
    (h : r = if anyLink xs then deactivate (o :: bs) else o :: bs) :
    ∃ o' bs', r = o' :: bs' ∧ o'.node = o.node ∧ o'.prevDelim = o.prevDelim ∧ o'.index = o.index ∧ o'.image = o.image ∧
      (o'.active = (o.active && (o.image || !anyLink xs))) ∧ bs' = if anyLink xs then deactivate bs else bs := by
  subst h
  cases hx : anyLink xs with
  | false => exact ⟨o, bs, rfl, rfl, rfl, rfl, rfl, by simp, rfl⟩
  | true =>
    refine ⟨if o.image then o else { o with active := false }, deactivate bs, rfl, ?_, ?_, ?_, ?_, ?_, rfl⟩ <;>
      cases hi : o.image <;> simp [hi]

theorem phrase_run {c : Ctx} {refs : Str → Option RefDef} (hr : ∀ l, c.refmap.get l = refs l)
    {E : List Char} {b t k : Str} {xs : List Span} (h : Phrase c.smart refs E b t k xs) : ∀ {st : IState}, '"' ∉ E →
    c.subject = b ++ (t ++ k) → st.pos = b.length → IdsOk st → NlOk st (t ++ k) →
    ∃ st', Appends c E t.length xs st st' ∧ NlOk st' k := by
  induction h with
  | nil =>
    intro st hE hsub hpos hid hnl
    exact ⟨st, ⟨[], [], .refl, rfl, by simp, rfl, by simp [anyLink], Stretch.nil hid.pos⟩, hnl⟩
  | atom h =>
    intro st hE hsub hpos hid hnl
    exact atom_run h hsub hpos hid hnl
  | @seq E b t u k xs ys _ _ ih1 ih2 =>
    intro st hE hsub hpos hid hnl
    obtain ⟨st1, a1, n1⟩ := ih1 (st := st) hE (by rw [hsub]; simp) hpos hid (by simpa using hnl)
    have hp1 : st1.pos = (b ++ t).length := by obtain ⟨_, _, _, h2, _⟩ := a1; rw [h2, hpos]; simp
    obtain ⟨st2, a2, n2⟩ := ih2 (st := st1) hE (by rw [hsub]; simp) hp1 (a1.ids hid) n1
    exact ⟨st2, by rw [List.length_append]; exact a1.trans a2, n2⟩
  | @delims E b k n ch hn hc hk ho hcl =>
    intro st hE hsub hpos hid hnl
    obtain ⟨o, cl, hst, h1, h2⟩ := step_run hsub hpos hn hc hk
    have ho' : o = false := by
      cases o with
      | false => rfl
      | true => exact absurd (h1.1 rfl) ho
    subst ho'
    have hcl' : cl = false ∨ ch ∉ E := by
      rcases hcl with hcl | hcl
      · left
        cases cl with
        | false => rfl
        | true => exact absurd (h2.1 rfl) hcl
      · exact .inr hcl
    have hne : List.replicate n ch ≠ [] := by
      obtain ⟨a, rfl⟩ : ∃ i, n = i + 1 := ⟨n - 1, by omega⟩
      simp [List.replicate_succ]
    refine ⟨_, ⟨[⟨st.nextId, textNode (List.replicate n ch)⟩], [⟨ch, n, n, st.nextId, false, cl⟩],
      .step hst (by dsimp only; omega) (lt_of_subject hsub hpos hne) .refl, by simp, rfl, rfl, by simp [anyLink, hasLink],
      Stretch.unused hid.pos hc hcl'⟩, ?_⟩
    refine nlOk_last (i := st.nextId) (n := textNode (List.replicate n ch)) (by simp) fun _ => ?_
    refine ⟨_, ch, rfl, ?_, by rcases hc with rfl | rfl <;> decide⟩
    obtain ⟨a, rfl⟩ : ∃ i, n = i + 1 := ⟨n - 1, by omega⟩
    rw [List.replicate_succ', List.getLast?_concat]
  | @emph E b x k n ch xs hn hc hx hk ho hcl hcl2 _ ih =>
    intro st hE hsub hpos hid hnl
    have hne : List.replicate n ch ≠ [] := by
      obtain ⟨a, rfl⟩ : ∃ i, n = i + 1 := ⟨n - 1, by omega⟩
      simp [List.replicate_succ]
    have hlast : (List.replicate n ch).getLast? = some ch := by
      obtain ⟨a, rfl⟩ : ∃ i, n = i + 1 := ⟨n - 1, by omega⟩
      rw [List.replicate_succ', List.getLast?_concat]
    have hsp : ch ≠ ' ' := by rcases hc with rfl | rfl <;> decide
    have hhead : (x ++ (List.replicate n ch ++ k)).head? = (x ++ List.replicate n ch).head? := by
      rw [← List.append_assoc, List.head?_append_of_ne_nil _ (by simp [hne])]
    have hsub1 : c.subject = b ++ (List.replicate n ch ++ (x ++ (List.replicate n ch ++ k))) := by rw [hsub]; simp
    obtain ⟨o, cl, hst, h1, h2⟩ := step_run hsub1 hpos hn hc (by rw [hhead]; exact hx)
    rw [hhead] at h1 h2
    have ho' : o = true := h1.2 ho
    subst ho'
    have hcl' : cl = false ∨ ch ∉ E := by
      rcases hcl with hcl | hcl
      · left
        cases cl with
        | false => rfl
        | true => exact absurd (h2.1 rfl) hcl
      · exact .inr hcl
    have hid1 : IdsOk { st with
        pos := st.pos + n
        children := st.children ++ [⟨st.nextId, textNode (List.replicate n ch)⟩]
        delims := ⟨ch, n, n, st.nextId, true, cl⟩ :: st.delims
        nextId := st.nextId + 1 } := by
      refine ⟨by dsimp only; omega, ?_, ?_⟩
      · intro it hit
        rcases List.mem_append.1 hit with hit | hit
        · have := hid.items it hit; dsimp only; omega
        · obtain rfl := List.mem_singleton.1 hit; dsimp only; omega
      · intro d hd
        rcases List.mem_cons.1 hd with rfl | hd
        · dsimp only; omega
        · have := hid.delims d hd; dsimp only; omega
    obtain ⟨st2, ⟨its, ds, a1, a2, a3, a4, a5, a6⟩, n2⟩ := ih (st := { st with
        pos := st.pos + n
        children := st.children ++ [⟨st.nextId, textNode (List.replicate n ch)⟩]
        delims := ⟨ch, n, n, st.nextId, true, cl⟩ :: st.delims
        nextId := st.nextId + 1 }) (by rcases hc with rfl | rfl <;> simpa using hE) (by rw [hsub1]; simp) (by simp [hpos]) hid1
      (nlOk_last (i := st.nextId) (n := textNode (List.replicate n ch)) (by simp) fun _ => ⟨_, ch, rfl, hlast, hsp⟩)
    dsimp only at a2 a3 a4 a5 a6
    have hsub2 : c.subject = (b ++ List.replicate n ch ++ x) ++ (List.replicate n ch ++ k) := by rw [hsub]; simp
    have hpos2 : st2.pos = (b ++ List.replicate n ch ++ x).length := by rw [a2, hpos]; simp; omega
    obtain ⟨o2, cl2, hst2, h3, h4⟩ := step_run hsub2 hpos2 hn hc hk
    have hcl2' : cl2 = true := h4.2 hcl2
    subst hcl2'
    refine ⟨_, ⟨⟨st.nextId, textNode (List.replicate n ch)⟩ :: (its ++ [⟨st2.nextId, textNode (List.replicate n ch)⟩]),
      ⟨ch, n, n, st.nextId, true, cl⟩ :: (ds ++ [⟨ch, n, n, st2.nextId, o2, true⟩]),
      .step hst (by dsimp only; omega) (lt_of_subject hsub1 hpos hne)
        (a1.trans (.step hst2 (by dsimp only; omega) (lt_of_subject hsub2 hpos2 hne) .refl)), ?_, ?_, ?_, ?_, ?_⟩, ?_⟩
    · simp [a2]; omega
    · simp [a3]
    · simp [a4]
    · simp only [a5, anyLink_emphasis]
    · rw [spanTrees_emphasis]
      exact Stretch.emph hid.pos hn hc hcl' a6
    · exact nlOk_last (i := st2.nextId) (n := textNode (List.replicate n ch)) (by simp) fun _ => ⟨_, ch, rfl, hlast, hsp⟩
  | @doubleClose E b k hs hr =>
    intro st hE hsub hpos hid hnl
    obtain ⟨o, cl, hst, h1, h2⟩ := step_smart hs (t := k) hsub hpos (.inr rfl)
    have hcl : cl = true := h2.2 hr
    have ho : o = false := by
      cases o with
      | false => rfl
      | true => exact absurd hr (h1.1 rfl).2
    subst hcl ho
    refine ⟨_, ⟨[⟨st.nextId, textNode [ldquo]⟩], [⟨'"', 1, 1, st.nextId, false, true⟩],
      .step hst (by dsimp only; omega) (lt_of_subject hsub hpos (by simp)) .refl, by simp, rfl, rfl, by simp [anyLink, hasLink],
      Stretch.closing hid.pos (.inr rfl) hE⟩, ?_⟩
    exact nlOk_last (i := st.nextId) (n := textNode [ldquo]) (by simp; rfl) fun _ => ⟨_, ldquo, rfl, rfl, by decide⟩
  | @doubleOpen E b k hs hr =>
    intro st hE hsub hpos hid hnl
    obtain ⟨o, cl, hst, h1, h2⟩ := step_smart hs (t := k) hsub hpos (.inr rfl)
    have hcl : cl = false := by
      cases cl with
      | false => rfl
      | true => exact absurd (h2.1 rfl) hr
    subst hcl
    refine ⟨_, ⟨[⟨st.nextId, textNode [ldquo]⟩], [⟨'"', 1, 1, st.nextId, o, false⟩],
      .step hst (by dsimp only; omega) (lt_of_subject hsub hpos (by simp)) .refl, by simp, rfl, rfl, by simp [anyLink, hasLink],
      Stretch.standing hid.pos fun _ => ⟨.inr rfl, hE, rfl⟩⟩, ?_⟩
    exact nlOk_last (i := st.nextId) (n := textNode [ldquo]) (by simp; rfl) fun _ => ⟨_, ldquo, rfl, rfl, by decide⟩
  | @apostrophe E b k hs hno hr =>
    intro st hE hsub hpos hid hnl
    obtain ⟨o, cl, hst, h1, h2⟩ := step_smart hs (t := k) hsub hpos (.inl rfl)
    have ho : o = false := by
      cases o with
      | false => rfl
      | true => exact absurd (h1.1 rfl) hno
    subst ho
    refine ⟨_, ⟨[⟨st.nextId, textNode [rsquo]⟩], [⟨'\'', 1, 1, st.nextId, false, cl⟩],
      .step hst (by dsimp only; omega) (lt_of_subject hsub hpos (by simp)) .refl, by simp, rfl, rfl, by simp [anyLink, hasLink],
      ?_⟩, ?_⟩
    · cases cl with
      | false => exact Stretch.standing hid.pos fun h => by cases h
      | true => exact Stretch.closing hid.pos (.inl rfl) (hr.resolve_left fun h => h (h2.1 rfl))
    · exact nlOk_last (i := st.nextId) (n := textNode [rsquo]) (by simp; rfl) fun _ => ⟨_, rsquo, rfl, rfl, by decide⟩
  | @single E b x k xs hs hn hop hcl _ ih =>
    intro st hE hsub hpos hid hnl
    have hhead : (x ++ '\'' :: k).head? = (x ++ ['\'']).head? := by cases x <;> rfl
    have hsub1 : c.subject = b ++ '\'' :: (x ++ '\'' :: k) := by rw [hsub]; simp
    obtain ⟨o, cl, hst, h1, h2⟩ := step_smart hs hsub1 hpos (.inl rfl)
    rw [hhead] at h1 h2
    have ho : o = true := h1.2 hop
    have hc : cl = false := by
      cases cl with
      | false => rfl
      | true => exact absurd (h2.1 rfl) hop.2
    subst ho hc
    have hid1 : IdsOk { st with
        pos := st.pos + 1
        children := st.children ++ [⟨st.nextId, textNode [rsquo]⟩]
        delims := ⟨'\'', 1, 1, st.nextId, true, false⟩ :: st.delims
        nextId := st.nextId + 1 } := by
      refine ⟨by dsimp only; omega, ?_, ?_⟩
      · intro it hit
        rcases List.mem_append.1 hit with hit | hit
        · have := hid.items it hit; dsimp only; omega
        · obtain rfl := List.mem_singleton.1 hit; dsimp only; omega
      · intro d hd
        rcases List.mem_cons.1 hd with rfl | hd
        · dsimp only; omega
        · have := hid.delims d hd; dsimp only; omega
    obtain ⟨st2, ⟨its, ds, a1, a2, a3, a4, a5, a6⟩, n2⟩ := ih (st := { st with
        pos := st.pos + 1
        children := st.children ++ [⟨st.nextId, textNode [rsquo]⟩]
        delims := ⟨'\'', 1, 1, st.nextId, true, false⟩ :: st.delims
        nextId := st.nextId + 1 }) (by simpa using hE) (by rw [hsub1]; simp) (by simp [hpos]) hid1
      (nlOk_last (i := st.nextId) (n := textNode [rsquo]) (by simp) fun _ => ⟨_, rsquo, rfl, rfl, by decide⟩)
    dsimp only at a2 a3 a4 a5 a6
    have hsub2 : c.subject = (b ++ ['\''] ++ x) ++ '\'' :: k := by rw [hsub]; simp
    have hpos2 : st2.pos = (b ++ ['\''] ++ x).length := by rw [a2, hpos]; simp; omega
    obtain ⟨o2, cl2, hst2, h3, h4⟩ := step_smart hs hsub2 hpos2 (.inl rfl)
    have hcl2 : cl2 = true := h4.2 hcl
    have ho2 : o2 = false := by
      cases o2 with
      | false => rfl
      | true => exact absurd hcl (h3.1 rfl).2
    subst hcl2 ho2
    refine ⟨_, ⟨⟨st.nextId, textNode [rsquo]⟩ :: (its ++ [⟨st2.nextId, textNode [rsquo]⟩]),
      ⟨'\'', 1, 1, st.nextId, true, false⟩ :: (ds ++ [⟨'\'', 1, 1, st2.nextId, false, true⟩]),
      .step hst (by dsimp only; omega) (lt_of_subject (t := ['\'']) hsub1 hpos (by simp))
        (a1.trans (.step hst2 (by dsimp only; omega) (lt_of_subject (t := ['\'']) hsub2 hpos2 (by simp)) .refl)), ?_, ?_, ?_, ?_, ?_⟩, ?_⟩
    · simp [a2]; omega
    · simp [a3]; rfl
    · simp [a4]
    · simp only [a5]
      have : anyLink (Span.text ['‘'] :: (xs ++ [Span.text ['’']])) = anyLink xs := by
        simp [anyLink, anyLink_append, hasLink]
      rw [this]
    · have := Stretch.single hid.pos hn a6
      have e : spanTrees (Span.text ['‘'] :: (xs ++ [Span.text ['’']])) = textNode [lsquo] :: (spanTrees xs ++ [textNode [rsquo]]) := by
        rw [spanTrees, spanTrees_append]; rfl
      rw [e]
      exact this
    · exact nlOk_last (i := st2.nextId) (n := textNode [rsquo]) (by simp; rfl) fun _ => ⟨_, rsquo, rfl, rfl, by decide⟩
  | @link E b x w k dest title image xs _ htg hni ih =>
    intro st hE hsub hpos hid hnl
    have hsub1 : c.subject = b ++ (opening image ++ (x ++ (']' :: (w ++ k)))) := by rw [hsub]; simp
    have hst := step_opening (rest_of_subject hsub1 hpos)
    have hid1 : IdsOk { st with
        pos := st.pos + (opening image).length
        children := st.children ++ [⟨st.nextId, textNode (opening image)⟩]
        brackets := ⟨st.nextId, st.delims.head?.map (·.node), st.pos + (opening image).length - 1, image, true⟩ :: st.brackets
        nextId := st.nextId + 1 } := by
      refine ⟨by dsimp only; omega, ?_, ?_⟩
      · intro it hit
        rcases List.mem_append.1 hit with hit | hit
        · have := hid.items it hit; dsimp only; omega
        · obtain rfl := List.mem_singleton.1 hit; dsimp only; omega
      · intro d hd
        have := hid.delims d hd; dsimp only; omega
    have hol : 1 ≤ (opening image).length := by cases image <;> decide
    have hone : opening image ≠ [] := by cases image <;> decide
    obtain ⟨st2, ⟨its, ds, a1, a2, a3, a4, a5, a6⟩, n2⟩ := ih (st := { st with
        pos := st.pos + (opening image).length
        children := st.children ++ [⟨st.nextId, textNode (opening image)⟩]
        brackets := ⟨st.nextId, st.delims.head?.map (·.node), st.pos + (opening image).length - 1, image, true⟩ :: st.brackets
        nextId := st.nextId + 1 }) (by simp) (by rw [hsub1]; simp) (by simp [hpos]) hid1
      (nlOk_last (i := st.nextId) (n := textNode (opening image)) (by simp) fun _ =>
        ⟨_, '[', rfl, opening_last image, by decide⟩)
    dsimp only at a2 a3 a4 a5 a6
    obtain ⟨o, bs, q1, q2, q3, q4, q5, q6, q7⟩ := brackets_top a5
    dsimp only at q2 q3 q4 q5 q6
    have hsub2 : c.subject = (b ++ opening image ++ x) ++ ([']'] ++ (w ++ k)) := by rw [hsub]; simp
    have hpos2 : st2.pos = (b ++ opening image ++ x).length := by rw [a2, hpos]; simp; omega
    have hrest2 := rest_of_subject hsub2 hpos2
    have hact : o.active = true := by
      rw [q6]
      cases image with
      | true => rfl
      | false => simp [hni rfl]
    have hslice : slice c.subject o.index (st2.pos + 1) = '[' :: (x ++ [']']) := by
      rw [slice, q4, hpos2, hsub1, hpos]
      cases image with
      | false =>
        have : b ++ (opening false ++ (x ++ ']' :: (w ++ k))) = (b ++ ('[' :: (x ++ [']']))) ++ (w ++ k) := by simp [opening]
        rw [this, List.take_left' (by simp [opening]; omega)]
        simp [opening]
      | true =>
        have : b ++ (opening true ++ (x ++ ']' :: (w ++ k))) = ((b ++ ['!']) ++ ('[' :: (x ++ [']']))) ++ (w ++ k) := by simp [opening]
        rw [this, List.take_left' (by simp [opening]; omega), List.drop_left' (by simp [opening])]
    have hcl : ∀ (dst : Str) (p : Nat) (ttl : Str), closeLink o bs dst ttl { st2 with pos := p } = .ok { st2 with
        pos := p
        children := st.children ++ [⟨0, linkNode (if o.image then .image else .link) dst ttl (spanTrees xs)⟩]
        delims := st.delims
        brackets := if o.image then bs else deactivate bs } := by
      intro dst p ttl
      refine closeLink_of (lo := st.nextId + 1) (hi := st2.nextId) (x := ⟨st.nextId, textNode (opening image)⟩) (its := its)
        (ds := ds) q2.symm ?_ (by rw [a3]; simp) (by rw [a4]) q3 a6 ?_
      · intro it hit
        have := hid.items it hit
        rw [q2]; omega
      · intro d hd
        have := hid.delims d hd; omega
    have key : parseCloseBracket c st2 = .ok { st2 with
        pos := st2.pos + 1 + w.length
        children := st.children ++ [⟨0, linkNode (if o.image then .image else .link) dest title (spanTrees xs)⟩]
        delims := st.delims
        brackets := if o.image then bs else deactivate bs } := by
      have hrest3 := rest_succ (t := w ++ k) hrest2
      rcases target_of (i := 0) hr htg hrest3 hslice with ⟨tt, e1, e2⟩ | ⟨p, e1, e2⟩
      · unfold parseCloseBracket
        simp only [q1, hact, Bool.not_true, Bool.false_eq_true, if_false, e1, e2]
        exact hcl _ _ _
      · unfold parseCloseBracket
        simp only [q1, hact, Bool.not_true, Bool.false_eq_true, if_false, e1, e2]
        exact hcl _ _ _
    have hst2 := step_bracket hrest2 key
    have hle := a6.le
    refine ⟨_, ⟨[⟨0, linkNode (if o.image then .image else .link) dest title (spanTrees xs)⟩], [],
      .step hst (by dsimp only; omega) (lt_of_subject hsub1 hpos hone)
        (a1.trans (.step hst2 (by dsimp only; omega) (lt_of_subject hsub2 hpos2 (by simp)) .refl)), ?_, rfl, rfl, ?_, ?_⟩, ?_⟩
    · simp [a2]; omega
    · dsimp only
      rw [q5, q7]
      cases image with
      | true => simp [anyLink, hasLink]
      | false => simp [anyLink, hasLink, hni rfl]
    · have := Stretch.one (E := E) (lo := st.nextId) (hi := st2.nextId)
        (it := ⟨0, linkNode (if o.image then .image else .link) dest title (spanTrees xs)⟩) hid.pos (.inl rfl) (by omega)
      rw [q5] at this ⊢
      cases image with
      | true => exact this
      | false => exact this
    · refine nlOk_other (i := 0) (n := linkNode (if o.image then .image else .link) dest title (spanTrees xs)) (by simp) ?_
      rw [q5]
      cases image <;> simp [linkNode, Tree.data]
  | @brackets E b x k image xs _ hno ih =>
    intro st hE hsub hpos hid hnl
    have hsub1 : c.subject = b ++ (opening image ++ (x ++ (']' :: k))) := by rw [hsub]; simp
    have hst := step_opening (rest_of_subject hsub1 hpos)
    have hid1 : IdsOk { st with
        pos := st.pos + (opening image).length
        children := st.children ++ [⟨st.nextId, textNode (opening image)⟩]
        brackets := ⟨st.nextId, st.delims.head?.map (·.node), st.pos + (opening image).length - 1, image, true⟩ :: st.brackets
        nextId := st.nextId + 1 } := by
      refine ⟨by dsimp only; omega, ?_, ?_⟩
      · intro it hit
        rcases List.mem_append.1 hit with hit | hit
        · have := hid.items it hit; dsimp only; omega
        · obtain rfl := List.mem_singleton.1 hit; dsimp only; omega
      · intro d hd
        have := hid.delims d hd; dsimp only; omega
    have hol : 1 ≤ (opening image).length := by cases image <;> decide
    have hone : opening image ≠ [] := by cases image <;> decide
    obtain ⟨st2, ⟨its, ds, a1, a2, a3, a4, a5, a6⟩, n2⟩ := ih (st := { st with
        pos := st.pos + (opening image).length
        children := st.children ++ [⟨st.nextId, textNode (opening image)⟩]
        brackets := ⟨st.nextId, st.delims.head?.map (·.node), st.pos + (opening image).length - 1, image, true⟩ :: st.brackets
        nextId := st.nextId + 1 }) hE (by rw [hsub1]; simp) (by simp [hpos]) hid1
      (nlOk_last (i := st.nextId) (n := textNode (opening image)) (by simp) fun _ =>
        ⟨_, '[', rfl, opening_last image, by decide⟩)
    dsimp only at a2 a3 a4 a5 a6
    obtain ⟨o, bs, q1, q2, q3, q4, q5, q6, q7⟩ := brackets_top a5
    dsimp only at q2 q3 q4 q5 q6
    have hsub2 : c.subject = (b ++ opening image ++ x) ++ ([']'] ++ k) := by rw [hsub]; simp
    have hpos2 : st2.pos = (b ++ opening image ++ x).length := by rw [a2, hpos]; simp; omega
    have hrest2 := rest_of_subject hsub2 hpos2
    have hslice : slice c.subject o.index (st2.pos + 1) = '[' :: (x ++ [']']) := by
      rw [slice, q4, hpos2, hsub1, hpos]
      cases image with
      | false =>
        have : b ++ (opening false ++ (x ++ ']' :: k)) = (b ++ ('[' :: (x ++ [']']))) ++ k := by simp [opening]
        rw [this, List.take_left' (by simp [opening]; omega)]
        simp [opening]
      | true =>
        have : b ++ (opening true ++ (x ++ ']' :: k)) = ((b ++ ['!']) ++ ('[' :: (x ++ [']']))) ++ k := by simp [opening]
        rw [this, List.take_left' (by simp [opening]; omega), List.drop_left' (by simp [opening])]
    have key : parseCloseBracket c st2 = .ok { st2.add 1 (textNode [']']) with brackets := bs } := by
      have hrest3 := rest_succ (t := k) hrest2
      cases hact : o.active with
      | false =>
        unfold parseCloseBracket
        simp only [q1, hact, Bool.not_false, if_true]
        rfl
      | true =>
        rcases hno with ⟨rfl, hno⟩ | ⟨g1, g2, g3⟩
        · rw [q6, hno] at hact; cases hact
        · obtain ⟨e1, p, e2⟩ := noTarget hr g1 g2 g3 hrest3 hslice
          unfold parseCloseBracket
          simp only [q1, hact, Bool.not_true, Bool.false_eq_true, if_false, e1, e2]
          rfl
    have hst2 := step_bracket hrest2 key
    refine ⟨_, ⟨⟨st.nextId, textNode (opening image)⟩ :: (its ++ [⟨0, textNode [']']⟩]), ds,
      .step hst (by dsimp only; omega) (lt_of_subject hsub1 hpos hone)
        (a1.trans (.step hst2 (by simp) (lt_of_subject hsub2 hpos2 (by simp)) .refl)), ?_, ?_, ?_, ?_, ?_⟩, ?_⟩
    · simp [a2]; omega
    · simp [a3, IState.add, IState.push]
    · simp [a4, IState.add, IState.push]
    · simp [q7, anyLink, hasLink, anyLink_append]
    · have s1 := Stretch.one (E := E) (lo := st.nextId) (hi := st.nextId + 1) (it := ⟨st.nextId, textNode (opening image)⟩) hid.pos
        (.inr ⟨Nat.le_refl _, Nat.lt_succ_self _⟩) (by omega)
      have hle := a6.le
      have s3 := Stretch.one (E := E) (lo := st2.nextId) (hi := st2.nextId) (it := ⟨0, textNode [']']⟩) (by omega) (.inl rfl) (by omega)
      have := s1.append (a6.append s3)
      simpa [spanTrees, spanTree, textNode, spanTrees_append, IState.add, IState.push] using this
    · refine nlOk_last (i := 0) (n := textNode [']']) (by simp [IState.add, IState.push]) fun _ => ⟨_, ']', rfl, rfl, by decide⟩

end CM
