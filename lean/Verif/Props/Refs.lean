import Verif.Proofs.RefsComplete
/-
Link reference definitions: C31, C54.
-/
namespace CM
open Spec

/-! ### C54 -/

/-- C54.  Every definition that a document has is a text of the document of the form that the specification describes,
which stands at the beginning of a paragraph or after other definitions there.  (`Definition false`: with the one
exception of C31.) -/
theorem C54_from_text (smart : Bool) (p : PState) (s : Str) (ls : List Str) (hs : TextLines s ls) (t : Tree) (p' : PState)
    (h : parseWith smart p s = .ok (t, p')) (k : Str) (d : RefDef) (hd : p'.refmap.get k = some d) :
    k ≠ [] ∧ DefinedIn false (ls.map noNul) k d.destination d.title := by
  rw [← textLines_of hs]; exact parseWith_refs h k d hd

/-- A definition in a block quote in a list item, which is found. -/
example : (match parseWith false PState.init "- > [a]: b 'c'\n".toList with
    | .ok (_, p') => (p'.refmap.get (normalizeReference "[A]".toList)).map fun d => (d.destination, d.title)
    | .error _ => none) = some (['b'], ['c']) := by decide +kernel

/-- C54.  The reference map of `C53_source_parse` consists of definitions in the text: every reference link or image has
the destination and title of a definition of its label. -/
theorem C54_links (smart : Bool) (s : Str) (ls : List Str) (hs : TextLines s ls) (t : Tree) (h : parse smart s = .ok t) :
    ∃ refs : Str → Option RefDef,
      (∀ l d, refs l = some d → DefinedIn false (ls.map noNul) (normalizeReference l) d.destination d.title) ∧
      EverySubtree (fun d cs => d.t = .paragraph ∨ d.t = .heading → ∃ x, d.stringContent = some x ∧
        Source smart false refs (strip x) true cs 0 (strip x).length) t := by
  obtain ⟨p', h'⟩ := parse_with h
  refine ⟨fun l => p'.refmap.get (normalizeReference l), fun l d hd => (C54_from_text smart _ s ls hs t p' h' _ d hd).2, ?_⟩
  refine EverySubtree.mono ?_ t (parseWith_from smart _ s h').1
  intro d cs hd hk
  obtain ⟨x, h1, h2⟩ := hd hk
  exact ⟨x, h1, parseInlines_source (by intro h; cases h) h2⟩

/-- C54.  No paragraph of a document begins with a definition: they have all been taken out. -/
theorem C54_none_left (smart : Bool) (s : Str) (t : Tree) (h : parse smart s = .ok t) :
    EveryNode (fun d _ => d.t = .paragraph → ∃ x, d.stringContent = some x ∧ NoDefinition x) t :=
  parse_closed noDefinition_closed trivial (fun _ d h _ hk => by rw [show d.t = .paragraph from hk] at h; cases h)
    (fun d h hk => by rw [hk] at h; exact absurd h (by decide)) (fun _ _ _ => trivial) h

/-- A paragraph that is left of a text with a definition. -/
example : (toHtml false {} "[a]: b\nc\n".toList).toOption = some "<p>c</p>\n".toList := by decide +kernel

/-- C54.  A text of lines that belong to one paragraph and begin with definitions: each label gets its first definition,
the definitions disappear from the text and what is left is a paragraph, if it is not blank. -/
theorem C54_defined (smart : Bool) (s l0 : Str) (ls : List Str) (ds : List (Str × Str × Str)) (r : Str)
    (hs : TextLines s (l0 :: ls)) (h0 : StartsNoBlock false l0) (h1 : ∀ l ∈ ls, StartsNoBlock true l)
    (hd : Definitions (joinLines (l0 :: ls) ++ ['\n']) ds r) (hne : ds ≠ []) :
    ∃ (d e : NodeData) (m : RefMap), d.t = .document ∧ e.t = .paragraph ∧ e.stringContent = some r ∧
      (∀ key, m.get key = firstDefinition ds key) ∧
      ((∀ c ∈ r, c ∈ " \t\n\r\u000b\u000c".toList) → parse smart s = .ok (.node d [])) ∧
      ((∃ c ∈ r, c ∉ " \t\n\r\u000b\u000c".toList) → parse smart s = processInlines smart m (.node d [.node e []])) := by
  obtain ⟨d, k, m, e1, e2, e3⟩ := parse_defs (smart := smart) hs h0 h1 hd
  have hds : (!ds.isEmpty) = true := by
    cases ds with
    | nil => exact absurd rfl hne
    | cons => rfl
  have key : ∀ c : Char, isNonSpace c = false ↔ c ∈ " \t\n\r\u000b\u000c".toList := by
    intro c
    rw [show " \t\n\r\u000b\u000c".toList = [' ', '\t', '\n', '\r', '\u000b', '\u000c'] from rfl]
    constructor
    · intro h
      simp only [isNonSpace, Bool.not_eq_false', Bool.or_eq_true, beq_iff_eq, Bool.and_eq_true, decide_eq_true_eq] at h
      rcases h with rfl | h
      · simp
      · obtain ⟨n, hn⟩ : ∃ n, n = c.toNat := ⟨_, rfl⟩
        have hc : c = Char.ofNat n := by rw [hn, Char.ofNat_toNat]
        rw [← hn] at h
        have : n = 9 ∨ n = 10 ∨ n = 11 ∨ n = 12 ∨ n = 13 := by omega
        rcases this with rfl | rfl | rfl | rfl | rfl <;> rw [hc] <;> decide
    · intro h
      simp only [List.mem_cons, List.not_mem_nil, or_false] at h
      rcases h with rfl | rfl | rfl | rfl | rfl | rfl <;> decide
  refine ⟨d, paraDone 1 (ls.length + 1) k r, m, e1, rfl, rfl, e2, ?_, ?_⟩
  · intro hr
    have : isBlank r = true := by
      simp only [isBlank, Bool.not_eq_true', List.any_eq_false, Bool.not_eq_true]
      exact fun c hc => (key c).2 (hr c hc)
    rw [e3, hds, this]
    simp [processInlines, processInlinesList, e1, bind, Except.bind, pure, Except.pure]
  · rintro ⟨c, hc, hn⟩
    have : isBlank r = false := by
      simp only [isBlank, Bool.not_eq_false', List.any_eq_true]
      refine ⟨c, hc, ?_⟩
      cases hx : isNonSpace c with
      | true => rfl
      | false => exact absurd ((key c).1 hx) hn
    rw [e3, hds, this]
    rfl

/-- The hypotheses of `C54_defined` are met by three definitions (two of them of one label) and a line of text. -/
example : ∃ ds r, Definitions (joinLines ["[a B]: <c d> 'e\\'f'".toList, "[x]:".toList, "y".toList, "[A  b]: z".toList, "w".toList]
      ++ ['\n']) ds r ∧ ds.length = 3 ∧ r = "w\n".toList ∧
    firstDefinition ds (normalizeReference "[A  b]".toList) = some ⟨"c%20d".toList, "e'f".toList⟩ := by
  have lab : ∀ x : Str, (∀ c ∈ x, c ∉ "\\[]".toList) → LabelText x := by
    intro x
    induction x with
    | nil => intro _; exact .nil
    | cons c x ih => intro h; exact .plain (h c (by simp)) (ih fun d hd => h d (by simp [hd]))
  have notitle : ∀ u : Str, u.head? ≠ some ' ' → u.head? ≠ some '\n' → u.head? ≠ some '"' → u.head? ≠ some '\'' → u.head? ≠ some '(' →
      ¬ ∃ s2 tl x r', ['\n'] ++ u = s2 ++ (tl ++ r') ∧ Spnl s2 ∧ s2 ≠ [] ∧ Title tl x := by
    rintro u h1 h2 h3 h4 h5 ⟨s2, tl, x, r', e, ⟨a, rfl | ⟨b, rfl⟩⟩, hn, ht⟩
    · cases a with
      | zero => exact hn rfl
      | succ a => cases e
    · cases a with
      | succ a => cases e
      | zero =>
        cases b with
        | zero =>
          simp only [List.replicate_zero, List.nil_append, List.cons_append, List.cons.injEq, true_and] at e
          subst e
          cases ht
          · exact h3 rfl
          · exact h4 rfl
          · exact h5 rfl
        | succ b =>
          simp only [List.replicate_zero, List.nil_append, List.cons_append, List.cons.injEq, true_and, List.replicate_succ] at e
          subst e
          exact h1 rfl
  refine ⟨[("[a B]".toList, normalizeUri (unescapeString "c d".toList), unescapeString "e\\'f".toList),
    ("[x]".toList, normalizeUri (unescapeString "y".toList), []), ("[A  b]".toList, normalizeUri (unescapeString "z".toList), [])],
    "w\n".toList, ?_, rfl, rfl, by decide +kernel⟩
  refine .next (w := "[a B]: <c d> 'e\\'f'\n".toList) (y := "[x]:\ny\n[A  b]: z\nw\n".toList) ?_ (by decide +kernel) ?_
  · refine .titled (l := "[a B]".toList) (s1 := [' ']) (d := "<c d>".toList) (raw := "c d".toList) (s2 := [' '])
      (tl := "'e\\'f'".toList) (x := "e\\'f".toList) (e := ['\n']) ⟨"a B".toList, rfl, lab _ (by decide), by decide⟩ (by decide)
      ⟨1, .inl rfl⟩ ?_ ⟨1, .inl rfl⟩ (by simp) ?_ ⟨0, .inl rfl⟩
    · exact .angle (d := ['c', ' ', 'd']) (.plain (by decide) (by decide) (.plain (by decide) (by decide) (.plain (by decide) (by decide) .nil)))
    · exact .single (d := ['e', '\\', '\'', 'f']) (.plain (by decide) (by decide) (by decide)
        (.escape (by decide) (.plain (by decide) (by decide) (by decide) .nil)))
  refine .next (w := "[x]:\ny\n".toList) (y := "[A  b]: z\nw\n".toList) ?_ (by decide +kernel) ?_
  · refine .untitled (l := "[x]".toList) (s1 := ['\n']) (d := ['y']) (raw := ['y']) (e := ['\n'])
      ⟨"x".toList, rfl, lab _ (by decide), by decide⟩ (by decide) ⟨0, .inr ⟨0, rfl⟩⟩ ?_ ⟨0, .inl rfl⟩
      (notitle _ (by decide) (by decide) (by decide) (by decide) (by decide))
    exact .bare (l := 0) (by decide) (.plain (by decide) (by decide) (by decide) .nil) (by decide) (by decide)
  refine .next (w := "[A  b]: z\n".toList) (y := "w\n".toList) ?_ (by decide +kernel) (.done (by decide))
  refine .untitled (l := "[A  b]".toList) (s1 := [' ']) (d := ['z']) (raw := ['z']) (e := ['\n'])
      ⟨"A  b".toList, rfl, lab _ (by decide), by decide⟩ (by decide) ⟨1, .inl rfl⟩ ?_ ⟨0, .inl rfl⟩
      (notitle _ (by decide) (by decide) (by decide) (by decide) (by decide))
  exact .bare (l := 0) (by decide) (.plain (by decide) (by decide) (by decide) .nil) (by decide) (by decide)

/-- These lines start no other block. -/
example : ∀ b, ∀ l ∈ ["[a B]: <c d> 'e\\'f'".toList, "[x]:".toList, "y".toList, "[A  b]: z".toList, "w".toList], StartsNoBlock b l := by
  have dig : ∀ c ∈ ['[', 'y', 'w'], isPyDigit c = false := by decide +kernel
  have key : ∀ b (d : Char) (r : Str), d ∈ ['[', 'y', 'w'] → Char.ofNat 0 ∉ d :: r → StartsNoBlock b (d :: r) := by
    intro b d r hd h0
    refine startsNoBlock_char rfl ?_ ?_ h0 ?_
    · have : ∀ d ∈ ['[', 'y', 'w'], ∀ c ∈ ">*_-#`~<+=".toList, d ≠ c := by decide
      exact this d hd
    · have : ∀ d ∈ ['[', 'y', 'w'], isPySpace d = false := by decide
      exact this d hd
    · rintro num ⟨e, q, h, h1, _, h3, _⟩
      cases num with
      | nil => simp at h1
      | cons n num =>
        have := (List.cons.inj h).1
        have h4 := h3 n (by simp)
        rw [← this, dig d hd] at h4
        cases h4
  intro b l hl
  simp only [List.mem_cons, List.not_mem_nil, or_false] at hl
  rcases hl with rfl | rfl | rfl | rfl | rfl <;> exact key b _ _ (by decide) (by decide)

/-- The same text, parsed. -/
example : (toHtml false {} "[a B]: <c d> 'e\\'f'\n[x]:\ny\n[A  b]: z\nw\n\n[a b], [x]".toList).toOption =
    some "<p>w</p>\n<p><a href=\"c%20d\" title=\"e'f\">a b</a>, <a href=\"y\">x</a></p>\n".toList := by decide +kernel

/-! ### C31 -/

/-- C31, as far as it holds.  The title of every definition is empty, if there is none before the end of a line; or a
title that ends a line; or, against the specification (`stray`), a text like a title that begins the next line and does not
end it.  Missing: that the last case gives the empty title (`C31_counterexample`), or any definition at all if that title
is empty (`C31_counterexample_empty`). -/
theorem C31_titles_partial (smart : Bool) (p : PState) (s : Str) (ls : List Str) (hs : TextLines s ls) (t : Tree) (p' : PState)
    (h : parseWith smart p s = .ok (t, p')) (k : Str) (d : RefDef) (hd : p'.refmap.get k = some d) :
    ∃ y w r l, TextFrom (ls.map noNul) y ∧ AfterDefinitions false y (w ++ r) ∧ normalizeReference l = k ∧
      (Definition true w r l d.destination d.title ∨
        ∃ a tl x r', r = List.replicate a ' ' ++ (tl ++ r') ∧ Title tl x ∧ d.title = unescapeString x ∧
          ¬ ∃ e r'', r' = e ++ r'' ∧ LineRest e r'') := by
  obtain ⟨_, y, w, r, l, h1, h2, h3, h4⟩ := C54_from_text smart p s ls hs t p' h k d hd
  refine ⟨y, w, r, l, h1, h2, h4, ?_⟩
  generalize d.destination = dest at *
  generalize d.title = title at *
  cases h3 with
  | untitled a b c d e f => exact .inl (.untitled a b c d e f)
  | titled a b c d e f g h => exact .inl (.titled a b c d e f g h)
  | @stray _ s1 d raw e s2 tl x r' _ a b c d' f g i j k' l' m' n' =>
    refine .inr ?_
    have hw : ∀ {n : Nat} {u v : Str}, List.replicate n ' ' ++ u = v → True := fun _ => trivial
    obtain ⟨ch, v, hv, hv1, hv2⟩ := title_start l'
    have hdw : ∀ {n : Nat} {u : Str}, u.head? ≠ some ' ' → (List.replicate n ' ' ++ u).dropWhile (· == ' ') = u :=
      fun h => dropWhile_replicate h
    have hth : (tl ++ r').head? = some ch := by rw [hv]; rfl
    obtain ⟨q, rfl | ⟨rfl, rfl⟩⟩ := g
    · obtain ⟨q2, rfl | ⟨b2, rfl⟩⟩ := j
      · exfalso
        have := congrArg (List.dropWhile (· == ' ')) i
        rw [List.append_assoc, hdw (by simp), hdw (by rw [hth]; simpa using hv1), hv] at this
        simp only [List.cons_append, List.nil_append, List.cons.injEq] at this
        exact hv2 this.1.symm
      · have := congrArg (List.dropWhile (· == ' ')) i
        rw [List.append_assoc, hdw (by simp), List.append_assoc, hdw (by simp)] at this
        simp only [List.cons_append, List.nil_append, List.cons.injEq, true_and] at this
        exact ⟨b2, tl, x, r', this, l', rfl, m'⟩
    · exfalso
      have hmem : ch ∈ List.replicate q ' ' ++ [] := by rw [i, hv]; simp
      simp only [List.append_nil, List.mem_replicate] at hmem
      exact hv1 hmem.2

/-- A title on a line of its own. -/
example : (toHtml false {} "[foo]: /url\n\"title\"\n\n[foo]".toList).toOption =
    some "<p><a href=\"/url\" title=\"title\">foo</a></p>\n".toList := by decide +kernel

/-- The title of `[foo]: /url` is taken from the next line, although other text follows there. -/
theorem C31_counterexample : (toHtml false {} "[foo]: /url\n\"title\" ok\n\n[foo]".toList).toOption =
    some "<p>&quot;title&quot; ok</p>\n<p><a href=\"/url\" title=\"title\">foo</a></p>\n".toList := by decide +kernel

/-- With an empty title on the next line there is no definition. -/
theorem C31_counterexample_empty : (toHtml false {} "[foo]: /url\n\"\" ok\n\n[foo]".toList).toOption =
    some "<p>[foo]: /url\n&quot;&quot; ok</p>\n<p>[foo]</p>\n".toList := by decide +kernel

end CM
