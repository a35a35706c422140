import Verif.Proofs.Merge
/-
C72: texts with definitions, one after the other.
-/
namespace CM
open Spec

/-- C72: after two texts with an empty line between them, the parser has the definitions of both; for a label that both define it has that of the
first text. -/
theorem C72_refs (smart : Bool) (s1 s2 s : Str) (as bs : List Str) (h1 : TextLines s1 as) (h2 : TextLines s2 bs) (hs : TextLines s (as ++ [] :: bs))
    (t1 t2 t : Tree) (p1 p2 p : PState) (e1 : parseWith smart PState.init s1 = .ok (t1, p1)) (e2 : parseWith smart PState.init s2 = .ok (t2, p2))
    (e : parseWith smart PState.init s = .ok (t, p))
    (hk : ∀ u, t1.children.getLast? = some u → u.data.t ∈ [.paragraph, .heading, .thematicBreak, .blockQuote]) (k : Str) :
    p.refmap.get k = match p1.refmap.get k with | some x => some x | none => p2.refmap.get k := by
  obtain ⟨r1, c1, cs1, a1, a2, a3⟩ := text_blocks s1
  obtain ⟨r2, c2, cs2, b1, b2, b3⟩ := text_blocks s2
  obtain ⟨d0, xs1⟩ := t1
  have hp : parse smart s1 = .ok (.node d0 xs1) := by unfold parse; rw [e1]; rfl
  obtain ⟨r, d, cs, g1, g2, _⟩ := merge_blocks h1 h2 hs a1 b1 a2 b2 a3 hp hk
  obtain ⟨_, q1, q1b, q1c⟩ := parseWith_from smart _ s1 e1
  obtain ⟨_, q2, q2b, q2c⟩ := parseWith_from smart _ s2 e2
  obtain ⟨_, q, qb, qc⟩ := parseWith_from smart _ s e
  rw [a1] at q1b; cases q1b
  rw [b1] at q2b; cases q2b
  rw [g1] at qb; cases qb
  rw [← qc, ← q1c, ← q2c, g2, mergeRefs_get]
  cases r1.refmap.get k <;> rfl

/-- Two texts that define the same label, which the second one uses. -/
example : TextLines "[a]: /x\n\n> b\n".toList ["[a]: /x".toList, [], "> b".toList] ∧
    TextLines "[a]: /y\n\n[a]\n".toList ["[a]: /y".toList, [], "[a]".toList] ∧
    ((parse false "[a]: /x\n\n> b\n".toList).toOption.map fun t => t.children.map (·.data.t)) = some [.blockQuote] ∧
    (toHtml false {} "[a]: /y\n\n[a]\n".toList).toOption = some "<p><a href=\"/y\">a</a></p>\n".toList ∧
    (toHtml false {} "[a]: /x\n\n> b\n\n[a]: /y\n\n[a]\n".toList).toOption =
      some "<blockquote>\n<p>b</p>\n</blockquote>\n<p><a href=\"/x\">a</a></p>\n".toList := by
  refine ⟨(textLines_iff _ _).2 (by decide), (textLines_iff _ _).2 (by decide), ?_, ?_, ?_⟩ <;> decide +kernel

/-- C72: a text that no definitions follow gives the same blocks whatever follows it. -/
theorem C72_first (smart : Bool) (s1 s2 s : Str) (as bs : List Str) (h1 : TextLines s1 as) (h2 : TextLines s2 bs) (hs : TextLines s (as ++ [] :: bs))
    (hn : ∀ l ∈ bs, ¬ "]:".toList <:+: l) (d1 d : NodeData) (xs1 zs : List Tree) (e1 : parse smart s1 = .ok (.node d1 xs1))
    (e : parse smart s = .ok (.node d zs))
    (hk : ∀ u, xs1.getLast? = some u → u.data.t ∈ [.paragraph, .heading, .thematicBreak, .blockQuote]) : bareL xs1 <+: bareL zs := by
  obtain ⟨r1, c1, cs1, a1, a2, a3⟩ := text_blocks s1
  obtain ⟨r2, c2, cs2, b1, b2, b3⟩ := text_blocks s2
  obtain ⟨r, d', cs, g1, g2, g3, g4, _, _, _, g8⟩ := merge_blocks h1 h2 hs a1 b1 a2 b2 a3 e1 hk
  have hm := no_definitions h2 hn b1
  have i1 := parse_blocksWith (smart := smart) a1 a2 a3
  have i := parse_blocksWith (smart := smart) g1 g3 g4
  rw [e1] at i1
  rw [g8, g2, hm, show mergeRefs r1.refmap [] = r1.refmap from rfl, ← i1, e] at i
  cases hb : blocksWith smart r1.refmap cs2 with
  | error => rw [hb] at i; cases i
  | ok y =>
    rw [hb] at i
    simp only [Except.map, Except.bind, Except.ok.injEq] at i
    exact ⟨y, i.symm⟩

/-- A text with a definition and a link, before a text that uses the definition. -/
example : (∀ l ∈ ["[a] *b*".toList], ¬ "]:".toList <:+: l) ∧
    ((parse false "[a]: /x\n\n# [a]\n".toList).toOption.map fun t => t.children.map (·.data.t)) = some [.heading] ∧
    (toHtml false {} "[a]: /x\n\n# [a]\n".toList).toOption = some "<h1><a href=\"/x\">a</a></h1>\n".toList ∧
    (toHtml false {} "[a]: /x\n\n# [a]\n\n[a] *b*\n".toList).toOption =
      some "<h1><a href=\"/x\">a</a></h1>\n<p><a href=\"/x\">a</a> <em>b</em></p>\n".toList := by
  refine ⟨?_, ?_, ?_, ?_⟩ <;> decide +kernel

/-- C72: a text that no definitions precede gives the same blocks whatever precedes it. -/
theorem C72_second (smart : Bool) (s1 s2 s : Str) (as bs : List Str) (h1 : TextLines s1 as) (h2 : TextLines s2 bs) (hs : TextLines s (as ++ [] :: bs))
    (hn : ∀ l ∈ as, ¬ "]:".toList <:+: l) (d1 d2 d : NodeData) (xs1 xs2 zs : List Tree) (e1 : parse smart s1 = .ok (.node d1 xs1))
    (e2 : parse smart s2 = .ok (.node d2 xs2)) (e : parse smart s = .ok (.node d zs))
    (hk : ∀ u, xs1.getLast? = some u → u.data.t ∈ [.paragraph, .heading, .thematicBreak, .blockQuote]) : bareL xs2 <:+ bareL zs := by
  obtain ⟨r1, c1, cs1, a1, a2, a3⟩ := text_blocks s1
  obtain ⟨r2, c2, cs2, b1, b2, b3⟩ := text_blocks s2
  obtain ⟨r, d', cs, g1, g2, g3, g4, _, _, _, g8⟩ := merge_blocks h1 h2 hs a1 b1 a2 b2 a3 e1 hk
  have hm := no_definitions h1 hn a1
  have i2 := parse_blocksWith (smart := smart) b1 b2 b3
  have i := parse_blocksWith (smart := smart) g1 g3 g4
  have hg : ∀ k, (mergeRefs r1.refmap r2.refmap).get k = r2.refmap.get k := by
    intro k; rw [mergeRefs_get, hm]; rfl
  rw [e2] at i2
  rw [g8, g2, blocksWith_refs hg cs2, ← i2, e] at i
  cases hb : blocksWith smart (mergeRefs r1.refmap r2.refmap) cs1 with
  | error => rw [hb] at i; cases i
  | ok y =>
    rw [hb] at i
    simp only [Except.map, Except.bind, Except.ok.injEq] at i
    exact ⟨y, i.symm⟩

/-- The same texts in the other order: the second one defines the label for both. -/
example : (toHtml false {} "[a] *b*\n\n[a]: /x\n\n# [a]\n".toList).toOption =
      some "<p><a href=\"/x\">a</a> <em>b</em></p>\n<h1><a href=\"/x\">a</a></h1>\n".toList := by
  decide +kernel

/-- C72: two texts that do not define the same label can be exchanged; each of them keeps its blocks. -/
theorem C72_swap (smart : Bool) (s1 s2 s s' : Str) (as bs : List Str) (h1 : TextLines s1 as) (h2 : TextLines s2 bs)
    (hs : TextLines s (as ++ [] :: bs)) (hs' : TextLines s' (bs ++ [] :: as)) (t1 t2 : Tree) (p1 p2 : PState)
    (e1 : parseWith smart PState.init s1 = .ok (t1, p1)) (e2 : parseWith smart PState.init s2 = .ok (t2, p2))
    (hk1 : ∀ u, t1.children.getLast? = some u → u.data.t ∈ [.paragraph, .heading, .thematicBreak, .blockQuote])
    (hk2 : ∀ u, t2.children.getLast? = some u → u.data.t ∈ [.paragraph, .heading, .thematicBreak, .blockQuote])
    (hd : ∀ k, p1.refmap.get k = none ∨ p2.refmap.get k = none)
    (d : NodeData) (zs : List Tree) (e : parse smart s = .ok (.node d zs)) :
    ∃ d' xs ys xs' ys', zs = xs ++ ys ∧ parse smart s' = .ok (.node d' (ys' ++ xs')) ∧ bareL xs' = bareL xs ∧ bareL ys' = bareL ys ∧
      xs.length = t1.children.length ∧ ys.length = t2.children.length := by
  obtain ⟨r1, c1, cs1, a1, a2, a3⟩ := text_blocks s1
  obtain ⟨r2, c2, cs2, b1, b2, b3⟩ := text_blocks s2
  obtain ⟨d1, xs1⟩ := t1
  obtain ⟨d2, xs2⟩ := t2
  have hp1 : parse smart s1 = .ok (.node d1 xs1) := by unfold parse; rw [e1]; rfl
  have hp2 : parse smart s2 = .ok (.node d2 xs2) := by unfold parse; rw [e2]; rfl
  obtain ⟨r, d0, cs, f1, f2, f3, f4, f5, f6, f7, _⟩ := merge_blocks h1 h2 hs a1 b1 a2 b2 a3 hp1 hk1
  obtain ⟨r', d', cs', g1, g2, g3, g4, g5, g6, g7, _⟩ := merge_blocks h2 h1 hs' b1 a1 b2 a2 b3 hp2 hk2
  have hm : ∀ k, (mergeRefs r2.refmap r1.refmap).get k = (mergeRefs r1.refmap r2.refmap).get k := by
    intro k
    obtain ⟨_, q1, q1b, q1c⟩ := parseWith_from smart _ s1 e1
    obtain ⟨_, q2, q2b, q2c⟩ := parseWith_from smart _ s2 e2
    rw [a1] at q1b; cases q1b
    rw [b1] at q2b; cases q2b
    rw [mergeRefs_get, mergeRefs_get, q1c, q2c]
    rcases hd k with h | h <;> simp [h]
  have l1 := inlines_length (parse_of_blocks a1 a2 a3 hp1)
  have l2 := inlines_length (parse_of_blocks b1 b2 b3 hp2)
  have i := parse_of_blocks f1 f3 f4 e
  rw [f2, inlines_append] at i
  have i' := parse_inlines (smart := smart) g1 g3 g4
  rw [g2, inlines_append] at i'
  have w1 := f6 (mergeRefs r1.refmap r2.refmap)
  have w2 := f7 (mergeRefs r1.refmap r2.refmap)
  have w3 := g6 (mergeRefs r2.refmap r1.refmap)
  have w4 := g7 (mergeRefs r2.refmap r1.refmap)
  rw [blocksWith_refs hm cs1, ← w2] at w3
  rw [blocksWith_refs hm cs2, ← w1] at w4
  unfold blocksWith at w3 w4
  cases j1 : processInlinesList smart (mergeRefs r1.refmap r2.refmap) (markLastChild cs1) with
  | error => rw [j1] at i; cases i
  | ok x =>
    cases j2 : processInlinesList smart (mergeRefs r1.refmap r2.refmap) cs with
    | error => rw [j1, j2] at i; cases i
    | ok y =>
      rw [j1, j2] at i
      simp only [Except.bind, Except.map, Except.ok.injEq] at i
      rw [j1] at w3
      rw [j2] at w4
      cases k1 : processInlinesList smart (mergeRefs r2.refmap r1.refmap) cs' with
      | error => rw [k1] at w3; cases w3
      | ok x' =>
        cases k2 : processInlinesList smart (mergeRefs r2.refmap r1.refmap) (markLastChild cs2) with
        | error => rw [k2] at w4; cases w4
        | ok y' =>
          rw [k1, k2] at i'
          rw [k1] at w3
          rw [k2] at w4
          simp only [Except.map, Except.ok.injEq] at w3 w4
          have hl : (markLastChild cs1).length = cs1.length := by
            have := congrArg List.length (bareL_mark cs1); rwa [bareL_length, bareL_length] at this
          exact ⟨d', x, y, x', y', i.symm, i', w3, w4, by rw [inlines_length j1, hl]; exact l1.symm, by rw [inlines_length j2, f5]; exact l2.symm⟩

/-- C72: the HTML of the texts is exchanged. -/
theorem C72_swap_html (smart : Bool) (o : HtmlOpts) (ho : o.sourcepos = false) (s1 s2 s s' : Str) (as bs : List Str) (h1 : TextLines s1 as)
    (h2 : TextLines s2 bs) (hs : TextLines s (as ++ [] :: bs)) (hs' : TextLines s' (bs ++ [] :: as)) (t1 t2 : Tree) (p1 p2 : PState)
    (e1 : parseWith smart PState.init s1 = .ok (t1, p1)) (e2 : parseWith smart PState.init s2 = .ok (t2, p2))
    (hk1 : ∀ u, t1.children.getLast? = some u → u.data.t ∈ [.paragraph, .heading, .thematicBreak, .blockQuote])
    (hk2 : ∀ u, t2.children.getLast? = some u → u.data.t ∈ [.paragraph, .heading, .thematicBreak, .blockQuote])
    (hd : ∀ k, p1.refmap.get k = none ∨ p2.refmap.get k = none) (z : Str) (e : toHtml smart o s = .ok z) :
    ∃ d xs ys x y, parse smart s = .ok (.node d (xs ++ ys)) ∧ xs.length = t1.children.length ∧ ys.length = t2.children.length ∧
      renderHtml o (.node d xs) = .ok x ∧ renderHtml o (.node d ys) = .ok y ∧ z = x ++ y ∧ toHtml smart o s' = .ok (y ++ x) := by
  unfold toHtml at e
  cases hp : parse smart s with
  | error => rw [hp] at e; cases e
  | ok t =>
    rw [hp] at e
    obtain ⟨d, zs⟩ := t
    obtain ⟨d', xs, ys, xs', ys', rfl, g1, g2, g3, g4, g5⟩ := C72_swap smart s1 s2 s s' as bs h1 h2 hs hs' t1 t2 p1 p2 e1 e2 hk1 hk2 hd d zs hp
    have hdd : d.t = .document := (parse_doc hp).1
    have hdd' : d'.t = .document := (parse_doc g1).1
    have ht := top_kinds hp
    obtain ⟨x, y, q1, q2, q3⟩ := html_parts ho hdd ht e
    refine ⟨d, xs, ys, x, y, rfl, g4, g5, q1, q2, q3, ?_⟩
    unfold toHtml
    rw [g1]
    show renderHtml o (.node d' (ys' ++ xs')) = _
    rw [concat_render ho (d1 := d) (d2 := d) hdd' hdd hdd g3 g2 (fun c hc => ht c (List.mem_append_right _ hc))
      (fun c hc => ht c (List.mem_append_left _ hc)), q1, q2]
    rfl

/-- C72: definitions can be written before or after the text. -/
theorem C72_definitions (smart : Bool) (o : HtmlOpts) (ho : o.sourcepos = false) (s1 s2 s s' : Str) (as bs : List Str) (h1 : TextLines s1 as)
    (h2 : TextLines s2 bs) (hs : TextLines s (as ++ [] :: bs)) (hs' : TextLines s' (bs ++ [] :: as)) (d1 d2 : NodeData) (xs2 : List Tree)
    (e1 : parse smart s1 = .ok (.node d1 [])) (e2 : parse smart s2 = .ok (.node d2 xs2)) (hn : ∀ l ∈ bs, ¬ "]:".toList <:+: l)
    (hk2 : ∀ u, xs2.getLast? = some u → u.data.t ∈ [.paragraph, .heading, .thematicBreak, .blockQuote]) :
    toHtml smart o s = toHtml smart o s' := by
  obtain ⟨r1, c1, cs1, a1, a2, a3⟩ := text_blocks s1
  obtain ⟨r2, c2, cs2, b1, b2, b3⟩ := text_blocks s2
  obtain ⟨r, d0, cs, f1, f2, f3, f4, _, _, _, f8⟩ := merge_blocks h1 h2 hs a1 b1 a2 b2 a3 e1 (by simp)
  obtain ⟨r', d', cs', g1, g2, g3, g4, _, _, _, g8⟩ := merge_blocks h2 h1 hs' b1 a1 b2 a2 b3 e2 hk2
  have hc : cs1 = [] := List.eq_nil_of_length_eq_zero (inlines_length (parse_of_blocks a1 a2 a3 e1)).symm
  have hm := no_definitions h2 hn b1
  refine html_same ho ?_
  rw [parse_blocksWith f1 f3 f4, parse_blocksWith g1 g3 g4, f8, g8, f2, g2, hm, hc]
  rw [blocksWith_refs (m := mergeRefs [] r1.refmap) (m' := mergeRefs r1.refmap []) (by intro k; rw [mergeRefs_get, mergeRefs_get]; simp [RefMap.get])]
  show (Except.ok ([] : List Tree)).bind _ = _
  cases blocksWith smart (mergeRefs r1.refmap []) cs2 with
  | error => rfl
  | ok y => simp [Except.bind, Except.map, blocksWith, processInlinesList, bareL]

/-- C72: a text that is written twice gives its blocks twice. -/
theorem C72_twice (smart : Bool) (o : HtmlOpts) (ho : o.sourcepos = false) (s1 s : Str) (as : List Str) (h1 : TextLines s1 as)
    (hs : TextLines s (as ++ [] :: as)) (d1 : NodeData) (xs1 : List Tree) (e1 : parse smart s1 = .ok (.node d1 xs1))
    (hk : ∀ u, xs1.getLast? = some u → u.data.t ∈ [.paragraph, .heading, .thematicBreak, .blockQuote]) (x : Str) (hx : toHtml smart o s1 = .ok x) :
    toHtml smart o s = .ok (x ++ x) := by
  obtain ⟨r1, c1, cs1, a1, a2, a3⟩ := text_blocks s1
  obtain ⟨r, d, cs, f1, f2, f3, f4, _, _, _, f8⟩ := merge_blocks h1 h1 hs a1 a1 a2 a2 a3 e1 hk
  have hg : ∀ k, (mergeRefs r1.refmap r1.refmap).get k = r1.refmap.get k := by
    intro k; rw [mergeRefs_get]; cases r1.refmap.get k <;> rfl
  have i := parse_blocksWith (smart := smart) f1 f3 f4
  have j := parse_blocksWith (smart := smart) a1 a2 a3
  rw [f8, f2, blocksWith_refs hg, ← j, e1] at i
  cases e : parse smart s with
  | error => rw [e] at i; cases i
  | ok t =>
    obtain ⟨d', zs⟩ := t
    rw [e] at i
    simp only [Except.map, Except.bind, Except.ok.injEq] at i
    have i : bareL zs = bareL (xs1 ++ xs1) := by rw [bareL_append]; exact i
    unfold toHtml at hx ⊢
    rw [e1] at hx
    rw [e]
    have hx : renderHtml o (.node d1 xs1) = .ok x := hx
    show renderHtml o (.node d' zs) = _
    have hd1 : d1.t = .document := (parse_doc e1).1
    have hd' : d'.t = .document := (parse_doc e).1
    rw [html_bare ho hd' hd1 i, concat_render ho hd1 hd1 hd1 rfl rfl (top_kinds e1) (top_kinds e1), hx]
    rfl

/-- Two texts that define different labels and use the labels of each other. -/
example : ∃ t1 p1 t2 p2, parseWith false PState.init "[a]: /x\n\n# [b]\n".toList = .ok (t1, p1) ∧
    parseWith false PState.init "[a]\n\n[b]: /y\n".toList = .ok (t2, p2) ∧
    (∀ u, t1.children.getLast? = some u → u.data.t ∈ [.paragraph, .heading, .thematicBreak, .blockQuote]) ∧
    (∀ u, t2.children.getLast? = some u → u.data.t ∈ [.paragraph, .heading, .thematicBreak, .blockQuote]) ∧
    (∀ k, p1.refmap.get k = none ∨ p2.refmap.get k = none) ∧
    (toHtml false {} "[a]: /x\n\n# [b]\n\n[a]\n\n[b]: /y\n".toList).toOption =
      some "<h1><a href=\"/y\">b</a></h1>\n<p><a href=\"/x\">a</a></p>\n".toList ∧
    (toHtml false {} "[a]\n\n[b]: /y\n\n[a]: /x\n\n# [b]\n".toList).toOption =
      some "<p><a href=\"/x\">a</a></p>\n<h1><a href=\"/y\">b</a></h1>\n".toList := by
  have key : ∀ s : Str, ∀ k : Kind, ∀ m : List (Str × Str × Str), ((parseWith false PState.init s).toOption.map fun r =>
      ((r.1.children.getLast?.map fun u => u.data.t), r.2.refmap.map fun e => (e.1, e.2.destination, e.2.title))) = some (some k, m) →
      k ∈ [Kind.paragraph, .heading, .thematicBreak, .blockQuote] →
      ∃ t p, parseWith false PState.init s = .ok (t, p) ∧
        (∀ u, t.children.getLast? = some u → u.data.t ∈ [.paragraph, .heading, .thematicBreak, .blockQuote]) ∧
        p.refmap.map (fun e => e.1) = m.map (·.1) := by
    intro s k m h hk
    cases e : parseWith false PState.init s with
    | error => rw [e] at h; cases h
    | ok r =>
      rw [e] at h
      simp only [Except.toOption, Option.map_some, Option.some.injEq, Prod.mk.injEq] at h
      refine ⟨r.1, r.2, rfl, fun u hu => ?_, ?_⟩
      · rw [hu] at h
        simp only [Option.map_some, Option.some.injEq] at h
        rw [h.1]; exact hk
      · rw [← h.2, List.map_map]; rfl
  have hget : ∀ (m : RefMap) (k : Str), k ∉ m.map (·.1) → m.get k = none := by
    intro m k h
    rw [RefMap.get, List.find?_eq_none.2, Option.map_none]
    intro e he hk
    exact h (List.mem_map.2 ⟨e, he, by simpa using hk⟩)
  obtain ⟨t1, p1, a1, a2, a3⟩ := key "[a]: /x\n\n# [b]\n".toList .heading [("a".toList, "/x".toList, [])] (by decide +kernel) (by decide)
  obtain ⟨t2, p2, b1, b2, b3⟩ := key "[a]\n\n[b]: /y\n".toList .paragraph [("b".toList, "/y".toList, [])] (by decide +kernel) (by decide)
  refine ⟨t1, p1, t2, p2, a1, b1, a2, b2, fun k => ?_, ?_, ?_⟩
  · by_cases h : k = "a".toList
    · exact .inr (hget _ _ (by rw [b3, h]; decide))
    · exact .inl (hget _ _ (by rw [a3]; simpa using h))
  · decide +kernel
  · decide +kernel

/-- The labels must be different: the first definition counts. -/
example : (toHtml false {} "[a]: /x\n\n# c\n\n[a]\n\n[a]: /y\n".toList).toOption = some "<h1>c</h1>\n<p><a href=\"/x\">a</a></p>\n".toList ∧
    (toHtml false {} "[a]\n\n[a]: /y\n\n[a]: /x\n\n# c\n".toList).toOption = some "<p><a href=\"/y\">a</a></p>\n<h1>c</h1>\n".toList := by
  refine ⟨?_, ?_⟩ <;> decide +kernel

/-- Definitions before and after a text. -/
example : ((parse false "[a]: /x 'y'\n".toList).toOption.map fun t => t.children.length) = some 0 ∧
    (toHtml false {} "[a]: /x 'y'\n\n- c\n\n> [a]\n".toList).toOption =
      some "<ul>\n<li>c</li>\n</ul>\n<blockquote>\n<p><a href=\"/x\" title=\"y\">a</a></p>\n</blockquote>\n".toList ∧
    (toHtml false {} "- c\n\n> [a]\n\n[a]: /x 'y'\n".toList).toOption =
      some "<ul>\n<li>c</li>\n</ul>\n<blockquote>\n<p><a href=\"/x\" title=\"y\">a</a></p>\n</blockquote>\n".toList := by
  refine ⟨?_, ?_, ?_⟩ <;> decide +kernel

/-- A text with a definition, twice. -/
example : (toHtml false {} "[a]\n\n[a]: /x\nb\n".toList).toOption = some "<p><a href=\"/x\">a</a></p>\n<p>b</p>\n".toList ∧
    (toHtml false {} "[a]\n\n[a]: /x\nb\n\n[a]\n\n[a]: /x\nb\n".toList).toOption =
      some "<p><a href=\"/x\">a</a></p>\n<p>b</p>\n<p><a href=\"/x\">a</a></p>\n<p>b</p>\n".toList := by
  refine ⟨?_, ?_⟩ <;> decide +kernel

end CM
