import Verif.Proofs.Uses
import Verif.Proofs.ParsedHtml
/-
C81: definitions matter only where their labels stand in brackets.
-/
namespace CM
open Spec

/-- C81: two texts with an empty line between them give the blocks of the first and then those of the second, whatever the texts
define, if no label that stands in brackets in one of them gets a meaning from the other one: what the first text has in brackets
and does not define, the second does not define, and what the second text has in brackets, the first does not define (or
defines alike). -/
theorem C81_blocks (smart : Bool) (s1 s2 s : Str) (as bs : List Str) (h1 : TextLines s1 as) (h2 : TextLines s2 bs)
    (hs : TextLines s (as ++ [] :: bs)) (t1 t2 t : Tree) (p1 p2 : PState)
    (e1 : parseWith smart PState.init s1 = .ok (t1, p1)) (e2 : parseWith smart PState.init s2 = .ok (t2, p2))
    (e : parse smart s = .ok t)
    (hk : ∀ u, t1.children.getLast? = some u → u.data.t ∈ [.paragraph, .heading, .thematicBreak, .blockQuote])
    (hu1 : ∀ k, UsesL k t1.children → p1.refmap.get k = none → p2.refmap.get k = none)
    (hu2 : ∀ k, UsesL k t2.children → p1.refmap.get k = none ∨ p1.refmap.get k = p2.refmap.get k) :
    bareL t.children = bareL t1.children ++ bareL t2.children :=
  uses_blocks h1 h2 hs e1 e2 e hk hu1 hu2

/-- C81: the same for the HTML. -/
theorem C81_html (smart : Bool) (o : HtmlOpts) (ho : o.sourcepos = false) (s1 s2 s : Str) (as bs : List Str) (h1 : TextLines s1 as)
    (h2 : TextLines s2 bs) (hs : TextLines s (as ++ [] :: bs)) (t1 t2 : Tree) (p1 p2 : PState)
    (e1 : parseWith smart PState.init s1 = .ok (t1, p1)) (e2 : parseWith smart PState.init s2 = .ok (t2, p2))
    (hk : ∀ u, t1.children.getLast? = some u → u.data.t ∈ [.paragraph, .heading, .thematicBreak, .blockQuote])
    (hu1 : ∀ k, UsesL k t1.children → p1.refmap.get k = none → p2.refmap.get k = none)
    (hu2 : ∀ k, UsesL k t2.children → p1.refmap.get k = none ∨ p1.refmap.get k = p2.refmap.get k)
    (z : Str) (hz : toHtml smart o s = .ok z) :
    ∃ x y, toHtml smart o s1 = .ok x ∧ toHtml smart o s2 = .ok y ∧ z = x ++ y := by
  obtain ⟨t, e, hr⟩ := toHtml_ok hz
  have hb := C81_blocks smart s1 s2 s as bs h1 h2 hs t1 t2 t p1 p2 e1 e2 e hk hu1 hu2
  obtain ⟨d, zs⟩ := t
  obtain ⟨d1, xs1⟩ := t1
  obtain ⟨d2, xs2⟩ := t2
  have hp1 : parse smart s1 = .ok (.node d1 xs1) := by unfold parse; rw [e1]; rfl
  have hp2 : parse smart s2 = .ok (.node d2 xs2) := by unfold parse; rw [e2]; rfl
  have hb : bareL zs = bareL xs1 ++ bareL xs2 := hb
  rw [html_bare ho (d := d) (d' := d) (y := xs1 ++ xs2) (parse_doc e).1 (parse_doc e).1 (by rw [hb, bareL_append])] at hr
  obtain ⟨x, y, hx, hy, hxy⟩ := html_parts ho (parse_doc e).1 (fun c hc => by
    rcases List.mem_append.1 hc with h | h
    · exact top_kinds hp1 c h
    · exact top_kinds hp2 c h) hr
  refine ⟨x, y, ?_, ?_, hxy⟩
  · unfold toHtml
    rw [hp1, ← hx]
    exact html_bare ho (parse_doc hp1).1 (parse_doc e).1 rfl
  · unfold toHtml
    rw [hp2, ← hy]
    exact html_bare ho (parse_doc hp2).1 (parse_doc e).1 rfl

/-- The conditions can be checked on the lists of labels. -/
theorem uses_check {smart : Bool} {s1 s2 : Str}
    (h : ((parseWith smart PState.init s1).toOption.bind fun r1 => (parseWith smart PState.init s2).toOption.map fun r2 =>
      (labelsL r1.1.children).all (fun k => (r1.2.refmap.get k).isSome || (r2.2.refmap.get k).isNone) &&
      (labelsL r2.1.children).all (fun k => (r1.2.refmap.get k).isNone || r1.2.refmap.get k == r2.2.refmap.get k)) = some true) :
    ∃ t1 t2 p1 p2, parseWith smart PState.init s1 = .ok (t1, p1) ∧ parseWith smart PState.init s2 = .ok (t2, p2) ∧
      (∀ k, UsesL k t1.children → p1.refmap.get k = none → p2.refmap.get k = none) ∧
      ∀ k, UsesL k t2.children → p1.refmap.get k = none ∨ p1.refmap.get k = p2.refmap.get k := by
  cases e1 : parseWith smart PState.init s1 with
  | error => rw [e1] at h; cases h
  | ok r1 =>
    cases e2 : parseWith smart PState.init s2 with
    | error => rw [e1, e2] at h; cases h
    | ok r2 =>
      rw [e1, e2] at h
      simp only [Except.toOption, Option.bind_some, Option.map_some, Option.some.injEq, Bool.and_eq_true, List.all_eq_true,
        Bool.or_eq_true, Option.isNone_iff_eq_none, beq_iff_eq] at h
      refine ⟨r1.1, r2.1, r1.2, r2.2, rfl, rfl, fun k hk hn => ?_, fun k hk => h.2 k (labelsL_of hk)⟩
      rcases h.1 k (labelsL_of hk) with h | h
      · rw [hn] at h; cases h
      · exact h

/-- Two texts with definitions. Both define `a`, each in its own way, but only the first uses it; `b` is used and defined nowhere. -/
example : TextLines "[a] [b]\n\n[a]: /x\n".toList ["[a] [b]".toList, [], "[a]: /x".toList] ∧
    TextLines "[c]: /y\n[a]: /z\n\n> [c] *d*\n".toList ["[c]: /y".toList, "[a]: /z".toList, [], "> [c] *d*".toList] ∧
    ((parse false "[a] [b]\n\n[a]: /x\n".toList).toOption.map fun t => t.children.map (·.data.t)) = some [.paragraph] ∧
    (∃ t1 t2 p1 p2, parseWith false PState.init "[a] [b]\n\n[a]: /x\n".toList = .ok (t1, p1) ∧
      parseWith false PState.init "[c]: /y\n[a]: /z\n\n> [c] *d*\n".toList = .ok (t2, p2) ∧
      (∀ k, UsesL k t1.children → p1.refmap.get k = none → p2.refmap.get k = none) ∧
      ∀ k, UsesL k t2.children → p1.refmap.get k = none ∨ p1.refmap.get k = p2.refmap.get k) ∧
    (toHtml false {} "[a] [b]\n\n[a]: /x\n".toList).toOption = some "<p><a href=\"/x\">a</a> [b]</p>\n".toList ∧
    (toHtml false {} "[c]: /y\n[a]: /z\n\n> [c] *d*\n".toList).toOption =
      some "<blockquote>\n<p><a href=\"/y\">c</a> <em>d</em></p>\n</blockquote>\n".toList ∧
    (toHtml false {} "[a] [b]\n\n[a]: /x\n\n[c]: /y\n[a]: /z\n\n> [c] *d*\n".toList).toOption =
      some ("<p><a href=\"/x\">a</a> [b]</p>\n".toList ++
        "<blockquote>\n<p><a href=\"/y\">c</a> <em>d</em></p>\n</blockquote>\n".toList) := by
  refine ⟨(textLines_iff _ _).2 (by decide), (textLines_iff _ _).2 (by decide), by decide +kernel,
    uses_check (by decide +kernel), ?_, ?_, ?_⟩ <;> decide +kernel

/-- The conditions are needed: a definition in the second text of a label in the first makes it a link, and one in the first text
of a label in the second changes where it leads. -/
example : (toHtml false {} "[b]\n\n[b]: /x\n".toList).toOption = some "<p><a href=\"/x\">b</a></p>\n".toList ∧
    (toHtml false {} "[b]: /w\n\n[b]\n\n[b]: /x\n".toList).toOption = some "<p><a href=\"/w\">b</a></p>\n".toList := by
  refine ⟨?_, ?_⟩ <;> decide +kernel

/-- C81: definitions after a text, of labels that do not stand in brackets in it or that it defines itself, change nothing.
(The text `s2` has only definitions: its document has no blocks.) -/
theorem C81_unused_after (smart : Bool) (o : HtmlOpts) (ho : o.sourcepos = false) (s1 s2 s : Str) (as bs : List Str) (h1 : TextLines s1 as)
    (h2 : TextLines s2 bs) (hs : TextLines s (as ++ [] :: bs)) (t1 : Tree) (d2 : NodeData) (p1 p2 : PState)
    (e1 : parseWith smart PState.init s1 = .ok (t1, p1)) (e2 : parseWith smart PState.init s2 = .ok (.node d2 [], p2))
    (hk : ∀ u, t1.children.getLast? = some u → u.data.t ∈ [.paragraph, .heading, .thematicBreak, .blockQuote])
    (hu : ∀ k, UsesL k t1.children → p1.refmap.get k = none → p2.refmap.get k = none)
    (z : Str) (hz : toHtml smart o s = .ok z) : toHtml smart o s1 = .ok z := by
  obtain ⟨x, y, hx, hy, rfl⟩ := C81_html smart o ho s1 s2 s as bs h1 h2 hs t1 _ p1 p2 e1 e2 hk hu
    (fun k hk => by rw [show Tree.children (.node d2 []) = [] from rfl, UsesL] at hk; exact hk.elim) z hz
  obtain ⟨t, e, hr⟩ := toHtml_ok hy
  have hp2 : parse smart s2 = .ok (.node d2 []) := by unfold parse; rw [e2]; rfl
  rw [hp2] at e
  cases e
  unfold renderHtml at hr
  rw [renderWith_document o d2 _ (parse_doc hp2).1] at hr
  cases hr
  rw [hx, List.append_nil]

/-- C81: definitions before a text, of labels that do not stand in brackets in it, change nothing. -/
theorem C81_unused_before (smart : Bool) (o : HtmlOpts) (ho : o.sourcepos = false) (s1 s2 s : Str) (as bs : List Str) (h1 : TextLines s1 as)
    (h2 : TextLines s2 bs) (hs : TextLines s (as ++ [] :: bs)) (d1 : NodeData) (t2 : Tree) (p1 p2 : PState)
    (e1 : parseWith smart PState.init s1 = .ok (.node d1 [], p1)) (e2 : parseWith smart PState.init s2 = .ok (t2, p2))
    (hu : ∀ k, UsesL k t2.children → p1.refmap.get k = none)
    (z : Str) (hz : toHtml smart o s = .ok z) : toHtml smart o s2 = .ok z := by
  obtain ⟨x, y, hx, hy, rfl⟩ := C81_html smart o ho s1 s2 s as bs h1 h2 hs _ t2 p1 p2 e1 e2 (by intro u h; cases h)
    (fun k hk => by rw [show Tree.children (.node d1 []) = [] from rfl, UsesL] at hk; exact hk.elim) (fun k hk => .inl (hu k hk)) z hz
  obtain ⟨t, e, hr⟩ := toHtml_ok hx
  have hp1 : parse smart s1 = .ok (.node d1 []) := by unfold parse; rw [e1]; rfl
  rw [hp1] at e
  cases e
  unfold renderHtml at hr
  rw [renderWith_document o d1 _ (parse_doc hp1).1] at hr
  cases hr
  rw [hy, List.nil_append]

/-- Two definitions, of which a text uses none: one it defines itself, before they come. -/
example : ((parse false "[c]: /y\n[a]: /z\n".toList).toOption.map fun t => t.children.length) = some 0 ∧
    (∃ t1 t2 p1 p2, parseWith false PState.init "[a]: /x\n\n# [a] [b]\n".toList = .ok (t1, p1) ∧
      parseWith false PState.init "[c]: /y\n[a]: /z\n".toList = .ok (t2, p2) ∧
      (∀ k, UsesL k t1.children → p1.refmap.get k = none → p2.refmap.get k = none) ∧
      ∀ k, UsesL k t2.children → p1.refmap.get k = none ∨ p1.refmap.get k = p2.refmap.get k) ∧
    (toHtml false {} "[a]: /x\n\n# [a] [b]\n\n[c]: /y\n[a]: /z\n".toList).toOption = some "<h1><a href=\"/x\">a</a> [b]</h1>\n".toList ∧
    (toHtml false {} "[a]: /x\n\n# [a] [b]\n".toList).toOption = some "<h1><a href=\"/x\">a</a> [b]</h1>\n".toList := by
  refine ⟨by decide +kernel, uses_check (by decide +kernel), ?_, ?_⟩ <;> decide +kernel

/-- The same before a text that has another label in brackets. -/
example : (∃ t1 t2 p1 p2, parseWith false PState.init "[c]: /y\n[a]: /z\n".toList = .ok (t1, p1) ∧
      parseWith false PState.init "- [b][d]\n\n[d]: /w\n".toList = .ok (t2, p2) ∧
      (∀ k, UsesL k t1.children → p1.refmap.get k = none → p2.refmap.get k = none) ∧
      ∀ k, UsesL k t2.children → p1.refmap.get k = none ∨ p1.refmap.get k = p2.refmap.get k) ∧
    (toHtml false {} "[c]: /y\n[a]: /z\n\n- [b][d]\n\n[d]: /w\n".toList).toOption =
      (toHtml false {} "- [b][d]\n\n[d]: /w\n".toList).toOption ∧
    (toHtml false {} "- [b][d]\n\n[d]: /w\n".toList).toOption = some "<ul>\n<li><a href=\"/w\">b</a></li>\n</ul>\n".toList := by
  refine ⟨uses_check (by decide +kernel), ?_, ?_⟩ <;> decide +kernel

theorem parseWith_of {smart : Bool} {s : Str} {t : Tree} (h : parse smart s = .ok t) : ∃ p, parseWith smart PState.init s = .ok (t, p) := by
  rw [parse_eq] at h
  cases e : parseWith smart PState.init s with
  | error => rw [e] at h; cases h
  | ok r => rw [e] at h; cases h; exact ⟨r.2, rfl⟩

/-- C81: a text without brackets and any text after it, with any definitions: their HTML stands one after the other. -/
theorem C81_plain_first (smart : Bool) (o : HtmlOpts) (ho : o.sourcepos = false) (s1 s2 s : Str) (as bs : List Str) (h1 : TextLines s1 as)
    (h2 : TextLines s2 bs) (hs : TextLines s (as ++ [] :: bs)) (hn : ∀ l ∈ as, '[' ∉ l ∧ ']' ∉ l) (t1 t2 : Tree)
    (e1 : parse smart s1 = .ok t1) (e2 : parse smart s2 = .ok t2)
    (hk : ∀ u, t1.children.getLast? = some u → u.data.t ∈ [.paragraph, .heading, .thematicBreak, .blockQuote])
    (z : Str) (hz : toHtml smart o s = .ok z) :
    ∃ x y, toHtml smart o s1 = .ok x ∧ toHtml smart o s2 = .ok y ∧ z = x ++ y := by
  obtain ⟨p1, w1⟩ := parseWith_of e1
  obtain ⟨p2, w2⟩ := parseWith_of e2
  obtain ⟨_, q1, q1b, q1c⟩ := parseWith_from smart _ s1 w1
  have hm := no_definitions h1 (fun l hl hi => (hn l hl).2 (hi.subset (by simp))) q1b
  refine C81_html smart o ho s1 s2 s as bs h1 h2 hs t1 t2 p1 p2 w1 w2 hk
    (fun k hk => absurd hk (unused_text h1 (fun l hl => (hn l hl).1) e1)) (fun k _ => .inl ?_) z hz
  rw [← q1c, hm]; rfl

/-- C81: any text, with any definitions, and a text without brackets after it. -/
theorem C81_plain_second (smart : Bool) (o : HtmlOpts) (ho : o.sourcepos = false) (s1 s2 s : Str) (as bs : List Str) (h1 : TextLines s1 as)
    (h2 : TextLines s2 bs) (hs : TextLines s (as ++ [] :: bs)) (hn : ∀ l ∈ bs, '[' ∉ l ∧ ']' ∉ l) (t1 t2 : Tree)
    (e1 : parse smart s1 = .ok t1) (e2 : parse smart s2 = .ok t2)
    (hk : ∀ u, t1.children.getLast? = some u → u.data.t ∈ [.paragraph, .heading, .thematicBreak, .blockQuote])
    (z : Str) (hz : toHtml smart o s = .ok z) :
    ∃ x y, toHtml smart o s1 = .ok x ∧ toHtml smart o s2 = .ok y ∧ z = x ++ y := by
  obtain ⟨p1, w1⟩ := parseWith_of e1
  obtain ⟨p2, w2⟩ := parseWith_of e2
  obtain ⟨_, q2, q2b, q2c⟩ := parseWith_from smart _ s2 w2
  have hm := no_definitions h2 (fun l hl hi => (hn l hl).2 (hi.subset (by simp))) q2b
  refine C81_html smart o ho s1 s2 s as bs h1 h2 hs t1 t2 p1 p2 w1 w2 hk (fun k _ _ => ?_)
    (fun k hk => absurd hk (unused_text h2 (fun l hl => (hn l hl).1) e2)) z hz
  rw [← q2c, hm]; rfl

/-- A text with definitions after a text without brackets, and before one. -/
example : (∀ l ∈ ["> *b*".toList, "c".toList], '[' ∉ l ∧ ']' ∉ l) ∧
    (toHtml false {} "> *b*\nc\n".toList).toOption = some "<blockquote>\n<p><em>b</em>\nc</p>\n</blockquote>\n".toList ∧
    (toHtml false {} "[a]: /x\n\n[a]\n".toList).toOption = some "<p><a href=\"/x\">a</a></p>\n".toList ∧
    (toHtml false {} "> *b*\nc\n\n[a]: /x\n\n[a]\n".toList).toOption =
      some "<blockquote>\n<p><em>b</em>\nc</p>\n</blockquote>\n<p><a href=\"/x\">a</a></p>\n".toList ∧
    (toHtml false {} "[a]: /x\n\n[a]\n\n> *b*\nc\n".toList).toOption =
      some "<p><a href=\"/x\">a</a></p>\n<blockquote>\n<p><em>b</em>\nc</p>\n</blockquote>\n".toList := by
  refine ⟨by decide, ?_, ?_, ?_, ?_⟩ <;> decide +kernel

/-- C81: lines that follow, with definitions in them or before them, change only the last block, if the labels that stand in brackets
in the blocks before it keep their meaning. -/
theorem C81_stream (smart : Bool) (s1 s : Str) (as bs : List Str) (h1 : TextLines s1 as) (hs : TextLines s (as ++ bs))
    (d1 d : NodeData) (xs1 xs : List Tree) (p1 p : PState) (e1 : parseWith smart PState.init s1 = .ok (.node d1 xs1, p1))
    (e : parseWith smart PState.init s = .ok (.node d xs, p))
    (hu : ∀ k, UsesL k xs1.dropLast → p1.refmap.get k = p.refmap.get k) :
    ∃ ys1 ys2, xs = ys1 ++ ys2 ∧ ys1.map unblank = xs1.dropLast.map unblank := by
  obtain ⟨y, hy⟩ := uses_stream h1 hs e1 e hu
  refine ⟨xs.take xs1.dropLast.length, xs.drop xs1.dropLast.length, (List.take_append_drop _ _).symm, ?_⟩
  rw [List.map_take, ← hy, List.take_append_of_le_length (by simp), List.take_of_length_le (by simp)]

/-- C81: the HTML of the blocks before the last one stays the beginning of the HTML, whatever lines with definitions follow, if the labels
that stand in brackets in these blocks keep their meaning. -/
theorem C81_stream_html (smart : Bool) (o : HtmlOpts) (s1 s : Str) (as bs : List Str) (h1 : TextLines s1 as) (hs : TextLines s (as ++ bs))
    (d1 : NodeData) (xs1 : List Tree) (t : Tree) (p1 p : PState) (e1 : parseWith smart PState.init s1 = .ok (.node d1 xs1, p1))
    (e : parseWith smart PState.init s = .ok (t, p))
    (hu : ∀ k, UsesL k xs1.dropLast → p1.refmap.get k = p.refmap.get k) (z : Str) (hz : toHtml smart o s = .ok z) :
    ∃ x, renderHtml o (.node d1 xs1.dropLast) = .ok x ∧ x <+: z := by
  obtain ⟨d, xs⟩ := t
  obtain ⟨t', e', hr⟩ := toHtml_ok hz
  have hp1 : parse smart s1 = .ok (.node d1 xs1) := by unfold parse; rw [e1]; rfl
  have hp : parse smart s = .ok (.node d xs) := by unfold parse; rw [e]; rfl
  rw [hp] at e'
  cases e'
  obtain ⟨ys1, ys2, rfl, hy⟩ := C81_stream smart s1 s as bs h1 hs d1 d xs1 xs p1 p e1 e hu
  have hb : unmarkL ys1 = unmarkL xs1.dropLast := by rw [← unmarkL_unblank, hy, unmarkL_unblank]
  rw [stream_render (d := d) (d1 := d1) (x := xs1.dropLast) (w := ys2) (parse_doc hp).1 (parse_doc hp1).1 hb
    (fun c hc => top_kinds hp1 c (List.dropLast_subset _ hc)) (fun c hc => top_kinds hp c (List.mem_append_right _ hc))] at hr
  cases hx : renderHtml o (.node d1 xs1.dropLast) with
  | error => rw [hx] at hr; cases hr
  | ok x =>
    rw [hx] at hr
    simp only [Except.bind] at hr
    cases hw : renderHtml o (.node d1 ys2) with
    | error => rw [hw] at hr; cases hr
    | ok w =>
      rw [hw] at hr
      cases hr
      exact ⟨x, rfl, List.prefix_append _ _⟩

/-- A definition in the lines that follow, of a label that the blocks before the last one do not have in brackets. -/
theorem stream_check {smart : Bool} {s1 s : Str}
    (h : ((parseWith smart PState.init s1).toOption.bind fun r1 => (parseWith smart PState.init s).toOption.map fun r =>
      (labelsL r1.1.children.dropLast).all (fun k => r1.2.refmap.get k == r.2.refmap.get k)) = some true) :
    ∃ d1 d xs1 xs p1 p, parseWith smart PState.init s1 = .ok (.node d1 xs1, p1) ∧ parseWith smart PState.init s = .ok (.node d xs, p) ∧
      ∀ k, UsesL k xs1.dropLast → p1.refmap.get k = p.refmap.get k := by
  cases e1 : parseWith smart PState.init s1 with
  | error => rw [e1] at h; cases h
  | ok r1 =>
    cases e2 : parseWith smart PState.init s with
    | error => rw [e1, e2] at h; cases h
    | ok r2 =>
      rw [e1, e2] at h
      simp only [Except.toOption, Option.bind_some, Option.map_some, Option.some.injEq, List.all_eq_true, beq_iff_eq] at h
      obtain ⟨⟨d1, xs1⟩, p1⟩ := r1
      obtain ⟨⟨d, xs⟩, p⟩ := r2
      exact ⟨d1, d, xs1, xs, p1, p, rfl, rfl, fun k hk => h k (labelsL_of hk)⟩

example : TextLines "[a]: /x\n# [a] [b]\n\nc".toList ["[a]: /x".toList, "# [a] [b]".toList, [], "c".toList] ∧
    TextLines "[a]: /x\n# [a] [b]\n\nc\n\n[d]: /y\n\n[d]".toList
      (["[a]: /x".toList, "# [a] [b]".toList, [], "c".toList] ++ [[], "[d]: /y".toList, [], "[d]".toList]) ∧
    (∃ d1 d xs1 xs p1 p, parseWith false PState.init "[a]: /x\n# [a] [b]\n\nc".toList = .ok (.node d1 xs1, p1) ∧
      parseWith false PState.init "[a]: /x\n# [a] [b]\n\nc\n\n[d]: /y\n\n[d]".toList = .ok (.node d xs, p) ∧
      ∀ k, UsesL k xs1.dropLast → p1.refmap.get k = p.refmap.get k) ∧
    (toHtml false {} "[a]: /x\n# [a] [b]\n\nc".toList).toOption = some "<h1><a href=\"/x\">a</a> [b]</h1>\n<p>c</p>\n".toList ∧
    (toHtml false {} "[a]: /x\n# [a] [b]\n\nc\n\n[d]: /y\n\n[d]".toList).toOption =
      some "<h1><a href=\"/x\">a</a> [b]</h1>\n<p>c</p>\n<p><a href=\"/y\">d</a></p>\n".toList := by
  refine ⟨(textLines_iff _ _).2 (by decide), (textLines_iff _ _).2 (by decide), stream_check (by decide +kernel), ?_, ?_⟩ <;>
    decide +kernel

end CM
