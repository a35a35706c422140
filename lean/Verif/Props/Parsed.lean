import Verif.Proofs.History
/-
Properties of every call of `Parser.parse`: C01 terminates, C02 never raises (violated; what holds),
C03 containment, C04 all closed, C05 levels and numbers, C06 no NUL, C16 reuse, C21 first definition
wins, C23 definitions before inlines, C40 positions, C46/C47 lists, C51 rendering never raises.
-/
set_option linter.unusedVariables false
namespace CM
open Spec

/-! ### C01, C02 -/

/-- C01: `parse` on any parser object terminates: no loop exhausts its budget. -/
theorem C01_parse_terminates (smart : Bool) (p : PState) (s : Str) : parseWith smart p s ≠ .error .hang := by
  rcases parseWith_nul smart p s with ⟨t, p', h, _⟩ | ⟨h, _⟩ <;> rw [h] <;> simp

/-- C02: `parse` returns a document, or raises an IndexError and then some line of the text ends with a
numeric reference to a control character or non-character.  Missing: such texts, for which it is false. -/
theorem C02_no_other_exception_partial (smart : Bool) (s : Str) (ls : List Str) (hs : TextLines s ls) :
    (∃ t, parse smart s = .ok t) ∨ (parse smart s = .error .indexError ∧ ∃ ln ∈ ls, EndsWithRefused ln) := by
  rw [← inputLines_of hs]
  rcases parse_nul smart s with ⟨t, h, _⟩ | h
  · exact Or.inl ⟨t, h⟩
  · exact Or.inr h

/-- C02: no line ends with `;`, no exception. -/
theorem C02_no_semicolon_partial (smart : Bool) (s : Str) (ls : List Str) (hs : TextLines s ls)
    (h : ∀ ln ∈ ls, ln.getLast? ≠ some ';') : ∃ t, parse smart s = .ok t := by
  rcases C02_no_other_exception_partial smart s ls hs with h' | ⟨_, ln, hln, a, m, n, e, hm, _⟩
  · exact h'
  · exfalso
    apply h ln hln
    rcases hm with ⟨ds, rfl, _⟩ | ⟨x, ds, rfl, _⟩ <;> rw [e, ← List.append_assoc] <;> exact List.getLast?_concat

/-- C02: no `&` in the text, no exception. -/
theorem C02_no_ampersand_partial (smart : Bool) (s : Str) (h : '&' ∉ s) : ∃ t, parse smart s = .ok t := by
  rcases parse_nul smart s with ⟨t, h', _⟩ | ⟨_, ln, hln, a, m, n, e, hm, _⟩
  · exact ⟨t, h'⟩
  · exfalso
    apply h
    refine (inputLines_mem hln '&' ?_).1
    rcases hm with ⟨ds, rfl, _⟩ | ⟨x, ds, rfl, _⟩ <;> rw [e] <;> simp

/-- C02 (violated): a reference to U+0001 at the end of a line raises IndexError. -/
theorem C02_counterexample : (match parse false "&#1;\nfoo".toList with
    | .error .indexError => true
    | _ => false) = true := by decide +kernel

/-- The hypotheses: two lines, of which the first ends with a reference that is refused. -/
example : TextLines "&#1;\nfoo".toList ["&#1;".toList, "foo".toList] := by
  rw [textLines_iff]; decide +kernel
example : EndsWithRefused "a&#x1F;".toList :=
  ⟨['a'], "&#x1F;".toList, 31, rfl, Or.inr ⟨'x', "1F".toList, rfl, by decide, by decide, by decide, by decide⟩,
    by unfold Refused; omega⟩
example : ∀ ln ∈ ["> *a*".toList, "&amp; b".toList], ln.getLast? ≠ some ';' := by decide

/-! ### C16 -/

/-- C16: the result of `parse` does not depend on what the parser object did before. -/
theorem C16_reuse (smart : Bool) (p q : PState) (s : Str) : parseWith smart p s = parseWith smart q s := by
  rw [parseWith_reuse smart p, parseWith_reuse smart q]

/-- C16: a parser that has parsed `s` parses `s'` as a new one does. -/
theorem C16_second_parse (smart : Bool) (s s' : Str) (t : Tree) (p : PState)
    (h : parseWith smart PState.init s = .ok (t, p)) :
    (parseWith smart p s').map (·.1) = parse smart s' := by
  rw [parse_eq, parseWith_reuse]

example : ∃ t p, parseWith false PState.init "[a]: /b\n\n> - x".toList = .ok (t, p) := by
  rcases parseWith_nul false PState.init "[a]: /b\n\n> - x".toList with ⟨t, p, h, _⟩ | ⟨_, ln, hln, a, m, n, e, hm, _⟩
  · exact ⟨t, p, h⟩
  · exfalso
    have : '&' ∈ "[a]: /b\n\n> - x".toList := by
      refine (inputLines_mem hln '&' ?_).1
      rcases hm with ⟨ds, rfl, _⟩ | ⟨x, ds, rfl, _⟩ <;> rw [e] <;> simp
    revert this; decide

/-! ### C03, C04, C05, C47 -/

/-- C03: the document is well formed. -/
theorem C03_containment (smart : Bool) (s : Str) (t : Tree) (h : parse smart s = .ok t) :
    t.data.t = .document ∧ EveryNode (fun d ks => d.t ∈ blockKinds ++ inlineKinds ∧
      (∀ k ∈ ks, k.t ∈ childKinds d.t) ∧ (d.t = .list → ks ≠ [])) t := by
  obtain ⟨h1, _, _, h2⟩ := parse_doc h
  refine ⟨h1, EveryNode.mono ?_ h2⟩
  intro d ks hn
  cases hn with
  | block hb hp hh =>
    refine ⟨List.mem_append_left _ hb.data.kind, ?_, hb.items⟩
    intro k hk
    rcases hb.fits k hk with ⟨hw, hf⟩ | ⟨hl, hi, _⟩
    · rcases hw with h | h | h <;> rw [h] <;> exact hf
    · rw [hl, hi]; decide
  | leaf hb hp hk =>
    refine ⟨List.mem_append_left _ hb.data.kind, ?_, ?_⟩
    · intro k hk'
      rcases hp with h | h <;> rw [h] <;> exact hk k hk'
    · intro hl; rw [hl] at hp; simp at hp
  | inline hi =>
    cases hi with
    | text => exact ⟨by show Kind.text ∈ _; decide, by simp, fun h => by cases h⟩
    | code => exact ⟨by show Kind.code ∈ _; decide, by simp, fun h => by cases h⟩
    | html => exact ⟨by show Kind.htmlInline ∈ _; decide, by simp, fun h => by cases h⟩
    | soft => exact ⟨by show Kind.softbreak ∈ _; decide, by simp, fun h => by cases h⟩
    | hard => exact ⟨by show Kind.linebreak ∈ _; decide, by simp, fun h => by cases h⟩
    | emph h => exact ⟨by show Kind.emph ∈ _; decide, h, fun h => by cases h⟩
    | strong h => exact ⟨by show Kind.strong ∈ _; decide, h, fun h => by cases h⟩
    | link _ h => exact ⟨by show Kind.link ∈ _; decide, h, fun h => by cases h⟩
    | image _ h => exact ⟨by show Kind.image ∈ _; decide, h, fun h => by cases h⟩

/-- C04: no block of the document is open and the parser has no open block left. -/
theorem C04_all_closed (smart : Bool) (p : PState) (s : Str) (t : Tree) (p' : PState)
    (h : parseWith smart p s = .ok (t, p')) :
    p'.spine = [] ∧ p'.doc = some t ∧ EveryNode (fun d _ => d.t ∈ blockKinds → d.isOpen = false) t := by
  rcases parseWith_nul smart p s with ⟨t', q, h', h1, h2, _, _, _, h3⟩ | ⟨h', _⟩
  · rw [h] at h'
    simp only [Except.ok.injEq, Prod.mk.injEq] at h'
    obtain ⟨rfl, rfl⟩ := h'
    refine ⟨h1, h2, EveryNode.mono ?_ h3⟩
    intro d ks hn hk
    cases hn with
    | block hb => exact hb.closed
    | leaf hb => exact hb.closed
    | inline hi => exfalso; cases hi <;> revert hk <;> simp [textNode, codeNode, htmlInlineNode, mkNode, linkNode, Tree.data, blockKinds, flowKinds]
  · rw [h] at h'; cases h'

/-- C05: heading levels and list markers are as CommonMark has them. -/
theorem C05_levels_and_numbers (smart : Bool) (s : Str) (t : Tree) (h : parse smart s = .ok t) :
    EveryNode (fun d _ => (d.t = .heading → ∃ n, d.level = some n ∧ 1 ≤ n ∧ n ≤ 6) ∧
      (d.t = .list ∨ d.t = .item → ∃ l, d.listData = some l ∧ MarkerOk l)) t := by
  refine EveryNode.mono ?_ (parse_doc h).2.2.2
  intro d ks hn
  cases hn with
  | block hb => exact ⟨hb.data.level, hb.data.marker⟩
  | leaf hb => exact ⟨hb.data.level, hb.data.marker⟩
  | inline hi => refine ⟨fun h => ?_, fun h => ?_⟩ <;> (exfalso; cases hi <;> revert h <;> simp [textNode, codeNode, htmlInlineNode, mkNode, linkNode, Tree.data])

/-- C47: every item has the kind of marker of its list. -/
theorem C47_items_agree (smart : Bool) (s : Str) (t : Tree) (h : parse smart s = .ok t) :
    EveryNode (fun d ks => d.t = .list → ∀ k ∈ ks, SameMarker d k) t := by
  refine EveryNode.mono ?_ (parse_doc h).2.2.2
  intro d ks hn hl k hk
  cases hn with
  | block hb hp hh =>
    rcases hb.fits k hk with ⟨hw, _⟩ | ⟨_, _, h⟩
    · rcases hw with h | h | h <;> rw [h] at hl <;> cases hl
    · exact h
  | leaf hb hp => rw [hl] at hp; simp at hp
  | inline hi => exfalso; cases hi <;> revert hl <;> simp [textNode, codeNode, htmlInlineNode, mkNode, linkNode, Tree.data]

/-! ### C06 -/

/-- C06: no string of the document contains U+0000. -/
theorem C06_no_nul (smart : Bool) (s : Str) (t : Tree) (h : parse smart s = .ok t) :
    EveryNode (fun d _ => ∀ x ∈ nodeStrings d, Char.ofNat 0 ∉ x) t := by
  refine EveryNode.mono ?_ (parse_doc h).2.2.2
  intro d ks hn
  have of : ∀ x : Str, Strs (· ≠ Char.ofNat 0) x → Char.ofNat 0 ∉ x := fun x h hc => h _ hc rfl
  have block : DataOk (TextOf s) (· ≠ Char.ofNat 0) d → ∀ x ∈ nodeStrings d, Char.ofNat 0 ∉ x := by
    intro hd x hx
    obtain ⟨c1, c2, c3, c4⟩ := hd.clean
    simp only [nodeStrings, c1, c2, c3, c4, List.mem_append, Option.mem_toList, List.mem_singleton, Option.toList_none,
      List.not_mem_nil, or_false] at hx
    rcases hx with (((hx | hx) | hx) | rfl) | hx
    · exact of x (hd.chars x (Or.inl hx))
    · exact of x (hd.chars x (Or.inr (Or.inl hx)))
    · exact of x (hd.chars x (Or.inr (Or.inr hx)))
    · cases hf : d.isFenced with
      | false => rw [hd.fence.2 hf]; simp
      | true => rcases (hd.fence.1 hf).1 with h | h <;> rw [h] <;> decide
    · by_cases hm : d.t = .list ∨ d.t = .item
      · obtain ⟨l, hl, hok⟩ := hd.marker hm
        rw [hl] at hx
        simp only [Option.map_some, Option.getD_some, List.mem_cons, List.not_mem_nil, or_false] at hx
        rcases hok with ⟨_, hb, _, hdel⟩ | ⟨_, hb, _, hdel⟩
        · rcases hx with rfl | rfl
          · rcases hb with h | h | h <;> rw [h] <;> decide
          · rw [hdel]; simp
        · rcases hx with rfl | rfl
          · rw [hb]; simp
          · rcases hdel with h | h <;> rw [h] <;> decide
      · rw [not_or] at hm
        rw [hd.nomarker hm.1 hm.2] at hx
        simp at hx
  cases hn with
  | block hb => exact block hb.data
  | leaf hb => exact block hb.data
  | inline hi =>
    have uri : ∀ u, Char.ofNat 0 ∉ normalizeUri u := fun u => of _ (strs_normalizeUri asciiGood_nul u)
    cases hi with
    | text h => simpa [nodeStrings, textNode, mkNode, Tree.data] using of _ h
    | code h => simpa [nodeStrings, codeNode, mkNode, Tree.data] using of _ h
    | html h => simpa [nodeStrings, htmlInlineNode, mkNode, Tree.data] using of _ h
    | soft => simp [nodeStrings, mkNode, Tree.data]
    | hard => simp [nodeStrings, mkNode, Tree.data]
    | emph => simp [nodeStrings, mkNode, Tree.data]
    | strong => simp [nodeStrings, mkNode, Tree.data]
    | link h => simpa [nodeStrings, linkNode, mkNode, Tree.data] using ⟨uri _, of _ h⟩
    | image h => simpa [nodeStrings, linkNode, mkNode, Tree.data] using ⟨uri _, of _ h⟩

/-- C06: nor does its HTML rendering, if the line-break text of the options has none. -/
theorem C06_html (smart : Bool) (o : HtmlOpts) (s out : Str) (hsb : Char.ofNat 0 ∉ o.softbreak)
    (h : toHtml smart o s = .ok out) : Char.ofNat 0 ∉ out := by
  simp only [toHtml, bind, Except.bind] at h
  cases hp : parse smart s with
  | error e => rw [hp] at h; cases h
  | ok t =>
    rw [hp] at h
    dsimp only at h
    obtain ⟨h1, _, _, h2⟩ := parse_doc hp
    obtain ⟨out', e, hs⟩ := renderHtml_total asciiGood_nul o (fun c hc e => hsb (e ▸ hc)) t
      (EveryNode.mono (fun d ks h => nodeOk_ready asciiGood_nul h) h2) (by rw [h1]; decide)
    rw [e] at h
    simp only [Except.ok.injEq] at h
    subst h
    exact fun hc => hs _ hc rfl

/-! ### C51 -/

/-- C51: rendering a parsed document to HTML never raises. -/
theorem C51_render_total (smart : Bool) (o : HtmlOpts) (s : Str) (t : Tree) (h : parse smart s = .ok t) :
    ∃ out, renderHtml o t = .ok out := by
  obtain ⟨h1, _, _, h2⟩ := parse_doc h
  obtain ⟨out, e, _⟩ := renderHtml_total (G := fun _ => True) (fun _ _ => trivial) o (fun _ _ => trivial) t
      (EveryNode.mono (fun d ks h => by
        have := nodeOk_ready asciiGood_nul h
        exact ⟨this.list, this.dest, this.raw, fun _ _ _ _ => trivial⟩) h2) (by rw [h1]; decide)
  exact ⟨out, e⟩

/-! ### C40 -/

/-- C40: lines of blocks.  The first line and column of a block are at least 1, its last line is not
before its first, its children lie within its lines, each after its preceding sibling, and the document
spans all lines. -/
theorem C40_positions (smart : Bool) (s : Str) (t : Tree) (ls : List Str) (hs : TextLines s ls)
    (h : parse smart s = .ok t) :
    firstLine t.data = 1 ∧ lastLine t.data = ls.length ∧
    EveryNode (fun d ks => d.t ∈ blockKinds → d.sourcepos.isSome ∧ 1 ≤ firstLine d ∧ 1 ≤ firstColumn d ∧
      firstLine d ≤ lastLine d ∧
      (∀ k ∈ ks, k.t ∈ blockKinds → firstLine d ≤ firstLine k ∧ lastLine k ≤ lastLine d) ∧
      (ks.filter (·.t ∈ blockKinds)).Pairwise fun a b => lastLine a < firstLine b) t := by
  obtain ⟨_, h1, h2, h3⟩ := parse_doc h
  refine ⟨h1, by rw [h2, inputLines_of hs], EveryNode.mono ?_ h3⟩
  intro d ks hn hk
  have some : 1 ≤ firstLine d → d.sourcepos.isSome := by
    intro h
    cases hsp : d.sourcepos with
    | none => simp [firstLine, hsp] at h
    | some x => rfl
  cases hn with
  | block hb =>
    exact ⟨some hb.data.start.1, hb.data.start.1, hb.data.start.2, hb.span, fun k hk _ => hb.inside k hk,
      hb.order.sublist List.filter_sublist⟩
  | leaf hb hp hi =>
    have none : ∀ k ∈ ks, k.t ∉ blockKinds := by
      intro k hk
      have := hi k hk
      revert this
      generalize k.t = x
      cases x <;> decide
    refine ⟨some hb.data.start.1, hb.data.start.1, hb.data.start.2, hb.span, fun k hk h => absurd h (none k hk), ?_⟩
    rw [List.filter_eq_nil_iff.2 (by simpa using none)]
    exact .nil
  | inline hi => exfalso; cases hi <;> revert hk <;> simp [textNode, codeNode, htmlInlineNode, mkNode, linkNode, Tree.data, blockKinds, flowKinds]

/-! ### C21, C23 -/

/-- C21: what a label is bound to after any number of lines is what it is bound to at the end. -/
theorem C21_first_definition_wins (p : PState) (s : Str) (ls : List Str) (hs : TextLines s ls) (n : Nat) :
    ∃ p1 p', (ls.take n).foldlM incorporateLine p.reset = .ok p1 ∧ blockPhase p s = .ok p' ∧
      ∀ label d, p1.refmap.get label = some d → p'.refmap.get label = some d := by
  rw [← inputLines_of hs]; exact blockPhase_refs p s n

/-- C23: the inline content of every paragraph and heading is read with one and the same reference map,
the one at the end of the block phase. -/
theorem C23_whole_document (smart : Bool) (p : PState) (s : Str) (t : Tree) (p' : PState)
    (h : parseWith smart p s = .ok (t, p')) :
    (∃ p1, blockPhase p s = .ok p1 ∧ p1.refmap = p'.refmap) ∧
    EverySubtree (fun d cs => d.t = .paragraph ∨ d.t = .heading →
      ∃ x, d.stringContent = some x ∧ parseInlines smart p'.refmap x = .ok cs) t :=
  ⟨(parseWith_from smart p s h).2, (parseWith_from smart p s h).1⟩

/-- A reference before its definition, and two definitions of one label. -/
example : (toHtml false {} "[foo]\n\n[foo]: /a\n[FOO]: /b\n".toList).toOption =
    some "<p><a href=\"/a\">foo</a></p>\n".toList := by decide +kernel

/-- A document with headings, lists of both kinds, a code block and inline content meets the
hypotheses of C03, C04, C05, C06, C40, C47. -/
example : ((parse false "# a\n\n7) b\n   - *c*\n\n> ```\n> d\u0000\n".toList).toOption.map fun t => t.children.map (·.data.t)) =
    some [.heading, .list, .blockQuote] := by decide +kernel

end CM
