import Verif.Proofs.LastPath
/-
C63: a paragraph goes on whether or not the markers of the containers are repeated.
-/
namespace CM
open Spec

theorem unmarked_suffix {path : List NodeData} {l y : Str} (hu : Unmarked path l y) : y <:+ l := by
  induction hu with
  | rest => exact List.suffix_refl _
  | pass _ _ ih => exact ih
  | @quote d path k l x _ _ _ ih => exact ih.trans ⟨List.replicate k ' ' ++ ['>', ' '], by simp⟩
  | @tightQuote d path k l x _ _ _ _ _ ih => exact ih.trans ⟨List.replicate k ' ' ++ ['>'], by simp⟩
  | item _ _ _ ih => exact ih.trans ⟨_, rfl⟩

theorem lazy_parse {smart : Bool} {sa s s' : Str} {as bs : List Str} {l l' x : Str} {t : Tree} {path : List NodeData} (ha : TextLines sa as)
    (hs : TextLines s (as ++ l :: bs)) (hs' : TextLines s' (as ++ l' :: bs)) (ht : parse smart sa = .ok t) (hl : LastPara as.length t path)
    (h1 : GoesOn path l x) (h2 : GoesOn path l' x) : (∃ e, parse smart s = .error e ∧ parse smart s' = .error e) ∨
    ∃ d d' xs ys, parse smart s = .ok (.node d xs) ∧ parse smart s' = .ok (.node d' ys) ∧ d.t = .document ∧ d'.t = .document ∧
      noColsL xs = noColsL ys := by
  have hx : OneLine x := by
    obtain ⟨w, _, hu⟩ := h1.unmarked
    intro c hc
    exact textLines_one hs l (by simp) c ((unmarked_suffix hu).subset (List.mem_append_right _ hc))
  refine swap_parse hs hs' ?_
  intro p p1 p2 hp e1 e2
  obtain ⟨q, f1, f2, f3⟩ := lines_ok as [] PState.init.reset (ready_reset PState.init).1 (ready_reset PState.init).2
  rw [hp] at f1
  cases f1
  have hi := flag_lines as (ready_reset PState.init).1 (flag_reset _) hp
  obtain ⟨k1, d0, rest, rfl, k2, k3⟩ := path_of_parse ha ht hl hp
  obtain ⟨g1, g2, g3⟩ := goes_on f2 hi k1 k3 k2 h1 hx e1
  obtain ⟨g4, g5, g6⟩ := goes_on f2 hi k1 k3 k2 h2 hx e2
  exact ⟨g4.trans g1.symm, g5.trans g2.symm, g6.trans g3.symm⟩

/-- C63: if a text ends in a paragraph, inside any block quotes and list items, and the next line goes on with this paragraph, it does not
matter which of the markers of the block quotes and which of the indentations of the items the line repeats, or how it is indented: the
blocks are the same (columns not compared), whatever text follows. -/
theorem C63_lazy (smart : Bool) (sa s s' : Str) (as bs : List Str) (l l' x : Str) (t : Tree) (path : List NodeData) (ha : TextLines sa as)
    (hs : TextLines s (as ++ l :: bs)) (hs' : TextLines s' (as ++ l' :: bs)) (ht : parse smart sa = .ok t) (hl : LastPara as.length t path)
    (h1 : GoesOn path l x) (h2 : GoesOn path l' x) (d : NodeData) (xs : List Tree) (hd : parse smart s = .ok (.node d xs)) :
    ∃ d' ys, parse smart s' = .ok (.node d' ys) ∧ noColsL ys = noColsL xs := by
  rcases lazy_parse ha hs hs' ht hl h1 h2 with ⟨e, h, _⟩ | ⟨d1, d', xs1, ys, h, h', _, _, h3⟩
  · rw [hd] at h; cases h
  · rw [hd] at h; cases h
    exact ⟨d', ys, h', h3.symm⟩

/-- C63: one text makes the parser fail (see C02) just if the other one does. -/
theorem C63_error (smart : Bool) (sa s s' : Str) (as bs : List Str) (l l' x : Str) (t : Tree) (path : List NodeData) (ha : TextLines sa as)
    (hs : TextLines s (as ++ l :: bs)) (hs' : TextLines s' (as ++ l' :: bs)) (ht : parse smart sa = .ok t) (hl : LastPara as.length t path)
    (h1 : GoesOn path l x) (h2 : GoesOn path l' x) (e : PyErr) (he : parse smart s = .error e) : parse smart s' = .error e := by
  rcases lazy_parse ha hs hs' ht hl h1 h2 with ⟨e', h, h'⟩ | ⟨d1, d', xs1, ys, h, h', _, _, h3⟩
  · rw [he] at h; cases h; exact h'
  · rw [he] at h; cases h

/-- C63: the HTML is the same. -/
theorem C63_html (smart : Bool) (o : HtmlOpts) (ho : o.sourcepos = false) (sa s s' : Str) (as bs : List Str) (l l' x : Str) (t : Tree)
    (path : List NodeData) (ha : TextLines sa as) (hs : TextLines s (as ++ l :: bs)) (hs' : TextLines s' (as ++ l' :: bs))
    (ht : parse smart sa = .ok t) (hl : LastPara as.length t path) (h1 : GoesOn path l x) (h2 : GoesOn path l' x) :
    toHtml smart o s' = toHtml smart o s := by
  rcases lazy_parse ha hs hs' ht hl h1 h2 with ⟨e, h, h'⟩ | ⟨d1, d', xs, ys, h, h', k, k', h3⟩
  · unfold toHtml; rw [h, h']
  · have t0 : tightOf (some d1) = .ok false := by simp [tightOf, k]
    have t1 : tightOf (some d') = .ok false := by simp [tightOf, k']
    have e0 := eventsList_same (p := some d') (p' := some d1) (g := none) (g' := none) rfl (t1.trans t0.symm) rfl
      (ts := ys) (ts' := xs) (noCols_bare h3.symm)
    unfold toHtml
    rw [h, h']
    show renderHtml o _ = renderHtml o _
    unfold renderHtml
    rw [renderWith_document o d1 _ k, renderWith_document o d' _ k', runEvents_same ho e0]

/-- The containers of the last paragraph of the tree, if it ends in line `n`. -/
def lastPath (n : Nat) : Nat → Tree → Option (List NodeData)
  | 0, _ => none
  | k + 1, .node d cs =>
    if d.t = .paragraph then if d.sourcepos.map (·.2.1) = some n then some [] else none
    else if d.t = .document ∨ d.t = .blockQuote ∨ d.t = .list ∨ d.t = .item then
      cs.getLast?.bind fun t => (lastPath n k t).map (d :: ·)
    else none

theorem lastPath_sound {n : Nat} : ∀ (k : Nat) {t : Tree} {path : List NodeData}, lastPath n k t = some path → LastPara n t path
  | 0, _, _, h => by cases h
  | k + 1, .node d cs, path, h => by
    rw [lastPath] at h
    split at h
    · rename_i h1
      split at h
      · rename_i h2
        cases h
        cases hs : d.sourcepos with
        | none => rw [hs] at h2; cases h2
        | some q =>
          rw [hs] at h2
          obtain ⟨a, n', c⟩ := q
          simp only [Option.map_some, Option.some.injEq] at h2
          subst h2
          exact .here h1 hs
      · cases h
    · split at h
      · rename_i h1
        cases ht : cs.getLast? with
        | none => rw [ht] at h; cases h
        | some t =>
          rw [ht] at h
          simp only [Option.bind_some, Option.map_eq_some_iff] at h
          obtain ⟨q, hq, rfl⟩ := h
          exact .inside h1 ht (lastPath_sound k hq)
      · cases h

/-- The paragraph in the item in the block quote goes on with `>   b`, with `>b`, with `b` and with `      b`. -/
example : ∃ t path, parse false "> - a".toList = .ok t ∧ LastPara 1 t path ∧ GoesOn path ">   b".toList "b".toList ∧
    GoesOn path ">b".toList "b".toList ∧ GoesOn path "b".toList "b".toList ∧ GoesOn path "      b".toList "b".toList ∧
    (toHtml false {} "> - a\n>   b\n> - c".toList).toOption = (toHtml false {} "> - a\n      b\n> - c".toList).toOption ∧
    (toHtml false {} "> - a\nb\n> - c".toList).toOption =
      some ("<blockquote>\n<ul>\n<li>a\nb</li>\n<li>c</li>\n</ul>\n".toList ++ "</blockquote>\n".toList) := by
  have h : (((parse false "> - a".toList).toOption.bind (lastPath 1 9)).map fun p => p.map fun d =>
      (d.t, d.listData.map fun i => (i.markerOffset, i.padding))) =
      some [(.document, none), (.blockQuote, none), (.list, some (0, 2)), (.item, some (0, 2))] := by decide +kernel
  cases ht : parse false "> - a".toList with
  | error => rw [ht] at h; cases h
  | ok t =>
    rw [ht] at h
    simp only [Except.toOption, Option.bind_some, Option.map_eq_some_iff] at h
    obtain ⟨path, hp, hm⟩ := h
    have hb : ∀ k, StartsNoBlock k "b".toList := fun k => startsNoBlock_letter rfl (by decide) (by decide) (by decide) (by decide)
    have hlen := congrArg List.length hm
    rw [List.length_map] at hlen
    obtain ⟨d0, d1, d2, d3, rfl⟩ : ∃ d0 d1 d2 d3, path = [d0, d1, d2, d3] := by
      rcases path with _ | ⟨d0, _ | ⟨d1, _ | ⟨d2, _ | ⟨d3, _ | ⟨d4, r⟩⟩⟩⟩⟩
      case cons.cons.cons.cons.nil => exact ⟨_, _, _, _, rfl⟩
      all_goals simp at hlen
    · simp only [List.map_cons, List.map_nil, List.cons.injEq, Prod.mk.injEq, Option.map_eq_some_iff, and_true] at hm
      obtain ⟨⟨a0, _⟩, ⟨a1, _⟩, ⟨a2, _⟩, a3, i, hi, hi1, hi2⟩ := hm
      have hir : List.replicate (i.markerOffset + i.padding) ' ' = "  ".toList := by rw [hi1, hi2]; rfl
      refine ⟨t, _, rfl, lastPath_sound 9 hp, ⟨⟨[], by simp [OnlySpTab], ?_⟩, hb⟩, ⟨⟨[], by simp [OnlySpTab], ?_⟩, hb⟩,
        ⟨⟨[], by simp [OnlySpTab], .rest⟩, hb⟩, ⟨⟨"      ".toList, by simp [OnlySpTab], .rest⟩, hb⟩, ?_, ?_⟩
      · have := Unmarked.item (path := []) a3 hi (l := "b".toList) .rest
        rw [hir] at this
        exact .pass (.inl a0) (.quote (k := 0) a1 (by decide) (.pass (.inr a2) this))
      · exact .pass (.inl a0) (.tightQuote (k := 0) a1 (by decide) (by decide) (by decide) .rest)
      · decide +kernel
      · decide +kernel

/-- The text must start no block, also where the paragraph is not open: a thematic break, an underline, a list. -/
example : (toHtml false {} "> a\n---".toList).toOption = some "<blockquote>\n<p>a</p>\n</blockquote>\n<hr />\n".toList ∧
    (toHtml false {} "> a\n> ---".toList).toOption = some "<blockquote>\n<h2>a</h2>\n</blockquote>\n".toList := by
  refine ⟨?_, ?_⟩ <;> decide +kernel

end CM
