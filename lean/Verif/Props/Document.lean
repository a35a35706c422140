import Verif.Proofs.ParaText
import Verif.Proofs.RunDoc
/-
C57: whole documents, with nested blocks, are read as their blocks.
-/
namespace CM
open Spec

/-- `h` is the HTML of the inline text `t`, which reads as some pieces (see `Spec.Reads`). -/
def TextHtml (o : HtmlOpts) (t h : Str) : Prop :=
  ∃ op ps, Reads op [] t ps ∧ (∀ d l, .link d l ∈ ps → o.safe = false) ∧ h = ps.flatMap (pieceHtml o.softbreak)

theorem textHtml_inline {o : HtmlOpts} (ho : o.sourcepos = false) : InlineHtml (false, []) o (TextHtml o) := by
  rintro t h ⟨op, ps, h1, h2, rfl⟩ x hx
  exact ⟨_, parseInlines_reads hx h1, fun p g b lo => render_pieces ho p g ps h2 b lo⟩

/-- C57.  Lines that form a document (see `Spec.Doc`: paragraphs, headings, thematic breaks, code blocks, HTML blocks, block
quotes and lists, nested to any depth), with any number of empty lines after them, give the HTML of its blocks, in order. -/
theorem C57_document {o : HtmlOpts} (ho : o.sourcepos = false) {s : Str} {ls : List Str} {bs : List Blk} {gap : Bool} {n : Nat}
    (h : Doc o.safe (TextHtml o) ls bs gap) (hs : TextLines s (ls ++ List.replicate n [])) : toHtml false o s = .ok (docHtml bs) :=
  doc_html ho (textHtml_inline ho) h hs

/-- C57.  How many empty lines there are between two parts of a document does not matter. -/
theorem C57_blank_lines {o : HtmlOpts} (ho : o.sourcepos = false) {s s' : Str} {as bs : List Str} {xs ys : List Blk} {x : Blk} {g g' : Bool}
    {l : Str} {n m : Nat} (ha : Doc o.safe (TextHtml o) as xs g) (hb : Doc o.safe (TextHtml o) (l :: bs) ys g') (hx : xs.getLast? = some x)
    (h0 : Char.ofNat 0 ∉ l) (hf : Follows x.kind true l) (hn : 0 < n) (hm : 0 < m)
    (hs : TextLines s (as ++ List.replicate n [] ++ l :: bs)) (hs' : TextLines s' (as ++ List.replicate m [] ++ l :: bs)) :
    toHtml false o s = .ok (docHtml xs ++ docHtml ys) ∧ toHtml false o s' = .ok (docHtml xs ++ docHtml ys) := by
  have key : ∀ (k : Nat) (s : Str), 0 < k → TextLines s (as ++ List.replicate k [] ++ l :: bs) →
      toHtml false o s = .ok (docHtml xs ++ docHtml ys) := by
    intro k s hk hs
    have := C57_document ho (n := 0) (.join (n := k) ha hb hx h0 (by simpa [hk] using hf)) (by simpa using hs)
    rw [this, docHtml, List.flatMap_append]; rfl
  exact ⟨key n s hn hs, key m s' hm hs'⟩

theorem pieceHtml_text {b t : Str} : pieceHtml b (.text t) = escapeXml t := rfl

/-- A line of ordinary text. -/
theorem textHtml_line {o : HtmlOpts} {t : Str} (h1 : t ≠ []) (h2 : ∀ c ∈ t, Ordinary c) : TextHtml o t (escapeXml t) := by
  refine ⟨true, [.text t], ?_, by simp, ?_⟩
  · have := Reads.plain (op := true) (b := []) (t := []) h1 h2 (by simp) .nil
    simpa using this
  · rw [List.flatMap_singleton]
    exact pieceHtml_text.symm

theorem escapeXml_last {t : Str} (h : t.getLast? ≠ some '\n') : (escapeXml t).getLast? ≠ some '\n' := by
  cases hl : t.getLast? with
  | none => rw [List.getLast?_eq_none_iff.1 hl]; decide
  | some d =>
    rw [hl] at h
    obtain ⟨r, rfl⟩ := List.getLast?_eq_some_iff.1 hl
    rw [escapeXml_eq_flatMap, List.flatMap_append, List.flatMap_singleton, List.getLast?_append_of_ne_nil]
    · unfold replaceUnsafeChar
      repeat' split
      all_goals first | decide | simpa using h
    · unfold replaceUnsafeChar
      repeat' split
      all_goals simp [lit]

theorem escapeXml_ne {t : Str} (h : t ≠ []) : escapeXml t ≠ [] := by
  cases t with
  | nil => exact absurd rfl h
  | cons c t =>
    rw [escapeXml_eq_flatMap, List.flatMap_cons]
    have : replaceUnsafeChar c ≠ [] := by
      unfold replaceUnsafeChar
      repeat' split
      all_goals simp [lit]
    simp [this]

/-- A line of ordinary text that is a paragraph. -/
structure PlainLine (t : Str) : Prop where
  para : ParaText t []
  ordinary : ∀ c ∈ t, Ordinary c
  noTab : '\t' ∉ t

theorem PlainLine.doc {o : HtmlOpts} {t : Str} (h : PlainLine t) : Doc o.safe (TextHtml o) [t] [⟨.para, escapeXml t⟩] false := by
  have hne := startsNoBlock_ne h.para.first
  refine .para h.para (textHtml_line hne h.ordinary) (escapeXml_ne hne) (escapeXml_last fun hl => ?_)
  exact absurd (h.para.ends t '\n' rfl hl) (by decide)

/-- The item of a bullet list with one line of text. -/
def bulletItem (k : Nat) (t : Str) : Spec.Item :=
  ⟨k, 0, "-".toList, none, 1, [t], ["- ".toList ++ t], [⟨.para, escapeXml t⟩], false⟩

theorem bullets_doc {o : HtmlOpts} {t : Str} {more : List (Nat × Str)}
    (h : ∀ x ∈ t :: more.map (·.2), PlainLine x ∧ ¬ ThematicBreak ("- ".toList ++ x)) :
    Doc o.safe (TextHtml o) (("- ".toList ++ t) :: more.flatMap fun x => List.replicate x.1 [] ++ ["- ".toList ++ x.2])
      [⟨.list .bullet (some '-') none, listHtml .bullet (bulletItem 0 t) (more.map fun x => bulletItem x.1 x.2)⟩] false := by
  have hmem : ∀ it ∈ bulletItem 0 t :: more.map (fun x => bulletItem x.1 x.2), ∃ k x, it = bulletItem k x ∧ x ∈ t :: more.map (·.2) := by
    intro it hit
    rcases List.mem_cons.1 hit with rfl | hit
    · exact ⟨0, t, rfl, by simp⟩
    · obtain ⟨x, hx, rfl⟩ := List.mem_map.1 hit
      exact ⟨_, _, rfl, List.mem_cons_of_mem _ (List.mem_map.2 ⟨x, hx, rfl⟩)⟩
  have hd := Doc.list (safe := o.safe) (I := TextHtml o) (ty := .bullet) (b := some '-') (dl := none) (first := bulletItem 0 t)
    (more := more.map fun x => bulletItem x.1 x.2)
    (by intro it hit; obtain ⟨k, x, rfl, hx⟩ := hmem it hit; exact (h x hx).1.doc)
    (by
      intro it hit
      obtain ⟨k, x, rfl, hx⟩ := hmem it hit
      obtain ⟨c, r, hc, h1, -⟩ := (h x hx).1.para.first.first
      refine ⟨?_, ⟨c, r, [], [], by simp [bulletItem, hc], by simp [bulletItem, hc], ?_, ?_, ?_, ?_, .nil⟩, ?_, ?_⟩
      · exact .bullet (.inl rfl)
      · rintro rfl; exact h1 (by decide)
      · rintro rfl; exact h1 (by decide)
      · rw [← hc]; exact .inl (h x hx).1.noTab
      · rw [← hc]; exact (h x hx).2
      · simp [bulletItem]
      · simp [bulletItem])
    (by
      clear h hmem
      generalize hk : 0 = k
      clear hk
      induction more generalizing k t with
      | nil => trivial
      | cons x more ih => exact ⟨by simp [bulletItem, Item.width], ih _⟩)
  have e : (bulletItem 0 t).lines ++ moreLines (more.map fun x => bulletItem x.1 x.2) =
      ("- ".toList ++ t) :: more.flatMap fun x => List.replicate x.1 [] ++ ["- ".toList ++ x.2] := by
    simp [bulletItem, moreLines, List.flatMap_map]
  rw [← e]
  exact hd

theorem bullets_loose {t : Str} : ∀ more : List (Nat × Str),
    loose (bulletItem 0 t) (more.map fun x => bulletItem x.1 x.2) = !more.all (·.1 == 0) := by
  intro more
  rw [loose]
  have : (bulletItem 0 t :: more.map fun x => bulletItem x.1 x.2).any (·.gap) = false := by
    simp [bulletItem]
  rw [this, Bool.false_or]
  clear this
  induction more with
  | nil => rfl
  | cons x more ih =>
    simp only [List.map_cons, List.any_cons, List.all_cons, Bool.not_and, ih]
    congr 1
    simp [bulletItem, Nat.pos_iff_ne_zero]
    rfl

theorem bullet_html (b : Bool) (k : Nat) (x : Str) : itemHtml b (bulletItem k x).blocks =
    if b then "<li>".toList ++ escapeXml x ++ "</li>\n".toList else "<li>\n<p>".toList ++ escapeXml x ++ "</p>\n</li>\n".toList := by
  unfold itemHtml
  split
  · simp [bulletItem, tightHtml]
  · simp [bulletItem, docHtml, Blk.out]

/-- C57.  Lines of text with `- ` before each are a bullet list.  The list is tight, with only the text in the items, if no
empty lines are between them, and loose, with paragraphs, otherwise.  (`x.1`: the number of empty lines before an item.) -/
theorem C57_bullets {o : HtmlOpts} (ho : o.sourcepos = false) {s t : Str} {more : List (Nat × Str)}
    (h : ∀ x ∈ t :: more.map (·.2), PlainLine x ∧ ¬ ThematicBreak ("- ".toList ++ x))
    (hs : TextLines s (("- ".toList ++ t) :: more.flatMap fun x => List.replicate x.1 [] ++ ["- ".toList ++ x.2])) :
    toHtml false o s = .ok ("<ul>\n".toList ++ (t :: more.map (·.2)).flatMap (fun x =>
      if more.all (·.1 == 0) then "<li>".toList ++ escapeXml x ++ "</li>\n".toList
      else "<li>\n<p>".toList ++ escapeXml x ++ "</p>\n</li>\n".toList) ++ "</ul>\n".toList) := by
  rw [C57_document ho (bullets_doc h) (n := 0) (by rw [List.replicate_zero, List.append_nil]; exact hs)]
  congr 1
  rw [docHtml, List.flatMap_singleton, Blk.out, listHtml, bullets_loose, Bool.not_not, List.flatMap_cons, List.flatMap_cons, List.flatMap_map,
    List.flatMap_map, bullet_html]
  simp only [bullet_html]
  have e1 : listTag .bullet (bulletItem 0 t).start ++ "\n".toList = "<ul>\n".toList := rfl
  have e2 : listEnd .bullet ++ "\n".toList = "</ul>\n".toList := rfl
  rw [List.append_assoc _ (listEnd .bullet), e1, e2]

/-! ### Examples -/

theorem plainLine_letter {t r : Str} {c : Char} (h : t = c :: r) (hc : c ∉ asciiPunctuation) (h1 : isPySpace c = false) (h2 : isPyDigit c = false)
    (h0 : Char.ofNat 0 ∉ t) (he : ∀ c, t.getLast? = some c → isPySpace c = false) (ho : ∀ c ∈ t, Ordinary c) (ht : '\t' ∉ t) : PlainLine t :=
  ⟨paraText_letter h hc h1 h2 h0 [] (by simp) (by
    intro m c hm hc
    simp only [List.getLast?_singleton, Option.some.injEq] at hm
    subst hm; exact he c hc), ho, ht⟩

theorem notThematic {l : Str} {c : Char} (hc : c ∈ l) (hn : c ∉ "*_- \t".toList) : ¬ ThematicBreak l := by
  rintro ⟨d, hd, -, hl, -⟩
  rcases hl c hc with rfl | rfl | rfl
  · rcases hd with rfl | rfl | rfl <;> exact hn (by decide)
  · exact hn (by decide)
  · exact hn (by decide)

theorem noSetext {l : Str} (h1 : l.head? ≠ some '=') (h2 : l.head? ≠ some '-') : ¬ ∃ c, SetextUnderline c l := by
  rintro ⟨c, hc, n, r, hn, rfl, -⟩
  obtain ⟨m, rfl⟩ : ∃ m, n = m + 1 := ⟨n - 1, by omega⟩
  rcases hc with rfl | rfl
  · exact h1 rfl
  · exact h2 rfl

theorem noNumber {c d : Char} {r : Str} {b : Option Char} (h : isPyDigit c = false) (h1 : c ≠ d) : ¬ SameItem .ordered b (some d) (c :: r) := by
  rintro ⟨num, e, q, he, hl, hn, -⟩
  cases num with
  | nil =>
    cases he
    cases hl
    exact h1 rfl
  | cons x num =>
    cases hl
    rw [hn c (by simp)] at h
    cases h

/-- A loose list. -/
example : toHtml false {} "- one\n- two\n\n\n- three\n".toList =
    .ok "<ul>\n<li>\n<p>one</p>\n</li>\n<li>\n<p>two</p>\n</li>\n<li>\n<p>three</p>\n</li>\n</ul>\n".toList := by
  refine (C57_bullets rfl (t := "one".toList) (more := [(0, "two".toList), (2, "three".toList)]) ?_ ((textLines_iff _ _).2 (by decide))).trans (by decide +kernel)
  intro x hx
  simp only [List.map_cons, List.map_nil, List.mem_cons, List.not_mem_nil, or_false] at hx
  rcases hx with rfl | rfl | rfl
  · exact ⟨plainLine_letter rfl (by decide) (by decide) (by decide +kernel) (by decide) (by decide +kernel) (by unfold Ordinary; decide +kernel) (by decide),
      notThematic (c := 'o') (by decide) (by decide)⟩
  · exact ⟨plainLine_letter rfl (by decide) (by decide) (by decide +kernel) (by decide) (by decide +kernel) (by unfold Ordinary; decide +kernel) (by decide),
      notThematic (c := 'o') (by decide) (by decide)⟩
  · exact ⟨plainLine_letter rfl (by decide) (by decide) (by decide +kernel) (by decide) (by decide +kernel) (by unfold Ordinary; decide +kernel) (by decide),
      notThematic (c := 'h') (by decide) (by decide)⟩

/-- A line with one word. -/
theorem wordDoc {t r : Str} {c : Char} (h : t = c :: r) (hc : c ∉ asciiPunctuation) (h1 : isPySpace c = false) (h2 : isPyDigit c = false)
    (h0 : Char.ofNat 0 ∉ t) (he : ∀ c, t.getLast? = some c → isPySpace c = false) (ho : ∀ c ∈ t, Ordinary c) (ht : '\t' ∉ t) :
    Doc false (TextHtml {}) [t] [⟨.para, escapeXml t⟩] false :=
  (plainLine_letter h hc h1 h2 h0 he ho ht).doc (o := {})

/-- A document with a heading, a paragraph, a quote and a list with another list in it, which ends with a thematic break. -/
example : toHtml false {} "# Notes\nText\n> quoted\n1. one\n\n   - inner\n     more\n2. two\n***\n\n".toList =
    .ok ("<h1>Notes</h1>\n<p>Text</p>\n<blockquote>\n<p>quoted</p>\n</blockquote>\n<ol>\n<li>\n<p>one</p>\n".toList ++
      "<ul>\n<li>inner\nmore</li>\n</ul>\n</li>\n<li>\n<p>two</p>\n</li>\n</ol>\n<hr />\n".toList) := by
  have d1 : Doc false (TextHtml {}) ["# Notes".toList] _ false :=
    Doc.heading (n := 1) (t := "Notes".toList) (by decide) (by decide) (by decide) ⟨'N', rfl, by decide⟩ ⟨'s', rfl, by decide⟩ (not_closing (c := 's') rfl (by decide))
      (textHtml_line (by decide) (by unfold Ordinary; decide +kernel))
  have d2 := wordDoc (t := "Text".toList) rfl (by decide) (by decide) (by decide +kernel) (by decide) (by decide +kernel) (by unfold Ordinary; decide +kernel) (by decide)
  have d3 := Doc.quote (qs := ["> quoted".toList]) (wordDoc (t := "quoted".toList) rfl (by decide) (by decide) (by decide +kernel) (by decide) (by decide +kernel) (by unfold Ordinary; decide +kernel) (by decide))
    (.cons (pre := "> ".toList) (l := "quoted".toList) ⟨0, by decide, .inl rfl⟩ (.inl (by decide)) .nil)
  have p4 : Doc false (TextHtml {}) ["inner".toList, "more".toList] [⟨.para, "inner\nmore".toList⟩] false := by
    refine .para ?_ ⟨true, _, reads_lines (op := true) ["more".toList] "inner".toList [] ?_, ?_, ?_⟩ (by decide) (by decide)
    · refine paraText_letter rfl (by decide) (by decide) (by decide +kernel) (by decide) _ ?_ ?_
      · intro l hl
        rw [List.mem_singleton] at hl
        exact startsNoBlock_letter hl (by decide) (by decide) (by decide +kernel) (by subst hl; decide)
      · intro m c hm hc
        simp only [List.getLast?_cons_cons, List.getLast?_singleton, Option.some.injEq] at hm
        subst hm; revert hc; revert c; decide +kernel
    · unfold Ordinary; decide +kernel
    · simp
    · decide +kernel
  have d4 := Doc.list (safe := false) (I := TextHtml {}) (ty := .bullet) (b := some '-') (dl := none) (more := [])
    (first := ⟨0, 0, "-".toList, none, 1, ["inner".toList, "more".toList], ["- inner".toList, "  more".toList], [⟨.para, "inner\nmore".toList⟩], false⟩)
    (by simpa using p4)
    (by
      intro it hit
      rw [List.mem_singleton] at hit
      subst hit
      exact ⟨.bullet (.inl rfl), ⟨'i', "nner".toList, ["more".toList], ["  more".toList], rfl, rfl, by decide, by decide, .inl (by decide),
        notThematic (c := 'n') (by decide) (by decide), .text ⟨'m', by decide, by decide⟩ (.inl (by decide)) .nil⟩, by decide, by decide⟩)
    trivial
  have d5 := Doc.join (n := 1) (wordDoc (t := "one".toList) rfl (by decide) (by decide) (by decide +kernel) (by decide) (by decide +kernel) (by unfold Ordinary; decide +kernel) (by decide))
    d4 rfl (by decide) (.inl rfl)
  have d6 := wordDoc (t := "two".toList) rfl (by decide) (by decide) (by decide +kernel) (by decide) (by decide +kernel) (by unfold Ordinary; decide +kernel) (by decide)
  have d7 := Doc.list (safe := false) (I := TextHtml {}) (ty := .ordered) (b := none) (dl := some '.')
    (first := ⟨0, 0, "1.".toList, some 1, 1, ["one".toList, [], "- inner".toList, "  more".toList],
      ["1. one".toList, [], "   - inner".toList, "     more".toList], _, _⟩)
    (more := [⟨0, 0, "2.".toList, some 2, 1, ["two".toList], ["2. two".toList], _, _⟩])
    (by
      intro it hit
      simp only [List.mem_cons, List.not_mem_nil, or_false] at hit
      rcases hit with rfl | rfl
      · exact d5
      · exact d6)
    (by
      intro it hit
      simp only [List.mem_cons, List.not_mem_nil, or_false] at hit
      rcases hit with rfl | rfl
      · exact ⟨.ordered (ds := "1".toList) (d := '.') (by decide) (by decide) (by decide) (.inl rfl), ⟨'o', "ne".toList, _, _, rfl, rfl, by decide, by decide,
          .inl (by decide), notThematic (c := 'n') (by decide) (by decide),
          .blank (k := 0) (.text (l := "- inner".toList) ⟨'i', by decide, by decide⟩ (.inl (by decide))
            (.text (l := "  more".toList) ⟨'m', by decide, by decide⟩ (.inl (by decide)) .nil))⟩, by decide, by decide⟩
      · exact ⟨.ordered (ds := "2".toList) (d := '.') (by decide) (by decide) (by decide) (.inl rfl), ⟨'t', "wo".toList, [], [], rfl, rfl, by decide, by decide,
          .inl (by decide), notThematic (c := 'w') (by decide) (by decide), .nil⟩, by decide, by decide⟩)
    ⟨by decide, trivial⟩
  have d8 : Doc false (TextHtml {}) ["***".toList] _ false := .rule (l := "***".toList) ⟨'*', by decide, rfl, by decide, by decide⟩
  have d9 := Doc.join (n := 0) (Doc.join (n := 0) (Doc.join (n := 0) (Doc.join (n := 0) d1 d2 rfl (by decide) trivial) d3 rfl (by decide)
    (.inr ⟨.quote, noSetext (by decide) (by decide)⟩)) d7 rfl (by decide) (.inr ⟨.one (.inl rfl) (k := 1) (x := 'o') (by decide) (by unfold SpaceChar; decide), by decide⟩))
    d8 rfl (by decide) ⟨⟨'*', _, rfl, by decide, by decide⟩, noNumber (by decide +kernel) (by decide), .inr (.rule ⟨'*', by decide, rfl, by decide, by decide⟩)⟩
  refine (C57_document rfl d9 (n := 1) ((textLines_iff _ _).2 (by decide))).trans ?_
  decide +kernel

theorem htmlStart_of {i : Nat} {l : Str} (hl : '\n' ∉ l) (h : htmlBlockType .document l = some i) : HtmlStart i l :=
  ((htmlBlockType_iff hl).1 h).1

theorem notCloses {c d : Char} {n : Nat} {l : Str} (h : d ∈ l) (h1 : d ≠ c) (h2 : d ≠ ' ') : ¬ ClosesFence c n l := by
  rintro ⟨k, m, r, -, -, rfl⟩
  simp only [List.mem_append, List.mem_replicate] at h
  rcases h with h | h | h
  · exact h2 h.2
  · exact h1 h.2
  · exact h2 h.2

/-- A setext heading, a comment of three lines with an empty one, fenced code with a language, and a `div` that ends with the document. -/
example : toHtml false {} "Title\n===\n<!-- a\n\n b -->\n``` py x\n1 < 2\n```\n<div>\n*a*\n".toList =
    .ok ("<h1>Title</h1>\n<!-- a\n\n b -->\n<pre><code class=\"language-py\">1 &lt; 2\n</code></pre>\n".toList ++ "<div>\n*a*\n".toList) := by
  have d1 : Doc false (TextHtml {}) ("Title".toList :: ([] ++ ["===".toList])) _ false :=
    Doc.setext (c := '=') (plainLine_letter (t := "Title".toList) rfl (by decide) (by decide) (by decide +kernel) (by decide) (by decide +kernel) (by unfold Ordinary; decide +kernel) (by decide)).para
      ⟨.inl rfl, 3, [], by decide, rfl, fun _ h => by cases h⟩ (textHtml_line (by decide) (by unfold Ordinary; decide +kernel))
  have d2 : Doc false (TextHtml {}) (["<!-- a".toList, []] ++ [" b -->".toList]) _ false :=
    Doc.html (i := 2) (first := "<!-- a".toList) rfl (htmlStart_of (by decide) (by decide +kernel))
      (by
        intro l hl
        rw [← htmlEnd_iff (by decide) (by decide)]
        revert l; decide +kernel)
      ⟨" b ".toList, [], rfl⟩ (by decide)
  have d3 : Doc false (TextHtml {}) ("``` py x".toList :: (["1 < 2".toList] ++ ["```".toList])) _ false :=
    Doc.fenced (c := '`') (f := 3) (info := " py x".toList) ⟨by decide, rfl, by decide, .inl ⟨rfl, by decide⟩⟩
      (.lang (k := 1) (w := "py".toList) (r := " x".toList) (by decide) (by decide) (by decide) (by decide))
      (by
        intro l hl
        rw [List.mem_singleton] at hl
        exact notCloses (d := '<') (by subst hl; decide) (by decide) (by decide)) ⟨0, 3, 0, by decide, by decide, rfl⟩
  have d4 : Doc false (TextHtml {}) ["<div>".toList, "*a*".toList] _ false :=
    Doc.tag (i := 6) (htmlStart_of (by decide) (by decide +kernel)) (.inl rfl)
      (by intro l hl; rw [List.mem_singleton] at hl; exact ⟨'a', by subst hl; decide, by decide, by decide⟩) (by decide)
  have d9 := Doc.join (n := 0) (Doc.join (n := 0) (Doc.join (n := 0) d1 d2 rfl (by decide) trivial) d3 rfl (by decide) trivial) d4 rfl (by decide) trivial
  refine (C57_document rfl d9 (n := 0) ((textLines_iff _ _).2 (by decide))).trans ?_
  decide +kernel

end CM
