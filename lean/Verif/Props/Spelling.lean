import Verif.Props.Tabs
/-
C69: different ways to write the same line.
-/
namespace CM
open Spec

/-- C69: a line can be written in another way: other white space that ends at the same column, another thematic break, or the same heading with other
white space around the title and another closing sequence.  Whatever text follows, the blocks are the same (columns not compared). -/
theorem C69_line (smart : Bool) (s s' : Str) (as bs : List Str) (l l' : Str) (hs : TextLines s (as ++ l :: bs)) (hs' : TextLines s' (as ++ l' :: bs))
    (h : AlikeFor smart as l l') (d : NodeData) (xs : List Tree) (hd : parse smart s = .ok (.node d xs)) :
    ∃ d' ys, parse smart s' = .ok (.node d' ys) ∧ noColsL ys = noColsL xs :=
  (alike_swap hs hs' h).blocks hd

/-- C69: and the HTML is the same, or both fail. -/
theorem C69_line_html (smart : Bool) (o : HtmlOpts) (ho : o.sourcepos = false) (s s' : Str) (as bs : List Str) (l l' : Str)
    (hs : TextLines s (as ++ l :: bs)) (hs' : TextLines s' (as ++ l' :: bs)) (h : AlikeFor smart as l l') : toHtml smart o s' = toHtml smart o s :=
  (alike_swap hs hs' h).html ho

/-- C69: the same for two texts that differ in any number of lines in this way. -/
theorem C69_document (smart : Bool) (s s' : Str) (as as' : List Str) (hs : TextLines s as) (hs' : TextLines s' as') (h : AlikeTexts smart as as')
    (d : NodeData) (xs : List Tree) (hd : parse smart s = .ok (.node d xs)) : ∃ d' ys, parse smart s' = .ok (.node d' ys) ∧ noColsL ys = noColsL xs :=
  (tab_texts (bs := []) h (by rwa [List.append_nil]) (by rwa [List.append_nil])).blocks hd

/-- C69: and the HTML is the same, or both fail. -/
theorem C69_document_html (smart : Bool) (o : HtmlOpts) (ho : o.sourcepos = false) (s s' : Str) (as as' : List Str) (hs : TextLines s as)
    (hs' : TextLines s' as') (h : AlikeTexts smart as as') : toHtml smart o s' = toHtml smart o s :=
  (tab_texts (bs := []) h (by rwa [List.append_nil]) (by rwa [List.append_nil])).html ho

/-! ### Examples -/

/-- The two texts of the example. -/
abbrev spellOne : List Str := ["# a".toList, [], "***".toList, "b".toList, "> ## c".toList, [], "- - -".toList, "1. * # d".toList]
abbrev spellTwo : List Str := ["#\t a ####".toList, [], "_ _\t_ _".toList, "b".toList, "> ##  c #".toList, [], "***".toList, "1. * #   d ##  ".toList]

theorem alikeFor_of {smart : Bool} {o : Place} {as : List Str} {l l' sa : Str} (h : AlikeLines o l l') (ha : TextLines sa (as ++ [l]))
    (hb : o ≠ .begins) (hl : o = .clear → ∀ k, as.getLast? = some k → OnlySpTab k) {k : Kind} (hk : k ≠ .codeBlock ∧ k ≠ .htmlBlock)
    (hc : (parse smart sa).toOption.map (fun t => lastKind 9 t) = some (some k)) : AlikeFor smart as l l' := by
  cases ht : parse smart sa with
  | error => rw [ht] at hc; cases hc
  | ok t =>
    rw [ht] at hc
    simp only [Except.toOption, Option.map_some, Option.some.injEq] at hc
    exact ⟨o, sa, t, h, ha, ht, fun h => hk.1 (lastKind_of h hc), fun h => hk.2 (lastKind_of h hc), fun h => absurd h hb, hl⟩

theorem rule_of {l : Str} (c : Char) (h : (c = '*' ∨ c = '_' ∨ c = '-') ∧ l.head? = some c ∧ (∀ x ∈ l, x = c ∨ x = ' ' ∨ x = '\t') ∧ 3 ≤ l.count c) :
    ThematicBreak l := ⟨c, h⟩

theorem not_rule {l : Str} (x : Char) (hx : x ∈ l) (h : x ≠ '*' ∧ x ≠ '_' ∧ x ≠ '-' ∧ x ≠ ' ' ∧ x ≠ '\t') : ¬ ThematicBreak l := by
  rintro ⟨c, hc, _, h2, _⟩
  rcases h2 x hx with rfl | e | e
  · rcases hc with e | e | e
    · exact h.1 e
    · exact h.2.1 e
    · exact h.2.2.1 e
  · exact h.2.2.2.1 e
  · exact h.2.2.2.2 e

theorem not_underline {l : Str} {c x : Char} (hl : l.head? = some c) (h : c ≠ '=' ∧ c ≠ '-') : ¬ SetextUnderline x l := by
  rintro ⟨hx, n, r, h1, rfl, _⟩
  cases n with
  | zero => omega
  | succ n =>
    cases hl
    rcases hx with e | e
    · exact h.1 e
    · exact h.2 e

/-- Two texts with the same blocks: another closing sequence, other thematic breaks, other white space before the title. -/
example : AlikeTexts false spellOne spellTwo ∧ TextLines "# a\n\n***\nb\n> ## c\n\n- - -\n1. * # d".toList spellOne ∧
    TextLines "#\t a ####\n\n_ _\t_ _\nb\n> ##  c #\n\n***\n1. * #   d ##  ".toList spellTwo ∧
    (toHtml false {} "# a\n\n***\nb\n> ## c\n\n- - -\n1. * # d".toList).toOption =
      some ("<h1>a</h1>\n<hr />\n<p>b</p>\n<blockquote>\n<h2>c</h2>\n</blockquote>\n<hr />\n".toList ++
        "<ol>\n<li>\n<ul>\n<li>\n<h1>d</h1>\n</li>\n</ul>\n</li>\n</ol>\n".toList) := by
  refine ⟨?_, (textLines_iff _ _).2 (by decide), (textLines_iff _ _).2 (by decide), by decide +kernel⟩
  have w0 : OnlySpTab [] := nofun
  have w1 : OnlySpTab [' '] := by simp [OnlySpTab]
  have w2 : OnlySpTab [' ', ' '] := by simp [OnlySpTab]
  have w3 : OnlySpTab [' ', ' ', ' '] := by simp [OnlySpTab]
  have wt : OnlySpTab ['\t', ' '] := by simp [OnlySpTab]
  refine .snoc (as := spellOne.take 7) (as' := spellTwo.take 7) (.snoc (as := spellOne.take 6) (as' := spellTwo.take 6)
    (.snoc (as := spellOne.take 5) (as' := spellTwo.take 5) (.snoc (as := spellOne.take 4) (as' := spellTwo.take 4)
    (.snoc (as := spellOne.take 3) (as' := spellTwo.take 3) (.snoc (as := spellOne.take 2) (as' := spellTwo.take 2)
    (.snoc (as := spellOne.take 1) (as' := spellTwo.take 1) (.snoc (as := []) (as' := []) .nil (.inr ?_)) (.inl rfl)) (.inr ?_)) (.inl rfl)) (.inr ?_)) (.inl rfl))
    (.inr ?_)) (.inr ?_)
  · refine alikeFor_of (o := .any) (sa := "# a".toList) ?_ ((textLines_iff _ _).2 (by decide)) (by decide) (by simp) (k := .heading) (by decide) (by decide +kernel)
    exact ⟨[], [], _, _, rfl, rfl, w0, w0, rfl, .inr (by decide), .heading (n := 1) (x := ['a']) (by decide) (by decide)
      (.plain (v := [' ']) w1 (by simp) rfl (by decide) (by decide) rfl (by decide) (by decide) (by decide))
      (.closed (v := ['\t', ' ']) (u := [' ']) (k := 4) (w := []) wt (by simp) rfl (by decide) (by decide) rfl (by decide) (by decide) (by decide) w1 (by simp)
        (by decide) w0)⟩
  · refine alikeFor_of (o := .any) (sa := "# a\n\n***".toList) ?_ ((textLines_iff _ _).2 (by decide)) (by decide) (by simp) (k := .thematicBreak) (by decide)
      (by decide +kernel)
    refine ⟨[], [], _, _, rfl, rfl, w0, w0, rfl, .inr (by decide), .rule (rule_of '*' (by decide)) (rule_of '_' (by decide)) (.inr fun x => ⟨not_underline (c := '*') rfl (by decide),
      not_underline (c := '_') rfl (by decide)⟩)⟩
  · refine alikeFor_of (o := .any) (sa := "# a\n\n***\nb\n> ## c".toList) ?_ ((textLines_iff _ _).2 (by decide)) (by decide) (by simp) (k := .heading) (by decide)
      (by decide +kernel)
    exact ⟨[], [], _, _, rfl, rfl, w0, w0, rfl, .inr (by decide), .quote (v := [' ']) (v' := [' ']) (y := "## c".toList) (y' := "##  c #".toList) w1 w1 rfl
      (.inr (by decide)) (.heading (n := 2) (x := ['c']) (by decide) (by decide)
        (.plain (v := [' ']) w1 (by simp) rfl (by decide) (by decide) rfl (by decide) (by decide) (by decide))
        (.closed (v := [' ', ' ']) (u := [' ']) (k := 1) (w := []) w2 (by simp) rfl (by decide) (by decide) rfl (by decide) (by decide) (by decide) w1 (by simp)
          (by decide) w0))⟩
  · refine alikeFor_of (o := .clear) (sa := "# a\n\n***\nb\n> ## c\n\n- - -".toList) ?_ ((textLines_iff _ _).2 (by decide)) (by decide) (by
      intro _ k hk; cases hk; exact w0) (k := .thematicBreak) (by decide) (by decide +kernel)
    exact ⟨[], [], _, _, rfl, rfl, w0, w0, rfl, .inr (by decide), .rule (rule_of '-' (by decide)) (rule_of '*' (by decide)) (.inl rfl)⟩
  · refine alikeFor_of (o := .any) (sa := "# a\n\n***\nb\n> ## c\n\n- - -\n1. * # d".toList) ?_ ((textLines_iff _ _).2 (by decide)) (by decide) (by simp)
      (k := .heading) (by decide) (by decide +kernel)
    exact ⟨[], [], _, _, rfl, rfl, w0, w0, rfl, .inr (by decide),
      .item (m := ['1', '.']) (v := [' ']) (v' := [' ']) (y := "* # d".toList) (y' := "* #   d ##  ".toList)
        (.ordered (ds := ['1']) (n := 1) (d := '.') (by decide) (by decide) (by decide) (.inl rfl)) (.inr (by simp [FirstMark])) w1 w1 (by simp) rfl (.inr (by decide))
        ⟨'d', by decide, by decide, by decide⟩
        (.item (m := ['*']) (v := [' ']) (v' := [' ']) (y := "# d".toList) (y' := "#   d ##  ".toList) (.bullet (.inr (.inr rfl))) (.inl (by decide)) w1 w1 (by simp) rfl
          (.inr (by decide)) ⟨'d', by decide, by decide, by decide⟩
          (.heading (n := 1) (x := ['d']) (by decide) (by decide)
            (.plain (v := [' ']) w1 (by simp) rfl (by decide) (by decide) rfl (by decide) (by decide) (by decide))
            (.closed (v := [' ', ' ', ' ']) (u := [' ']) (k := 2) (w := [' ', ' ']) w3 (by simp) rfl (by decide) (by decide) rfl (by decide) (by decide) (by decide) w1
              (by simp) (by decide) w2))
          (.inr ⟨not_rule 'd' (by decide) (by decide), not_rule 'd' (by decide) (by decide)⟩))
        (.inr ⟨not_rule 'd' (by decide) (by decide), not_rule 'd' (by decide) (by decide)⟩)⟩

/-- A thematic break that is also an underline makes a heading of a paragraph.  After a line with reference definitions only, it makes an empty paragraph. -/
example : (toHtml false {} "a\n---".toList).toOption = some "<h2>a</h2>\n".toList ∧
    (toHtml false {} "a\n***".toList).toOption = some "<p>a</p>\n<hr />\n".toList ∧
    (toHtml false {} "[a]: b\n---".toList).toOption = some "<p></p>\n<hr />\n".toList ∧
    (toHtml false {} "[a]: b\n***".toList).toOption = some "<hr />\n".toList := by
  refine ⟨?_, ?_, ?_, ?_⟩ <;> decide +kernel

end CM
