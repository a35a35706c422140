import Verif.Proofs.TabsLine
import Verif.Props.Blank
/-
C67: tabs stand for spaces.
-/
namespace CM
open Spec

theorem alike_swap {smart : Bool} {s s' : Str} {as bs : List Str} {l l' : Str} (hs : TextLines s (as ++ l :: bs)) (hs' : TextLines s' (as ++ l' :: bs))
    (h : AlikeFor smart as l l') : SameBlocks smart s s' := by
  obtain ⟨free, sa, t, hl, ha, ht, h1, h2, h3, h4⟩ := h
  exact tab_swap ha hs hs' ht h1 h2 hl h3 h4 (fun h => (textLines_oneLine hs l (by simp) _ h).1 rfl) (fun h => (textLines_oneLine hs' l' (by simp) _ h).1 rfl)

theorem SameBlocks.html {smart : Bool} {o : HtmlOpts} (ho : o.sourcepos = false) {s s' : Str} (h : SameBlocks smart s s') :
    toHtml smart o s' = toHtml smart o s := by
  rcases h with ⟨e, h, h'⟩ | ⟨d1, d', xs, ys, h, h', k, k', h3⟩
  · unfold toHtml; rw [h, h']
  · exact html_of_bare ho h h' k k' (noCols_bare h3.symm)

theorem SameBlocks.blocks {smart : Bool} {s s' : Str} (h : SameBlocks smart s s') {d : NodeData} {xs : List Tree} (hd : parse smart s = .ok (.node d xs)) :
    ∃ d' ys, parse smart s' = .ok (.node d' ys) ∧ noColsL ys = noColsL xs := by
  rcases h with ⟨e, h, _⟩ | ⟨d1, d', xs1, ys, h, h', _, _, h3⟩
  · rw [hd] at h; cases h
  · rw [hd] at h; cases h
    exact ⟨d', ys, h', h3.symm⟩

/-- C67: if the white space at the beginning of a line, or after the markers of block quotes and list items with which it begins, is written with other spaces
and tabs that end at the same column, the blocks are the same (columns not compared), whatever text follows. -/
theorem C67_tabs (smart : Bool) (s s' : Str) (as bs : List Str) (l l' : Str) (hs : TextLines s (as ++ l :: bs)) (hs' : TextLines s' (as ++ l' :: bs))
    (h : TabsFor smart as l l') (d : NodeData) (xs : List Tree) (hd : parse smart s = .ok (.node d xs)) :
    ∃ d' ys, parse smart s' = .ok (.node d' ys) ∧ noColsL ys = noColsL xs :=
  (alike_swap hs hs' (tabsFor_alike h)).blocks hd

/-- C67: and the HTML is the same, or both fail. -/
theorem C67_tabs_html (smart : Bool) (o : HtmlOpts) (ho : o.sourcepos = false) (s s' : Str) (as bs : List Str) (l l' : Str)
    (hs : TextLines s (as ++ l :: bs)) (hs' : TextLines s' (as ++ l' :: bs)) (h : TabsFor smart as l l') : toHtml smart o s' = toHtml smart o s :=
  (alike_swap hs hs' (tabsFor_alike h)).html ho

/-- C67: the same for two texts that differ in any number of lines in this way. -/
theorem C67_document (smart : Bool) (s s' : Str) (as as' : List Str) (hs : TextLines s as) (hs' : TextLines s' as') (h : TabTexts smart as as')
    (d : NodeData) (xs : List Tree) (hd : parse smart s = .ok (.node d xs)) : ∃ d' ys, parse smart s' = .ok (.node d' ys) ∧ noColsL ys = noColsL xs :=
  (tab_texts (bs := []) (tabTexts_alike h) (by rwa [List.append_nil]) (by rwa [List.append_nil])).blocks hd

/-- C67: and the HTML is the same, or both fail. -/
theorem C67_document_html (smart : Bool) (o : HtmlOpts) (ho : o.sourcepos = false) (s s' : Str) (as as' : List Str) (hs : TextLines s as)
    (hs' : TextLines s' as') (h : TabTexts smart as as') : toHtml smart o s' = toHtml smart o s :=
  (tab_texts (bs := []) (tabTexts_alike h) (by rwa [List.append_nil]) (by rwa [List.append_nil])).html ho

mutual
/-- Does a block begin in line `n`? -/
def beginsT (n : Nat) : Tree → Bool
  | .node d cs => (decide (d.t ∈ blockKinds ∧ d.t ≠ .document) && d.sourcepos.map (·.1.1) == some n) || beginsL n cs
def beginsL (n : Nat) : List Tree → Bool
  | [] => false
  | t :: ts => beginsT n t || beginsL n ts
end

mutual
theorem beginsT_of {n : Nat} : ∀ {t : Tree}, beginsT n t = true → BeginsIn n t
  | .node d cs => by
    intro h ha
    rw [beginsT, Bool.or_eq_true, Bool.and_eq_true] at h
    rcases h with ⟨h1, h2⟩ | h
    · cases hs : d.sourcepos with
      | none => rw [hs] at h2; cases h2
      | some z =>
        obtain ⟨⟨a, b⟩, e⟩ := z
        rw [hs] at h2
        obtain rfl : a = n := by simpa using h2
        exact ha.1 (of_decide_eq_true h1) b e hs
    · exact beginsL_of h ha.2
theorem beginsL_of {n : Nat} : ∀ {ts : List Tree}, beginsL n ts = true →
    ¬ EveryNodeList (fun d _ => d.t ∈ blockKinds ∧ d.t ≠ .document → ∀ c e, d.sourcepos ≠ some ((n, c), e)) ts
  | [] => fun h => by cases h
  | t :: ts => by
    intro h ha
    rw [beginsL, Bool.or_eq_true] at h
    rcases h with h | h
    · exact beginsT_of h ha.1
    · exact beginsL_of h ha.2
end

theorem tabsFor_of {smart free : Bool} {as : List Str} {l l' sa : Str} (h : TabLines free l l') (ha : TextLines sa (as ++ [l]))
    (hc : (parse smart sa).toOption.map (fun t => (lastKind 9 t, beginsT (as.length + 1) t)) = some (some .paragraph, true)) : TabsFor smart as l l' := by
  cases ht : parse smart sa with
  | error => rw [ht] at hc; cases hc
  | ok t =>
    rw [ht] at hc
    simp only [Except.toOption, Option.map_some, Option.some.injEq, Prod.mk.injEq] at hc
    exact ⟨free, sa, t, h, ha, ht, fun hk => absurd (lastKind_of hk hc.1) (by decide), fun hk => absurd (lastKind_of hk hc.1) (by decide),
      fun _ => beginsT_of hc.2⟩

/-- The tab after the second marker stands for two spaces, the tab before the third one for four. -/
example : TabTexts false ["1. a".toList, "2.\tb".toList, "\t- c".toList, ">\t-\td".toList] ["1. a".toList, "2.  b".toList, "    - c".toList, ">   -   d".toList] ∧
    TextLines "1. a\n2.\tb\n\t- c\n>\t-\td".toList ["1. a".toList, "2.\tb".toList, "\t- c".toList, ">\t-\td".toList] ∧
    (toHtml false {} "1. a\n2.\tb\n\t- c\n>\t-\td".toList).toOption =
      some ("<ol>\n<li>a</li>\n<li>b\n<ul>\n<li>c</li>\n</ul>\n</li>\n</ol>\n".toList ++
        "<blockquote>\n<ul>\n<li>d</li>\n</ul>\n</blockquote>\n".toList) := by
  have w2 : OnlySpTab [' ', ' '] := by simp [OnlySpTab]
  have w3 : OnlySpTab [' ', ' ', ' '] := by simp [OnlySpTab]
  have w4 : OnlySpTab [' ', ' ', ' ', ' '] := by simp [OnlySpTab]
  have wt : OnlySpTab ['\t'] := by simp [OnlySpTab]
  have w0 : OnlySpTab [] := nofun
  refine ⟨?_, (textLines_iff _ _).2 (by decide), by decide +kernel⟩
  refine .snoc (as := ["1. a".toList, "2.\tb".toList, "\t- c".toList]) (as' := ["1. a".toList, "2.  b".toList, "    - c".toList])
    (.snoc (as := ["1. a".toList, "2.\tb".toList]) (as' := ["1. a".toList, "2.  b".toList])
      (.snoc (as := ["1. a".toList]) (as' := ["1. a".toList]) (.snoc (as := []) (as' := []) .nil (.inl rfl)) (.inr ?_)) (.inr ?_)) (.inr ?_)
  · refine tabsFor_of (free := true) (sa := "1. a\n2.\tb".toList) ?_ ((textLines_iff _ _).2 (by decide)) (by decide +kernel)
    exact ⟨[], [], _, _, rfl, rfl, w0, w0, rfl, .inr (by decide),
      .item (m := ['2', '.']) (v := ['\t']) (v' := [' ', ' ']) (y := ['b']) (y' := ['b']) (.ordered (ds := ['2']) (n := 2) (d := '.') (by decide) (by decide) (by decide)
        (.inl rfl)) (.inl rfl) wt w2 (by simp) (by decide) (.inl rfl) ⟨'b', by decide, by decide, by decide⟩ .same⟩
  · refine tabsFor_of (free := false) (sa := "1. a\n2.\tb\n\t- c".toList) ?_ ((textLines_iff _ _).2 (by decide)) (by decide +kernel)
    exact ⟨['\t'], [' ', ' ', ' ', ' '], "- c".toList, "- c".toList, rfl, rfl, wt, w4, by decide, .inl rfl, .same⟩
  · refine tabsFor_of (free := false) (sa := "1. a\n2.\tb\n\t- c\n>\t-\td".toList) ?_ ((textLines_iff _ _).2 (by decide)) (by decide +kernel)
    exact ⟨[], [], _, _, rfl, rfl, w0, w0, rfl, .inr (by decide),
      .quote (v := ['\t']) (v' := [' ', ' ', ' ']) (y := "-\td".toList) (y' := "-   d".toList) wt w3 (by decide) (.inr (by decide))
        (.item (m := ['-']) (v := ['\t']) (v' := [' ', ' ', ' ']) (y := ['d']) (y' := ['d']) (.bullet (.inl rfl)) (.inr (by simp [FirstMark])) wt w3 (by simp)
          (by decide) (.inl rfl) ⟨'d', by decide, by decide, by decide⟩ .same)⟩

/-- In code and HTML blocks a tab is a tab; and so it is in text, where the marker begins no item. -/
example : (toHtml false {} "```\n\ta".toList).toOption ≠ (toHtml false {} "```\n    a".toList).toOption ∧
    (toHtml false {} "<!--\n\ta".toList).toOption ≠ (toHtml false {} "<!--\n    a".toList).toOption ∧
    (toHtml false {} "a\n2.\tb".toList).toOption = some "<p>a\n2.\tb</p>\n".toList ∧
    (toHtml false {} "a\n    -\tb".toList).toOption = some "<p>a\n-\tb</p>\n".toList := by
  refine ⟨?_, ?_, ?_, ?_⟩ <;> decide +kernel

end CM
