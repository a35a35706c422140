import Verif.Proofs.Trailing
/-
C64: how many blank lines there are, and which spaces and tabs are in them.
-/
namespace CM
open Spec

mutual
theorem bareT_moved (n : Nat) : ∀ t : Tree, bareT (movedT n t) = bareT t
  | .node d cs => by have i := bareL_moved n cs; rw [movedT, bareT, bareT, i]; rfl
theorem bareL_moved (n : Nat) : ∀ ts : List Tree, bareL (movedL n ts) = bareL ts
  | [] => rfl
  | t :: ts => by
    have i1 := bareT_moved n t
    have i2 := bareL_moved n ts
    rw [movedL, bareL, bareL, i1, i2]
end

mutual
theorem bareT_pushed (k n : Nat) : ∀ t : Tree, bareT (pushedT k n t) = bareT t
  | .node d cs => by have i := bareL_pushed k n cs; rw [pushedT, bareT, bareT, i]; rfl
theorem bareL_pushed (k n : Nat) : ∀ ts : List Tree, bareL (pushedL k n ts) = bareL ts
  | [] => rfl
  | t :: ts => by
    have i1 := bareT_pushed k n t
    have i2 := bareL_pushed k n ts
    rw [pushedL, bareL, bareL, i1, i2]
end

theorem html_of_bare {smart : Bool} {o : HtmlOpts} (ho : o.sourcepos = false) {s s' : Str} {d d' : NodeData} {xs ys : List Tree}
    (h : parse smart s = .ok (.node d xs)) (h' : parse smart s' = .ok (.node d' ys)) (k : d.t = .document) (k' : d'.t = .document)
    (hb : bareL ys = bareL xs) : toHtml smart o s' = toHtml smart o s := by
  have t0 : tightOf (some d) = .ok false := by simp [tightOf, k]
  have t1 : tightOf (some d') = .ok false := by simp [tightOf, k']
  have e0 := eventsList_same (p := some d') (p' := some d) (g := none) (g' := none) rfl (t1.trans t0.symm) rfl (ts := ys) (ts' := xs) hb
  unfold toHtml
  rw [h, h']
  show renderHtml o _ = renderHtml o _
  unfold renderHtml
  rw [renderWith_document o d _ k, renderWith_document o d' _ k', runEvents_same ho e0]

/-- C64: after a text whose last block is no code block and no HTML block, it does not matter which spaces and tabs are in a blank line: the
blocks are the same (columns not compared), whatever text follows. -/
theorem C64_spaces (smart : Bool) (sa s s' : Str) (as bs : List Str) (l l' : Str) (t : Tree) (ha : TextLines sa as)
    (hs : TextLines s (as ++ l :: bs)) (hs' : TextLines s' (as ++ l' :: bs)) (ht : parse smart sa = .ok t) (h1 : ¬ LastKind .codeBlock t)
    (h2 : ¬ LastKind .htmlBlock t) (hl : OnlySpTab l) (hl' : OnlySpTab l') (d : NodeData) (xs : List Tree)
    (hd : parse smart s = .ok (.node d xs)) : ∃ d' ys, parse smart s' = .ok (.node d' ys) ∧ noColsL ys = noColsL xs := by
  rcases blank_swap ha hs hs' ht h1 h2 hl hl' with ⟨e, h, _⟩ | ⟨d1, d', xs1, ys, h, h', _, _, h3⟩
  · rw [hd] at h; cases h
  · rw [hd] at h; cases h
    exact ⟨d', ys, h', h3.symm⟩

/-- C64: and the HTML is the same, or both fail. -/
theorem C64_spaces_html (smart : Bool) (o : HtmlOpts) (ho : o.sourcepos = false) (sa s s' : Str) (as bs : List Str) (l l' : Str) (t : Tree)
    (ha : TextLines sa as) (hs : TextLines s (as ++ l :: bs)) (hs' : TextLines s' (as ++ l' :: bs)) (ht : parse smart sa = .ok t)
    (h1 : ¬ LastKind .codeBlock t) (h2 : ¬ LastKind .htmlBlock t) (hl : OnlySpTab l) (hl' : OnlySpTab l') :
    toHtml smart o s' = toHtml smart o s := by
  rcases blank_swap ha hs hs' ht h1 h2 hl hl' with ⟨e, h, h'⟩ | ⟨d1, d', xs, ys, h, h', k, k', h3⟩
  · unfold toHtml; rw [h, h']
  · exact html_of_bare ho h h' k k' (noCols_bare h3.symm)

/-- C64: after a text whose last block is no code block, no HTML block and no empty item, any number of blank lines is as good as one: what
follows is further down (columns not compared), and nothing else changes. -/
theorem C64_number (smart : Bool) (sa s s' : Str) (as bs ws : List Str) (l w : Str) (t : Tree) (ha : TextLines sa as)
    (hs : TextLines s (as ++ l :: bs)) (hs' : TextLines s' (as ++ (w :: ws) ++ bs)) (ht : parse smart sa = .ok t)
    (h1 : ¬ LastKind .codeBlock t) (h2 : ¬ LastKind .htmlBlock t) (h3 : ¬ LastKind .item t) (hl : OnlySpTab l)
    (hw : ∀ x ∈ w :: ws, OnlySpTab x) (d : NodeData) (xs : List Tree) (hd : parse smart s = .ok (.node d xs)) :
    ∃ d' ys, parse smart s' = .ok (.node d' ys) ∧ noColsL ys = noColsL (pushedL (as.length + 1) ws.length xs) := by
  rcases blank_more ha hs hs' ht h1 h2 h3 hl hw with ⟨e, h, _⟩ | ⟨d1, d', xs1, ys, h, h', _, _, h4⟩
  · rw [hd] at h; cases h
  · rw [hd] at h; cases h
    exact ⟨d', ys, h', h4.symm⟩

/-- C64: and the HTML is the same, or both fail. -/
theorem C64_number_html (smart : Bool) (o : HtmlOpts) (ho : o.sourcepos = false) (sa s s' : Str) (as bs ws : List Str) (l w : Str) (t : Tree)
    (ha : TextLines sa as) (hs : TextLines s (as ++ l :: bs)) (hs' : TextLines s' (as ++ (w :: ws) ++ bs)) (ht : parse smart sa = .ok t)
    (h1 : ¬ LastKind .codeBlock t) (h2 : ¬ LastKind .htmlBlock t) (h3 : ¬ LastKind .item t) (hl : OnlySpTab l)
    (hw : ∀ x ∈ w :: ws, OnlySpTab x) : toHtml smart o s' = toHtml smart o s := by
  rcases blank_more ha hs hs' ht h1 h2 h3 hl hw with ⟨e, h, h'⟩ | ⟨d1, d', xs, ys, h, h', k, k', h4⟩
  · unfold toHtml; rw [h, h']
  · exact html_of_bare ho h h' k k' ((noCols_bare h4.symm).trans (bareL_pushed _ _ _))

/-- C64: blank lines before a text move its blocks down (columns not compared), and nothing else changes. -/
theorem C64_leading (smart : Bool) (s s' : Str) (bs ws : List Str) (hs : TextLines s bs) (hs' : TextLines s' (ws ++ bs))
    (hw : ∀ x ∈ ws, OnlySpTab x) (d : NodeData) (xs : List Tree) (hd : parse smart s = .ok (.node d xs)) :
    ∃ d' ys, parse smart s' = .ok (.node d' ys) ∧ noColsL ys = noColsL (movedL ws.length xs) := by
  rcases blank_first hs hs' hw with ⟨e, h, _⟩ | ⟨d1, d', xs1, ys, h, h', _, _, h4⟩
  · rw [hd] at h; cases h
  · rw [hd] at h; cases h
    exact ⟨d', ys, h', h4⟩

/-- C64: and the HTML is the same, or both fail. -/
theorem C64_leading_html (smart : Bool) (o : HtmlOpts) (ho : o.sourcepos = false) (s s' : Str) (bs ws : List Str) (hs : TextLines s bs)
    (hs' : TextLines s' (ws ++ bs)) (hw : ∀ x ∈ ws, OnlySpTab x) : toHtml smart o s' = toHtml smart o s := by
  rcases blank_first hs hs' hw with ⟨e, h, h'⟩ | ⟨d1, d', xs, ys, h, h', k, k', h4⟩
  · unfold toHtml; rw [h, h']
  · exact html_of_bare ho h h' k k' ((noCols_bare h4).trans (bareL_moved _ _))

/-- C64: blank lines after a text whose last block is no code block and no HTML block change nothing but book-keeping (source positions and
marks of blank lines). -/
theorem C64_trailing (smart : Bool) (s s' : Str) (as ws : List Str) (d : NodeData) (xs : List Tree) (hs : TextLines s as)
    (hs' : TextLines s' (as ++ ws)) (ht : parse smart s = .ok (.node d xs)) (h1 : ¬ LastKind .codeBlock (.node d xs))
    (h2 : ¬ LastKind .htmlBlock (.node d xs)) (hw : ∀ x ∈ ws, OnlySpTab x) :
    ∃ d' ys, parse smart s' = .ok (.node d' ys) ∧ bareL ys = bareL xs := by
  obtain ⟨_, d', _, ys, e, h, _, _, hb⟩ := blank_last hs hs' ht h1 h2 hw
  cases e
  exact ⟨d', ys, h, hb⟩

/-- C64: and the HTML is the same. -/
theorem C64_trailing_html (smart : Bool) (o : HtmlOpts) (ho : o.sourcepos = false) (s s' : Str) (as ws : List Str) (t : Tree)
    (hs : TextLines s as) (hs' : TextLines s' (as ++ ws)) (ht : parse smart s = .ok t) (h1 : ¬ LastKind .codeBlock t)
    (h2 : ¬ LastKind .htmlBlock t) (hw : ∀ x ∈ ws, OnlySpTab x) : toHtml smart o s' = toHtml smart o s := by
  obtain ⟨d, d', xs, ys, rfl, h, k, k', hb⟩ := blank_last hs hs' ht h1 h2 hw
  exact html_of_bare ho ht h k k' hb

/-- The kind of the last block. -/
def lastKind : Nat → Tree → Option Kind
  | 0, _ => none
  | n + 1, .node d cs =>
    if d.t ∈ [Kind.document, .blockQuote, .list, .item] then
      match cs.getLast? with
      | none => some d.t
      | some t => lastKind n t
    else some d.t

theorem lastKind_of {k : Kind} {t : Tree} (h : LastKind k t) : ∀ {n : Nat} {k' : Kind}, lastKind n t = some k' → k' = k := by
  induction h with
  | @here d cs h1 h2 =>
    intro n k' h
    cases n with
    | zero => cases h
    | succ n =>
      rw [lastKind] at h
      rcases h2 with rfl | h2
      · split at h <;> exact (Option.some.inj h).symm.trans h1
      · rw [if_neg (h1 ▸ h2)] at h
        exact (Option.some.inj h).symm.trans h1
  | @inside d cs t h1 h2 _ ih =>
    intro n k' h
    cases n with
    | zero => cases h
    | succ n =>
      rw [lastKind, if_pos h1, h2] at h
      exact ih h

/-- A paragraph in an item in a block quote is the last block: the conditions are met.  The line that follows it is empty or has spaces and
tabs in it, or there are three of them: the item of the next line belongs to the same, now loose, list. -/
example : (∃ t, parse false "> - a\n> - b".toList = .ok t ∧ ¬ LastKind .codeBlock t ∧ ¬ LastKind .htmlBlock t ∧ ¬ LastKind .item t) ∧
    (∃ t, parse false "- a\n  - b".toList = .ok t ∧ ¬ LastKind .codeBlock t ∧ ¬ LastKind .htmlBlock t ∧ ¬ LastKind .item t) ∧
    (toHtml false {} "- a\n  - b\n\n- c".toList).toOption =
      some ("<ul>\n<li>\n<p>a</p>\n<ul>\n<li>b</li>\n</ul>\n</li>\n".toList ++ "<li>\n<p>c</p>\n</li>\n</ul>\n".toList) ∧
    (toHtml false {} "- a\n  - b\n \t\n\n   \n- c".toList).toOption = (toHtml false {} "- a\n  - b\n\n- c".toList).toOption ∧
    (toHtml false {} "\n \t\n> - a\n> - b".toList).toOption = (toHtml false {} "> - a\n> - b".toList).toOption ∧
    (toHtml false {} "- a\n  - b\n\n \n".toList).toOption = (toHtml false {} "- a\n  - b".toList).toOption ∧
    (toHtml false {} "- a\n  - b".toList).toOption = some "<ul>\n<li>a\n<ul>\n<li>b</li>\n</ul>\n</li>\n</ul>\n".toList := by
  refine ⟨?_, ?_, by decide +kernel, by decide +kernel, by decide +kernel, by decide +kernel, by decide +kernel⟩
  · have h : (parse false "> - a\n> - b".toList).toOption.bind (lastKind 9) = some .paragraph := by decide +kernel
    cases ht : parse false "> - a\n> - b".toList with
    | error => rw [ht] at h; cases h
    | ok t =>
      rw [ht] at h
      refine ⟨t, rfl, ?_, ?_, ?_⟩ <;> exact fun hk => absurd (lastKind_of hk h) (by decide)
  · have h : (parse false "- a\n  - b".toList).toOption.bind (lastKind 9) = some .paragraph := by decide +kernel
    cases ht : parse false "- a\n  - b".toList with
    | error => rw [ht] at h; cases h
    | ok t =>
      rw [ht] at h
      refine ⟨t, rfl, ?_, ?_, ?_⟩ <;> exact fun hk => absurd (lastKind_of hk h) (by decide)

/-- The last block must not be a code block or an HTML block: there the blank lines are text. -/
example : (toHtml false {} "```\n \na".toList).toOption ≠ (toHtml false {} "```\n\na".toList).toOption ∧
    (toHtml false {} "    a\n\n\n    b".toList).toOption ≠ (toHtml false {} "    a\n\n    b".toList).toOption ∧
    (toHtml false {} "```\n\n".toList).toOption ≠ (toHtml false {} "```".toList).toOption ∧
    (toHtml false {} "<!--\n\n\n-->".toList).toOption ≠ (toHtml false {} "<!--\n\n-->".toList).toOption := by
  refine ⟨?_, ?_, ?_, ?_⟩ <;> decide +kernel

/-- More than one blank line does matter if the last block is an empty item: such an item can start with one blank line only. -/
example : (toHtml false {} "- [a]: /u\n\n  b".toList).toOption = some "<ul>\n<li>b</li>\n</ul>\n".toList ∧
    (toHtml false {} "- [a]: /u\n\n\n  b".toList).toOption = some "<ul>\n<li></li>\n</ul>\n<p>b</p>\n".toList := by
  refine ⟨?_, ?_⟩ <;> decide +kernel

end CM
