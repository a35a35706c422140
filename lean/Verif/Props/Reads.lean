import Verif.Proofs.ParaText
/-
Inline text of a paragraph: C25, C26, C27, C44, C49, C52.
-/
namespace CM
open Spec

/-- C52.  A text that reads as the pieces `ps` (see `Spec.Reads`), in lines that form a paragraph, is parsed into one
paragraph with these pieces, in order. -/
theorem C52_reads {s l0 : Str} {ls : List Str} {op : Bool} {ps : List Piece} (hs : TextLines s (l0 :: ls))
    (h : ParaText l0 ls) (hr : Reads op [] (joinLines (l0 :: ls)) ps) :
    ∃ d e, d.t = .document ∧ e.t = .paragraph ∧ parse false s = .ok (.node d [.node e (ps.map pieceTree)]) :=
  parse_reads hs h hr

/-- C52.  Its HTML is the HTML of the pieces in a `p` element. -/
theorem C52_html {o : HtmlOpts} (h1 : o.sourcepos = false) {s l0 : Str} {ls : List Str} {op : Bool} {ps : List Piece}
    (h2 : ∀ d l, .link d l ∈ ps → o.safe = false) (hs : TextLines s (l0 :: ls)) (h : ParaText l0 ls)
    (hr : Reads op [] (joinLines (l0 :: ls)) ps) :
    toHtml false o s = .ok ("<p>".toList ++ ps.flatMap (pieceHtml o.softbreak) ++ "</p>\n".toList) :=
  toHtml_reads h1 h2 hs h hr

/-- C25.  A line of text in which every ASCII punctuation character has a backslash before it is one paragraph with
exactly that text.  (U+0000 is read as U+FFFD.) -/
theorem C25_escaped_line {o : HtmlOpts} (h1 : o.sourcepos = false) {x : Str} (hx : x ≠ []) (hl : OneLine x)
    (hf : ∀ c, x.head? = some c → isPySpace c = false) (he : ∀ c, x.getLast? = some c → isPySpace c = false) :
    toHtml false o (backslashAll x) = .ok ("<p>".toList ++ escapeXml (noNul x) ++ "</p>\n".toList) := by
  have hone : ∀ y : Str, OneLine y → OneLine (backslashAll y) := by
    intro y hy c hc
    obtain ⟨a, ha, hm⟩ := List.mem_flatMap.1 hc
    split at hm
    · simp only [List.mem_cons, List.not_mem_nil, or_false] at hm
      rcases hm with rfl | rfl
      · decide
      · exact hy _ ha
    · simp only [List.mem_singleton] at hm
      subst hm; exact hy _ ha
  have hs : TextLines (backslashAll x) [backslashAll x] := .last (hone x hl)
  have e1 : toHtml false o (backslashAll x) = toHtml false o (noNul (backslashAll x)) := by
    simp only [toHtml, parse_noNul hs]
  rw [e1, noNul_backslashAll]
  have hl' := noNul_oneLine hl
  have hf' : ∀ c, (noNul x).head? = some c → isPySpace c = false := by
    intro c hc
    cases x with
    | nil => exact absurd rfl hx
    | cons a x =>
      simp only [noNul, List.map_cons, List.head?_cons, Option.some.injEq] at hc
      rw [← hc]; exact isPySpace_noNul (hf a rfl)
  have he' : ∀ c, (noNul x).getLast? = some c → isPySpace c = false := by
    intro c hc
    rw [noNul, List.getLast?_map] at hc
    cases hq : x.getLast? with
    | none => rw [hq] at hc; cases hc
    | some a =>
      rw [hq] at hc
      simp only [Option.map_some, Option.some.injEq] at hc
      rw [← hc]; exact isPySpace_noNul (he a hq)
  have h0 : Char.ofNat 0 ∉ noNul x := by
    intro h
    rcases List.mem_map.1 h with ⟨c, _, hc⟩
    split at hc
    · exact absurd hc (by decide)
    · contradiction
  have hx' : noNul x ≠ [] := by simpa [noNul] using hx
  generalize noNul x = y at hl' hf' he' h0 hx'
  cases y with
  | nil => exact absurd rfl hx'
  | cons c y =>
    obtain ⟨hst, d, r, hdr, hds, hdb⟩ := startsNoBlock_escaped (b := false) (hf' c rfl) h0
    have hp : ParaText (backslashAll (c :: y)) [] := by
      refine ⟨hst, by simp, ?_, ?_, ?_⟩
      · exact noDef_head (by rw [hdr]; simpa using hdb)
      · rw [hdr]; intro a ha
        simp only [List.head?_cons, Option.some.injEq] at ha
        rw [← ha]; exact hds
      · intro l a hl ha
        simp only [List.getLast?_singleton, Option.some.injEq] at hl
        subst hl
        rw [backslashAll_getLast] at ha
        exact he' a ha
    obtain ⟨ts, hr, ht⟩ := reads_escaped (op := true) _ (c :: y) [] (Nat.le_refl _) (fun c hc => (hl' c hc).1)
    rw [C52_html h1 ?_ (.last (hone _ hl')) hp hr, pieceHtml_texts, ht]
    intro d l h
    obtain ⟨t, _, ht⟩ := List.mem_map.1 h
    cases ht

/-- C25, in the document model: the paragraph holds only text, and together it is the original text. -/
theorem C25_escaped_nodes {c : Char} {x : Str} (hl : OneLine (c :: x)) (h0 : Char.ofNat 0 ∉ c :: x)
    (hf : isPySpace c = false) (he : ∀ e, (c :: x).getLast? = some e → isPySpace e = false) :
    ∃ d e, ∃ ts : List Str, d.t = .document ∧ e.t = .paragraph ∧ ts.flatten = c :: x ∧
      parse false (backslashAll (c :: x)) = .ok (.node d [.node e (ts.map fun t => pieceTree (.text t))]) := by
  have hone : OneLine (backslashAll (c :: x)) := by
    intro a hc
    obtain ⟨b, hb, hm⟩ := List.mem_flatMap.1 hc
    split at hm
    · simp only [List.mem_cons, List.not_mem_nil, or_false] at hm
      rcases hm with rfl | rfl
      · decide
      · exact hl _ hb
    · simp only [List.mem_singleton] at hm
      subst hm; exact hl _ hb
  obtain ⟨hst, d, r, hdr, hds, hdb⟩ := startsNoBlock_escaped (b := false) hf h0
  have hp : ParaText (backslashAll (c :: x)) [] := by
    refine ⟨hst, by simp, ?_, ?_, ?_⟩
    · exact noDef_head (by rw [hdr]; simpa using hdb)
    · rw [hdr]; intro a ha
      simp only [List.head?_cons, Option.some.injEq] at ha
      rw [← ha]; exact hds
    · intro l a hl ha
      simp only [List.getLast?_singleton, Option.some.injEq] at hl
      subst hl
      rw [backslashAll_getLast] at ha
      exact he a ha
  obtain ⟨ts, hr, ht⟩ := reads_escaped (op := true) _ (c :: x) [] (Nat.le_refl _) (fun c hc => (hl c hc).1)
  obtain ⟨d, e, hd, he, hq⟩ := C52_reads (.last hone) hp hr
  exact ⟨d, e, ts, hd, he, ht, by rw [hq, List.map_map]; rfl⟩

example : toHtml false {} (backslashAll "1. *a* <b> [c](d) & `e`".toList) =
    .ok "<p>1. *a* &lt;b&gt; [c](d) &amp; `e`</p>\n".toList := by
  rw [C25_escaped_line rfl (by decide) (by unfold OneLine; decide +kernel) (by decide +kernel) (by decide +kernel)]
  rfl

/-- C44.  Lines of ordinary characters, none of which starts a block, are one paragraph with that text, line for line. -/
theorem C44_plain_lines {o : HtmlOpts} (h1 : o.sourcepos = false) {s l0 : Str} {ls : List Str}
    (hs : TextLines s (l0 :: ls)) (h : ParaText l0 ls) (hc : ∀ l ∈ l0 :: ls, ∀ c ∈ l, Ordinary c)
    (he : ∀ l ∈ l0 :: ls, l.getLast? ≠ some ' ') :
    toHtml false o s = .ok ("<p>".toList ++ (escapeXml l0 ++ ls.flatMap fun l => o.softbreak ++ escapeXml l) ++
      "</p>\n".toList) := by
  have hr := reads_lines (op := true) ls l0 [] (fun l hl => by
    have hst : ∃ b, StartsNoBlock b l := by
      rcases List.mem_cons.1 hl with rfl | hl
      · exact ⟨_, h.first⟩
      · exact ⟨_, h.more l hl⟩
    obtain ⟨b, hst⟩ := hst
    refine ⟨startsNoBlock_ne hst, hc l hl, he l hl, ?_⟩
    obtain ⟨c, r, rfl, hsp, _⟩ := hst.first
    intro hh
    simp only [List.head?_cons, Option.some.injEq] at hh
    subst hh; exact hsp (by decide))
  rw [C52_html h1 ?_ hs h hr]
  · congr 3
    show escapeXml l0 ++ _ = _
    congr 1
    clear hr he hc h hs
    induction ls with
    | nil => rfl
    | cons l ls ih =>
      have ih' : (ls.flatMap fun l => [Piece.soft, Piece.text l]).flatMap (pieceHtml o.softbreak) =
        ls.flatMap fun l => o.softbreak ++ escapeXml l := ih
      show ((l :: ls).flatMap fun l => [Piece.soft, Piece.text l]).flatMap (pieceHtml o.softbreak) = _
      rw [List.flatMap_cons, List.flatMap_append, ih', List.flatMap_cons]
      show o.softbreak ++ (escapeXml l ++ []) ++ _ = _
      rw [List.append_nil]
      rfl
  · intro d l hm
    simp at hm

/-- C44.  A line without ASCII punctuation is passed through, whatever else it contains. -/
theorem C44_no_punctuation {o : HtmlOpts} (h1 : o.sourcepos = false) {x : Str} (hx : x ≠ []) (hl : OneLine x)
    (hp : ∀ c ∈ x, c ∉ asciiPunctuation)
    (hf : ∀ c, x.head? = some c → isPySpace c = false) (he : ∀ c, x.getLast? = some c → isPySpace c = false) :
    toHtml false o x = .ok ("<p>".toList ++ noNul x ++ "</p>\n".toList) := by
  have := C25_escaped_line h1 hx hl hf he
  rw [backslashAll_plain hp] at this
  rw [this]
  have : escapeXml (noNul x) = noNul x := by
    unfold escapeXml
    rw [if_neg]
    intro h
    obtain ⟨c, hc, hh⟩ := List.any_eq_true.1 h
    have hcp : c ∈ asciiPunctuation := by
      simp only [Bool.or_eq_true, beq_iff_eq] at hh
      rcases hh with ((rfl | rfl) | rfl) | rfl <;> decide
    rcases noNul_mem hc with hc | rfl
    · exact hp c hc hcp
    · exact absurd hcp (by decide)
  rw [this]

example : toHtml false {} "a (b) - c\nd = e.\n".toList = .ok "<p>a (b) - c\nd = e.</p>\n".toList := by
  have hs : TextLines "a (b) - c\nd = e.\n".toList ["a (b) - c".toList, "d = e.".toList] :=
    .lf (l := "a (b) - c".toList) (by unfold OneLine; decide +kernel) (by decide)
      (.lastLf (l := "d = e.".toList) (by unfold OneLine; decide +kernel))
  have hp : ParaText "a (b) - c".toList ["d = e.".toList] :=
    paraText_letter rfl (by decide) (by decide) (by decide +kernel) (by decide) _
      (by intro l hl; rw [List.mem_singleton] at hl; exact startsNoBlock_letter hl (by decide) (by decide) (by decide +kernel) (by subst hl; decide))
      (by intro m c hm hc; simp only [List.getLast?_cons_cons, List.getLast?_singleton, Option.some.injEq] at hm; subst hm
          revert hc; revert c; decide +kernel)
  rw [C44_plain_lines rfl hs hp (by unfold Ordinary; decide +kernel) (by decide +kernel)]
  rfl

example : toHtml false {} "été 2024 — 12 mai".toList = .ok "<p>été 2024 — 12 mai</p>\n".toList := by
  rw [C44_no_punctuation rfl (by decide) (by unfold OneLine; decide +kernel) (by decide +kernel) (by decide +kernel) (by decide +kernel)]
  rfl

/-- C27.  In a paragraph, `n` backticks, a text `x` without a run of `n` backticks, and `n` backticks make a code span
with the text of `x` (`CodeText`); the text after it is read on its own. -/
theorem C27_code_span {o : HtmlOpts} (h1 : o.sourcepos = false) {s l0 : Str} {ls : List Str} {op : Bool} {ps : List Piece}
    (h2 : ∀ d l, .link d l ∈ ps → o.safe = false) (hs : TextLines s (l0 :: ls)) (h : ParaText l0 ls)
    {n : Nat} {pre x y post : Str}
    (ht : joinLines (l0 :: ls) = pre ++ (List.replicate n '`' ++ (x ++ List.replicate n '`') ++ post))
    (hpre : ∀ c ∈ pre, Ordinary c) (hn : 1 ≤ n) (hx : x ≠ []) (hx1 : x.head? ≠ some '`') (hx2 : x.getLast? ≠ some '`')
    (hx3 : NoTicks n x) (hpost : post.head? ≠ some '`') (hy : CodeText x y)
    (hr : Reads op (pre ++ (List.replicate n '`' ++ (x ++ List.replicate n '`'))) post ps) :
    (∃ d e, d.t = .document ∧ e.t = .paragraph ∧
      parse false s = .ok (.node d [.node e ((textBefore pre ++ .code y :: ps).map pieceTree)])) ∧
    toHtml false o s = .ok ("<p>".toList ++ (escapeXml pre ++ ("<code>".toList ++ escapeXml y ++ "</code>".toList ++
      ps.flatMap (pieceHtml o.softbreak))) ++ "</p>\n".toList) := by
  refine para_before (c := '`') h1 (fun d l hm => h2 d l (by simpa using hm)) hs h ht hpre ?_ (fun h => h (by decide))
    (by decide) (Reads.code hn hx hx1 hx2 hx3 hpost hy hr)
  cases n with
  | zero => omega
  | succ n => rfl

/-- C27.  A run of `n` backticks that no later run of `n` backticks closes is literal. -/
theorem C27_unmatched {o : HtmlOpts} (h1 : o.sourcepos = false) {s l0 : Str} {ls : List Str} {op : Bool} {ps : List Piece}
    (h2 : ∀ d l, .link d l ∈ ps → o.safe = false) (hs : TextLines s (l0 :: ls)) (h : ParaText l0 ls)
    {n : Nat} {pre post : Str} (ht : joinLines (l0 :: ls) = pre ++ (List.replicate n '`' ++ post))
    (hpre : ∀ c ∈ pre, Ordinary c) (hn : 1 ≤ n) (hp1 : post.head? ≠ some '`') (hp2 : NoTicks n post)
    (hr : Reads op (pre ++ List.replicate n '`') post ps) :
    (∃ d e, d.t = .document ∧ e.t = .paragraph ∧ parse false s = .ok (.node d [.node e
      ((textBefore pre ++ .text (List.replicate n '`') :: ps).map pieceTree)])) ∧
    toHtml false o s = .ok ("<p>".toList ++ (escapeXml pre ++ (List.replicate n '`' ++
      ps.flatMap (pieceHtml o.softbreak))) ++ "</p>\n".toList) := by
  have := para_before (c := '`') h1 (fun d l hm => h2 d l (by simpa using hm)) hs h ht hpre (by
    cases n with
    | zero => omega
    | succ n => rfl) (fun h => h (by decide)) (by decide) (Reads.ticks hn hp1 hp2 hr)
  have he : escapeXml (List.replicate n '`') = List.replicate n '`' := by
    unfold escapeXml
    rw [if_neg]
    intro h
    obtain ⟨c, hc, hh⟩ := List.any_eq_true.1 h
    rw [List.eq_of_mem_replicate hc] at hh
    exact absurd hh (by decide)
  refine ⟨this.1, this.2.trans ?_⟩
  have e : (Piece.text (List.replicate n '`') :: ps).flatMap (pieceHtml o.softbreak) =
    escapeXml (List.replicate n '`') ++ ps.flatMap (pieceHtml o.softbreak) := rfl
  rw [e, he]

/-- A line that begins with a letter, for the examples. -/
theorem letterLine {l r : Str} {d : Char} (hl : l = d :: r) (hd : d ∉ asciiPunctuation)
    (hsp : isPySpace d = false) (hdig : isPyDigit d = false) (h0 : Char.ofNat 0 ∉ l) (h1 : OneLine l)
    (he : ∀ c, l.getLast? = some c → isPySpace c = false) : TextLines l [l] ∧ ParaText l [] :=
  ⟨.last h1, paraText_letter hl hd hsp hdig h0 [] (by simp) (by
    intro m c hm hc
    simp only [List.getLast?_singleton, Option.some.injEq] at hm
    subst hm; exact he c hc)⟩

example : toHtml false {} "a ``b ` *c* <d>`` e".toList =
    .ok "<p>a <code>b ` *c* &lt;d&gt;</code> e</p>\n".toList := by
  obtain ⟨hs, hp⟩ := letterLine (l := "a ``b ` *c* <d>`` e".toList) rfl (by decide) (by decide) (by decide +kernel)
    (by decide) (by unfold OneLine; decide +kernel) (by decide +kernel)
  refine (C27_code_span (op := true) (n := 2) (pre := "a ".toList) (x := "b ` *c* <d>".toList) (y := "b ` *c* <d>".toList)
    (post := " e".toList) rfl (by simp) hs hp rfl (by unfold Ordinary; decide +kernel) (by decide) (by decide) (by decide)
    (by decide) ?_ (by decide) (Or.inr ⟨rfl, ?_⟩)
    (.plain (m := " e".toList) (t := []) (by decide) (by unfold Ordinary; decide +kernel) (by simp) .nil)).2.trans rfl
  · rintro ⟨a, b, h, -, -⟩
    have hc : "b ` *c* <d>".toList.count '`' = 1 := by decide
    rw [h] at hc
    simp only [List.count_append, List.count_replicate_self] at hc
    omega
  · rintro ⟨z, h, -⟩
    have h' := congrArg List.head? h
    rw [List.head?_cons] at h'
    exact absurd h' (by decide)

example : toHtml false {} "a `b".toList = .ok "<p>a `b</p>\n".toList := by
  obtain ⟨hs, hp⟩ := letterLine (l := "a `b".toList) rfl (by decide) (by decide) (by decide +kernel)
    (by decide) (by unfold OneLine; decide +kernel) (by decide +kernel)
  refine (C27_unmatched (op := true) (n := 1) (pre := "a ".toList) (post := "b".toList) rfl (by simp) hs hp rfl
    (by unfold Ordinary; decide +kernel) (by decide) (by decide) ?_
    (.plain (m := "b".toList) (t := []) (by decide) (by unfold Ordinary; decide +kernel) (by simp) .nil)).2.trans rfl
  rintro ⟨a, b, h, -, -⟩
  have : '`' ∈ "b".toList := by rw [h]; simp
  exact absurd this (by decide)

/-- C49.  `<`, an absolute URI and `>` are a link to the normalised URI with the URI as text. -/
theorem C49_uri {o : HtmlOpts} (h1 : o.sourcepos = false) {s l0 : Str} {ls : List Str} {op : Bool} {ps : List Piece}
    (h2 : o.safe = false) (hs : TextLines s (l0 :: ls)) (h : ParaText l0 ls)
    {pre u post : Str} (ht : joinLines (l0 :: ls) = pre ++ ('<' :: (u ++ ['>']) ++ post))
    (hpre : ∀ c ∈ pre, Ordinary c) (hu : AbsoluteUri u) (hr : Reads op (pre ++ ('<' :: (u ++ ['>']))) post ps) :
    (∃ d e, d.t = .document ∧ e.t = .paragraph ∧
      parse false s = .ok (.node d [.node e ((textBefore pre ++ .link u u :: ps).map pieceTree)])) ∧
    toHtml false o s = .ok ("<p>".toList ++ (escapeXml pre ++ ("<a href=\"".toList ++ escapeXml (normalizeUri u) ++
      "\">".toList ++ escapeXml u ++ "</a>".toList ++ ps.flatMap (pieceHtml o.softbreak))) ++ "</p>\n".toList) :=
  para_before (c := '<') h1 (fun _ _ _ => h2) hs h ht hpre rfl (fun h => h (by decide)) (by decide) (Reads.uri hu hr)

/-- C49.  `<`, an e-mail address and `>` are a link to `mailto:` and the address. -/
theorem C49_email {o : HtmlOpts} (h1 : o.sourcepos = false) {s l0 : Str} {ls : List Str} {op : Bool} {ps : List Piece}
    (h2 : o.safe = false) (hs : TextLines s (l0 :: ls)) (h : ParaText l0 ls)
    {pre u post : Str} (ht : joinLines (l0 :: ls) = pre ++ ('<' :: (u ++ ['>']) ++ post))
    (hpre : ∀ c ∈ pre, Ordinary c) (hu : EmailAddress u) (hr : Reads op (pre ++ ('<' :: (u ++ ['>']))) post ps) :
    (∃ d e, d.t = .document ∧ e.t = .paragraph ∧
      parse false s = .ok (.node d [.node e ((textBefore pre ++ .link ("mailto:".toList ++ u) u :: ps).map pieceTree)])) ∧
    toHtml false o s = .ok ("<p>".toList ++ (escapeXml pre ++ ("<a href=\"".toList ++
      escapeXml (normalizeUri ("mailto:".toList ++ u)) ++
      "\">".toList ++ escapeXml u ++ "</a>".toList ++ ps.flatMap (pieceHtml o.softbreak))) ++ "</p>\n".toList) :=
  para_before (c := '<') h1 (fun _ _ _ => h2) hs h ht hpre rfl (fun h => h (by decide)) (by decide) (Reads.email hu hr)

example : toHtml false {} "see <http://a.b/?q=*x*&y>".toList =
    .ok "<p>see <a href=\"http://a.b/?q=*x*&amp;y\">http://a.b/?q=*x*&amp;y</a></p>\n".toList := by
  obtain ⟨hs, hp⟩ := letterLine (l := "see <http://a.b/?q=*x*&y>".toList) rfl (by decide) (by decide) (by decide +kernel)
    (by decide) (by unfold OneLine; decide +kernel) (by decide +kernel)
  refine (C49_uri (op := true) (pre := "see ".toList) (u := "http://a.b/?q=*x*&y".toList) (post := []) (ps := []) rfl rfl
    hs hp rfl (by unfold Ordinary; decide +kernel) ?_ .nil).2.trans (by decide +kernel)
  exact ⟨'h', "ttp".toList, "//a.b/?q=*x*&y".toList, rfl, by unfold AsciiLetter; decide, by decide, by decide,
    by unfold AsciiAlnum AsciiLetter; decide +kernel, by decide +kernel⟩

example : toHtml false {} "me <foo+x@b-c.d>".toList =
    .ok "<p>me <a href=\"mailto:foo+x@b-c.d\">foo+x@b-c.d</a></p>\n".toList := by
  obtain ⟨hs, hp⟩ := letterLine (l := "me <foo+x@b-c.d>".toList) rfl (by decide) (by decide) (by decide +kernel)
    (by decide) (by unfold OneLine; decide +kernel) (by decide +kernel)
  refine (C49_email (op := true) (pre := "me ".toList) (u := "foo+x@b-c.d".toList) (post := []) (ps := []) rfl rfl
    hs hp rfl (by unfold Ordinary; decide +kernel) ?_ .nil).2.trans (by decide +kernel)
  refine ⟨"foo+x".toList, "b-c.d".toList, rfl, by decide, by unfold AsciiAlnum AsciiLetter; decide +kernel, ?_⟩
  exact .dot (l := "b-c".toList) (d := "d".toList)
    ⟨by decide, by unfold AsciiAlnum AsciiLetter; decide +kernel, ⟨'b', rfl, by unfold AsciiAlnum AsciiLetter; decide⟩,
      ⟨'c', rfl, by unfold AsciiAlnum AsciiLetter; decide⟩⟩
    (.one ⟨by decide, by unfold AsciiAlnum AsciiLetter; decide +kernel, ⟨'d', rfl, by unfold AsciiAlnum AsciiLetter; decide⟩,
      ⟨'d', rfl, by unfold AsciiAlnum AsciiLetter; decide⟩⟩)

/-- C26.  In a paragraph, a reference is replaced with the text it stands for (`Decodes`).  Before a line ending the text
must not be empty or end with a space. -/
theorem C26_in_text_partial {o : HtmlOpts} (h1 : o.sourcepos = false) {s l0 : Str} {ls : List Str} {op : Bool} {ps : List Piece}
    (h2 : ∀ d l, .link d l ∈ ps → o.safe = false) (hs : TextLines s (l0 :: ls)) (h : ParaText l0 ls)
    {pre m x post : Str} (ht : joinLines (l0 :: ls) = pre ++ (m ++ post)) (hpre : ∀ c ∈ pre, Ordinary c) (hm : Decodes m x)
    (hx : post.head? = some '\n' → x ≠ [] ∧ x.getLast? ≠ some ' ') (hr : Reads op (pre ++ m) post ps) :
    (∃ d e, d.t = .document ∧ e.t = .paragraph ∧
      parse false s = .ok (.node d [.node e ((textBefore pre ++ .text x :: ps).map pieceTree)])) ∧
    toHtml false o s = .ok ("<p>".toList ++ (escapeXml pre ++ (escapeXml x ++ ps.flatMap (pieceHtml o.softbreak))) ++
      "</p>\n".toList) := by
  refine para_before (c := '&') h1 (fun d l hm => h2 d l (by simpa using hm)) hs h ht hpre ?_ (fun h => h (by decide))
    (by decide) (Reads.ref hm hx hr)
  have : ∀ n, NumericRef m n → (m ++ post).head? = some '&' := by
    intro n hn
    rcases hn with ⟨ds, rfl, _⟩ | ⟨c, ds, rfl, _⟩ <;> rfl
  cases hm with
  | char h => exact this _ h
  | bad h => exact this _ h
  | c1 h => exact this _ h
  | refused h => exact this _ h
  | known => rfl
  | unknown => rfl
  | shorter => rfl

example : toHtml false {} "x &#60;b&#62;".toList = .ok "<p>x &lt;b&gt;</p>\n".toList := by
  obtain ⟨hs, hp⟩ := letterLine (l := "x &#60;b&#62;".toList) rfl (by decide) (by decide) (by decide +kernel)
    (by decide) (by unfold OneLine; decide +kernel) (by decide +kernel)
  have d1 : Decodes "&#60;".toList "<".toList := .char (n := 60) (Or.inl ⟨"60".toList, rfl, by decide, by decide, by decide⟩)
    (by unfold NoCharacter; decide) (by unfold Refused; decide) (by intro v h; simp [windows1252] at h)
  have d2 : Decodes "&#62;".toList ">".toList := .char (n := 62) (Or.inl ⟨"62".toList, rfl, by decide, by decide, by decide⟩)
    (by unfold NoCharacter; decide) (by unfold Refused; decide) (by intro v h; simp [windows1252] at h)
  exact (C26_in_text_partial (op := true) (pre := "x ".toList) (m := "&#60;".toList) (post := "b&#62;".toList) rfl (by simp) hs hp
    rfl (by unfold Ordinary; decide +kernel) d1 (by decide)
    (.plain (m := "b".toList) (t := "&#62;".toList) (by decide) (by unfold Ordinary; decide +kernel) (by unfold Ordinary; decide +kernel)
      (.ref (m := "&#62;".toList) (t := []) d2 (by decide) .nil))).2.trans (by decide +kernel)

/-- A paragraph of two lines with a run of delimiters that is not closed, a hard line break, an autolink and brackets. -/
example : toHtml false {} "a *b  \nc <xx:y> [d]!".toList =
    .ok "<p>a *b<br />\nc <a href=\"xx:y\">xx:y</a> [d]!</p>\n".toList := by
  have hs : TextLines "a *b  \nc <xx:y> [d]!".toList ["a *b  ".toList, "c <xx:y> [d]!".toList] :=
    .lf (l := "a *b  ".toList) (by unfold OneLine; decide +kernel) (by decide)
      (.last (l := "c <xx:y> [d]!".toList) (by unfold OneLine; decide +kernel))
  have hp : ParaText "a *b  ".toList ["c <xx:y> [d]!".toList] :=
    paraText_letter rfl (by decide) (by decide) (by decide +kernel) (by decide) _
      (by intro l hl; rw [List.mem_singleton] at hl; exact startsNoBlock_letter hl (by decide) (by decide) (by decide +kernel) (by subst hl; decide))
      (by intro m c hm hc; simp only [List.getLast?_cons_cons, List.getLast?_singleton, Option.some.injEq] at hm; subst hm
          revert hc; revert c; decide +kernel)
  have ord : ∀ m : Str, (m.all fun c => decide (c ∉ "\n`[]\\!<&*_'\"".toList)) = true → ∀ c ∈ m, Ordinary c := by
    intro m h c hc; unfold Ordinary; exact of_decide_eq_true (List.all_eq_true.1 h c hc)
  have hr : Reads true [] "a *b  \nc <xx:y> [d]!".toList
      [.text "a ".toList, .text "*".toList, .text "b".toList, .hard, .text "c ".toList, .link "xx:y".toList "xx:y".toList,
        .text " ".toList, .text "[".toList, .text "d".toList, .text "]".toList, .text "!".toList] :=
    .plain (m := "a ".toList) (t := "*b  \nc <xx:y> [d]!".toList) (by decide) (ord _ (by decide +kernel)) (by unfold Ordinary; decide +kernel) <|
    .delims (n := 1) (c := '*') (t := "b  \nc <xx:y> [d]!".toList) (by decide) (by decide) (by decide)
      (by intro _ h; exact h.1.1 (show isPySpace ' ' = true by decide)) (by intro h; cases h) <|
    .lineEnd (m := "b".toList) (k := 2) (j := 0) (t := "c <xx:y> [d]!".toList) (Or.inl (by decide)) (ord _ (by decide +kernel)) (by decide) (by decide) <|
    .plain (m := "c ".toList) (t := "<xx:y> [d]!".toList) (by decide) (ord _ (by decide +kernel)) (by unfold Ordinary; decide +kernel) <|
    .uri (u := "xx:y".toList) (t := " [d]!".toList) ⟨'x', "x".toList, "y".toList, rfl, by unfold AsciiLetter; decide, by decide, by decide,
      by unfold AsciiAlnum AsciiLetter; decide +kernel, by decide +kernel⟩ <|
    .plain (m := " ".toList) (t := "[d]!".toList) (by decide) (ord _ (by decide +kernel)) (by unfold Ordinary; decide +kernel) <|
    .openB (t := "d]!".toList) <|
    .plain (m := "d".toList) (t := "]!".toList) (by decide) (ord _ (by decide +kernel)) (by unfold Ordinary; decide +kernel) <|
    .closeB (t := "!".toList) (by decide) <|
    .bang (t := []) (by decide) .nil
  exact (C52_html rfl (fun _ _ _ => rfl) hs hp hr).trans (by decide +kernel)

end CM
