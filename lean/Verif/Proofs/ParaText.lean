import Verif.Spec.ParaText
import Verif.Proofs.HtmlBlock
import Mathlib.Tactic.Tauto
/-
A text of plain lines is one paragraph.
-/
set_option linter.unusedVariables false
namespace CM
open Spec

/-! ### Lines of text -/

theorem none_of_not_isSome {α} {o : Option α} (h : ¬ o.isSome = true) : o = none := by
  cases o <;> simp_all

theorem textLine_of {inPara : Bool} {l : Str} (h : StartsNoBlock inPara l) (h1 : OneLine l) :
    TextLine (if inPara then .paragraph else .document) l := by
  have hnl : '\n' ∉ l := fun hc => (h1 _ hc).1 rfl
  refine ⟨h.noNul, ?_, h.quote, none_of_not_isSome fun hh => h.atx ((atx_iff hnl).1 hh),
    none_of_not_isSome fun hh => h.fence ((fence_iff hnl).1 hh), fun _ => (htmlBlockType_none hnl).2 fun i hi => ?_, ?_,
    none_of_not_isSome fun hh => h.thematic ((thematic_iff hnl).1 hh), ?_⟩
  · obtain ⟨c, r, rfl, hc, h11, h12⟩ := h.first
    refine ⟨c, r, rfl, ?_⟩
    cases hx : isNonSpace c with
    | true => rfl
    | false =>
      exfalso
      simp only [isNonSpace, Bool.not_eq_false', Bool.or_eq_true, beq_iff_eq, Bool.and_eq_true, decide_eq_true_eq] at hx
      rcases hx with rfl | ⟨ha, hb⟩
      · exact hc (by decide)
      · have hk : c.toNat = 9 ∨ c.toNat = 10 ∨ c.toNat = 13 := by omega
        have hcc : c = Char.ofNat c.toNat := (Char.ofNat_toNat c).symm
        apply hc
        rcases hk with hk | hk | hk <;> (rw [hcc, hk]; decide)
  · obtain ⟨h7, rfl⟩ := h.html i hi
    exact ⟨h7, rfl⟩
  · intro hk
    refine none_of_not_isSome fun hh => h.setext ?_ ((setext_iff hnl).1 hh)
    cases inPara
    · cases hk
    · rfl
  · have hk : (if inPara = true then Kind.paragraph else Kind.document) = .paragraph → inPara = true := by
      cases inPara
      · intro h; cases h
      · exact fun _ => rfl
    have hk' : inPara = true → (if inPara = true then Kind.paragraph else Kind.document) = .paragraph := by
      rintro rfl; rfl
    generalize (if inPara = true then Kind.paragraph else Kind.document) = k at hk hk' ⊢
    cases hm : listMarker k l with
    | none => exact Or.inl rfl
    | some q =>
      obtain ⟨m, ty, b, st, dl⟩ := q
      refine Or.inr ⟨m, ty, b, st, dl, rfl, ?_⟩
      intro hx
      obtain ⟨c, r, rfl, hc⟩ := h.first
      unfold listMarker at hm
      simp only at hm
      have tail : ∀ (a r : Str), ((peekAt (a ++ r) a.length).isNone || isSpTabOpt (peekAt (a ++ r) a.length)) = true →
          EndOrSpace r := by
        intro a r hh
        have : peekAt (a ++ r) a.length = r.head? := by
          unfold peekAt; rw [List.getElem?_append_right (Nat.le_refl _)]; simp [List.head?_eq_getElem?]
        rw [this] at hh
        cases r with
        | nil => exact Or.inl rfl
        | cons y r => simpa [EndOrSpace, isSpTabOpt, isSpTab] using hh
      split at hm
      · rename_i hb
        simp only [Option.some.injEq, Prod.mk.injEq] at hm
        obtain ⟨rfl, _⟩ := hm
        refine h.bullet ⟨c, r, rfl, ?_, tail [c] r hx⟩
        simp only [isBulletChar, Bool.or_eq_true, beq_iff_eq] at hb
        tauto
      · split at hm
        · cases hm
        · rename_i mm hmm
          split at hm
          · rename_i hone
            simp only [Option.some.injEq, Prod.mk.injEq] at hm
            obtain ⟨rfl, _⟩ := hm
            obtain ⟨ds, d, rfl, d1, d2, d3, d4⟩ := ordered_marker hmm
            obtain ⟨t, ht, -⟩ := Re.matchPrefix_den hmm
            rw [ht] at hx
            have := h.ordered ds ⟨d, t, by rw [ht]; simp, d1, d2, d3, d4, tail _ t hx⟩
            obtain ⟨hp, hne⟩ := this
            simp only [hk' hp, List.dropLast_concat] at hone
            exact hne (by simpa using hone)
          · cases hm

/-! ### The paragraph -/

theorem para_lines {d : NodeData} {cs : List Tree} {m : RefMap} {l : Nat} (hd : d.lastLineBlank = false) :
    ∀ (ls : List Str) {p : PState} {n k : Nat} {x : Str},
    AtPara p (paraNode l x) d cs m n k → (∀ ln ∈ ls, TextLine .paragraph ln) →
    ∃ p' k', ls.foldlM incorporateLine p = .ok p' ∧
      AtPara p' (paraNode l (x ++ ls.flatMap fun ln => ln ++ ['\n'])) d cs m (n + ls.length) k'
  | [], p, n, k, x, h, _ => ⟨p, k, rfl, by simpa using h⟩
  | ln :: ls, p, n, k, x, h, hl => by
    obtain ⟨p1, e1, h1⟩ := next_line h hd (hl ln (by simp))
    obtain ⟨p2, k2, e2, h2⟩ := para_lines hd ls h1 (fun a ha => hl a (by simp [ha]))
    refine ⟨p2, k2, ?_, ?_⟩
    · rw [List.foldlM_cons, e1]; exact e2
    · simp only [List.flatMap_cons, List.length_cons, List.append_assoc] at h2 ⊢
      rw [Nat.add_comm ls.length 1, ← Nat.add_assoc]
      exact h2

theorem lines_join : ∀ (l0 : Str) (ls : List Str),
    (l0 :: ls).flatMap (fun ln => ln ++ ['\n']) = joinLines (l0 :: ls) ++ ['\n']
  | l0, [] => by simp [joinLines]
  | l0, l1 :: ls => by
    rw [List.flatMap_cons, lines_join l1 ls]
    simp [joinLines]

theorem joinLines_head {l0 : Str} {ls : List Str} (h : l0 ≠ []) : (joinLines (l0 :: ls)).head? = l0.head? := by
  cases ls with
  | nil => rfl
  | cons l1 ls =>
    cases l0 with
    | nil => exact absurd rfl h
    | cons c r => rfl

theorem joinLines_last : ∀ {l0 : Str} {ls : List Str} {l : Str}, (l0 :: ls).getLast? = some l → l ≠ [] →
    (joinLines (l0 :: ls)).getLast? = l.getLast?
  | l0, [], l, h, _ => by
    simp only [List.getLast?_singleton, Option.some.injEq] at h; subst h; rfl
  | l0, l1 :: ls, l, h, hne => by
    have h' : (l1 :: ls).getLast? = some l := by simpa [List.getLast?_cons_cons] using h
    have ih := joinLines_last h' hne
    show (l0 ++ '\n' :: joinLines (l1 :: ls)).getLast? = _
    have hn : joinLines (l1 :: ls) ≠ [] := by
      intro e; rw [e] at ih
      have : l.getLast? = none := ih.symm
      exact hne (List.getLast?_eq_none_iff.1 this)
    rw [List.getLast?_append_of_ne_nil _ (by simp)]
    cases hj : joinLines (l1 :: ls) with
    | nil => exact absurd hj hn
    | cons a b => rw [List.getLast?_cons_cons, ← hj, ih]

theorem strip_text {x y : Str} (h1 : ∀ c, x.head? = some c → isPySpace c = false)
    (h2 : ∀ c, x.getLast? = some c → isPySpace c = false) (hy : ∀ c ∈ y, isPySpace c = true) (hx : x ≠ []) :
    strip (x ++ y) = x := by
  have : lstripBy isPySpace (x ++ y) = x ++ y := by
    cases x with
    | nil => exact absurd rfl hx
    | cons c x => simp [lstripBy, h1 c rfl]
  rw [strip, this, rstripBy_append hy h2]

theorem startsNoBlock_ne {b : Bool} {l : Str} (h : StartsNoBlock b l) : l ≠ [] := by
  obtain ⟨c, r, rfl, _⟩ := h.first; simp

theorem parse_para {smart : Bool} {s l0 : Str} {ls : List Str} (hs : TextLines s (l0 :: ls)) (h : ParaText l0 ls) :
    ∃ d e, d.t = .document ∧ e.t = .paragraph ∧ e.stringContent = some (joinLines (l0 :: ls) ++ ['\n']) ∧
      strip (joinLines (l0 :: ls) ++ ['\n']) = joinLines (l0 :: ls) ∧
      parse smart s = processInlines smart [] (.node d [.node e []]) := by
  have hone := textLines_oneLine hs
  have hne := startsNoBlock_ne h.first
  obtain ⟨p1, e1, a1⟩ := first_line atDoc_reset (textLine_of h.first (hone _ (by simp)))
  obtain ⟨p2, k2, e2, a2⟩ := para_lines rfl ls a1 (fun l hl => textLine_of (h.more l hl) (hone l (by simp [hl])))
  have hx : l0 ++ ['\n'] ++ ls.flatMap (fun ln => ln ++ ['\n']) = joinLines (l0 :: ls) ++ ['\n'] := by
    rw [← lines_join]; simp
  rw [hx] at a2
  have hline : 0 + 1 + ls.length = ls.length + 1 := by omega
  rw [hline] at a2
  have hhead := joinLines_head (ls := ls) hne
  have hjne : joinLines (l0 :: ls) ≠ [] := by
    intro e; rw [e] at hhead
    cases l0 with
    | nil => exact hne rfl
    | cons => cases hhead
  obtain ⟨p4, e4, b4, c4⟩ := end_para (fuel := 0) a2 (by
    rw [← hx]
    simpa using h.bracket (ls.flatMap fun ln => ln ++ ['\n']))
  refine ⟨_, paraDone 1 (ls.length + 1) k2 _, ?_, rfl, rfl, ?_, parse_run (p := p2) hs ?_ (by rw [a2.spine]) ?_ b4 c4⟩
  · rfl
  · refine strip_text ?_ ?_ (by decide) hjne
    · rw [hhead]; exact h.begins
    · cases hl : (l0 :: ls).getLast? with
      | none => simp at hl
      | some l =>
        have hl' : l ∈ l0 :: ls := List.mem_of_getLast? hl
        have : l ≠ [] := by
          rcases List.mem_cons.1 hl' with rfl | hl'
          · exact hne
          · exact startsNoBlock_ne (h.more l hl')
        rw [joinLines_last hl this]
        exact fun c => h.ends l c hl
  · rw [List.foldlM_cons, e1]; exact e2
  · simpa using e4

theorem parse_reads {s l0 : Str} {ls : List Str} {op : Bool} {ps : List Piece} (hs : TextLines s (l0 :: ls))
    (h : ParaText l0 ls) (hr : Reads op [] (joinLines (l0 :: ls)) ps) :
    ∃ d e, d.t = .document ∧ e.t = .paragraph ∧ parse false s = .ok (.node d [.node e (ps.map pieceTree)]) := by
  obtain ⟨d, e, hd, he, hc, hst, hp⟩ := parse_para (smart := false) hs h
  refine ⟨d, e, hd, he, ?_⟩
  have := parseInlines_reads hst hr
  rw [hp]
  simp [processInlines, processInlinesList, hd, he, hc, this, bind, Except.bind, pure, Except.pure]

/-! ### Rendering -/

theorem render_piece {o : HtmlOpts} (h1 : o.sourcepos = false) (p g : Option NodeData)
    (b lo : Str) (x : Piece) (h2 : ∀ d l, x = .link d l → o.safe = false) : ∃ lo', runEvents o ⟨b, lo, 0⟩ (events p g (pieceTree x)) =
      .ok ⟨b ++ pieceHtml o.softbreak x, lo', 0⟩ := by
  cases x with
  | text s =>
    refine ⟨escapeXml s, ?_⟩
    show _ = Except.ok (HState.mk (b ++ escapeXml s) _ _)
    simp only [pieceTree, events, isContainer, runEvents_cons, runEvents_nil, htmlEvent, HState.out, HState.lit,
      escapeXmlOpt, Except.bind, Bool.false_eq_true, if_false]
  | code s =>
    refine ⟨['>'], ?_⟩
    show _ = Except.ok (HState.mk (b ++ ("<code>".toList ++ escapeXml s ++ "</code>".toList)) _ _)
    simp only [pieceTree, events, isContainer, runEvents_cons, runEvents_nil, htmlEvent, HState.out, HState.lit,
      escapeXmlOpt, Except.bind, Bool.false_eq_true, if_false]
    simp [HState.tag, HState.tagText, lit]
  | soft =>
    refine ⟨o.softbreak, ?_⟩
    show _ = Except.ok (HState.mk (b ++ o.softbreak) _ _)
    simp only [pieceTree, events, isContainer, runEvents_cons, runEvents_nil, htmlEvent, HState.lit,
      Except.bind, Bool.false_eq_true, if_false]
  | hard =>
    refine ⟨['\n'], ?_⟩
    show _ = Except.ok (HState.mk (b ++ "<br />\n".toList) _ _)
    simp only [pieceTree, events, isContainer, runEvents_cons, runEvents_nil, htmlEvent,
      Except.bind, Bool.false_eq_true, if_false]
    simp [HState.tag, HState.tagText, HState.cr, HState.lit, lit]
  | link d l =>
    replace h2 := h2 d l rfl
    refine ⟨['>'], ?_⟩
    show _ = Except.ok (HState.mk (b ++ ("<a href=\"".toList ++ escapeXml (normalizeUri d) ++ "\">".toList ++ escapeXml l ++
      "</a>".toList)) _ _)
    simp only [pieceTree, events, eventsList, isContainer, runEvents_cons, runEvents_nil, htmlEvent, HState.out,
      HState.lit, escapeXmlOpt, Except.bind, Bool.false_eq_true, if_false, if_true, htmlLink, htmlAttrs, h1, h2,
      unsafeDest, truthy, bind, pure, Except.pure, List.append_nil, List.nil_append, List.cons_append]
    simp [HState.tag, HState.tagText, lit]

theorem render_pieces {o : HtmlOpts} (h1 : o.sourcepos = false) (p g : Option NodeData) :
    ∀ (ps : List Piece) (h2 : ∀ d l, .link d l ∈ ps → o.safe = false) (b lo : Str), ∃ lo', runEvents o ⟨b, lo, 0⟩ (eventsList p g (ps.map pieceTree)) =
      .ok ⟨b ++ ps.flatMap (pieceHtml o.softbreak), lo', 0⟩
  | [], _, b, lo => ⟨lo, by simp [eventsList, pure, Except.pure]⟩
  | x :: ps, h2, b, lo => by
    obtain ⟨l1, e1⟩ := render_piece h1 p g b lo x (fun d l h => h2 d l (by simp [h]))
    obtain ⟨l2, e2⟩ := render_pieces h1 p g ps (fun d l h => h2 d l (by simp [h])) (b ++ pieceHtml o.softbreak x) l1
    refine ⟨l2, ?_⟩
    rw [List.map_cons, eventsList, runEvents_append, e1]
    simp only [Except.bind, e2, List.flatMap_cons, List.append_assoc]

theorem render_para {o : HtmlOpts} (h1 : o.sourcepos = false) {d e : NodeData} (hd : d.t = .document)
    (he : e.t = .paragraph) (ps : List Piece) (h2 : ∀ d l, .link d l ∈ ps → o.safe = false) : renderHtml o (.node d [.node e (ps.map pieceTree)]) =
      .ok ("<p>".toList ++ ps.flatMap (pieceHtml o.softbreak) ++ "</p>\n".toList) := by
  unfold renderHtml
  rw [renderWith_document _ _ _ hd]
  obtain ⟨lo, hlo⟩ := render_pieces h1 (some e) (some d) ps h2 "<p>".toList ['>']
  have e1 : ∀ f, htmlEvent o ⟨[], ['\n'], 0⟩ ⟨true, e, some d, none, f⟩ = .ok ⟨"<p>".toList, ['>'], 0⟩ := by
    intro f
    simp [htmlEvent, he, htmlParagraph, HState.cr, HState.tag, HState.tagText, htmlAttrs, h1, lit, bind, Except.bind, pure, Except.pure]
  have e2 : ∀ f b, htmlEvent o ⟨b, lo, 0⟩ ⟨false, e, some d, none, f⟩ = .ok ⟨b ++ "</p>\n".toList, ['\n'], 0⟩ := by
    intro f b
    simp [htmlEvent, he, htmlParagraph, HState.cr, HState.tag, HState.tagText, htmlAttrs, h1, lit, HState.lit, bind, Except.bind, pure, Except.pure]
  simp only [eventsList, events, he, isContainer, List.append_nil, if_true, runEvents_cons, runEvents_append, e1, Except.bind, hlo, e2,
    runEvents_nil, bind, pure, Except.pure]

theorem toHtml_reads {o : HtmlOpts} (h1 : o.sourcepos = false) {s l0 : Str} {ls : List Str} {op : Bool}
    {ps : List Piece} (h2 : ∀ d l, .link d l ∈ ps → o.safe = false) (hs : TextLines s (l0 :: ls)) (h : ParaText l0 ls) (hr : Reads op [] (joinLines (l0 :: ls)) ps) :
    toHtml false o s = .ok ("<p>".toList ++ ps.flatMap (pieceHtml o.softbreak) ++ "</p>\n".toList) := by
  obtain ⟨d, e, hd, he, hp⟩ := parse_reads hs h hr
  simp only [toHtml, hp, bind, Except.bind]
  exact render_para h1 hd he ps h2

/-! ### U+0000 -/

theorem noNul_noNul (l : Str) : noNul (noNul l) = noNul l := by
  apply noNul_none
  intro h
  rcases List.mem_map.1 h with ⟨c, _, hc⟩
  split at hc
  · exact absurd hc (by decide)
  · contradiction

theorem incorporateLine_noNul (p : PState) (ln : Str) : incorporateLine p (noNul ln) = incorporateLine p ln := by
  have hlen : (noNul ln).length = ln.length := by simp [noNul]
  unfold incorporateLine
  simp only [replaceChar_nul, noNul_noNul, hlen]

theorem noNul_ends {s : Str} (h : s.head? ≠ some '\n') : (noNul s).head? ≠ some '\n' := by
  cases s with
  | nil => simp [noNul]
  | cons c s =>
    simp only [noNul, List.map_cons, List.head?_cons, ne_eq, Option.some.injEq] at h ⊢
    split
    · decide
    · exact h

theorem textLines_noNul {s : Str} {ls : List Str} (h : TextLines s ls) : TextLines (noNul s) (ls.map noNul) := by
  have ne : ∀ {r : Str}, r ≠ [] → noNul r ≠ [] := by intro r hr; simpa [noNul] using hr
  have cons : ∀ (c : Char) (r : Str), c ≠ Char.ofNat 0 → noNul (c :: r) = c :: noNul r := by
    intro c r hc; simp [noNul, hc]
  have c1 := fun r => cons '\n' r (by decide)
  have c2 := fun r => cons '\r' r (by decide)
  have c0 : noNul [] = [] := rfl
  induction h with
  | last h => exact .last (noNul_oneLine h)
  | lastLf h => rw [noNul_append, c1, c0]; exact .lastLf (noNul_oneLine h)
  | lastCrLf h => rw [noNul_append, c2, c1, c0]; exact .lastCrLf (noNul_oneLine h)
  | lf h hr _ ih => rw [noNul_append, c1]; exact .lf (noNul_oneLine h) (ne hr) ih
  | crlf h hr _ ih => rw [noNul_append, c2, c1]; exact .crlf (noNul_oneLine h) (ne hr) ih
  | cr h hr _ ih => rw [noNul_append, c2]; exact .cr (noNul_oneLine h) (noNul_ends hr) ih

theorem parse_noNul {smart : Bool} {s : Str} {ls : List Str} (h : TextLines s ls) : parse smart (noNul s) = parse smart s := by
  have fold : ∀ (ls : List Str) (p : PState), (ls.map noNul).foldlM incorporateLine p = ls.foldlM incorporateLine p := by
    intro ls
    induction ls with
    | nil => intro p; rfl
    | cons l ls ih => intro p; simp only [List.map_cons, List.foldlM_cons, incorporateLine_noNul, ih]
  simp only [parse, parseWith, blockPhase, inputLines_of h, inputLines_of (textLines_noNul h), fold, List.length_map]

/-! ### Forms of text -/

theorem not_punct_ordinary {c : Char} (h : c ∉ asciiPunctuation) (hn : c ≠ '\n') : Ordinary c := by
  intro hc
  have key : ∀ c ∈ "\n`[]\\!<&*_'\"".toList, c ∈ asciiPunctuation ∨ c = '\n' := by decide +kernel
  rcases key c hc with h' | h'
  · exact h h'
  · exact hn h'

theorem backslashAll_plain {m : Str} (h : ∀ c ∈ m, c ∉ asciiPunctuation) : backslashAll m = m := by
  induction m with
  | nil => rfl
  | cons c m ih =>
    have := ih (fun c hc => h c (by simp [hc]))
    simp only [backslashAll, List.flatMap_cons, if_neg (h c (by simp)), List.singleton_append] at this ⊢
    rw [this]

theorem backslashAll_append (a b : Str) : backslashAll (a ++ b) = backslashAll a ++ backslashAll b := by
  simp [backslashAll]

theorem reads_escaped {op : Bool} : ∀ (n : Nat) (x b : Str), x.length ≤ n → (∀ c ∈ x, c ≠ '\n') →
    ∃ ts : List Str, Reads op b (backslashAll x) (ts.map .text) ∧ ts.flatten = x
  | _, [], b, _, _ => ⟨[], .nil, rfl⟩
  | 0, c :: x, b, h, _ => by simp at h
  | n + 1, c :: x, b, h, hn => by
    by_cases hc : c ∈ asciiPunctuation
    · obtain ⟨ts, h1, h2⟩ := reads_escaped n x (b ++ ['\\', c]) (by simpa using h) (fun c hc => hn c (by simp [hc]))
      refine ⟨[c] :: ts, ?_, by simp [h2]⟩
      have : backslashAll (c :: x) = '\\' :: c :: backslashAll x := by
        simp only [backslashAll, List.flatMap_cons, if_pos hc]; rfl
      rw [this]
      exact .escape hc h1
    · let q : Char → Bool := fun c => decide (c ∉ asciiPunctuation)
      have hm : ∀ d ∈ (c :: x).takeWhile q, d ∉ asciiPunctuation := by
        intro d hd
        simpa [q] using List.mem_takeWhile_imp hd
      have hsplit := (List.takeWhile_append_dropWhile (p := q) (l := c :: x)).symm
      have hne : (c :: x).takeWhile q ≠ [] := by simp [q, hc]
      generalize hme : (c :: x).takeWhile q = m at hm hsplit hne
      generalize hte : (c :: x).dropWhile q = t at hsplit
      have ht : ∀ d, t.head? = some d → d ∈ asciiPunctuation := by
        intro d hd
        have := List.head?_dropWhile_not q (c :: x)
        rw [hte, hd] at this
        simpa [q] using this
      have hlen : t.length ≤ n := by
        have := congrArg List.length hsplit
        have h0 : 0 < m.length := List.length_pos_iff.2 hne
        simp only [List.length_append, List.length_cons] at this h
        omega
      rw [hsplit] at hn ⊢
      obtain ⟨ts, h1, h2⟩ := reads_escaped n t (b ++ m) hlen (fun c hc => hn c (by simp [hc]))
      refine ⟨m :: ts, ?_, by simp [h2]⟩
      rw [backslashAll_append, backslashAll_plain hm]
      refine .plain hne (fun c hc => not_punct_ordinary (hm c hc) (hn c (by simp [hc]))) ?_ h1
      intro d hd
      cases t with
      | nil => cases hd
      | cons e t =>
        have he := ht e rfl
        simp only [backslashAll, List.flatMap_cons, if_pos he, List.cons_append, List.head?_cons, Option.some.injEq] at hd
        subst hd
        exact ⟨fun h => h (by decide), by decide⟩

/-- The first character of a text with all punctuation escaped. -/
theorem backslashAll_head {c : Char} {x : Str} : ∃ d r, backslashAll (c :: x) = d :: r ∧
    (d = '\\' ∧ c ∈ asciiPunctuation ∨ d = c ∧ c ∉ asciiPunctuation) := by
  by_cases hc : c ∈ asciiPunctuation
  · exact ⟨'\\', c :: backslashAll x, by simp only [backslashAll, List.flatMap_cons, if_pos hc]; rfl, Or.inl ⟨rfl, hc⟩⟩
  · exact ⟨c, backslashAll x, by simp only [backslashAll, List.flatMap_cons, if_neg hc]; rfl, Or.inr ⟨rfl, hc⟩⟩

theorem backslashAll_getLast {x : Str} : (backslashAll x).getLast? = x.getLast? := by
  rcases List.eq_nil_or_concat x with rfl | ⟨y, c, rfl⟩
  · rfl
  · rw [List.concat_eq_append, backslashAll_append]
    by_cases hc : c ∈ asciiPunctuation
    · have : backslashAll [c] = ['\\', c] := by simp only [backslashAll, List.flatMap_cons, if_pos hc]; rfl
      rw [this]; simp
    · have : backslashAll [c] = [c] := by simp only [backslashAll, List.flatMap_cons, if_neg hc]; rfl
      rw [this]; simp

/-- A dot or parenthesis is never the first punctuation. -/
theorem backslashAll_no_marker {x num r : Str} {d : Char} (h : backslashAll x = num ++ d :: r)
    (hn : ∀ c ∈ num, c ∉ asciiPunctuation) (hd : d ∈ asciiPunctuation) : d = '\\' := by
  induction num generalizing x with
  | nil =>
    cases x with
    | nil => cases h
    | cons c x =>
      obtain ⟨e, r', he, h'⟩ := backslashAll_head (c := c) (x := x)
      rw [he] at h
      obtain rfl := (List.cons.inj h).1
      rcases h' with ⟨h', _⟩ | ⟨rfl, h'⟩
      · exact h'
      · exact absurd hd h'
  | cons a num ih =>
    cases x with
    | nil => cases h
    | cons c x =>
      by_cases hc : c ∈ asciiPunctuation
      · have : backslashAll (c :: x) = '\\' :: c :: backslashAll x := by
          simp only [backslashAll, List.flatMap_cons, if_pos hc]; rfl
        rw [this] at h
        have ha := (List.cons.inj h).1
        exact absurd (by rw [← ha]; decide) (hn a (by simp))
      · have : backslashAll (c :: x) = c :: backslashAll x := by
          simp only [backslashAll, List.flatMap_cons, if_neg hc]; rfl
        rw [this] at h
        exact ih (List.cons.inj h).2 (fun c hc => hn c (by simp [hc]))

theorem pyDigit_not_punct {c : Char} (h : isPyDigit c = true) : c ∉ asciiPunctuation := by
  intro hc
  have key : ∀ c ∈ asciiPunctuation, isPyDigit c = false := by decide +kernel
  rw [key c hc] at h; cases h

/-- A line whose first character begins no block. -/
theorem startsNoBlock_char {b : Bool} {l r : Str} {d : Char} (hl : l = d :: r) (ne : ∀ c ∈ ">*_-#`~<+=".toList, d ≠ c)
    (hsp : isPySpace d = false) (h0 : Char.ofNat 0 ∉ l) (ho : ∀ num, ¬ OrderedMarker num l) : StartsNoBlock b l := by
  have hsp' : ∀ k : Nat, 9 ≤ k → k ≤ 13 → d.toNat ≠ k := by
    intro k h1 h2 hk
    have : isPySpace d = true := by
      simp only [isPySpace, Bool.or_eq_true, Bool.and_eq_true, decide_eq_true_eq, beq_iff_eq]; omega
    rw [this] at hsp; cases hsp
  subst hl
  refine ⟨⟨d, r, rfl, ?_, hsp' 11 (by decide) (by decide), hsp' 12 (by decide) (by decide)⟩, h0, ?_, ?_, ?_, ?_, ?_, ?_, ?_, ?_⟩
  · intro hm
    have key : ∀ c ∈ " \t\n\r".toList, isPySpace c = true := by decide +kernel
    rw [key d hm] at hsp; cases hsp
  · simpa using ne '>' (by decide)
  · rintro ⟨c, hc, hh, _⟩
    simp only [List.head?_cons, Option.some.injEq] at hh
    rcases hc with rfl | rfl | rfl <;> exact ne _ (by decide) hh
  · rintro ⟨n, h1, _, q, h, _⟩
    cases n with
    | zero => omega
    | succ n =>
      rw [List.replicate_succ] at h
      exact ne '#' (by decide) (List.cons.inj h).1
  · rintro ⟨c, n, info, h1, h, _, hc⟩
    cases n with
    | zero => omega
    | succ n =>
      rw [List.replicate_succ] at h
      rcases hc with ⟨rfl, _⟩ | rfl <;> exact ne _ (by decide) (List.cons.inj h).1
  · intro i hi
    exact absurd (by simpa using htmlOpen_head hi) (ne '<' (by decide))
  · rintro ⟨c, q, h, hc, _⟩
    rcases hc with rfl | rfl | rfl <;> exact ne _ (by decide) (List.cons.inj h).1
  · intro num h; exact absurd h (ho num)
  · rintro _ ⟨c, hc, n, q, h1, h, _⟩
    cases n with
    | zero => omega
    | succ n =>
      rw [List.replicate_succ] at h
      rcases hc with rfl | rfl <;> exact ne _ (by decide) (List.cons.inj h).1

/-- A line whose first character is a backslash or no punctuation starts no block. -/
theorem startsNoBlock_of {b : Bool} {l r : Str} {d : Char} (hl : l = d :: r) (hd : d = '\\' ∨ d ∉ asciiPunctuation)
    (hsp : isPySpace d = false) (h0 : Char.ofNat 0 ∉ l) (ho : ∀ num, ¬ OrderedMarker num l) : StartsNoBlock b l := by
  refine startsNoBlock_char hl ?_ hsp h0 ho
  rintro c hc rfl
  rcases hd with rfl | hd
  · exact absurd hc (by decide)
  · have key : ∀ c ∈ ">*_-#`~<+=".toList, c ∈ asciiPunctuation := by decide +kernel
    exact hd (key _ hc)

theorem startsNoBlock_escaped {b : Bool} {c : Char} {x : Str} (hsp : isPySpace c = false) (h0 : Char.ofNat 0 ∉ c :: x) :
    StartsNoBlock b (backslashAll (c :: x)) ∧ ∃ d r, backslashAll (c :: x) = d :: r ∧ isPySpace d = false ∧ d ≠ '[' := by
  obtain ⟨d, r, he, h⟩ := backslashAll_head (c := c) (x := x)
  have hd : d = '\\' ∨ d ∉ asciiPunctuation := by
    rcases h with h | ⟨rfl, h⟩
    · exact Or.inl h.1
    · exact Or.inr h
  have hsp' : isPySpace d = false := by
    rcases h with ⟨rfl, _⟩ | ⟨rfl, _⟩
    · decide
    · exact hsp
  constructor
  · refine startsNoBlock_of he hd hsp' ?_ ?_
    · intro hm
      obtain ⟨a, ha, hm⟩ := List.mem_flatMap.1 hm
      split at hm
      · rename_i hp
        simp only [List.mem_cons, List.not_mem_nil, or_false] at hm
        rcases hm with hm | rfl
        · exact absurd hm (by decide)
        · exact h0 ha
      · simp only [List.mem_singleton] at hm
        subst hm; exact h0 ha
    · rintro num ⟨e, q, h, _, _, h3, he, _⟩
      have := backslashAll_no_marker h (fun c hc => pyDigit_not_punct (h3 c hc)) (by rcases he with rfl | rfl <;> decide)
      rcases he with rfl | rfl <;> exact absurd this (by decide)
  · refine ⟨d, r, he, hsp', ?_⟩
    rintro rfl
    rcases hd with hd | hd
    · exact absurd hd (by decide)
    · exact hd (by decide)

theorem pieceHtml_texts (soft : Str) (ts : List Str) :
    (ts.map Piece.text).flatMap (pieceHtml soft) = escapeXml ts.flatten := by
  induction ts with
  | nil => rfl
  | cons t ts ih =>
    rw [List.map_cons, List.flatMap_cons, ih, List.flatten_cons]
    show escapeXml t ++ _ = _
    simp only [escapeXml_eq_flatMap, List.flatMap_append]

theorem noNul_backslashAll (x : Str) : noNul (backslashAll x) = backslashAll (noNul x) := by
  induction x with
  | nil => rfl
  | cons c x ih =>
    have e1 : backslashAll (c :: x) = backslashAll [c] ++ backslashAll x := backslashAll_append [c] x
    have e2 : noNul (c :: x) = noNul [c] ++ noNul x := noNul_append [c] x
    rw [e1, e2, noNul_append, backslashAll_append, ih]
    congr 1
    by_cases hc : c = Char.ofNat 0
    · subst hc; decide
    · have : noNul [c] = [c] := by simp [noNul, hc]
      rw [this]
      by_cases hp : c ∈ asciiPunctuation
      · have : backslashAll [c] = ['\\', c] := by simp only [backslashAll, List.flatMap_cons, if_pos hp]; rfl
        rw [this]
        simp [noNul, hc]
      · have : backslashAll [c] = [c] := by simp only [backslashAll, List.flatMap_cons, if_neg hp]; rfl
        rw [this]; simp [noNul, hc]

theorem isPySpace_noNul {c : Char} (h : isPySpace c = false) :
    isPySpace (if c = Char.ofNat 0 then Char.ofNat 0xFFFD else c) = false := by
  split
  · decide
  · exact h

/-- Lines of ordinary characters. -/
theorem reads_lines {op : Bool} : ∀ (ls : List Str) (l0 b : Str),
    (∀ l ∈ l0 :: ls, l ≠ [] ∧ (∀ c ∈ l, Ordinary c) ∧ l.getLast? ≠ some ' ' ∧ l.head? ≠ some ' ') →
    Reads op b (joinLines (l0 :: ls)) (.text l0 :: ls.flatMap fun l => [.soft, .text l])
  | [], l0, b, h => by
    obtain ⟨h1, h2, _⟩ := h l0 (by simp)
    have := Reads.plain (op := op) (b := b) (t := []) (ps := []) h1 h2 (by simp) .nil
    simpa [joinLines] using this
  | l1 :: ls, l0, b, h => by
    obtain ⟨h1, h2, h3, _⟩ := h l0 (by simp)
    obtain ⟨g1, _, _, g4⟩ := h l1 (by simp)
    have ih := reads_lines (op := op) ls l1 (b ++ (l0 ++ (List.replicate 0 ' ' ++ '\n' :: List.replicate 0 ' ')))
      (fun l hl => h l (by simp at hl ⊢; tauto))
    have := Reads.lineEnd (op := op) (b := b) (k := 0) (j := 0) (Or.inl h1) h2 h3
      (by rw [joinLines_head g1]; exact g4) ih
    simpa [joinLines] using this

/-- Ordinary characters before something else. -/
theorem reads_before {op : Bool} {pre t : Str} {ps : List Piece} (h : ∀ c ∈ pre, Ordinary c)
    (ht : ∀ c, t.head? = some c → ¬ Ordinary c ∧ c ≠ '\n') (hr : Reads op pre t ps) :
    Reads op [] (pre ++ t) (textBefore pre ++ ps) := by
  unfold textBefore
  by_cases hp : pre = []
  · subst hp; simpa using hr
  · rw [if_neg hp]
    exact .plain hp h ht hr

theorem pieceHtml_before (soft pre : Str) (ps : List Piece) :
    (textBefore pre ++ ps).flatMap (pieceHtml soft) = escapeXml pre ++ ps.flatMap (pieceHtml soft) := by
  unfold textBefore
  by_cases hp : pre = []
  · subst hp; rfl
  · rw [if_neg hp]; rfl

/-- Both phases, for text after ordinary characters. -/
theorem para_before {o : HtmlOpts} (h1 : o.sourcepos = false) {s l0 : Str} {ls : List Str} {op : Bool} {ps : List Piece}
    (h2 : ∀ d l, .link d l ∈ ps → o.safe = false) (hs : TextLines s (l0 :: ls)) (h : ParaText l0 ls) {pre t : Str} {c : Char}
    (ht : joinLines (l0 :: ls) = pre ++ t) (hpre : ∀ c ∈ pre, Ordinary c) (hc : t.head? = some c)
    (hc1 : ¬ Ordinary c) (hc2 : c ≠ '\n') (hr : Reads op pre t ps) :
    (∃ d e, d.t = .document ∧ e.t = .paragraph ∧
      parse false s = .ok (.node d [.node e ((textBefore pre ++ ps).map pieceTree)])) ∧
    toHtml false o s = .ok ("<p>".toList ++ (escapeXml pre ++ ps.flatMap (pieceHtml o.softbreak)) ++ "</p>\n".toList) := by
  have hq := reads_before hpre (by
    intro x hx
    rw [hc, Option.some.injEq] at hx
    subst hx; exact ⟨hc1, hc2⟩) hr
  rw [← ht] at hq
  refine ⟨parse_reads hs h hq, ?_⟩
  rw [toHtml_reads h1 ?_ hs h hq, pieceHtml_before]
  intro d l hm
  refine h2 d l ?_
  unfold textBefore at hm
  by_cases hp : pre = []
  · simpa [hp] using hm
  · simpa [hp] using hm

/-- A line that begins with a letter, for instance. -/
theorem startsNoBlock_letter {b : Bool} {l r : Str} {d : Char} (hl : l = d :: r) (hd : d ∉ asciiPunctuation)
    (hsp : isPySpace d = false) (hdig : isPyDigit d = false) (h0 : Char.ofNat 0 ∉ l) : StartsNoBlock b l := by
  refine startsNoBlock_of hl (Or.inr hd) hsp h0 ?_
  rintro num ⟨e, q, h, h1, _, h3, _⟩
  cases num with
  | nil => simp at h1
  | cons a num =>
    rw [hl] at h
    have := h3 a (by simp)
    rw [← (List.cons.inj h).1, hdig] at this
    cases this

theorem paraText_letter {l r : Str} {d : Char} (hl : l = d :: r) (hd : d ∉ asciiPunctuation)
    (hsp : isPySpace d = false) (hdig : isPyDigit d = false) (h0 : Char.ofNat 0 ∉ l) (ls : List Str)
    (hm : ∀ l ∈ ls, StartsNoBlock true l)
    (he : ∀ m c, (l :: ls).getLast? = some m → m.getLast? = some c → isPySpace c = false) : ParaText l ls := by
  refine ⟨startsNoBlock_letter hl hd hsp hdig h0, hm, ?_, ?_, he⟩
  · refine noDef_head ?_
    subst hl
    rintro hh
    simp only [List.head?_cons, Option.some.injEq] at hh
    subst hh; exact hd (by decide)
  · subst hl
    intro c hc
    simp only [List.head?_cons, Option.some.injEq] at hc
    rw [← hc]; exact hsp

end CM
