import Verif.Proofs.PhraseHtml
import Verif.Props.Refs
import Verif.Props.Document
/-
C58: emphasis, links and images, nested to any depth, are read as the grammar of `Spec.Phrase` says.
-/
namespace CM
open Spec

theorem phrase_para {o : HtmlOpts} (h1 : o.sourcepos = false) {d e : NodeData} (hd : d.t = .document)
    (he : e.t = .paragraph) (xs : List Span) : renderHtml o (.node d [.node e (spanTrees xs)]) =
      .ok ("<p>".toList ++ spansHtml o.safe o.softbreak xs ++ "</p>\n".toList) := by
  unfold renderHtml
  rw [renderWith_document _ _ _ hd]
  obtain ⟨lo, hlo⟩ := render_spans h1 xs (some e) (some d) "<p>".toList ['>']
  have e1 : ∀ f, htmlEvent o ⟨[], ['\n'], 0⟩ ⟨true, e, some d, none, f⟩ = .ok ⟨"<p>".toList, ['>'], 0⟩ := by
    intro f
    simp [htmlEvent, he, htmlParagraph, HState.cr, HState.tag, HState.tagText, htmlAttrs, h1, lit, bind, Except.bind, pure, Except.pure]
  have e2 : ∀ f b, htmlEvent o ⟨b, lo, 0⟩ ⟨false, e, some d, none, f⟩ = .ok ⟨b ++ "</p>\n".toList, ['\n'], 0⟩ := by
    intro f b
    simp [htmlEvent, he, htmlParagraph, HState.cr, HState.tag, HState.tagText, htmlAttrs, h1, lit, HState.lit, bind, Except.bind, pure, Except.pure]
  simp only [eventsList, events, he, isContainer, List.append_nil, if_true, runEvents_cons, runEvents_append, e1, Except.bind, hlo, e2,
    runEvents_nil, bind, pure, Except.pure]

/-- C58.  A text that stands for the inline content `xs` (see `Spec.Phrase`), in lines that form a paragraph, is parsed into
one paragraph with this content. -/
theorem C58_nodes {smart : Bool} {s l0 : Str} {ls : List Str} {xs : List Span} (hs : TextLines s (l0 :: ls)) (h : ParaText l0 ls)
    (hx : Phrase smart (fun _ => none) [] [] (joinLines (l0 :: ls)) [] xs) :
    ∃ d e, d.t = .document ∧ e.t = .paragraph ∧ parse smart s = .ok (.node d [.node e (spanTrees xs)]) := by
  obtain ⟨d, e, hd, he, hc, hst, hp⟩ := parse_para (smart := smart) hs h
  refine ⟨d, e, hd, he, ?_⟩
  have := parseInlines_phrase (m := []) hst hx
  rw [hp]
  simp [processInlines, processInlinesList, hd, he, hc, this, bind, Except.bind, pure, Except.pure]

/-- C58.  Its HTML is the HTML of the content in a `p` element. -/
theorem C58_html {smart : Bool} {o : HtmlOpts} (h1 : o.sourcepos = false) {s l0 : Str} {ls : List Str} {xs : List Span}
    (hs : TextLines s (l0 :: ls)) (h : ParaText l0 ls) (hx : Phrase smart (fun _ => none) [] [] (joinLines (l0 :: ls)) [] xs) :
    toHtml smart o s = .ok ("<p>".toList ++ spansHtml o.safe o.softbreak xs ++ "</p>\n".toList) := by
  obtain ⟨d, e, hd, he, hp⟩ := C58_nodes hs h hx
  simp only [toHtml, hp, bind, Except.bind]
  exact phrase_para h1 hd he xs

/-- C58.  After definitions, in the same paragraph, the links and images of the text have the destinations and titles of
the first definitions of their labels. -/
theorem C58_references {smart : Bool} {o : HtmlOpts} (h1 : o.sourcepos = false) {s l0 t : Str} {ls : List Str}
    {ds : List (Str × Str × Str)} {xs : List Span} (hs : TextLines s (l0 :: ls)) (hf : StartsNoBlock false l0)
    (hl : ∀ l ∈ ls, StartsNoBlock true l) (hd : Definitions (joinLines (l0 :: ls) ++ ['\n']) ds (t ++ ['\n'])) (hne : ds ≠ [])
    (ht : t ≠ []) (hb : ∀ c, t.head? = some c → isPySpace c = false) (he : ∀ c, t.getLast? = some c → isPySpace c = false)
    (hx : Phrase smart (firstDefinition ds) [] [] t [] xs) :
    toHtml smart o s = .ok ("<p>".toList ++ spansHtml o.safe o.softbreak xs ++ "</p>\n".toList) := by
  obtain ⟨d, e, m, a1, a2, a3, a4, -, a6⟩ := C54_defined smart s l0 ls ds _ hs hf hl hd hne
  have hst : strip (t ++ ['\n']) = t := strip_text hb he (by decide) ht
  have hp := a6 (by
    cases t with
    | nil => exact absurd rfl ht
    | cons c r =>
      refine ⟨c, by simp, fun hc => ?_⟩
      have h3 := hb c rfl
      have : ∀ c ∈ " \t\n\r\u000b\u000c".toList, isPySpace c = true := by decide
      rw [this c hc] at h3; cases h3)
  have hx' : Phrase smart m.get [] [] t [] xs := by
    have : m.get = firstDefinition ds := funext a4
    rw [this]; exact hx
  have := parseInlines_phrase hst hx'
  have hp' : parse smart s = .ok (.node d [.node e (spanTrees xs)]) := by
    rw [hp]
    simp [processInlines, processInlinesList, a1, a2, a3, this, bind, Except.bind, pure, Except.pure]
  simp only [toHtml, hp', bind, Except.bind]
  exact phrase_para h1 a1 a2 xs

/-- C58.  The same inside of blocks: lines that form a document (see `Spec.Doc`), in which the text of paragraphs and
headings is made of emphasis, links, images and so on, give the HTML of its blocks, in order. -/
theorem C58_document {smart : Bool} {o : HtmlOpts} (h1 : o.sourcepos = false) {s : Str} {ls : List Str} {bs : List Blk}
    {gap : Bool} {n : Nat} (h : Doc o.safe (PhraseHtml smart o) ls bs gap) (hs : TextLines s (ls ++ List.replicate n [])) :
    toHtml smart o s = .ok (docHtml bs) :=
  doc_html h1 (phraseHtml_inline h1) h hs

/-! ### Any depth -/

section
variable {w p : Char → Prop} [DecidablePred w] [DecidablePred p]
instance (o : Option Char) : Decidable (White w o) := by cases o <;> unfold White <;> infer_instance
instance (o : Option Char) : Decidable (Punct p o) := by cases o <;> unfold Punct <;> infer_instance
instance (a b : Option Char) : Decidable (LeftFlanking w p a b) := by unfold LeftFlanking; infer_instance
instance (a b : Option Char) : Decidable (RightFlanking w p a b) := by unfold RightFlanking; infer_instance
instance (c : Char) (a b : Option Char) : Decidable (CanOpen w p c a b) := by unfold CanOpen; infer_instance
instance (c : Char) (a b : Option Char) : Decidable (CanClose w p c a b) := by unfold CanClose; infer_instance
instance (c : Char) : Decidable (Ordinary c) := inferInstanceAs (Decidable (c ∉ "\n`[]\\!<&*_'\"".toList))
end

/-- Emphasis in emphasis, `n` times. -/
def nestEmph : Nat → Str
  | 0 => "**x**".toList
  | n + 1 => "*a ".toList ++ nestEmph n ++ " b*".toList

/-- Its HTML. -/
def nestEmphHtml : Nat → Str
  | 0 => "<strong>x</strong>".toList
  | n + 1 => "<em>a ".toList ++ nestEmphHtml n ++ " b</em>".toList

def nestEmphSpan : Nat → Span
  | 0 => .strong [.text "x".toList]
  | n + 1 => .emph [.text "a ".toList, nestEmphSpan n, .text " b".toList]

theorem nestEmphHtml_succ (n : Nat) : nestEmphHtml (n + 1) = "<em>a ".toList ++ nestEmphHtml n ++ " b</em>".toList := rfl
theorem nestEmphSpan_succ (n : Nat) : nestEmphSpan (n + 1) = .emph [.text "a ".toList, nestEmphSpan n, .text " b".toList] := rfl

theorem nestEmphSpan_html (safe : Bool) (soft : Str) : ∀ n, spanHtml safe soft (nestEmphSpan n) = nestEmphHtml n
  | 0 => by
    rw [nestEmphSpan, spanHtml, spansHtml, spansHtml, spanHtml]
    exact (by decide +kernel : tagged "<strong>" (escapeXml "x".toList ++ []) "</strong>" = "<strong>x</strong>".toList)
  | n + 1 => by
    have e1 : "<em>a ".toList = "<em>".toList ++ "a ".toList := rfl
    have e2 : " b</em>".toList = " b".toList ++ "</em>".toList := rfl
    have e3 : escapeXml "a ".toList = "a ".toList := by decide +kernel
    have e4 : escapeXml " b".toList = " b".toList := by decide +kernel
    rw [nestEmphHtml_succ, nestEmphSpan_succ, spanHtml, spansHtml, spansHtml, spansHtml, spansHtml, nestEmphSpan_html safe soft n, spanHtml, spanHtml,
      tagged, e1, e2, e3, e4]
    simp only [List.append_assoc, List.append_nil]

theorem nestEmph_phrase {refs : Str → Option RefDef} : ∀ (n : Nat) (E : List Char) (b k : Str), b.getLast? = none ∨ b.getLast? = some ' ' →
    k.head? = none ∨ k.head? = some ' ' → Phrase false refs E b (nestEmph n) k [nestEmphSpan n]
  | 0, E, b, k, hb, hk => by
    have hk' : k.head? ≠ some '*' := by rcases hk with h | h <;> rw [h] <;> decide
    refine .emph (n := 2) (c := '*') (x := "x".toList) (xs := [.text "x".toList]) (by decide) (.inl rfl) (by decide) hk' ?_ (.inl ?_) ?_ ?_
    · rcases hb with h | h <;> rw [h] <;> decide +kernel
    · rcases hb with h | h <;> rw [h] <;> decide +kernel
    · rw [List.getLast?_append_of_ne_nil _ (by decide)]
      rcases hk with h | h <;> rw [h] <;> decide +kernel
    · refine .atom (.plain (by decide) (by decide) ?_)
      intro c hc
      cases hc
      exact ⟨by decide, by decide⟩
  | n + 1, E, b, k, hb, hk => by
    have hk' : k.head? ≠ some '*' := by rcases hk with h | h <;> rw [h] <;> decide
    have e : nestEmph (n + 1) = List.replicate 1 '*' ++ (("a ".toList ++ (nestEmph n ++ " b".toList)) ++ List.replicate 1 '*') := by
      show ('*' :: 'a' :: ' ' :: nestEmph n) ++ [' ', 'b', '*'] = '*' :: (('a' :: ' ' :: (nestEmph n ++ [' ', 'b'])) ++ ['*'])
      simp
    rw [e]
    have hc : ∀ c, (List.replicate 1 '*' ++ k).head? = some c → ¬ Ordinary c ∧ c ≠ '\n' := by
      intro c hc
      cases hc
      exact ⟨by decide, by decide⟩
    have hc' : ∀ n y c, (nestEmph n ++ y).head? = some c → ¬ Ordinary c ∧ c ≠ '\n' := by
      intro n y c hc
      have : (nestEmph n ++ y).head? = some '*' := by cases n <;> rfl
      rw [this] at hc
      cases hc
      exact ⟨by decide, by decide⟩
    refine .emph (n := 1) (c := '*') (xs := [.text "a ".toList] ++ ([nestEmphSpan n] ++ [.text " b".toList])) (by decide) (x := "a ".toList ++ (nestEmph n ++ " b".toList)) (.inl rfl) (by show some 'a' ≠ some '*'; decide) hk'
      ?_ (.inl ?_) ?_ ?_
    · show CanOpen _ _ _ _ (some 'a')
      rcases hb with h | h <;> rw [h] <;> decide +kernel
    · show ¬ CanClose _ _ _ _ (some 'a')
      rcases hb with h | h <;> rw [h] <;> decide +kernel
    · have : (b ++ List.replicate 1 '*' ++ ("a ".toList ++ (nestEmph n ++ " b".toList))).getLast? = some 'b' := by
        rw [← List.append_assoc, ← List.append_assoc, List.getLast?_append_of_ne_nil _ (by decide)]; rfl
      rw [this]
      rcases hk with h | h <;> rw [h] <;> decide +kernel
    · refine .seq (.atom (.plain (by decide) (by decide) ?_)) (.seq (nestEmph_phrase n _ _ _ ?_ (.inr rfl)) (.atom (.plain (by decide) (by decide) hc)))
      · rw [List.append_assoc]; exact hc' _ _
      · right; rw [List.getLast?_append_of_ne_nil _ (by decide)]; rfl

theorem nestEmph_last (n : Nat) : (nestEmph n).getLast? = some '*' := by
  cases n with
  | zero => rfl
  | succ n => rw [nestEmph, List.getLast?_append_of_ne_nil _ (by decide)]; rfl

/-- C58.  Emphasis in emphasis, however deep, in a heading. -/
theorem C58_nested_emphasis {o : HtmlOpts} (h1 : o.sourcepos = false) (n : Nat) :
    toHtml false o ("# ".toList ++ nestEmph n) = .ok ("<h1>".toList ++ nestEmphHtml n ++ "</h1>\n".toList) := by
  have hh : (nestEmph n).head? = some '*' := by cases n <;> rfl
  have hl := nestEmph_last n
  have hno : ∀ n, ∀ c ∈ nestEmph n, c ∈ "*x ab".toList := by
    intro n
    induction n with
    | zero => decide
    | succ n ih =>
      intro c hc
      rw [nestEmph, List.mem_append, List.mem_append] at hc
      rcases hc with (hc | hc) | hc
      · revert hc; revert c; decide
      · exact ih c hc
      · revert hc; revert c; decide
  have hd : Doc o.safe (PhraseHtml false o) ["# ".toList ++ nestEmph n] _ false := Doc.heading (n := 1) (t := nestEmph n) (by decide) (by decide)
    (fun h0 => absurd (hno n _ h0) (by decide)) ⟨'*', hh, by decide⟩ ⟨'*', hl, by decide⟩ (not_closing hl (by decide))
    ⟨[nestEmphSpan n], nestEmph_phrase n _ _ _ (.inl rfl) (.inl rfl), rfl⟩
  have hs : TextLines ("# ".toList ++ nestEmph n) (["# ".toList ++ nestEmph n] ++ List.replicate 0 []) := by
    refine .last ?_
    intro c hc
    rw [List.mem_append] at hc
    rcases hc with hc | hc
    · revert hc; revert c; decide
    · have := hno n c hc
      clear hc; revert this; revert c; decide
  rw [C58_document h1 hd hs, spansHtml, spansHtml, nestEmphSpan_html, List.append_nil, docHtml, List.flatMap_singleton]
  show Except.ok ((("<h1>".toList ++ nestEmphHtml n) ++ "</h".toList) ++ "1".toList ++ ">\n".toList) = _
  rw [List.append_assoc, List.append_assoc]
  rfl

/-! ### Examples -/

theorem phrase_plain {refs : Str → Option RefDef} {E : List Char} {b m k : Str} (h1 : m ≠ []) (h2 : ∀ c ∈ m, Ordinary c)
    (h3 : ∀ c ∈ k.head?, ¬ Ordinary c ∧ c ≠ '\n') : Phrase false refs E b m k [.text m] :=
  .atom (.plain h1 h2 h3)

theorem phrase_emph {refs : Str → Option RefDef} {E : List Char} {b x k : Str} (n : Nat) (c : Char) (hn : 1 ≤ n) (hc : c = '*' ∨ c = '_')
    (h1 : (x ++ List.replicate n c).head? ≠ some c) (h2 : k.head? ≠ some c)
    (h3 : CanOpen (isPySpace · = true) (isPunct · = true) c b.getLast? (x ++ List.replicate n c).head?)
    (h4 : ¬ CanClose (isPySpace · = true) (isPunct · = true) c b.getLast? (x ++ List.replicate n c).head?)
    (h5 : CanClose (isPySpace · = true) (isPunct · = true) c (b ++ List.replicate n c ++ x).getLast? k.head?)
    (hx : x ≠ []) (ho : ∀ c ∈ x, Ordinary c) (hl : ¬ Ordinary c ∧ c ≠ '\n') :
    Phrase false refs E b (List.replicate n c ++ (x ++ List.replicate n c)) k (emphasis n [.text x]) := by
  refine .emph hn hc h1 h2 h3 (.inl h4) h5 (.atom (.plain hx ho ?_))
  obtain ⟨m, rfl⟩ : ∃ m, n = m + 1 := ⟨n - 1, by omega⟩
  intro d hd
  cases hd
  exact hl

/-- A link with a title and with emphasis in its text, and an image with an empty destination. -/
example : toHtml false {} "See [_the_ manual](/m(1) 'T') and ![a **b**]()".toList =
    .ok "<p>See <a href=\"/m(1)\" title=\"T\"><em>the</em> manual</a> and <img src=\"\" alt=\"a b\" /></p>\n".toList := by
  have p1 : Phrase false (fun _ => none) [] ("See ".toList ++ opening false) "_the_ manual".toList "](/m(1) 'T') and ![a **b**]()".toList
      [.emph [.text "the".toList], .text " manual".toList] :=
    .seq (t := "_the_".toList) (u := " manual".toList)
      (phrase_emph (x := "the".toList) 1 '_' (by decide) (by decide) (by decide) (by decide) (by decide +kernel) (by decide +kernel) (by decide +kernel)
        (by decide) (by decide) (by decide))
      (phrase_plain (by decide) (by decide) (by decide))
  have p2 : Phrase false (fun _ => none) [] ("See [_the_ manual](/m(1) 'T') and ".toList ++ opening true) "a **b**".toList "]()".toList
      [.text "a ".toList, .strong [.text "b".toList]] :=
    .seq (t := "a ".toList) (u := "**b**".toList) (phrase_plain (by decide) (by decide) (by decide))
      (phrase_emph (x := "b".toList) 2 '*' (by decide) (by decide) (by decide) (by decide) (by decide +kernel) (by decide +kernel) (by decide +kernel)
        (by decide) (by decide) (by decide))
  have t1 : Target (fun _ => none) "_the_ manual".toList "(/m(1) 'T')".toList " and ![a **b**]()".toList "/m(1)".toList "T".toList :=
    .titled (s1 := []) (d := "/m(1)".toList) (raw := "/m(1)".toList) (s2 := " ".toList) (tl := "'T'".toList) (y := "T".toList) (s3 := []) ⟨0, .inl rfl⟩
      (.bare (l := 0) (by decide) (.plain (by decide) (by decide) (by decide) (.plain (by decide) (by decide) (by decide)
        (.openP (.plain (by decide) (by decide) (by decide) (.closeP .nil))))) (by decide) (by decide))
      ⟨1, .inl rfl⟩ (by decide) (.single (d := ['T']) (.plain (by decide) (by decide) (by decide) .nil)) ⟨0, .inl rfl⟩
  have t2 : Target (fun _ => none) "a **b**".toList "()".toList [] [] [] :=
    .inline (s1 := []) (d := []) (raw := []) (s2 := []) ⟨0, .inl rfl⟩ (.bare (l := 0) (by decide) .nil (by decide) (by decide)) ⟨0, .inl rfl⟩ (by decide)
  have h : Phrase false (fun _ => none) [] [] (joinLines ["See [_the_ manual](/m(1) 'T') and ![a **b**]()".toList]) []
      [.text "See ".toList, .link "/m(1)".toList "T".toList [.emph [.text "the".toList], .text " manual".toList], .text " and ".toList,
        .image [] [] [.text "a ".toList, .strong [.text "b".toList]]] :=
    .seq (t := "See ".toList) (u := "[_the_ manual](/m(1) 'T') and ![a **b**]()".toList) (phrase_plain (by decide) (by decide) (by decide))
      (.seq (t := "[_the_ manual](/m(1) 'T')".toList) (u := " and ![a **b**]()".toList) (.link (image := false) p1 t1 (fun _ => rfl))
        (.seq (t := " and ".toList) (u := "![a **b**]()".toList) (phrase_plain (by decide) (by decide) (by decide))
          (.link (image := true) (k := []) p2 t2 (by decide))))
  refine (C58_html rfl ((textLines_iff _ _).2 (by decide)) (paraText_letter rfl (by decide) (by decide) (by decide +kernel) (by decide) [] (by simp) ?_)
    h).trans (by decide +kernel)
  intro m c hm hc
  simp only [List.getLast?_singleton, Option.some.injEq] at hm
  subst hm; revert hc; revert c; decide +kernel

/-- A definition, and links by reference: only the innermost brackets make a link. -/
example : toHtml false {} "[Foo]: /u\nsee [*b* [foo]][foo] and ![x][FOO]".toList =
    .ok "<p>see [<em>b</em> <a href=\"/u\">foo</a>]<a href=\"/u\">foo</a> and <img src=\"/u\" alt=\"x\" /></p>\n".toList := by
  let ds : List (Str × Str × Str) := [("[Foo]".toList, "/u".toList, [])]
  have r1 : firstDefinition ds (normalizeReference "[foo]".toList) = some ⟨"/u".toList, []⟩ := by decide +kernel
  have r2 : firstDefinition ds (normalizeReference "[FOO]".toList) = some ⟨"/u".toList, []⟩ := by decide +kernel
  have lab : ∀ x : Str, (∀ c ∈ x, c ∉ "\\[]".toList) → LabelText x := by
    intro x
    induction x with
    | nil => intro _; exact .nil
    | cons c x ih => intro h; exact .plain (h c (by simp)) (ih fun d hd => h d (by simp [hd]))
  have p1 : Phrase false (firstDefinition ds) [] ("see ".toList ++ opening false) "*b* [foo]".toList "][foo] and ![x][FOO]".toList
      [.emph [.text "b".toList], .text " ".toList, .link "/u".toList [] [.text "foo".toList]] :=
    .seq (t := "*b*".toList) (u := " [foo]".toList)
      (phrase_emph (x := "b".toList) 1 '*' (by decide) (by decide) (by decide) (by decide) (by decide +kernel) (by decide +kernel) (by decide +kernel)
        (by decide) (by decide) (by decide))
      (.seq (t := " ".toList) (u := "[foo]".toList) (phrase_plain (by decide) (by decide) (by decide))
        (.link (image := false) (x := "foo".toList) (w := []) (phrase_plain (by decide) (by decide) (by decide)) (.shortcut r1 (by decide) (by decide)) (fun _ => rfl)))
  have h : Phrase false (firstDefinition ds) [] [] "see [*b* [foo]][foo] and ![x][FOO]".toList []
      ([.text "see ".toList] ++ ((.text "[".toList :: ([.emph [.text "b".toList], .text " ".toList, .link "/u".toList [] [.text "foo".toList]] ++ [.text "]".toList])) ++
        ([.link "/u".toList [] [.text "foo".toList]] ++ ([.text " and ".toList] ++ [.image "/u".toList [] [.text "x".toList]])))) :=
    .seq (t := "see ".toList) (u := "[*b* [foo]][foo] and ![x][FOO]".toList) (phrase_plain (by decide) (by decide) (by decide))
      (.seq (t := "[*b* [foo]]".toList) (u := "[foo] and ![x][FOO]".toList) (.brackets (image := false) p1 (.inl ⟨rfl, rfl⟩))
        (.seq (t := "[foo]".toList) (u := " and ![x][FOO]".toList)
          (.link (image := false) (x := "foo".toList) (w := []) (phrase_plain (by decide) (by decide) (by decide)) (.shortcut r1 (by decide) (by decide)) (fun _ => rfl))
          (.seq (t := " and ".toList) (u := "![x][FOO]".toList) (phrase_plain (by decide) (by decide) (by decide))
            (.link (image := true) (x := "x".toList) (w := "[FOO]".toList) (phrase_plain (by decide) (by decide) (by decide))
              (.full ⟨"FOO".toList, rfl, lab _ (by decide), by decide⟩ (by decide) r2) (by decide)))))
  have hd : Definitions (joinLines ["[Foo]: /u".toList, "see [*b* [foo]][foo] and ![x][FOO]".toList] ++ ['\n']) ds
      ("see [*b* [foo]][foo] and ![x][FOO]".toList ++ ['\n']) := by
    refine .next (w := "[Foo]: /u\n".toList) (y := "see [*b* [foo]][foo] and ![x][FOO]\n".toList) ?_ (by decide +kernel) (.done (by decide))
    refine .untitled (l := "[Foo]".toList) (s1 := [' ']) (d := "/u".toList) (raw := "/u".toList) (e := ['\n'])
      ⟨"Foo".toList, rfl, lab _ (by decide), by decide⟩ (by decide) ⟨1, .inl rfl⟩
      (.bare (l := 0) (by decide) (.plain (by decide) (by decide) (by decide) (.plain (by decide) (by decide) (by decide) .nil)) (by decide) (by decide))
      ⟨0, .inl rfl⟩ ?_
    rintro ⟨s2, tl, x, r', e, ⟨a, rfl | ⟨b, rfl⟩⟩, hn, ht⟩
    · cases a with
      | zero => exact hn rfl
      | succ a => cases e
    · cases a with
      | succ a => cases e
      | zero =>
        cases b with
        | zero =>
          simp only [List.replicate_zero, List.nil_append, List.cons_append, List.cons.injEq, true_and] at e
          cases ht <;> cases e
        | succ b => cases e
  refine (C58_references rfl ((textLines_iff _ _).2 (by decide)) ?_ ?_ hd (by decide) (by decide) (by decide) (by decide) h).trans (by decide +kernel)
  · refine startsNoBlock_char rfl (by decide) (by decide) (by decide) ?_
    rintro num ⟨e, q, h, h1, _, h3, _⟩
    cases num with
    | nil => simp at h1
    | cons n num =>
      have hn : n = '[' := (List.cons.inj h).1.symm
      exact absurd (h3 n (by simp)) (by rw [hn]; decide +kernel)
  · intro l hl
    rw [List.mem_singleton] at hl
    exact startsNoBlock_letter hl (by decide) (by decide) (by decide +kernel) (by subst hl; decide)

/-- Raw HTML, a less-than sign, and an image with a dangerous address, in safe mode and without it. -/
theorem phrase_raw {refs : Str → Option RefDef} : Phrase false refs [] [] "x <b k=\"v\">*c*</b> < ![<i>](data:x)".toList []
    [.text "x ".toList, .html "<b k=\"v\">".toList, .emph [.text "c".toList], .html "</b>".toList, .text " ".toList, .text "<".toList, .text " ".toList,
      .image "data:x".toList [] [.html "<i>".toList]] := by
  have nm : ∀ x : Char, 'a' ≤ x ∧ x ≤ 'z' → NameLetter x := fun x h => .inl (.inl h)
  have tn : ∀ x : Char, 'a' ≤ x ∧ x ≤ 'z' → TagName [x] := fun x h => ⟨x, [], rfl, nm x h, by simp⟩
  have t1 : HtmlTag "<b k=\"v\">".toList :=
    .opening (n := ['b']) (as := " k=\"v\"".toList ++ []) (w := []) (sl := []) (tn _ (by decide))
      (.cons (.value (w := [' ']) (n := ['k']) (w1 := []) (w2 := []) (v := "\"v\"".toList) (by decide) (by unfold Blank; decide +kernel)
        ⟨'k', [], rfl, .inl (nm _ (by decide)), by simp⟩ (by unfold Blank; decide) (by unfold Blank; decide) (.double (v := ['v']) (by decide))) .nil)
      (by unfold Blank; decide) (.inl rfl)
  have t2 : HtmlTag "</b>".toList := .closing (n := ['b']) (w := []) (tn _ (by decide)) (by unfold Blank; decide)
  have t3 : HtmlTag "<i>".toList := .opening (n := ['i']) (as := []) (w := []) (sl := []) (tn _ (by decide)) .nil (by unfold Blank; decide) (.inl rfl)
  have g : Target refs "<i>".toList "(data:x)".toList [] "data:x".toList [] :=
    .inline (s1 := []) (d := "data:x".toList) (raw := "data:x".toList) (s2 := []) ⟨0, .inl rfl⟩
      (.bare (l := 0) (by decide) (.plain (by decide) (by decide) (by decide) (.plain (by decide) (by decide) (by decide)
        (.plain (by decide) (by decide) (by decide) (.plain (by decide) (by decide) (by decide) (.plain (by decide) (by decide) (by decide)
          (.plain (by decide) (by decide) (by decide) .nil)))))) (by decide) (by decide)) ⟨0, .inl rfl⟩ (by decide)
  exact .seq (t := "x ".toList) (u := "<b k=\"v\">*c*</b> < ![<i>](data:x)".toList) (phrase_plain (by decide) (by decide) (by decide))
    (.seq (t := "<b k=\"v\">".toList) (u := "*c*</b> < ![<i>](data:x)".toList)
      (.atom (.html t1 (no_autolink_of (p := ['b']) (c := ' ') rfl (by decide) (by decide) (by decide) (by decide))))
    (.seq (t := "*c*".toList) (u := "</b> < ![<i>](data:x)".toList)
      (phrase_emph (x := "c".toList) 1 '*' (by decide) (by decide) (by decide) (by decide) (by decide +kernel) (by decide +kernel) (by decide +kernel)
        (by decide) (by decide) (by decide))
    (.seq (t := "</b>".toList) (u := " < ![<i>](data:x)".toList)
      (.atom (.html t2 (no_autolink_of (p := "/b".toList) (c := '>') rfl (by decide) (by decide) (by decide) (by decide))))
    (.seq (t := " ".toList) (u := "< ![<i>](data:x)".toList) (phrase_plain (by decide) (by decide) (by decide))
    (.seq (t := "<".toList) (u := " ![<i>](data:x)".toList) (.atom (.less (no_angle_of (by decide))))
    (.seq (t := " ".toList) (u := "![<i>](data:x)".toList) (phrase_plain (by decide) (by decide) (by decide))
      (.link (image := true) (k := []) (x := "<i>".toList) (w := "(data:x)".toList)
        (.atom (.html t3 (no_autolink_of (p := "i".toList) (c := '>') rfl (by decide) (by decide) (by decide) (by decide)))) g (by decide))))))))

theorem raw_para : ParaText "x <b k=\"v\">*c*</b> < ![<i>](data:x)".toList [] := by
  refine paraText_letter rfl (by decide) (by decide) (by decide +kernel) (by decide) [] (by simp) ?_
  intro m c hm hc
  simp only [List.getLast?_singleton, Option.some.injEq] at hm
  subst hm; revert hc; revert c; decide +kernel

example : toHtml false { safe := true } "x <b k=\"v\">*c*</b> < ![<i>](data:x)".toList =
    .ok ("<p>x <!-- raw HTML omitted --><em>c</em><!-- raw HTML omitted --> &lt; ".toList ++
      "<img src=\"\" alt=\"<!-- raw HTML omitted -->\" /></p>\n".toList) :=
  (C58_html rfl ((textLines_iff _ _).2 (by decide)) raw_para phrase_raw).trans (by decide +kernel)

example : toHtml false {} "x <b k=\"v\">*c*</b> < ![<i>](data:x)".toList =
    .ok "<p>x <b k=\"v\"><em>c</em></b> &lt; <img src=\"data:x\" alt=\"<i>\" /></p>\n".toList :=
  (C58_html rfl ((textLines_iff _ _).2 (by decide)) raw_para phrase_raw).trans (by decide +kernel)

/-- With smart punctuation: dashes, an ellipsis, an apostrophe, and quotation marks in emphasis and in a link. -/
theorem phrase_smart {refs : Str → Option RefDef} : Phrase true refs [] [] "\"It's\" -- 'a *\"b\"* [\"c\"](x)'...".toList []
    [.text ['“'], .text "It".toList, .text ['’'], .text "s".toList, .text ['”'], .text " – ".toList, .text ['‘'], .text "a ".toList,
      .emph [.text ['“'], .text "b".toList, .text ['”']], .text " ".toList, .link "x".toList [] [.text ['“'], .text "c".toList, .text ['”']],
      .text ['’'], .text ['…']] := by
  have pl : ∀ {E : List Char} {b k : Str} (m y : Str), m ≠ [] → (∀ c ∈ m, Ordinary c) → (∀ c ∈ k.head?, ¬ Ordinary c ∧ c ≠ '\n') → typeset true m = y →
      Phrase true refs E b m k [.text y] := fun m y h1 h2 h3 h4 => h4 ▸ .atom (.plain h1 h2 h3)
  have g : Target refs "\"c\"".toList "(x)".toList "'...".toList "x".toList [] :=
    .inline (s1 := []) (d := "x".toList) (raw := "x".toList) (s2 := []) ⟨0, .inl rfl⟩
      (.bare (l := 0) (by decide) (.plain (by decide) (by decide) (by decide) .nil) (by decide) (by decide)) ⟨0, .inl rfl⟩ (by decide)
  have q : ∀ {E : List Char} {b k : Str}, RightFlanking (isPySpace · = true) (isPunct · = true) b.getLast? k.head? →
      Phrase true refs E b ['"'] k [.text ['”']] := fun h => .doubleClose rfl h
  have p : ∀ {E : List Char} {b k : Str}, ¬ RightFlanking (isPySpace · = true) (isPunct · = true) b.getLast? k.head? →
      Phrase true refs E b ['"'] k [.text ['“']] := fun h => .doubleOpen rfl h
  refine .seq (t := ['"']) (u := "It's\" -- 'a *\"b\"* [\"c\"](x)'...".toList) (p (by decide +kernel)) ?_
  refine .seq (t := "It".toList) (u := "'s\" -- 'a *\"b\"* [\"c\"](x)'...".toList) (pl _ _ (by decide) (by decide) (by decide) (by decide)) ?_
  refine .seq (t := ['\'']) (u := "s\" -- 'a *\"b\"* [\"c\"](x)'...".toList) (.apostrophe rfl (fun h => absurd h.2 (by decide +kernel)) (.inr (by decide))) ?_
  refine .seq (t := "s".toList) (u := "\" -- 'a *\"b\"* [\"c\"](x)'...".toList) (pl _ _ (by decide) (by decide) (by decide) (by decide)) ?_
  refine .seq (t := ['"']) (u := " -- 'a *\"b\"* [\"c\"](x)'...".toList) (q (by decide +kernel)) ?_
  refine .seq (t := " -- ".toList) (u := "'a *\"b\"* [\"c\"](x)'...".toList) (pl _ _ (by decide) (by decide) (by decide) (by decide +kernel)) ?_
  refine .seq (t := "'a *\"b\"* [\"c\"](x)'".toList) (u := "...".toList) (k := []) (ys := [.text ['…']]) (xs := [_, _, _, _, _, _]) ?_
    (pl _ _ (by decide) (by decide) (by decide) (by decide +kernel))
  refine .single (x := "a *\"b\"* [\"c\"](x)".toList) (xs := [_, _, _, _]) rfl (by decide) ⟨by decide +kernel, by decide +kernel⟩ (by decide +kernel) ?_
  refine .seq (t := "a ".toList) (u := "*\"b\"* [\"c\"](x)".toList) (pl _ _ (by decide) (by decide) (by decide) (by decide)) ?_
  refine .seq (t := "*\"b\"*".toList) (u := " [\"c\"](x)".toList) (xs := [_]) (ys := [_, _]) ?_ ?_
  rotate_left
  · refine .seq (t := " ".toList) (u := "[\"c\"](x)".toList) (pl _ _ (by decide) (by decide) (by decide) (by decide)) ?_
    refine .link (image := false) (x := "\"c\"".toList) (w := "(x)".toList) ?_ g (by decide)
    exact .seq (t := ['"']) (u := "c\"".toList) (p (by decide +kernel))
      (.seq (t := "c".toList) (u := ['"']) (pl _ _ (by decide) (by decide) (by decide) (by decide)) (q (by decide +kernel)))
  · refine .emph (n := 1) (c := '*') (x := "\"b\"".toList) (by decide) (by decide) (by decide) (by decide) (by decide +kernel) (.inr (by decide)) (by decide +kernel) ?_
    exact .seq (t := ['"']) (u := "b\"".toList) (p (by decide +kernel))
      (.seq (t := "b".toList) (u := ['"']) (pl _ _ (by decide) (by decide) (by decide) (by decide)) (q (by decide +kernel)))

example : toHtml true {} "# \"It's\" -- 'a *\"b\"* [\"c\"](x)'...".toList =
    .ok "<h1>“It’s” – ‘a <em>“b”</em> <a href=\"x\">“c”</a>’…</h1>\n".toList := by
  have hd : Doc false (PhraseHtml true {}) ["# ".toList ++ "\"It's\" -- 'a *\"b\"* [\"c\"](x)'...".toList] _ false :=
    Doc.heading (n := 1) (t := "\"It's\" -- 'a *\"b\"* [\"c\"](x)'...".toList) (by decide) (by decide) (by decide) ⟨'"', rfl, by decide⟩
      ⟨'.', rfl, by decide⟩ (not_closing (c := '.') rfl (by decide)) ⟨_, phrase_smart, rfl⟩
  exact (C58_document (n := 0) rfl hd ((textLines_iff _ _).2 (by decide))).trans (by decide +kernel)

end CM
