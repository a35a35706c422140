import Verif.Proofs.DocRefs
import Verif.Props.Phrase
/-
C72: whole documents with link reference definitions before or after them.
-/
namespace CM
open Spec

/-- C72: definitions, an empty line, and lines that form a document, in which the text of paragraphs and headings is made of emphasis,
links, images and so on: the HTML is that of the document, with the links that the definitions give (of definitions of the
same label, the first one). -/
theorem C72_document_before {smart : Bool} {o : HtmlOpts} (h1 : o.sourcepos = false) {s l0 : Str} {ls bs : List Str}
    {ds : List (Str × Str × Str)} {xs : List Blk} {g : Bool} {n : Nat} (hf : StartsNoBlock false l0) (hl : ∀ l ∈ ls, StartsNoBlock true l)
    (hd : Definitions (joinLines (l0 :: ls) ++ ['\n']) ds []) (hne : ds ≠ [])
    (hdoc : Doc o.safe (PhraseWith smart o (firstDefinition ds)) bs xs g) (hb : bs ≠ [])
    (hs : TextLines s (l0 :: ls ++ [] :: (bs ++ List.replicate n []))) : toHtml smart o s = .ok (docHtml xs) :=
  doc_before h1 (I := PhraseWith smart o) (phraseWith_inline h1) hf hl hd hne rfl hdoc hb hs

/-- C72: the same when the definitions come after the document, and its last block is a paragraph, a heading, a thematic break or
a block quote. -/
theorem C72_document_after {smart : Bool} {o : HtmlOpts} (h1 : o.sourcepos = false) {s l0 : Str} {ls bs : List Str}
    {ds : List (Str × Str × Str)} {xs : List Blk} {g : Bool} {n : Nat} (hf : StartsNoBlock false l0) (hl : ∀ l ∈ ls, StartsNoBlock true l)
    (hd : Definitions (joinLines (l0 :: ls) ++ ['\n']) ds []) (hne : ds ≠ [])
    (hdoc : Doc o.safe (PhraseWith smart o (firstDefinition ds)) bs xs g) (hb : bs ≠ [])
    (hk : ∀ b, xs.getLast? = some b → b.kind ∈ [.para, .heading, .rule, .quote])
    (hs : TextLines s (bs ++ List.replicate n [] ++ [] :: l0 :: ls)) : toHtml smart o s = .ok (docHtml xs) :=
  doc_after h1 (I := PhraseWith smart o) (phraseWith_inline h1) hf hl hd hne rfl hdoc hs hb hk

/-! ### Example -/

theorem foo_definitions : Definitions (joinLines ["[Foo]: /u".toList] ++ ['\n']) [("[Foo]".toList, "/u".toList, [])] [] := by
  have lab : ∀ x : Str, (∀ c ∈ x, c ∉ "\\[]".toList) → LabelText x := by
    intro x
    induction x with
    | nil => intro _; exact .nil
    | cons c x ih => intro h; exact .plain (h c (by simp)) (ih fun d hd => h d (by simp [hd]))
  refine .next (w := "[Foo]: /u\n".toList) (y := []) ?_ (by decide +kernel) (.done (by decide))
  refine .untitled (l := "[Foo]".toList) (s1 := [' ']) (d := "/u".toList) (raw := "/u".toList) (e := ['\n'])
    ⟨"Foo".toList, rfl, lab _ (by decide), by decide⟩ (by decide) ⟨1, .inl rfl⟩
    (.bare (l := 0) (by decide) (.plain (by decide) (by decide) (by decide) (.plain (by decide) (by decide) (by decide) .nil)) (by decide) (by decide))
    ⟨0, .inl rfl⟩ ?_
  rintro ⟨s2, tl, x, r', e, ⟨a, rfl | ⟨b, rfl⟩⟩, hn, ht⟩
  · cases a with
    | zero => exact hn rfl
    | succ a => cases e
  · cases a with
    | succ a => cases e
    | zero =>
      cases b with
      | zero =>
        simp only [List.replicate_zero, List.nil_append, List.cons_append, List.cons.injEq, true_and] at e
        cases ht <;> cases e
      | succ b => cases e

theorem foo_starts (b : Bool) : StartsNoBlock b "[Foo]: /u".toList := by
  refine startsNoBlock_char rfl (by decide) (by decide) (by decide) ?_
  rintro num ⟨e, q, h, h1, _, h3, _⟩
  cases num with
  | nil => simp at h1
  | cons n num =>
    have hn : n = '[' := (List.cons.inj h).1.symm
    exact absurd (h3 n (by simp)) (by rw [hn]; decide +kernel)

/-- A quote with a link, and a heading with an image. -/
theorem foo_doc : Doc false (PhraseWith false {} (firstDefinition [("[Foo]".toList, "/u".toList, [])]))
    (["> # to [foo]".toList] ++ (List.replicate 0 [] ++ ["## ![x][FOO]".toList]))
    ([⟨.quote, "<blockquote>\n<h1>to <a href=\"/u\">foo</a></h1>\n</blockquote>\n".toList⟩] ++
      [⟨.heading, "<h2><img src=\"/u\" alt=\"x\" /></h2>\n".toList⟩]) false := by
  let ds : List (Str × Str × Str) := [("[Foo]".toList, "/u".toList, [])]
  have r1 : firstDefinition ds (normalizeReference "[foo]".toList) = some ⟨"/u".toList, []⟩ := by decide +kernel
  have r2 : firstDefinition ds (normalizeReference "[FOO]".toList) = some ⟨"/u".toList, []⟩ := by decide +kernel
  have lab : ∀ x : Str, (∀ c ∈ x, c ∉ "\\[]".toList) → LabelText x := by
    intro x
    induction x with
    | nil => intro _; exact .nil
    | cons c x ih => intro h; exact .plain (h c (by simp)) (ih fun d hd => h d (by simp [hd]))
  have p1 : Phrase false (firstDefinition ds) [] [] "to [foo]".toList [] [.text "to ".toList, .link "/u".toList [] [.text "foo".toList]] :=
    .seq (t := "to ".toList) (u := "[foo]".toList) (phrase_plain (by decide) (by decide) (by decide))
      (.link (image := false) (x := "foo".toList) (w := []) (phrase_plain (by decide) (by decide) (by decide)) (.shortcut r1 (by decide) (by decide)) (fun _ => rfl))
  have p2 : Phrase false (firstDefinition ds) [] [] "![x][FOO]".toList [] [.image "/u".toList [] [.text "x".toList]] :=
    .link (image := true) (x := "x".toList) (w := "[FOO]".toList) (phrase_plain (by decide) (by decide) (by decide))
      (.full ⟨"FOO".toList, rfl, lab _ (by decide), by decide⟩ (by decide) r2) (by decide)
  have d1 : Doc false (PhraseWith false {} (firstDefinition ds)) ["# to [foo]".toList] [⟨.heading, "<h1>to <a href=\"/u\">foo</a></h1>\n".toList⟩] false :=
    Doc.heading (n := 1) (t := "to [foo]".toList) (h := "to <a href=\"/u\">foo</a>".toList) (by decide) (by decide) (by decide) ⟨'t', rfl, by decide⟩
      ⟨']', rfl, by decide⟩ (not_closing (c := ']') rfl (by decide)) ⟨_, p1, by decide +kernel⟩
  have d2 : Doc false (PhraseWith false {} (firstDefinition ds)) ["## ![x][FOO]".toList] [⟨.heading, "<h2><img src=\"/u\" alt=\"x\" /></h2>\n".toList⟩] false :=
    Doc.heading (n := 2) (t := "![x][FOO]".toList) (h := "<img src=\"/u\" alt=\"x\" />".toList) (by decide) (by decide) (by decide) ⟨'!', rfl, by decide⟩
      ⟨']', rfl, by decide⟩ (not_closing (c := ']') rfl (by decide)) ⟨_, p2, by decide +kernel⟩
  have d3 := Doc.quote (qs := ["> # to [foo]".toList]) d1 (.cons (pre := "> ".toList) (l := "# to [foo]".toList) ⟨0, by decide, .inl rfl⟩ (.inl (by decide)) .nil)
  exact Doc.join (n := 0) d3 d2 rfl (by decide) (.inr ⟨.atx (n := 2) ⟨by decide, by decide, " ![x][FOO]".toList, by decide, .inr (.inl (by decide))⟩, by decide⟩)

example : toHtml false {} "[Foo]: /u\n\n> # to [foo]\n## ![x][FOO]\n".toList =
    .ok "<blockquote>\n<h1>to <a href=\"/u\">foo</a></h1>\n</blockquote>\n<h2><img src=\"/u\" alt=\"x\" /></h2>\n".toList :=
  (C72_document_before (ls := []) (n := 0) rfl (foo_starts false) (by simp) foo_definitions (by simp) foo_doc (by simp)
    ((textLines_iff _ _).2 (by decide))).trans (by decide +kernel)

example : toHtml false {} "> # to [foo]\n## ![x][FOO]\n\n[Foo]: /u".toList =
    .ok "<blockquote>\n<h1>to <a href=\"/u\">foo</a></h1>\n</blockquote>\n<h2><img src=\"/u\" alt=\"x\" /></h2>\n".toList :=
  (C72_document_after (ls := []) (n := 0) rfl (foo_starts false) (by simp) foo_definitions (by simp) foo_doc (by simp)
    (by simp) ((textLines_iff _ _).2 (by decide))).trans (by decide +kernel)

end CM
