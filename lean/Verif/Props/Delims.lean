import Verif.Proofs.Delims
import Verif.Props.Quotes
import Verif.Proofs.DocRefs
import Verif.Props.DocRefs
/-
C75: emphasis with any runs of delimiters is what the procedure of the specification gives.
-/
namespace CM
open Spec

/-- C75.  A line of ordinary characters and any runs of `*` and `_`: the emphasis in it is what the procedure of the specification
gives, in which a closer takes the nearest opener that is there (`Spec.emphasised`).  There are no lower bounds for the search in
that procedure.  If there are both characters in the text, or runs that can neither open nor close, then the rule about multiples of
three must not keep an opener and a closer in the text from matching. -/
theorem C75_text {smart : Bool} {o : HtmlOpts} (h1 : o.sourcepos = false) {s t : Str} (hs : TextLines s [t]) (hp : ParaText t [])
    (ht : ∀ c ∈ t, Ordinary c ∨ c = '*' ∨ c = '_') (h3 : NoThrees (chunksOf smart t.length none t) ∨ OneKind (chunksOf smart t.length none t)) :
    toHtml smart o s = .ok ("<p>".toList ++ spansHtml o.safe o.softbreak (emphasised (chunksOf smart t.length none t)) ++ "</p>\n".toList) := by
  obtain ⟨d, e, hd, he, hc, hst, hpa⟩ := parse_para (smart := smart) hs hp
  obtain ⟨one, h3⟩ : ∃ one, Fair one (chunksOf smart t.length none t) := h3.elim (fun h => ⟨false, h⟩) fun h => ⟨true, h⟩
  have hi := parseInlines_chunks (smart := smart) (one := one) (m := []) hst (by simpa [joinLines] using chunks_text t.length (Nat.le_refl _) ht []) h3
  have hp' : parse smart s = .ok (.node d [.node e (spanTrees (emphasised (chunksOf smart t.length none t)))]) := by
    rw [hpa]
    simp [processInlines, processInlinesList, hd, he, hc, hi, bind, Except.bind, pure, Except.pure]
  simp only [toHtml, hp', bind, Except.bind]
  rw [phrase_para h1 hd he]

/-- C75.  The same in paragraphs and headings anywhere in a document, and for texts with anything of the grammar `Atom` between
the runs (without the rule about multiples of three, `Phrase`): code spans, raw HTML, escapes, character references, line breaks,
and links and images with any runs in their texts. -/
theorem C75_document {smart : Bool} {o : HtmlOpts} (h1 : o.sourcepos = false) {s : Str} {ls : List Str} {bs : List Blk} {gap : Bool} {n : Nat}
    (h : Doc o.safe (ChunksHtml smart o fun _ => none) ls bs gap) (hs : TextLines s (ls ++ List.replicate n [])) : toHtml smart o s = .ok (docHtml bs) :=
  doc_html h1 (chunksHtml_inline h1 []) h hs

/-- C75.  The same with link reference definitions before the document: reference links may have any runs in their texts too. -/
theorem C75_definitions {smart : Bool} {o : HtmlOpts} (h1 : o.sourcepos = false) {s l0 : Str} {ls bs : List Str}
    {ds : List (Str × Str × Str)} {xs : List Blk} {g : Bool} {n : Nat} (hf : StartsNoBlock false l0) (hl : ∀ l ∈ ls, StartsNoBlock true l)
    (hd : Definitions (joinLines (l0 :: ls) ++ ['\n']) ds []) (hne : ds ≠ [])
    (hdoc : Doc o.safe (ChunksHtml smart o (firstDefinition ds)) bs xs g) (hb : bs ≠ [])
    (hs : TextLines s (l0 :: ls ++ [] :: (bs ++ List.replicate n []))) : toHtml smart o s = .ok (docHtml xs) :=
  doc_before h1 (I := ChunksHtml smart o) (chunksHtml_inline h1) hf hl hd hne rfl hdoc hb hs

/-- Why C75 has its condition: in the specification a run that finds no opener does not keep others from finding it, so what comes
before `*c**d e*` plays no part.  Here it does: `**` is compared with `*` (they do not match by the rule about multiples of three)
and then with `__`, and only the last comparison decides if the search may be cut short later on.  A run of the same character that
can neither open nor close has the same effect. -/
theorem C75_threes : toHtml false {} "b *c**d e*".toList = .ok "<p>b <em>c**d e</em></p>\n".toList ∧
    toHtml false {} "__b *c**d e*".toList = .ok "<p>__b *c**d e*</p>\n".toList ∧
    toHtml false {} "b ** *c**d e*".toList = .ok "<p>b ** *c**d e*</p>\n".toList := by
  refine ⟨?_, ?_, ?_⟩ <;> decide +kernel

/-- Openers that are not closed are text, whatever else is in the text: if there are no runs that close, nothing is emphasised. -/
theorem C75_unclosed (ps : List Chunk) (h : ∀ c n o, .run c n o true ∉ ps) :
    spansHtml false [] (emphasised ps) = spansHtml false [] (ps.map fun p => match p with | .span x => x | .run c n _ _ => .text (List.replicate n c)) := by
  have app : ∀ xs ys : List Span, spansHtml false [] (xs ++ ys) = spansHtml false [] xs ++ spansHtml false [] ys := by
    intro xs ys
    induction xs with
    | nil => rfl
    | cons x xs ih => simp only [List.cons_append, spansHtml, ih, List.append_assoc]
  have key : ∀ (ps : List Chunk), (∀ c n o, .run c n o true ∉ ps) → ∀ st : Halfway,
      spansHtml false [] (unopened (ps.foldl readChunk st).openers (ps.foldl readChunk st).base) = spansHtml false [] (unopened st.openers st.base) ++
        spansHtml false [] (ps.map fun p => match p with | .span x => x | .run c n _ _ => .text (List.replicate n c)) := by
    intro ps
    induction ps with
    | nil => intro _ st; simp [spansHtml]
    | cons p ps ih =>
      intro h st
      rw [List.foldl_cons, ih (fun c n o hm => h c n o (by simp [hm]))]
      have hput : ∀ (st : Halfway) (x : Span), spansHtml false [] (unopened (st.put [x]).openers (st.put [x]).base) =
          spansHtml false [] (unopened st.openers st.base) ++ spanHtml false [] x := by
        rintro ⟨_ | ⟨f, r⟩, base⟩ x
        · simp [Halfway.put, unopened, app, spansHtml]
        · simp [Halfway.put, unopened, app, spansHtml]
      cases p with
      | span x =>
        rw [readChunk, hput]
        simp [spansHtml]
      | run c n o cl =>
        cases cl with
        | true => exact absurd List.mem_cons_self (h c n o)
        | false =>
          simp only [readChunk, Bool.false_eq_true, if_false, leaveRun]
          by_cases hn : n = 0
          · subst hn
            simp [spansHtml, spanHtml, escapeXml]
          · rw [if_neg hn]
            cases o with
            | true => simp [unopened, app, spansHtml]
            | false => simp only [Bool.false_eq_true, if_false, hput]; simp [spansHtml]
  have := key ps h ⟨[], []⟩
  simpa [emphasised, unopened, spansHtml] using this

/-! ### Examples -/

theorem word_para {t r : Str} {d c : Char} (hl : t = d :: r) (hd : d ∈ "abcdefghijklmnopqrstuvwxyz".toList) (h0 : Char.ofNat 0 ∉ t) (hc : t.getLast? = some c)
    (he : isPySpace c = false) : ParaText t [] := by
  have hsp : isPySpace d = false := (by decide +kernel : ∀ d ∈ "abcdefghijklmnopqrstuvwxyz".toList, isPySpace d = false) d hd
  refine ⟨startsNoBlock_char hl ((by decide : ∀ d ∈ "abcdefghijklmnopqrstuvwxyz".toList, ∀ c ∈ ">*_-#`~<+=".toList, d ≠ c) d hd) hsp h0 ?_, by simp, noDef_head ?_, ?_, ?_⟩
  · rintro num ⟨e, q, h, h1, _, h3, _⟩
    cases num with
    | nil => simp at h1
    | cons n num =>
      rw [hl] at h
      have hn : n = d := (List.cons.inj h).1.symm
      have := h3 n (by simp)
      rw [hn] at this
      exact (by decide +kernel : ∀ d ∈ "abcdefghijklmnopqrstuvwxyz".toList, ¬ isPyDigit d = true) d hd this
  · subst hl
    rw [List.head?_cons, ne_eq, Option.some.injEq]
    rintro rfl
    exact absurd hd (by decide)
  · subst hl
    rintro x hx
    cases hx
    exact hsp
  · intro m x hm hx
    simp only [List.getLast?_singleton, Option.some.injEq] at hm
    subst hm
    rw [hc] at hx
    cases hx; exact he

example : toHtml true {} "w **a *b _c** d* _e___ f** g -- h".toList =
    .ok "<p>w <em><em>a <em>b _c</em></em> d</em> <em>e</em>__ f** g – h</p>\n".toList := by
  have hp : ParaText "w **a *b _c** d* _e___ f** g -- h".toList [] := word_para rfl (by decide) (by decide) rfl (by decide +kernel)
  exact (C75_text rfl ((textLines_iff _ _).2 (by decide)) hp (by decide) (.inl (by decide +kernel))).trans (by decide +kernel)

/-- The rule about multiples of three: `**` does not close `*`. -/
example : toHtml false {} "a *b**c d* ***e** f*".toList =
    .ok "<p>a <em>b**c d</em> <em><strong>e</strong> f</em></p>\n".toList := by
  have hp : ParaText "a *b**c d* ***e** f*".toList [] := word_para rfl (by decide) (by decide) rfl (by decide +kernel)
  exact (C75_text rfl ((textLines_iff _ _).2 (by decide)) hp (by decide) (.inr (by decide +kernel))).trans (by decide +kernel)

example : toHtml false {} "> # **a `*` b*".toList =
    .ok "<blockquote>\n<h1>*<em>a <code>*</code> b</em></h1>\n</blockquote>\n".toList := by
  have pl : ∀ {b k : Str} (m : Str), m ≠ [] → (∀ c ∈ m, Ordinary c) → (∀ c ∈ k.head?, ¬ Ordinary c ∧ c ≠ '\n') →
      Chunks false false (fun _ => none) b m k [.span (.text (typeset false m))] := fun m h1 h2 h3 => .atom (xs := [_]) (.plain h1 h2 h3)
  have q : ∀ {b k : Str} (n : Nat) (c : Char), 1 ≤ n → c = '*' ∨ c = '_' → k.head? ≠ some c → Chunks false false (fun _ => none) b (List.replicate n c) k
      [.run c n (decide (CanOpen (isPySpace · = true) (isPunct · = true) c b.getLast? k.head?))
        (decide (CanClose (isPySpace · = true) (isPunct · = true) c b.getLast? k.head?))] :=
    fun n c hn h h' => .run hn h h' (by rw [decide_eq_true_iff]) (by rw [decide_eq_true_iff])
  have hp : Chunks false false (fun _ => none) [] "**a `*` b*".toList [] _ :=
    .seq (t := ['*', '*']) (u := "a `*` b*".toList) (q 2 '*' (by decide) (.inl rfl) (by decide)) <|
    .seq (t := "a ".toList) (u := "`*` b*".toList) (pl _ (by decide) (by decide) (by decide)) <|
    .seq (t := "`*`".toList) (u := " b*".toList) ((.atom (.code (n := 1) (x := ['*']) (y := ['*']) (by decide) (by decide) (by decide) (by decide)
      (fun ⟨a, b, h, _, _⟩ => by
        have : '`' ∈ ['*'] := by rw [h]; simp
        exact absurd this (by decide)) (by decide) (.inr ⟨by decide, fun ⟨z, h, _⟩ => absurd (List.cons.inj h).1 (by decide)⟩)))) <|
    .seq (t := " b".toList) (u := ['*']) (pl _ (by decide) (by decide) (by decide)) (q 1 '*' (by decide) (.inl rfl) (by decide))
  have d1 : Doc false (ChunksHtml false {} fun _ => none) ["# ".toList ++ "**a `*` b*".toList] _ false :=
    Doc.heading (n := 1) (t := "**a `*` b*".toList) (by decide) (by decide) (by decide) ⟨'*', rfl, by decide⟩
      ⟨'*', rfl, by decide⟩ (not_closing (c := '*') rfl (by decide)) ⟨false, _, hp, by decide +kernel, rfl⟩
  have d2 := Doc.quote (qs := ["> # **a `*` b*".toList]) d1
    (.cons (pre := "> ".toList) (l := "# **a `*` b*".toList) ⟨0, by decide, .inl rfl⟩ (.inl (by decide)) .nil)
  exact (C75_document (n := 0) rfl d2 ((textLines_iff _ _).2 (by decide))).trans (by decide +kernel)

/-- A link with runs in its text, within emphasis, to a definition. -/
example : toHtml false {} "[Foo]: /u\n\n# **x [**a *b*][foo]* y".toList =
    .ok "<h1>*<em>x <a href=\"/u\">**a <em>b</em></a></em> y</h1>\n".toList := by
  let refs := firstDefinition [("[Foo]".toList, "/u".toList, [])]
  have r1 : refs (normalizeReference "[foo]".toList) = some ⟨"/u".toList, []⟩ := by decide +kernel
  have lab : ∀ x : Str, (∀ c ∈ x, c ∉ "\\[]".toList) → LabelText x := by
    intro x
    induction x with
    | nil => intro _; exact .nil
    | cons c x ih => intro h; exact .plain (h c (by simp)) (ih fun d hd => h d (by simp [hd]))
  have pl : ∀ {b k : Str} (m : Str), m ≠ [] → (∀ c ∈ m, Ordinary c) → (∀ c ∈ k.head?, ¬ Ordinary c ∧ c ≠ '\n') →
      Chunks false false refs b m k [.span (.text (typeset false m))] := fun m h1 h2 h3 => .atom (xs := [_]) (.plain h1 h2 h3)
  have q : ∀ {b k : Str} (n : Nat) (c : Char), 1 ≤ n → c = '*' ∨ c = '_' → k.head? ≠ some c → Chunks false false refs b (List.replicate n c) k
      [.run c n (decide (CanOpen (isPySpace · = true) (isPunct · = true) c b.getLast? k.head?))
        (decide (CanClose (isPySpace · = true) (isPunct · = true) c b.getLast? k.head?))] :=
    fun n c hn h h' => .run hn h h' (by rw [decide_eq_true_iff]) (by rw [decide_eq_true_iff])
  have hx : Chunks false false refs ("**x ".toList ++ opening false) "**a *b*".toList "][foo]* y".toList _ :=
    .seq (t := ['*', '*']) (u := "a *b*".toList) (q 2 '*' (by decide) (.inl rfl) (by decide)) <|
    .seq (t := "a ".toList) (u := "*b*".toList) (pl _ (by decide) (by decide) (by decide)) <|
    .seq (t := ['*']) (u := "b*".toList) (q 1 '*' (by decide) (.inl rfl) (by decide)) <|
    .seq (t := ['b']) (u := ['*']) (pl _ (by decide) (by decide) (by decide)) (q 1 '*' (by decide) (.inl rfl) (by decide))
  have hp : Chunks false false refs [] "**x [**a *b*][foo]* y".toList [] _ :=
    .seq (t := ['*', '*']) (u := "x [**a *b*][foo]* y".toList) (q 2 '*' (by decide) (.inl rfl) (by decide)) <|
    .seq (t := "x ".toList) (u := "[**a *b*][foo]* y".toList) (pl _ (by decide) (by decide) (by decide)) <|
    .seq (t := "[**a *b*][foo]".toList) (u := "* y".toList)
      (.link (image := false) (x := "**a *b*".toList) (w := "[foo]".toList) hx (by decide +kernel)
        (.full ⟨"foo".toList, rfl, lab _ (by decide), by decide⟩ (by decide) r1) (fun _ => by decide +kernel)) <|
    .seq (t := ['*']) (u := " y".toList) (q 1 '*' (by decide) (.inl rfl) (by decide)) (pl _ (by decide) (by decide) (by decide))
  have d1 : Doc false (ChunksHtml false {} refs) ["# ".toList ++ "**x [**a *b*][foo]* y".toList] _ false :=
    Doc.heading (n := 1) (t := "**x [**a *b*][foo]* y".toList) (by decide) (by decide) (by decide) ⟨'*', rfl, by decide⟩
      ⟨'y', rfl, by decide⟩ (not_closing (c := 'y') rfl (by decide)) ⟨false, _, hp, by decide +kernel, rfl⟩
  exact (C75_definitions (ls := []) (n := 0) rfl (foo_starts false) (by simp) foo_definitions (by simp) d1 (by simp)
    ((textLines_iff _ _).2 (by decide))).trans (by decide +kernel)

end CM
