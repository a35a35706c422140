import Verif.Proofs.Quotes
import Verif.Props.Phrase
/-
C74: with the option `smart`, which straight quotation marks become opening ones and which closing ones.
-/
namespace CM
open Spec

/-- C74.  A line of ordinary characters and straight quotation marks, with the option `smart`: a double quotation mark that closes
(it is right-flanking) becomes a closing one, any other an opening one.  A single one becomes an opening one if it opens (it is
left-flanking and not right-flanking) and the next single one that opens or closes, closes; any other becomes an apostrophe. -/
theorem C74_text {o : HtmlOpts} (h1 : o.sourcepos = false) {s t : Str} (hs : TextLines s [t]) (hp : ParaText t [])
    (ht : ∀ c ∈ t, Ordinary c ∨ c = '\'' ∨ c = '"') :
    toHtml true o s = .ok ("<p>".toList ++ escapeXml (typeset true (curlyText none t)) ++ "</p>\n".toList) := by
  obtain ⟨ts, h2, -, h3⟩ := prose_text t.length (Nat.le_refl _) ht []
  obtain ⟨d, e, hd, he, hc, hst, hpa⟩ := parse_para (smart := true) hs hp
  have hi := parseInlines_prose (m := []) hst (ts := ts) (by simpa [joinLines] using h2)
  have hp' : parse true s = .ok (.node d [.node e (spanTrees (settle ts))]) := by
    rw [hpa]
    simp [processInlines, processInlinesList, hd, he, hc, hi, bind, Except.bind, pure, Except.pure]
  simp only [toHtml, hp', bind, Except.bind]
  rw [phrase_para h1 hd he, h3]
  rfl

/-- C74.  The same in paragraphs and headings anywhere in a document, and for texts with code spans, autolinks, raw HTML, escapes,
character references and line breaks (see `Spec.Prose`). -/
theorem C74_document {o : HtmlOpts} (h1 : o.sourcepos = false) {s : Str} {ls : List Str} {bs : List Blk} {gap : Bool} {n : Nat}
    (h : Doc o.safe (ProseHtml o) ls bs gap) (hs : TextLines s (ls ++ List.replicate n [])) : toHtml true o s = .ok (docHtml bs) :=
  doc_html h1 (proseHtml_inline h1 []) h hs

theorem quote_para {t r : Str} {d c : Char} (hl : t = d :: r) (hd : d = '\'' ∨ d = '"') (h0 : Char.ofNat 0 ∉ t) (hc : t.getLast? = some c)
    (he : isPySpace c = false) : ParaText t [] := by
  have hsp : isPySpace d = false := by rcases hd with rfl | rfl <;> decide +kernel
  refine ⟨startsNoBlock_char hl (by rcases hd with rfl | rfl <;> decide) hsp h0 ?_, by simp, noDef_head ?_, ?_, ?_⟩
  · rintro num ⟨e, q, h, h1, _, h3, _⟩
    cases num with
    | nil => simp at h1
    | cons n num =>
      rw [hl] at h
      have hn : n = d := (List.cons.inj h).1.symm
      have := h3 n (by simp)
      rw [hn] at this
      revert this
      rcases hd with rfl | rfl <;> decide +kernel
  · subst hl; rcases hd with rfl | rfl <;> simp
  · subst hl
    rintro x hx
    cases hx
    exact hsp
  · intro m x hm hx
    simp only [List.getLast?_singleton, Option.some.injEq] at hm
    subst hm
    rw [hc] at hx
    cases hx; exact he

/-- C74: quotations in single quotation marks do not nest.  The outer marks stay apostrophes. -/
theorem C74_nested : toHtml true {} "'a 'b' c'".toList = .ok "<p>’a ‘b’ c’</p>\n".toList := by
  have hp : ParaText "'a 'b' c'".toList [] := quote_para rfl (.inl rfl) (by decide) rfl (by decide +kernel)
  exact (C74_text rfl ((textLines_iff _ _).2 (by decide)) hp (by decide)).trans (by decide +kernel)

/-- C74: an opening single quotation mark in the output is always closed: a closing one (or an apostrophe) comes after it. -/
theorem C74_closed (b : Option Char) (t x y : Str) (ht : '‘' ∉ t) (h : curlyText b t = x ++ '‘' :: y) : '’' ∈ y := by
  have hcn : ∀ (t : Str) (b : Option Char), closesNext b t = true → '’' ∈ curlyText b t := by
    intro t
    induction t with
    | nil => intro b h; simp [closesNext] at h
    | cons c r ih =>
      intro b h
      rw [closesNext] at h
      split at h
      · cases h
      · rename_i h0
        split at h
        · rename_i h2
          simp only [Bool.and_eq_true, decide_eq_true_eq] at h2 h0
          have : opensAt b r.head? = false := by
            rw [Bool.eq_false_iff]; exact fun ho => h0 ⟨h2.1, ho⟩
          rw [curlyText, h2.1]
          simp [this]
        · rw [curlyText]
          exact List.mem_cons_of_mem _ (ih _ h)
  induction t generalizing b x with
  | nil => simp [curlyText] at h
  | cons c r ih =>
    simp only [List.mem_cons, not_or] at ht
    rw [curlyText] at h
    cases x with
    | nil =>
      simp only [List.nil_append, List.cons.injEq] at h
      obtain ⟨h1, h2⟩ := h
      rw [← h2]
      split at h1
      · split at h1 <;> exact absurd h1 (by decide)
      · split at h1
        · split at h1
          · rename_i hc
            exact hcn _ _ (by simpa using (Bool.and_eq_true _ _ ▸ hc : _ ∧ _).2)
          · exact absurd h1 (by decide)
        · exact absurd h1.symm ht.1
    | cons z x =>
      simp only [List.cons_append, List.cons.injEq] at h
      exact ih _ _ ht.2 h.2

/-! ### Examples -/

example : toHtml true {} "\"It's 'the' rock 'n' roll\" -- '70s".toList =
    .ok "<p>“It’s ‘the’ rock ‘n’ roll” – ’70s</p>\n".toList := by
  have hp : ParaText "\"It's 'the' rock 'n' roll\" -- '70s".toList [] := quote_para rfl (.inr rfl) (by decide) rfl (by decide +kernel)
  exact (C74_text rfl ((textLines_iff _ _).2 (by decide)) hp (by decide)).trans (by decide +kernel)

example : toHtml true {} "> # 'a `'` \"b\"'".toList =
    .ok "<blockquote>\n<h1>‘a <code>'</code> “b”’</h1>\n</blockquote>\n".toList := by
  have pl : ∀ {b k : Str} (m : Str), m ≠ [] → (∀ c ∈ m, Ordinary c) → (∀ c ∈ k.head?, ¬ Ordinary c ∧ c ≠ '\n') →
      Prose b m k [.span (.text (typeset true m))] := fun m h1 h2 h3 => .atom (xs := [_]) (.plain h1 h2 h3)
  have q : ∀ {b k : Str} (c : Char), c = '\'' ∨ c = '"' → Prose b [c] k [.quote c (opensAt b.getLast? k.head?) (closesAt b.getLast? k.head?)] :=
    fun c h => .quote h opensAt_iff closesAt_iff
  have hp : Prose [] "'a `'` \"b\"'".toList [] _ :=
    .seq (t := ['\'']) (u := "a `'` \"b\"'".toList) (q '\'' (.inl rfl)) <|
    .seq (t := "a ".toList) (u := "`'` \"b\"'".toList) (pl _ (by decide) (by decide) (by decide)) <|
    .seq (t := "`'`".toList) (u := " \"b\"'".toList) (.atom (.code (n := 1) (x := ['\'']) (y := ['\'']) (by decide) (by decide) (by decide) (by decide)
      (fun ⟨a, b, h, _, _⟩ => by
        have : '`' ∈ ['\''] := by rw [h]; simp
        exact absurd this (by decide)) (by decide) (.inr ⟨by decide, fun ⟨z, h, _⟩ => absurd (List.cons.inj h).1 (by decide)⟩))) <|
    .seq (t := [' ']) (u := "\"b\"'".toList) (pl _ (by decide) (by decide) (by decide)) <|
    .seq (t := ['"']) (u := "b\"'".toList) (q '"' (.inr rfl)) <|
    .seq (t := ['b']) (u := "\"'".toList) (pl _ (by decide) (by decide) (by decide)) <|
    .seq (t := ['"']) (u := "'".toList) (q '"' (.inr rfl)) (q '\'' (.inl rfl))
  have d1 : Doc false (ProseHtml {}) ["# ".toList ++ "'a `'` \"b\"'".toList] _ false :=
    Doc.heading (n := 1) (t := "'a `'` \"b\"'".toList) (by decide) (by decide) (by decide) ⟨'\'', rfl, by decide⟩
      ⟨'\'', rfl, by decide⟩ (not_closing (c := '\'') rfl (by decide)) ⟨_, hp, rfl⟩
  have d2 := Doc.quote (qs := ["> # 'a `'` \"b\"'".toList]) d1
    (.cons (pre := "> ".toList) (l := "# 'a `'` \"b\"'".toList) ⟨0, by decide, .inl rfl⟩ (.inl (by decide)) .nil)
  exact (C74_document (n := 0) rfl d2 ((textLines_iff _ _).2 (by decide))).trans (by decide +kernel)

end CM
