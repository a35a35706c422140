import Verif.Proofs.HtmlTag
import Verif.Proofs.SourceRun
/-
Where a piece of raw HTML ends: at one place only.
-/
namespace CM
open Spec

/-! ### Up to the first -/

/-- The rest after the first `p`. -/
def findSub (p : Str) : Str → Option Str
  | [] => if p = [] then some [] else none
  | c :: r => if p.isPrefixOf (c :: r) then some ((c :: r).drop p.length) else findSub p r

theorem findSub_first {p : Str} (hp : p ≠ []) : ∀ (x k : Str), ¬ p <:+: x ++ p.dropLast → findSub p (x ++ (p ++ k)) = some k
  | [], k, _ => by
    cases p with
    | nil => exact absurd rfl hp
    | cons c p =>
      rw [List.nil_append, List.cons_append, findSub, if_pos]
      · rw [← List.cons_append, List.drop_left]
      · rw [List.isPrefixOf_iff_prefix, ← List.cons_append]; exact List.prefix_append _ _
  | c :: x, k, h => by
    rw [List.cons_append, findSub, if_neg]
    · refine findSub_first hp x k fun hi => h ?_
      rw [List.cons_append]
      exact hi.trans (List.suffix_cons _ _).isInfix
    · rw [List.isPrefixOf_iff_prefix]
      intro hpre
      refine h (List.IsPrefix.isInfix ?_)
      have h1 : c :: x ++ p.dropLast <+: c :: (x ++ (p ++ k)) := by
        rw [← List.cons_append]
        refine (List.prefix_append_right_inj _).2 ?_
        exact (List.dropLast_prefix p).trans (List.prefix_append _ _)
      refine List.prefix_of_prefix_length_le hpre h1 ?_
      have : 0 < p.length := List.length_pos_iff.2 hp
      simp; omega

theorem findSub_skip {p : Str} {q : Char} {p' : Str} (hp : p = q :: p') : ∀ (a s : Str), q ∉ a → findSub p (a ++ s) = findSub p s
  | [], s, _ => rfl
  | c :: a, s, h => by
    rw [List.cons_append, findSub, if_neg]
    · exact findSub_skip hp a s fun hm => h (List.mem_cons_of_mem _ hm)
    · subst hp
      rw [List.isPrefixOf_iff_prefix]
      intro hpre
      have := List.cons_prefix_cons.1 hpre
      exact h (by rw [this.1]; simp)

/-! ### Tags with attributes -/

/-- The rest after the first `>` that is not in quotation marks. -/
def tagScan : Option Char → Str → Option Str
  | _, [] => none
  | some q, c :: r => if c = q then tagScan none r else tagScan (some q) r
  | none, c :: r => if c = '>' then some r else if c = '"' ∨ c = '\'' then tagScan (some c) r else tagScan none r

/-- A text that the scan goes over. -/
def Passed (x : Str) : Prop := ∀ k, tagScan none (x ++ k) = tagScan none k

theorem Passed.append {x y : Str} (h : Passed x) (h' : Passed y) : Passed (x ++ y) := fun k => by
  rw [List.append_assoc, h, h']

theorem passed_plain : ∀ {x : Str}, (∀ c ∈ x, c ≠ '>' ∧ c ≠ '"' ∧ c ≠ '\'') → Passed x
  | [], _ => fun _ => rfl
  | c :: x, h => fun k => by
    obtain ⟨h1, h2, h3⟩ := h c (by simp)
    rw [List.cons_append, tagScan, if_neg h1, if_neg (by simp [h2, h3])]
    exact passed_plain (fun d hd => h d (List.mem_cons_of_mem _ hd)) k

theorem scan_quoted {q : Char} : ∀ {v : Str}, q ∉ v → ∀ k, tagScan (some q) (v ++ q :: k) = tagScan none k
  | [], _, k => by rw [List.nil_append, tagScan, if_pos rfl]
  | c :: v, h, k => by
    rw [List.cons_append, tagScan, if_neg (fun e => h (by simp [e]))]
    exact scan_quoted (fun hm => h (List.mem_cons_of_mem _ hm)) k

theorem passed_quoted {q : Char} (hq : q = '"' ∨ q = '\'') {v : Str} (h : q ∉ v) : Passed (q :: (v ++ [q])) := fun k => by
  rw [List.cons_append, tagScan, if_neg (by rcases hq with rfl | rfl <;> decide), if_pos hq, List.append_assoc]
  exact scan_quoted h k

theorem nameLetter_ne {c : Char} (h : NameLetter c) : c ≠ '>' ∧ c ≠ '"' ∧ c ≠ '\'' ∧ c ≠ '-' ∧ c ≠ '[' ∧ c ≠ '/' ∧ c ≠ '!' ∧ c ≠ '?' := by
  refine ⟨?_, ?_, ?_, ?_, ?_, ?_, ?_, ?_⟩ <;> (rintro rfl; revert h; unfold NameLetter AsciiLetter; decide)

theorem digit_ne {c : Char} (h : Digit c) : c ≠ '>' ∧ c ≠ '"' ∧ c ≠ '\'' := by
  refine ⟨?_, ?_, ?_⟩ <;> (rintro rfl; revert h; unfold Digit; decide)

theorem passed_blank {w : Str} (h : Blank w) : Passed w := passed_plain fun c hc => by
  have := h c hc
  refine ⟨?_, ?_, ?_⟩ <;> (rintro rfl; revert this; decide)

theorem passed_tagName {n : Str} (h : TagName n) : Passed n := by
  obtain ⟨a, r, rfl, h1, h2⟩ := h
  refine passed_plain fun c hc => ?_
  rcases List.mem_cons.1 hc with rfl | hc
  · exact ⟨(nameLetter_ne h1).1, (nameLetter_ne h1).2.1, (nameLetter_ne h1).2.2.1⟩
  · rcases h2 c hc with h | h | rfl
    · exact ⟨(nameLetter_ne h).1, (nameLetter_ne h).2.1, (nameLetter_ne h).2.2.1⟩
    · exact digit_ne h
    · decide

theorem passed_attName {n : Str} (h : AttributeName n) : Passed n := by
  obtain ⟨a, r, rfl, h1, h2⟩ := h
  refine passed_plain fun c hc => ?_
  rcases List.mem_cons.1 hc with rfl | hc
  · rcases h1 with h | rfl | rfl
    · exact ⟨(nameLetter_ne h).1, (nameLetter_ne h).2.1, (nameLetter_ne h).2.2.1⟩
    · decide
    · decide
  · rcases h2 c hc with h | h | rfl | rfl | rfl | rfl
    · exact ⟨(nameLetter_ne h).1, (nameLetter_ne h).2.1, (nameLetter_ne h).2.2.1⟩
    · exact digit_ne h
    all_goals decide

theorem passed_value {v : Str} (h : AttributeValue v) : Passed v := by
  cases h with
  | unquoted h1 h2 =>
    refine passed_plain fun c hc => ?_
    have := (h2 c hc).2
    refine ⟨?_, ?_, ?_⟩ <;> (rintro rfl; exact this (by decide))
  | single h => exact passed_quoted (.inr rfl) h
  | double h => exact passed_quoted (.inl rfl) h

theorem passed_attribute {a : Str} (h : Attribute a) : Passed a := by
  cases h with
  | name h1 h2 h3 => exact (passed_blank h2).append (passed_attName h3)
  | value h1 h2 h3 h4 h5 h6 =>
    refine (passed_blank h2).append ((passed_attName h3).append ((passed_blank h4).append ?_))
    rw [← List.singleton_append]
    exact (passed_plain (by decide)).append ((passed_blank h5).append (passed_value h6))

theorem passed_attributes {as : Str} (h : Attributes as) : Passed as := by
  induction h with
  | nil => exact fun _ => rfl
  | cons h _ ih => exact (passed_attribute h).append ih

/-! ### The end -/

/-- The rest after a piece of raw HTML. -/
def tagEnd : Str → Option Str
  | '<' :: '!' :: '-' :: '-' :: r => (findSub ['-', '-'] r).map List.tail
  | '<' :: '?' :: r => findSub ['?', '>'] r
  | '<' :: '!' :: '[' :: r => findSub [']', ']', '>'] r
  | '<' :: '!' :: r => findSub ['>'] r
  | '<' :: r => tagScan none r
  | _ => none

theorem tagEnd_scan {c : Char} {r : Str} (h1 : c ≠ '!') (h2 : c ≠ '?') : tagEnd ('<' :: c :: r) = tagScan none (c :: r) := by
  unfold tagEnd
  split <;> simp_all

theorem tagEnd_decl {c : Char} {r : Str} (h1 : c ≠ '-') (h2 : c ≠ '[') : tagEnd ('<' :: '!' :: c :: r) = findSub ['>'] (c :: r) := by
  unfold tagEnd
  split <;> simp_all
  rename_i h _
  exact absurd (by assumption : '!' :: c :: r = _).symm (h _)

theorem lower_lt {c d : Char} (hd : d ∈ "<![cdata[".toList) (h : c.toLower = d) : c ≠ ']' ∧ ((d = '<' ∨ d = '!' ∨ d = '[') → c = d) := by
  have hs : c.toNat < 128 := by
    by_cases hs : c.toNat < 128
    · exact hs
    · exfalso
      have : c.toLower = c := by
        unfold Char.toLower
        rw [dif_neg]
        intro hh
        have h1 := hh.2
        have h2 : c.toNat ≤ 90 := h1
        omega
      rw [this] at h
      subst h
      have : ∀ d ∈ "<![cdata[".toList, d.toNat < 128 := by decide
      exact hs (this c hd)
  have key : ∀ n, n < 128 → ∀ d ∈ "<![cdata[".toList, (Char.ofNat n).toLower = d →
      Char.ofNat n ≠ ']' ∧ ((d = '<' ∨ d = '!' ∨ d = '[') → Char.ofNat n = d) := by decide +kernel
  have := key c.toNat hs d hd
  rw [Char.ofNat_toNat] at this
  exact this h

/-- A piece of raw HTML ends where `tagEnd` says. -/
theorem tagEnd_of {m : Str} (h : HtmlTag m) (k : Str) : tagEnd (m ++ k) = some k := by
  cases h with
  | @opening n as w sl h1 h2 h3 h4 =>
    have hp : Passed (n ++ (as ++ (w ++ sl))) := (passed_tagName h1).append ((passed_attributes h2).append ((passed_blank h3).append (by
      rcases h4 with rfl | rfl
      · exact fun _ => rfl
      · exact passed_plain (by decide))))
    have e : '<' :: (n ++ (as ++ (w ++ (sl ++ ['>'])))) ++ k = '<' :: ((n ++ (as ++ (w ++ sl))) ++ '>' :: k) := by simp
    have h5 := hp ('>' :: k)
    obtain ⟨a, r, rfl, h6, _⟩ := h1
    have h7 := nameLetter_ne h6
    rw [e]
    simp only [List.cons_append] at h5 ⊢
    rw [tagEnd_scan h7.2.2.2.2.2.2.1 h7.2.2.2.2.2.2.2, h5]
    rfl
  | @closing n w h1 h2 =>
    have hp : Passed ('/' :: (n ++ w)) := by
      rw [← List.singleton_append]
      exact (passed_plain (by decide)).append ((passed_tagName h1).append (passed_blank h2))
    have e : '<' :: '/' :: (n ++ (w ++ ['>'])) ++ k = '<' :: (('/' :: (n ++ w)) ++ '>' :: k) := by simp
    rw [e, List.cons_append, tagEnd_scan (by decide) (by decide), ← List.cons_append, hp]
    rfl
  | @comment x h1 h2 h3 h4 =>
    have e : "<!--".toList ++ (x ++ "-->".toList) ++ k = '<' :: '!' :: '-' :: '-' :: (x ++ (['-', '-'] ++ '>' :: k)) := by
      simp
    rw [e, tagEnd, findSub_first (by simp)]
    · rfl
    · rintro ⟨a, b, hab⟩
      rcases List.eq_nil_or_concat b with rfl | ⟨b, c, rfl⟩
      · have : x = a ++ ['-'] := by
          have e2 : (a ++ ['-']) ++ ['-'] = x ++ ['-'] := by simpa using hab
          exact (List.append_cancel_right e2).symm
        exact h3 (by rw [this, List.getLast?_concat])
      · have e2 : (a ++ ['-', '-'] ++ b) ++ [c] = x ++ ['-'] := by simpa using hab
        exact h4 ⟨a, b, (List.append_inj' e2 rfl).1⟩
  | @instruction x h1 h2 =>
    have e : "<?".toList ++ (x ++ "?>".toList) ++ k = '<' :: '?' :: (x ++ (['?', '>'] ++ k)) := by simp
    rw [e, tagEnd, findSub_first (by simp) _ _ h2]
  | @declaration n w x h1 h2 h3 h4 h5 =>
    have e : '<' :: '!' :: (n ++ (w ++ (x ++ ['>']))) ++ k = '<' :: '!' :: ((n ++ (w ++ x)) ++ (['>'] ++ k)) := by simp
    rw [e]
    cases n with
    | nil => exact absurd rfl h1
    | cons c n =>
      have h6 := nameLetter_ne (h2 c (by simp))
      rw [List.cons_append, List.cons_append, tagEnd_decl h6.2.2.2.1 h6.2.2.2.2.1, ← List.cons_append, ← List.cons_append]
      refine findSub_first (by simp) _ _ ?_
      rw [show ['>'].dropLast = ([] : Str) from rfl, List.append_nil]
      intro hi
      have hm : '>' ∈ (c :: n) ++ (w ++ x) := hi.subset (by simp)
      rcases List.mem_append.1 hm with hm | hm
      · exact (nameLetter_ne (h2 _ hm)).1 rfl
      · rcases List.mem_append.1 hm with hm | hm
        · have := h4 _ hm
          revert this; decide
        · exact h5 hm
  | @cdata w x h1 h2 =>
    have hlen : w.length = 9 := by have := congrArg List.length h1; simpa using this
    obtain ⟨c1, c2, c3, c4, c5, c6, c7, c8, c9, rfl⟩ : ∃ c1 c2 c3 c4 c5 c6 c7 c8 c9, w = [c1, c2, c3, c4, c5, c6, c7, c8, c9] := by
      match w, hlen with
      | [c1, c2, c3, c4, c5, c6, c7, c8, c9], _ => exact ⟨_, _, _, _, _, _, _, _, _, rfl⟩
    have h1 : [c1.toLower, c2.toLower, c3.toLower, c4.toLower, c5.toLower, c6.toLower, c7.toLower, c8.toLower, c9.toLower] =
      ['<', '!', '[', 'c', 'd', 'a', 't', 'a', '['] := h1
    simp only [List.cons.injEq, and_true] at h1
    obtain ⟨e1, e2, e3, e4, e5, e6, e7, e8, e9⟩ := h1
    obtain rfl := (lower_lt (by decide) e1).2 (by decide)
    obtain rfl := (lower_lt (by decide) e2).2 (by decide)
    obtain rfl := (lower_lt (by decide) e3).2 (by decide)
    have e : ['<', '!', '[', c4, c5, c6, c7, c8, c9] ++ (x ++ "]]>".toList) ++ k =
      '<' :: '!' :: '[' :: ([c4, c5, c6, c7, c8, c9] ++ (x ++ ([']', ']', '>'] ++ k))) := by simp
    rw [e, tagEnd, findSub_skip rfl, findSub_first (p := [']', ']', '>']) (by simp) _ _ h2]
    simp only [List.mem_cons, List.not_mem_nil, or_false, not_or]
    exact ⟨(lower_lt (by decide) e4).1.symm, (lower_lt (by decide) e5).1.symm, (lower_lt (by decide) e6).1.symm, (lower_lt (by decide) e7).1.symm,
      (lower_lt (by decide) e8).1.symm, (lower_lt (by decide) e9).1.symm⟩

/-- Raw HTML ends at one place only. -/
theorem htmlTag_unique {m m' k k' : Str} (h : HtmlTag m) (h' : HtmlTag m') (e : m ++ k = m' ++ k') : m = m' ∧ k = k' := by
  have h1 := tagEnd_of h k
  rw [e, tagEnd_of h' k'] at h1
  cases h1
  exact ⟨List.append_cancel_right e, rfl⟩

/-! ### Steps -/

/-- There is no autolink at the beginning of the text. -/
theorem no_autolink {c : Ctx} {pos : Nat} {s : Str} (h : c.rest pos = s) (hn : ¬ ∃ u r, s = '<' :: (u ++ '>' :: r) ∧ (AutoUri u ∨ EmailAddress u)) :
    c.match_ reEmailAutolink pos = none ∧ c.match_ reAutolink pos = none := by
  constructor
  · cases hm : c.match_ reEmailAutolink pos with
    | none => rfl
    | some mp =>
      obtain ⟨m, p⟩ := mp
      obtain ⟨rfl, h2, h3⟩ := match_den hm
      obtain ⟨u, rfl, hu⟩ := email_of_den h3
      exact absurd ⟨u, _, by rw [← h, h2, List.cons_append, List.append_assoc]; rfl, .inr hu⟩ hn
  · cases hm : c.match_ reAutolink pos with
    | none => rfl
    | some mp =>
      obtain ⟨m, p⟩ := mp
      obtain ⟨rfl, h2, h3⟩ := match_den hm
      obtain ⟨u, rfl, hu⟩ := (den_autolink _ _).1 h3
      exact absurd ⟨u, _, by rw [← h, h2, List.cons_append, List.append_assoc]; rfl, .inl hu⟩ hn

theorem match_tag {c : Ctx} {pos p : Nat} {m : Str} (h : c.match_ reHtmlTag pos = some (m, p)) :
    p = pos + m.length ∧ c.rest pos = m ++ c.rest p ∧ HtmlTag m := by
  obtain ⟨rfl, h2, h3⟩ := match_den h
  refine ⟨rfl, h2, ?_⟩
  have hre : reHtmlTag.rest (c.rest pos) = some (c.rest (pos + m.length)) := by
    unfold Ctx.match_ at h
    simp only [Option.map_eq_some_iff, Prod.mk.injEq] at h
    obtain ⟨m', g1, rfl, _⟩ := h
    obtain ⟨t', g2, g3⟩ := Re.matchPrefix_append g1
    rw [g2, rest_add g3]
  obtain ⟨m', g1, g2⟩ := htmlTag_match hre
  have := List.append_cancel_right (h2.symm.trans g1)
  rw [this]; exact g2

theorem parse_less {c : Ctx} {st : IState} {t : Str} (h : c.rest st.pos = '<' :: t) :
    parseInline c st = .ok (some (fallback '<' (match parseAutolink c st with
      | (true, s) => (true, s)
      | (false, s) => parseHtmlTag c s))) := by
  have hp : c.peek st.pos = some '<' := rest_peek h
  rw [parseInline, hp]
  simp only [show ('<' == '\n') = false by decide, show ('<' == '\\') = false by decide, show ('<' == '`') = false by decide,
    show ('<' == '*') = false by decide, show ('<' == '_') = false by decide, show ('<' == '\'') = false by decide,
    show ('<' == '"') = false by decide, show ('<' == '[') = false by decide, show ('<' == '!') = false by decide,
    show ('<' == ']') = false by decide, Bool.or_self, Bool.false_eq_true, if_false, beq_self_eq_true, if_true]
  rfl

/-- Raw HTML. -/
theorem step_tag {c : Ctx} {st : IState} {m t : Str} (h : c.rest st.pos = m ++ t) (hm : HtmlTag m)
    (hn : ¬ ∃ u r, m ++ t = '<' :: (u ++ '>' :: r) ∧ (AutoUri u ∨ EmailAddress u)) :
    parseInline c st = .ok (some (st.add m.length (htmlInlineNode m))) := by
  obtain ⟨n1, n2⟩ := no_autolink h hn
  obtain ⟨m1, hm1⟩ : ∃ m1, m = '<' :: m1 := by
    cases m with
    | nil => have := (htmlTag_ends hm).1; cases this
    | cons a m => have := (htmlTag_ends hm).1; cases this; exact ⟨_, rfl⟩
  rw [parse_less (t := m1 ++ t) (by rw [h, hm1]; rfl), parseAutolink, n1]
  simp only [n2, parseHtmlTag]
  cases hr : c.match_ reHtmlTag st.pos with
  | none => exact absurd ⟨m, t, h, hm⟩ (htmlTag_none (match_none_rest hr))
  | some mp =>
    obtain ⟨m', p⟩ := mp
    obtain ⟨rfl, g2, g3⟩ := match_tag hr
    obtain ⟨rfl, _⟩ := htmlTag_unique hm g3 (h.symm.trans g2)
    rfl

/-- A less-than sign that starts nothing. -/
theorem step_plain_less {c : Ctx} {st : IState} {t : Str} (h : c.rest st.pos = '<' :: t) (hn : ¬ ∃ m r, '<' :: t = m ++ r ∧ AngleForm m) :
    parseInline c st = .ok (some (st.add 1 (textNode ['<']))) := by
  obtain ⟨n1, n2⟩ := no_autolink h (by
    rintro ⟨u, r, e, hu⟩
    exact hn ⟨'<' :: (u ++ ['>']), r, by rw [e]; simp, .inl ⟨u, rfl, hu⟩⟩)
  rw [parse_less h, parseAutolink, n1]
  simp only [n2, parseHtmlTag]
  cases hr : c.match_ reHtmlTag st.pos with
  | some mp =>
    obtain ⟨m', p⟩ := mp
    obtain ⟨rfl, g2, g3⟩ := match_tag hr
    exact absurd ⟨m', _, h.symm.trans g2, .inr g3⟩ hn
  | none => rfl

/-- An autolink. -/
theorem step_autouri {c : Ctx} {st : IState} {u t : Str} (h : c.rest st.pos = '<' :: (u ++ ['>']) ++ t) (hu : AutoUri u) :
    parseInline c st = .ok (some (st.add (u.length + 2) (linkNode .link (normalizeUri u) [] [textNode u]))) := by
  have hne : ∀ {v : Str}, AutoUri v → '>' ∉ v := by
    rintro v ⟨a, s, r, rfl, h1, _, _, h2, h3⟩ hm
    rcases List.mem_append.1 hm with hm | hm
    · rcases List.mem_cons.1 hm with rfl | hm
      · exact (nameLetter_ne h1).1 rfl
      · rcases h2 _ hm with h | h | h | h | h
        · exact (nameLetter_ne h).1 rfl
        · exact (digit_ne h).1 rfl
        all_goals revert h; decide
    · rcases List.mem_cons.1 hm with hm | hm
      · revert hm; decide
      · exact (h3 _ hm).2.2 rfl
  have n1 : c.match_ reEmailAutolink st.pos = none := by
    cases hm : c.match_ reEmailAutolink st.pos with
    | none => rfl
    | some mp =>
      exfalso
      obtain ⟨m, p⟩ := mp
      obtain ⟨rfl, h2, h3⟩ := match_den hm
      obtain ⟨v, rfl, b, d, rfl, _, g2, _⟩ := email_of_den h3
      obtain ⟨a, s, r, rfl, h8, _, _, h11, _⟩ := hu
      have e : (a :: s) ++ ':' :: (r ++ '>' :: t) = b ++ '@' :: (d ++ '>' :: c.rest (st.pos + ('<' :: ((b ++ '@' :: d) ++ ['>'])).length)) := by
        have := h.symm.trans h2
        simp only [List.cons_append, List.append_assoc, List.cons.injEq, true_and, List.nil_append] at this ⊢
        exact this
      have nl : ∀ c, NameLetter c → (c != ':' && c != '@') = true := by
        intro c hc
        rw [Bool.and_eq_true, bne_iff_ne, bne_iff_ne]
        constructor <;> (rintro rfl; revert hc; unfold NameLetter AsciiLetter; decide)
      have hs : ∀ c ∈ a :: s, (c != ':' && c != '@') = true := by
        intro c hc
        rcases List.mem_cons.1 hc with rfl | hc
        · exact nl _ h8
        · rcases h11 c hc with h | h | rfl | rfl | rfl
          · exact nl _ h
          · rw [Bool.and_eq_true, bne_iff_ne, bne_iff_ne]
            constructor <;> (rintro rfl; revert h; unfold Digit; decide)
          all_goals decide
      have hb : ∀ c ∈ b, (c != ':' && c != '@') = true := by
        intro c hc
        rw [Bool.and_eq_true, bne_iff_ne, bne_iff_ne]
        constructor <;> (rintro rfl; have := g2 _ hc; revert this; unfold AsciiAlnum AsciiLetter; decide)
      have := (span_unique (p := fun c => c != ':' && c != '@') hs hb (by decide) (by decide) e).2.1
      revert this; decide
  rw [parse_less (t := u ++ ['>'] ++ t) h, parseAutolink, n1]
  cases hr : c.match_ reAutolink st.pos with
  | none =>
    exfalso
    have := Re.rest_isSome_iff (r := reAutolink) (s := c.rest st.pos).2 ⟨_, t, h, (den_autolink _ _).2 ⟨u, rfl, hu⟩⟩
    rw [match_none_rest hr] at this; cases this
  | some mp =>
    obtain ⟨m, p⟩ := mp
    obtain ⟨rfl, h2, h3⟩ := match_den hr
    obtain ⟨v, rfl, hv⟩ := (den_autolink _ _).1 h3
    have e : u ++ '>' :: t = v ++ '>' :: c.rest (st.pos + ('<' :: (v ++ ['>'])).length) := by
      have := h.symm.trans h2
      simp only [List.cons_append, List.append_assoc, List.cons.injEq, true_and, List.nil_append] at this ⊢
      exact this
    obtain ⟨rfl, _⟩ := first_char (hne hu) (hne hv) e
    simp only [fallback, if_true, chop_wrap, List.length_cons, List.length_append, List.length_nil]
    rfl

theorem autouri_colon {u : Str} (h : AutoUri u) : ':' ∈ u ∧ ∀ c ∈ u, 0x20 < c.toNat := by
  obtain ⟨a, s, r, rfl, h1, -, -, h2, h3⟩ := h
  have nl : ∀ c, NameLetter c → 0x20 < c.toNat := by
    intro c hc
    rcases hc with (⟨h, _⟩ | ⟨h, _⟩) | h | h | h | h
    · have : 'a'.toNat ≤ c.toNat := h
      exact Nat.lt_of_lt_of_le (by decide) this
    · have : 'A'.toNat ≤ c.toNat := h
      exact Nat.lt_of_lt_of_le (by decide) this
    all_goals omega
  refine ⟨by simp, fun c hc => ?_⟩
  rw [List.mem_append, List.mem_cons, List.mem_cons] at hc
  rcases hc with (rfl | hc) | rfl | hc
  · exact nl _ h1
  · rcases h2 c hc with h | h | rfl | rfl | rfl
    · exact nl _ h
    · have : '0'.toNat ≤ c.toNat := h.1
      exact Nat.lt_of_lt_of_le (by decide) this
    all_goals decide
  · decide
  · exact (h3 c hc).1

theorem email_at {u : Str} (h : EmailAddress u) : '@' ∈ u ∧ ∀ c ∈ u, c ≠ ' ' ∧ c ≠ '\n' ∧ c ≠ '>' := by
  obtain ⟨x, d, rfl, -, h1, h2⟩ := h
  have al : ∀ c, AsciiAlnum c → c ≠ ' ' ∧ c ≠ '\n' ∧ c ≠ '>' := by
    intro c hc
    refine ⟨?_, ?_, ?_⟩ <;> (rintro rfl; revert hc; unfold AsciiAlnum AsciiLetter; decide)
  have hd : ∀ d, Domain d → ∀ c ∈ d, c ≠ ' ' ∧ c ≠ '\n' ∧ c ≠ '>' := by
    have lab : ∀ l, DomainLabel l → ∀ c ∈ l, c ≠ ' ' ∧ c ≠ '\n' ∧ c ≠ '>' := by
      intro l hl c hc
      rcases hl.2.1 c hc with h | rfl
      · exact al c h
      · decide
    intro d hd
    induction hd with
    | one h => exact lab _ h
    | dot h _ ih =>
      intro c hc
      rw [List.mem_append, List.mem_cons] at hc
      rcases hc with hc | rfl | hc
      · exact lab _ h c hc
      · decide
      · exact ih c hc
  refine ⟨by simp, fun c hc => ?_⟩
  rw [List.mem_append, List.mem_cons] at hc
  rcases hc with hc | rfl | hc
  · rcases h1 c hc with h | h
    · exact al c h
    · clear hc; revert h; revert c; decide
  · decide
  · exact hd d h2 c hc

/-- There is no autolink if, before any colon and at sign, there is white space or the end. -/
theorem no_autolink_of {s p q : Str} {c : Char} (h : s = '<' :: (p ++ c :: q)) (h1 : '>' ∉ p) (h2 : ':' ∉ p) (h3 : '@' ∉ p)
    (hc : c = '>' ∨ c = ' ' ∨ c = '\n') : ¬ ∃ u r, s = '<' :: (u ++ '>' :: r) ∧ (AutoUri u ∨ EmailAddress u) := by
  rintro ⟨u, r, rfl, hu⟩
  have e : u ++ '>' :: r = p ++ c :: q := (List.cons.inj h).2
  rw [List.append_eq_append_iff] at e
  rcases e with ⟨w, rfl, e⟩ | ⟨w, rfl, e⟩
  · cases w with
    | nil =>
      rw [List.append_nil] at h2 h3
      rcases hu with hu | hu
      · exact h2 (autouri_colon hu).1
      · exact h3 (email_at hu).1
    | cons x w =>
      rw [List.cons_append, List.cons.injEq] at e
      exact h1 (by rw [← e.1]; simp)
  · cases w with
    | nil =>
      rw [List.append_nil] at hu
      rcases hu with hu | hu
      · exact h2 (autouri_colon hu).1
      · exact h3 (email_at hu).1
    | cons x w =>
      rw [List.cons_append, List.cons.injEq] at e
      obtain ⟨rfl, -⟩ := e
      rcases hu with hu | hu
      · have := (autouri_colon hu).2 c (by simp)
        rcases hc with rfl | rfl | rfl
        · obtain ⟨a, s, r', hh, g1, -, -, g2, g3⟩ := hu
          have hm : '>' ∈ p ++ '>' :: w := by simp
          rw [hh, List.mem_append, List.mem_cons, List.mem_cons] at hm
          rcases hm with (rfl | hm) | hm | hm
          · revert g1; unfold NameLetter AsciiLetter; decide
          · have := g2 _ hm; revert this; unfold NameLetter AsciiLetter Digit; decide
          · cases hm
          · exact (g3 _ hm).2.2 rfl
        · revert this; decide
        · revert this; decide
      · have := (email_at hu).2 c (by simp)
        rcases hc with rfl | rfl | rfl
        · exact this.2.2 rfl
        · exact this.1 rfl
        · exact this.2.1 rfl

/-- Nothing starts with a less-than sign and one of these characters. -/
theorem no_angle_of {k : Str} (h : ∀ c, k.head? = some c → c ∈ " \n<>\"(),:;@[\\]".toList) : ¬ ∃ m r, '<' :: k = m ++ r ∧ AngleForm m := by
  have key : ∀ c r, k = c :: r → c ∈ " \n<>\"(),:;@[\\]".toList := by
    rintro c r rfl; exact h c rfl
  have nl : ∀ c ∈ " \n<>\"(),:;@[\\]".toList, ¬ NameLetter c := by unfold NameLetter AsciiLetter; decide
  rintro ⟨m, r, e, hm⟩
  rcases hm with ⟨u, rfl, hu⟩ | hm
  · rcases hu with ⟨a, s, r', rfl, h1, -⟩ | ⟨x, d, rfl, h1, h2, -⟩
    · exact nl a (key a _ (List.cons.inj e).2) h1
    · cases x with
      | nil => exact h1 rfl
      | cons a x =>
        have h3 := key a _ (List.cons.inj e).2
        have h4 := h2 a (by simp)
        clear h1 h2 e
        revert h4; revert h3; revert a
        unfold AsciiAlnum AsciiLetter; decide
  · cases hm with
    | opening h1 =>
      obtain ⟨a, s, rfl, h1, -⟩ := h1
      exact nl a (key a _ (List.cons.inj e).2) h1
    | closing => exact absurd (key _ _ (List.cons.inj e).2) (by decide)
    | comment => exact absurd (key _ _ (List.cons.inj e).2) (by decide)
    | instruction => exact absurd (key _ _ (List.cons.inj e).2) (by decide)
    | declaration => exact absurd (key _ _ (List.cons.inj e).2) (by decide)
    | cdata h1 =>
      rename_i w _ _
      match w, h1 with
      | _ :: b :: w, h1 =>
        have h3 := key b _ (List.cons.inj e).2
        have h4 : b.toLower = '!' := by injection h1 with _ h1; injection h1
        revert h4; clear e h1; revert h3; revert b; decide
      | [_], h1 => exact absurd (congrArg List.length h1) (by simp)
      | [], h1 => exact absurd (congrArg List.length h1) (by simp)

end CM
