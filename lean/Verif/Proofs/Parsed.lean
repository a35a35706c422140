import Verif.Proofs.HtmlTotal
import Verif.Spec.Entity
/-
The results about parsing for a particular input.
-/
set_option linter.unusedVariables false
namespace CM
open Spec

/-! ### Numerals -/

theorem char_le_iff (a b : Char) : a ≤ b ↔ a.toNat ≤ b.toNat := by
  rw [Char.le_def, UInt32.le_iff_toNat_le]; rfl

theorem digit_dec {c : Char} (h : isDig c = true) : digit c = some (digitVal c) ∧ digitVal c < 10 := by
  simp only [isDig, inRange, Bool.and_eq_true, decide_eq_true_eq] at h
  have e1 : '0'.toNat = 48 := rfl
  have e2 : '9'.toNat = 57 := rfl
  simp only [digit, digitVal, char_le_iff, inRange, Bool.and_eq_true, decide_eq_true_eq]
  rw [if_pos h, if_pos h]
  refine ⟨?_, ?_⟩
  · rfl
  · omega

theorem digit_hex {c : Char} (h : isHexCI c = true) : digit c = some (digitVal c) ∧ digitVal c < 16 := by
  simp only [isHexCI, isDig, inRange, Bool.or_eq_true, Bool.and_eq_true, decide_eq_true_eq] at h
  have e1 : '0'.toNat = 48 := rfl
  have e2 : '9'.toNat = 57 := rfl
  have e3 : 'a'.toNat = 97 := rfl
  have e4 : 'f'.toNat = 102 := rfl
  have e5 : 'A'.toNat = 65 := rfl
  have e6 : 'F'.toNat = 70 := rfl
  simp only [digit, digitVal, char_le_iff, inRange, Bool.and_eq_true, decide_eq_true_eq, e1, e2, e3, e4, e5, e6] at h ⊢
  split
  · refine ⟨rfl, by omega⟩
  · split
    · refine ⟨by simp only [Option.some.injEq]; omega, by omega⟩
    · split
      · refine ⟨by simp only [Option.some.injEq]; omega, by omega⟩
      · omega

theorem intBase_eq {base : Nat} : ∀ (ds : Str) (a : Nat), (∀ c ∈ ds, digit c = some (digitVal c) ∧ digitVal c < base) →
    ∃ v, numeral base ds = some v ∧ ds.foldl (fun a c => a * base + digitVal c) a = a * base ^ ds.length + v
  | [], a, _ => ⟨0, rfl, by simp⟩
  | c :: cs, a, h => by
    obtain ⟨v, h1, h2⟩ := intBase_eq cs (a * base + digitVal c) (fun x hx => h x (by simp [hx]))
    obtain ⟨h3, h4⟩ := h c (by simp)
    refine ⟨digitVal c * base ^ cs.length + v, ?_, ?_⟩
    · simp [numeral, h1, h3, h4, bind, Option.bind]
    · rw [List.foldl_cons, h2, List.length_cons, Nat.pow_succ]
      rw [Nat.add_mul, Nat.mul_assoc, Nat.mul_comm base, Nat.add_assoc]

theorem numeral_intBase {base : Nat} {ds : Str} (h : ∀ c ∈ ds, digit c = some (digitVal c) ∧ digitVal c < base) :
    numeral base ds = some (intBase base ds) := by
  obtain ⟨v, h1, h2⟩ := intBase_eq ds 0 h
  rw [h1, intBase, h2]; simp

theorem invalid_refused : (invalidCodepoints.all fun n => (invalidCharref n).isSome ||
    (1 ≤ n && n ≤ 8) || n == 0xb || (0xe ≤ n && n ≤ 0x1f) || n == 0x7f || (0xfdd0 ≤ n && n ≤ 0xfdef) ||
    (0xfffe ≤ n % 0x10000 && n ≤ 0x10ffff)) = true := by decide +kernel

theorem numCharref_refused {n : Nat} (h : numCharref n = []) : Refused n := by
  have h1 := List.all_eq_true.1 invalid_refused n (numCharref_nil h)
  have h2 : invalidCharref n = none := by
    unfold numCharref at h
    split at h
    · cases h
    · assumption
  simp only [h2, Option.isSome_none, Bool.false_or, Bool.or_eq_true, Bool.and_eq_true, decide_eq_true_eq, beq_iff_eq] at h1
  unfold Refused
  rcases h1 with ((((h1 | h1) | h1) | h1) | h1) | h1
  · exact Or.inl h1
  · exact Or.inr (Or.inl h1)
  · exact Or.inr (Or.inr (Or.inl h1))
  · exact Or.inr (Or.inr (Or.inr (Or.inl h1)))
  · exact Or.inr (Or.inr (Or.inr (Or.inr (Or.inl h1))))
  · exact Or.inr (Or.inr (Or.inr (Or.inr (Or.inr h1))))

theorem voidRef_spec {m : Str} (h : VoidRef m) : ∃ n, NumericRef m n ∧ Refused n := by
  obtain ⟨⟨k, t, h⟩, he⟩ := h
  rcases entity_shape h with ⟨x, ds, rfl, h1, h2, h2', h3⟩ | ⟨ds, rfl, h2, h2', h3⟩ | ⟨x, ds, rfl, h1, h2, h2', h3⟩
  · rw [unescape_hex h1 h2 h3] at he
    refine ⟨_, Or.inr ⟨x, ds, rfl, h1, h2, h2', numeral_intBase fun c hc => digit_hex (h3 c hc)⟩, numCharref_refused he⟩
  · rw [unescape_dec h2 h3] at he
    exact ⟨_, Or.inl ⟨ds, rfl, h2, h2', numeral_intBase fun c hc => digit_dec (h3 c hc)⟩, numCharref_refused he⟩
  · have hall : ∀ c ∈ x :: ds, isRefChar c = true := by
      intro c hc
      rcases List.mem_cons.1 hc with rfl | hc
      · exact alnumCI_refChar (by simp [isAlnumCI, h1])
      · exact alnumCI_refChar (h3 c hc)
    have := unescape_named (ds := x :: ds) (by simp) (by simpa using h2') hall
    rw [List.cons_append] at this
    rw [this] at he
    exact absurd he (named_ne_nil _)

/-- A reference that decodes to nothing is a plain word. -/
theorem voidRef_chars {m : Str} (h : VoidRef m) : m ≠ [] ∧ ∀ c ∈ m, c ≠ ' ' ∧ c ≠ '\n' ∧ c ≠ Char.ofNat 0xFFFD := by
  obtain ⟨⟨k, t, h⟩, he⟩ := h
  have hex : ∀ c, isHexCI c = true → c ≠ ' ' ∧ c ≠ '\n' ∧ c ≠ Char.ofNat 0xFFFD := by
    intro c hc; refine ⟨?_, ?_, ?_⟩ <;> (rintro rfl; revert hc; decide)
  have alnum : ∀ c, isAlnumCI c = true → c ≠ ' ' ∧ c ≠ '\n' ∧ c ≠ Char.ofNat 0xFFFD := by
    intro c hc; refine ⟨?_, ?_, ?_⟩ <;> (rintro rfl; revert hc; decide)
  have one : ∀ c, c = '&' ∨ c = '#' ∨ c = ';' ∨ c = 'x' ∨ c = 'X' → c ≠ ' ' ∧ c ≠ '\n' ∧ c ≠ Char.ofNat 0xFFFD := by
    rintro c (rfl | rfl | rfl | rfl | rfl) <;> decide
  rcases entity_shape h with ⟨x, ds, rfl, h1, h2, h2', h3⟩ | ⟨ds, rfl, h2, h2', h3⟩ | ⟨x, ds, rfl, h1, h2, h2', h3⟩
  · refine ⟨by simp, ?_⟩
    intro c hc
    simp only [List.mem_cons, List.mem_append, List.not_mem_nil, or_false] at hc
    rcases hc with rfl | rfl | rfl | hc | rfl
    · exact one _ (by simp)
    · exact one _ (by simp)
    · rcases h1 with rfl | rfl <;> exact one _ (by simp)
    · exact hex c (h3 c hc)
    · exact one _ (by simp)
  · refine ⟨by simp, ?_⟩
    intro c hc
    simp only [List.mem_cons, List.mem_append, List.not_mem_nil, or_false] at hc
    rcases hc with rfl | rfl | hc | rfl
    · exact one _ (by simp)
    · exact one _ (by simp)
    · exact hex c (by simp [isHexCI, h3 c hc])
    · exact one _ (by simp)
  · refine ⟨by simp, ?_⟩
    intro c hc
    simp only [List.mem_cons, List.mem_append, List.not_mem_nil, or_false] at hc
    rcases hc with rfl | rfl | hc | rfl
    · exact one _ (by simp)
    · exact alnum _ (by simp [isAlnumCI, h1])
    · exact alnum c (h3 c hc)
    · exact one _ (by simp)

/-! ### Lines of the input -/

theorem split_mem : ∀ (n : Nat) (s : Str), s.length ≤ n → ∀ l ∈ splitLineEndings s, ∀ c ∈ l,
    c ∈ s ∧ c ≠ '\n' ∧ c ≠ '\r'
  | 0, s, h => by
    obtain rfl : s = [] := by simpa using h
    intro l hl c hc
    rw [show splitLineEndings [] = [[]] from by rw [splitLineEndings]] at hl
    simp at hl; subst hl; simp at hc
  | n + 1, [], _ => by
    intro l hl c hc
    rw [show splitLineEndings [] = [[]] from by rw [splitLineEndings]] at hl
    simp at hl; subst hl; simp at hc
  | n + 1, x :: xs, h => by
    have hx : xs.length ≤ n := by simpa using h
    intro l hl c hc
    have rec' : ∀ l ∈ splitLineEndings xs, ∀ c ∈ l, c ∈ x :: xs ∧ c ≠ '\n' ∧ c ≠ '\r' := by
      intro l hl c hc
      have := split_mem n xs hx l hl c hc
      exact ⟨List.mem_cons_of_mem _ this.1, this.2⟩
    by_cases hr : x = '\r'
    · subst hr
      cases xs with
      | nil =>
        rw [split_cr [] (by simp)] at hl
        rcases List.mem_cons.1 hl with rfl | hl
        · simp at hc
        · exact rec' l hl c hc
      | cons y ys =>
        by_cases hy : y = '\n'
        · subst hy
          rw [split_crlf] at hl
          rcases List.mem_cons.1 hl with rfl | hl
          · simp at hc
          · have := split_mem n ys (by simp at hx; omega) l hl c hc
            exact ⟨by simp [this.1], this.2⟩
        · rw [split_cr _ (by simpa using hy)] at hl
          rcases List.mem_cons.1 hl with rfl | hl
          · simp at hc
          · exact rec' l hl c hc
    · by_cases hn : x = '\n'
      · subst hn
        rw [split_lf] at hl
        rcases List.mem_cons.1 hl with rfl | hl
        · simp at hc
        · exact rec' l hl c hc
      · rw [split_other hn hr] at hl
        cases hs : splitLineEndings xs with
        | nil =>
          rw [hs] at hl
          simp only [List.mem_singleton] at hl
          subst hl
          simp only [List.mem_singleton] at hc
          subst hc
          exact ⟨by simp, hn, hr⟩
        | cons a as =>
          rw [hs] at hl rec'
          rcases List.mem_cons.1 hl with rfl | hl
          · rcases List.mem_cons.1 hc with rfl | hc
            · exact ⟨by simp, hn, hr⟩
            · exact rec' a (by simp) c hc
          · exact rec' l (by simp [hl]) c hc

theorem inputLines_mem {s l : Str} (hl : l ∈ inputLines s) : ∀ c ∈ l, c ∈ s ∧ c ≠ '\n' ∧ c ≠ '\r' := by
  refine split_mem s.length s (Nat.le_refl _) l ?_
  unfold inputLines at hl
  dsimp only at hl
  split at hl
  · exact (List.dropLast_sublist _).mem hl
  · exact hl

/-- A line as the parser sees it. -/
abbrev cleaned (ln : Str) : Str := replaceChar (Char.ofNat 0) (Char.ofNat 0xFFFD) ln

/-- Ends of lines of `s`. -/
def TextOf (s l : Str) : Prop := l = [] ∨ ∃ ln ∈ inputLines s, ∃ n, l = (cleaned ln).drop n

theorem cleaned_mem {ln : Str} : ∀ c ∈ cleaned ln, c = Char.ofNat 0xFFFD ∨ (c ∈ ln ∧ c ≠ Char.ofNat 0) := by
  intro c hc
  simp only [cleaned, replaceChar, List.mem_map] at hc
  obtain ⟨d, hd, rfl⟩ := hc
  split
  · exact Or.inl rfl
  · rename_i h; exact Or.inr ⟨hd, by simpa using h⟩

theorem textOf_mem {s l : Str} (h : TextOf s l) : ∀ c ∈ l, c = Char.ofNat 0xFFFD ∨ (c ∈ s ∧ c ≠ Char.ofNat 0 ∧ c ≠ '\n') := by
  rcases h with rfl | ⟨ln, hln, n, rfl⟩
  · intro c hc; simp at hc
  · intro c hc
    rcases cleaned_mem c (List.mem_of_mem_drop hc) with h | ⟨h1, h2⟩
    · exact Or.inl h
    · have := inputLines_mem hln c h1
      exact Or.inr ⟨this.1, h2, this.2.1⟩

theorem textOf_drop (s l : Str) (n : Nat) (h : TextOf s l) : TextOf s (l.drop n) := by
  rcases h with rfl | ⟨ln, hln, k, rfl⟩
  · left; simp
  · right; exact ⟨ln, hln, k + n, by rw [List.drop_drop]⟩

/-! ### A word at the end of a line -/

theorem lines_end {T : Str → Prop} {x : Str} (h : Lines T x) : x = [] ∨ x.getLast? = some '\n' := by
  induction h with
  | nil => exact Or.inl rfl
  | line k _ _ _ => right; simp
  | @drop x n _ ih =>
    rcases ih with rfl | ih
    · left; simp
    · by_cases hn : n < x.length
      · right
        rw [List.getLast?_drop]
        rw [if_neg (by omega)]; exact ih
      · left; exact List.drop_eq_nil_of_le (by omega)

theorem lines_word {T : Str → Prop} (hT : ∀ l, T l → '\n' ∉ l) {m : Str} (hm : ∀ c ∈ m, c ≠ ' ' ∧ c ≠ '\n') {x : Str}
    (h : Lines T x) : ∀ a b, x = a ++ m ++ '\n' :: b → m = [] ∨ ∃ l, T l ∧ m <:+ l := by
  induction h with
  | nil => intro a b e; simp at e
  | @drop x n hx ih =>
    intro a b e
    refine ih (x.take n ++ a) b ?_
    rw [List.append_assoc, List.append_assoc, ← List.append_assoc a, ← e, List.take_append_drop]
  | @line x l k hx hl ih =>
    intro a b e
    have e' : (a ++ m ++ ['\n']) ++ b = x ++ (List.replicate k ' ' ++ (l ++ ['\n'])) := by
      rw [e]; simp
    rcases List.append_eq_append_iff.1 e' with ⟨c, h1, h2⟩ | ⟨c, h1, h2⟩
    · exact ih a c (by rw [h1]; simp)
    · -- `c` is a nonempty prefix of the line that ends with a newline, or empty
      rcases List.eq_nil_or_concat c with rfl | ⟨c', z, rfl⟩
      · refine ih a [] ?_
        simpa using h1.symm
      · rw [List.concat_eq_append] at h1 h2
        rw [← List.append_assoc] at h1
        obtain ⟨h3, h4⟩ := List.append_inj' h1 rfl
        simp only [List.cons.injEq, and_true] at h4
        subst h4
        -- the newline of `c` is the newline of the line
        have hfree : '\n' ∉ List.replicate k ' ' ++ l := by
          simp only [List.mem_append, List.mem_replicate, not_or]
          exact ⟨fun h => absurd h.2 (by decide), hT l hl⟩
        have h5 : List.replicate k ' ' ++ l = c' := by
          have h6 : (List.replicate k ' ' ++ l) ++ ['\n'] = c' ++ '\n' :: b := by
            rw [← List.append_assoc] at h2
            rw [h2]; simp
          rcases List.append_eq_append_iff.1 h6 with ⟨d, g1, g2⟩ | ⟨d, g1, g2⟩
          · cases d with
            | nil => simpa using g1.symm
            | cons y ys =>
              have := congrArg List.length g2
              simp at this
          · cases d with
            | nil => simpa using g1
            | cons y ys =>
              simp only [List.cons_append, List.cons.injEq] at g2
              exfalso
              apply hfree
              rw [g1, ← g2.1]; simp
        rw [← h5] at h3
        -- now `m` is a suffix of `x ++ spaces ++ l`
        rw [← List.append_assoc] at h3
        rcases List.append_eq_append_iff.1 h3 with ⟨d, g1, g2⟩ | ⟨d, g1, g2⟩
        · rcases List.eq_nil_or_concat d with rfl | ⟨d', z, rfl⟩
          · right; exact ⟨l, hl, by rw [g2]; simp⟩
          · exfalso
            rw [List.concat_eq_append] at g1 g2
            have hz := hm z (by rw [g2]; simp)
            have hlast : (x ++ List.replicate k ' ').getLast? = some z := by rw [g1]; simp
            cases k with
            | zero =>
              simp only [List.replicate_zero, List.append_nil] at hlast
              rcases lines_end hx with rfl | h
              · simp at hlast
              · rw [h] at hlast; simp at hlast; exact hz.2 hlast.symm
            | succ k =>
              rw [List.replicate_succ', ← List.append_assoc, List.getLast?_concat] at hlast
              simp at hlast
              exact hz.1 hlast.symm
        · right; exact ⟨l, hl, ⟨d, g2.symm⟩⟩

theorem content_refused {s x : Str} (hx : Content (TextOf s) x) (h : VoidRefNl (strip x)) :
    ∃ ln ∈ inputLines s, EndsWithRefused ln := by
  obtain ⟨a, m, b, e, hm⟩ := h
  obtain ⟨p, q, hpq⟩ := strip_infix x
  have ex : x = (p ++ a) ++ m ++ '\n' :: (b ++ q) := by rw [← hpq, e]; simp
  obtain ⟨hne, hch⟩ := voidRef_chars hm
  have hnl : ∀ l, TextOf s l → '\n' ∉ l := by
    intro l hl hc
    rcases textOf_mem hl _ hc with h | h
    · revert h; decide
    · exact h.2.2 rfl
  rcases hx with hx | ⟨l, hl, rfl⟩
  · rcases lines_word hnl (fun c hc => ⟨(hch c hc).1, (hch c hc).2.1⟩) hx _ _ ex with h | ⟨l, hl, hsuf⟩
    · exact absurd h hne
    · rcases hl with rfl | ⟨ln, hln, n, rfl⟩
      · exact absurd (by simpa using hsuf) hne
      · obtain ⟨u, hu⟩ := hsuf.trans (List.drop_suffix n _)
        obtain ⟨k, h1, h2⟩ := voidRef_spec hm
        refine ⟨ln, hln, ln.take u.length, m, k, ?_, h1, h2⟩
        have h3 : (cleaned ln).drop u.length = m := by rw [← hu]; simp
        have h4 : ln.drop u.length = m := by
          rw [← h3]
          simp only [cleaned, replaceChar] at h3 ⊢
          rw [← List.map_drop] at h3 ⊢
          symm
          refine (List.map_congr_left (g := id) ?_).trans (List.map_id _)
          intro c hc
          show (if (c == Char.ofNat 0) = true then _ else _) = c
          split
          · rename_i h0
            exfalso
            apply (hch (Char.ofNat 0xFFFD) ?_).2.2 rfl
            rw [← h3]
            exact List.mem_map.2 ⟨c, hc, by rw [if_pos h0]⟩
          · rfl
        rw [← h4, List.take_append_drop]
  · exfalso
    have : Strs (· ≠ '\n') (atxContent l) := strs_atxContent fun c hc h => hnl l hl (h ▸ hc)
    exact this '\n' (by rw [ex]; simp) rfl

/-! ### The characters of the tree -/

theorem charsOk_true : CharsOk fun _ => True :=
  ⟨⟨trivial, trivial, trivial, trivial, trivial, trivial, trivial⟩, fun _ _ => trivial, fun _ _ _ _ => trivial,
    fun _ _ _ _ => trivial⟩

theorem charsOk_nul : CharsOk (· ≠ Char.ofNat 0) :=
  ⟨⟨by decide, by decide, by decide, by decide, by decide, by decide, by decide⟩, by decide,
    fun _ h => htmlUnescape_no_nul h, fun _ h => unescapeString_no_nul h⟩

theorem asciiGood_nul : AsciiGood (· ≠ Char.ofNat 0) := by
  rintro c h rfl
  revert h; decide

/-- `parse` on any parser. -/
theorem parseWith_nul (smart : Bool) (p : PState) (s : Str) :
    (∃ t p', parseWith smart p s = .ok (t, p') ∧ p'.spine = [] ∧ p'.doc = some t ∧ t.data.t = .document ∧
      firstLine t.data = 1 ∧ lastLine t.data = (inputLines s).length ∧
      EveryNode (NodeOk (TextOf s) (· ≠ Char.ofNat 0)) t) ∨
    (parseWith smart p s = .error .indexError ∧ ∃ ln ∈ inputLines s, EndsWithRefused ln) := by
  rcases parseWith_ok (T := TextOf s) charsOk_nul (fun l hl c hc => by
      rcases textOf_mem hl c hc with rfl | h
      · decide
      · exact h.2.1) (textOf_drop s) (Or.inl rfl) smart p s
      (fun ln hln => Or.inr ⟨ln, hln, 0, rfl⟩) with h | ⟨h, x, hx, hv⟩
  · exact Or.inl h
  · exact Or.inr ⟨h, content_refused hx hv⟩

theorem parse_eq (smart : Bool) (s : Str) : parse smart s = (parseWith smart PState.init s).map (·.1) := by
  unfold parse
  cases parseWith smart PState.init s <;> rfl

theorem parse_nul (smart : Bool) (s : Str) :
    (∃ t, parse smart s = .ok t ∧ t.data.t = .document ∧
      firstLine t.data = 1 ∧ lastLine t.data = (inputLines s).length ∧
      EveryNode (NodeOk (TextOf s) (· ≠ Char.ofNat 0)) t) ∨
    (parse smart s = .error .indexError ∧ ∃ ln ∈ inputLines s, EndsWithRefused ln) := by
  rw [parse_eq]
  rcases parseWith_nul smart PState.init s with ⟨t, p', h, _, _, h1, h2, h3, h4⟩ | ⟨h, h'⟩
  · rw [h]; exact Or.inl ⟨t, rfl, h1, h2, h3, h4⟩
  · rw [h]; exact Or.inr ⟨rfl, h'⟩

/-- The document, if there is one. -/
theorem parse_doc {smart : Bool} {s : Str} {t : Tree} (h : parse smart s = .ok t) : t.data.t = .document ∧
      firstLine t.data = 1 ∧ lastLine t.data = (inputLines s).length ∧
      EveryNode (NodeOk (TextOf s) (· ≠ Char.ofNat 0)) t := by
  rcases parse_nul smart s with ⟨t', h', hh⟩ | ⟨h', _⟩
  · rw [h] at h'; simp only [Except.ok.injEq] at h'; subst h'; exact hh
  · rw [h] at h'; cases h'

end CM
