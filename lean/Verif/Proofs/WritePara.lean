import Verif.Proofs.WriteInline
import Verif.Proofs.RunLeaf2
/-
The text of words (see `Spec.Write`) as a line of a paragraph or heading.
-/
namespace CM
open Spec

theorem lineChar_punct {c : Char} (h : c ∈ asciiPunctuation) : LineChar c := by
  revert h; revert c
  have : ∀ c ∈ asciiPunctuation, c ≠ Char.ofNat 0 ∧ (c = ' ' ∨ isPySpace c = false) := by decide +kernel
  exact fun {c} h => this c h

theorem lineChar_backslashAll {s : Str} (h : ∀ c ∈ s, LineChar c) : ∀ c ∈ backslashAll s, LineChar c := by
  intro c hc
  obtain ⟨d, hd, hc⟩ := List.mem_flatMap.1 hc
  split at hc
  · rename_i hp
    rcases List.mem_cons.1 hc with rfl | hc
    · exact lineChar_punct (by decide)
    · rw [List.mem_singleton] at hc; subst hc; exact h _ hd
  · rw [List.mem_singleton] at hc; subst hc; exact h _ hd

theorem lineChar_target {d t : Str} (hd : ∀ c ∈ d, LineChar c) (ht : ∀ c ∈ t, LineChar c) : ∀ c ∈ target d t, LineChar c := by
  intro c hc
  have k1 : ∀ c ∈ "(<".toList, LineChar c := fun c hc => lineChar_punct (by revert hc; revert c; decide)
  have k2 : ∀ c ∈ ">".toList, LineChar c := fun c hc => lineChar_punct (by revert hc; revert c; decide)
  have k3 : ∀ c ∈ ")".toList, LineChar c := fun c hc => lineChar_punct (by revert hc; revert c; decide)
  have k4 : ∀ c ∈ "\"".toList, LineChar c := fun c hc => lineChar_punct (by revert hc; revert c; decide)
  have k5 : ∀ c ∈ " \"".toList, LineChar c := by
    have : ∀ c ∈ " \"".toList, c ≠ Char.ofNat 0 ∧ (c = ' ' ∨ isPySpace c = false) := by decide +kernel
    exact this
  unfold target at hc
  rcases List.mem_append.1 hc with hc | hc
  · exact k1 c hc
  rcases List.mem_append.1 hc with hc | hc
  · exact lineChar_backslashAll hd c hc
  rcases List.mem_append.1 hc with hc | hc
  · exact k2 c hc
  rcases List.mem_append.1 hc with hc | hc
  · split at hc
    · cases hc
    · rcases List.mem_append.1 hc with hc | hc
      · exact k5 c hc
      rcases List.mem_append.1 hc with hc | hc
      · exact lineChar_backslashAll ht c hc
      · exact k4 c hc
  · exact k3 c hc

theorem lineChar_replicate {n : Nat} {d : Char} (h : LineChar d) : ∀ c ∈ List.replicate n d, LineChar c := by
  intro c hc; rw [List.eq_of_mem_replicate hc]; exact h

theorem lineChar_space (xs : List Word) : ∀ c ∈ space xs, LineChar c := by
  intro c hc
  unfold space at hc
  split at hc
  · cases hc
  · rw [List.mem_singleton] at hc; subst hc; exact ⟨by decide, .inl rfl⟩

mutual
theorem writeWord_chars : ∀ (x : Word), WordOk x → ∀ c ∈ writeWord x, LineChar c
  | .text s, h, c, hc => by
    rw [WordOk] at h
    rw [writeWord] at hc
    exact lineChar_backslashAll (fun c hc => ⟨(h.2 c hc).1, .inr (h.2 c hc).2⟩) c hc
  | .code s, h, c, hc => by
    rw [WordOk] at h
    rw [writeWord] at hc
    have k : ∀ c ∈ ticks s, LineChar c := lineChar_replicate (lineChar_punct (by decide))
    rcases List.mem_append.1 hc with hc | hc
    · exact k c hc
    rcases List.mem_append.1 hc with hc | hc
    · rcases List.mem_cons.1 hc with rfl | hc
      · exact ⟨by decide, .inl rfl⟩
      rcases List.mem_append.1 hc with hc | hc
      · exact h.2 c hc
      · rw [List.mem_singleton] at hc; subst hc; exact ⟨by decide, .inl rfl⟩
    · exact k c hc
  | .emph b xs, h, c, hc => by
    rw [WordOk] at h
    rw [writeWord] at hc
    have k : ∀ c ∈ stars b, LineChar c := lineChar_replicate (lineChar_punct (by decide))
    rcases List.mem_append.1 hc with hc | hc
    · exact k c hc
    rcases List.mem_append.1 hc with hc | hc
    · exact writeWords_chars xs h.2.2 c hc
    · exact k c hc
  | .link image d t xs, h, c, hc => by
    rw [WordOk] at h
    rw [writeWord] at hc
    have k : ∀ c ∈ opening image, LineChar c := fun c hc => lineChar_punct (by revert hc; revert c; cases image <;> decide)
    rcases List.mem_append.1 hc with hc | hc
    · exact k c hc
    rcases List.mem_append.1 hc with hc | hc
    · exact writeWords_chars xs h.2.2.2 c hc
    rcases List.mem_cons.1 hc with rfl | hc
    · exact lineChar_punct (by decide)
    · exact lineChar_target h.1 h.2.1 c hc
theorem writeWords_chars : ∀ (xs : List Word), WordsOk xs → ∀ c ∈ writeWords xs, LineChar c
  | [], h, c, hc => by rw [writeWords] at hc; cases hc
  | x :: xs, h, c, hc => by
    rw [WordsOk] at h
    rw [writeWords] at hc
    rcases List.mem_append.1 hc with hc | hc
    · exact writeWord_chars x h.1 c hc
    rcases List.mem_append.1 hc with hc | hc
    · exact lineChar_space xs c hc
    · exact writeWords_chars xs h.2 c hc
end

theorem code_ne {x : Word} (h : WordOk x) (hs : ∀ s, x ≠ .text s) : ∃ c, (writeWord x).getLast? = some c ∧ c ∈ asciiPunctuation := by
  cases x with
  | text s => exact absurd rfl (hs s)
  | code s =>
    rw [writeWord, List.getLast?_append_of_ne_nil _ (by simp [ticks])]
    refine ⟨'`', ?_, by decide⟩
    rw [ticks, List.replicate_succ', List.getLast?_append_of_ne_nil _ (by simp), List.getLast?_append_of_ne_nil _ (by simp)]; rfl
  | emph b xs =>
    rw [writeWord, ← List.append_assoc, List.getLast?_append_of_ne_nil _ (by cases b <;> simp [stars])]
    exact ⟨'*', by cases b <;> rfl, by decide⟩
  | link image d t xs =>
    refine ⟨')', ?_, by decide⟩
    rw [writeWord, List.getLast?_append_of_ne_nil _ (by simp), List.getLast?_append_of_ne_nil _ (by simp)]
    have : ∀ a b c e : Str, (']' :: (a ++ (b ++ (c ++ (e ++ ")".toList))))).getLast? = some ')' := by
      intro a b c e
      have e1 : ']' :: (a ++ (b ++ (c ++ (e ++ ")".toList)))) = (']' :: (a ++ (b ++ (c ++ e)))) ++ [')'] := by
        simp
      rw [e1, List.getLast?_append_of_ne_nil _ (by simp)]; rfl
    exact this _ _ _ _

theorem word_last {x : Word} (h : WordOk x) : ∃ c, (writeWord x).getLast? = some c ∧ isPySpace c = false := by
  by_cases hs : ∃ s, x = .text s
  · obtain ⟨s, rfl⟩ := hs
    rw [WordOk] at h
    rw [writeWord, backslashAll_getLast]
    cases hl : s.getLast? with
    | none => exact absurd (List.getLast?_eq_none_iff.1 hl) h.1
    | some c => exact ⟨c, rfl, (h.2 c (List.mem_of_getLast? hl)).2⟩
  · obtain ⟨c, h1, h2⟩ := code_ne h fun s hs' => hs ⟨s, hs'⟩
    refine ⟨c, h1, ?_⟩
    have : ∀ c ∈ asciiPunctuation, isPySpace c = false := by decide +kernel
    exact this c h2

theorem words_last {xs : List Word} (h : WordsOk xs) (hne : xs ≠ []) : ∃ ys x, xs = ys ++ [x] ∧ WordOk x ∧
    (writeWords xs).getLast? = (writeWord x).getLast? := by
  rcases List.eq_nil_or_concat xs with rfl | ⟨ys, x, rfl⟩
  · exact absurd rfl hne
  · rw [List.concat_eq_append] at h ⊢
    have hx := wordsOk_mem h (x := x) (by simp)
    exact ⟨ys, x, rfl, hx, writeWords_last ys x (words_ne hx)⟩

theorem words_ends {xs : List Word} (h : WordsOk xs) (hne : xs ≠ []) : ∃ c, (writeWords xs).getLast? = some c ∧ isPySpace c = false := by
  obtain ⟨ys, x, rfl, hx, he⟩ := words_last h hne
  rw [he]; exact word_last hx

theorem words_head {xs : List Word} (h : WordsOk xs) (hne : xs ≠ []) : ∃ c r, writeWords xs = c :: r ∧ isPySpace c = false := by
  cases xs with
  | nil => exact absurd rfl hne
  | cons x xs =>
    rw [WordsOk] at h
    rw [writeWords]
    by_cases hs : ∃ s, x = .text s
    · obtain ⟨s, rfl⟩ := hs
      rw [WordOk] at h
      rw [writeWord]
      cases s with
      | nil => exact absurd rfl h.1.1
      | cons c s =>
        obtain ⟨d, r, he, h'⟩ := backslashAll_head (c := c) (x := s)
        refine ⟨d, _, by rw [he]; rfl, ?_⟩
        rcases h' with ⟨rfl, _⟩ | ⟨rfl, _⟩
        · decide
        · exact (h.1.2 d (by simp)).2
    · obtain ⟨c, r, he, hc⟩ := word_head fun s hs' => hs ⟨s, hs'⟩
      refine ⟨c, _, by rw [he]; rfl, ?_⟩
      have : ∀ c ∈ "*`[!".toList, isPySpace c = false := by decide +kernel
      exact this c hc

/-- Number signs at the end of written words are escaped. -/
theorem words_closing {xs : List Word} (h : WordsOk xs) (hne : xs ≠ []) : ¬ ClosingSequence (writeWords xs) := by
  obtain ⟨ys, x, rfl, hx, he⟩ := words_last h hne
  rintro ⟨y, k, h1, h2⟩
  have hl : (writeWords (ys ++ [x])).getLast? = some '#' := by
    rw [h1, List.getLast?_append_of_ne_nil _ (by simp), List.replicate_succ', List.getLast?_append_of_ne_nil _ (by simp)]; rfl
  by_cases hs : ∃ s, x = .text s
  · obtain ⟨s, rfl⟩ := hs
    rw [he, writeWord, backslashAll_getLast] at hl
    obtain ⟨s', rfl⟩ : ∃ s', s = s' ++ ['#'] := by
      rcases List.eq_nil_or_concat s with rfl | ⟨s', c, rfl⟩
      · cases hl
      · rw [List.concat_eq_append, List.getLast?_append_of_ne_nil _ (by simp)] at hl
        exact ⟨s', by rw [List.concat_eq_append]; simpa using hl⟩
    -- the two last characters are `\#`
    have key : ∃ z, writeWords (ys ++ [.text (s' ++ ['#'])]) = z ++ ['\\', '#'] := by
      clear h1 h2 hl he h hne
      induction ys with
      | nil =>
        refine ⟨backslashAll s', ?_⟩
        rw [List.nil_append, writeWords, writeWords, writeWord, backslashAll_append]
        show backslashAll s' ++ ['\\', '#'] ++ (space [] ++ []) = _
        simp [space]
      | cons y ys ih =>
        obtain ⟨z, hz⟩ := ih
        exact ⟨writeWord y ++ (space (ys ++ [.text (s' ++ ['#'])]) ++ z), by rw [List.cons_append, writeWords, hz]; simp⟩
    obtain ⟨z, hz⟩ := key
    rw [h1, List.replicate_succ', ← List.append_assoc] at hz
    have e2 : z ++ ['\\', '#'] = (z ++ ['\\']) ++ ['#'] := by simp
    rw [e2] at hz
    have e3 := (List.append_inj' hz rfl).1
    have hl2 : (y ++ List.replicate k '#').getLast? = some '\\' := by rw [e3, List.getLast?_append_of_ne_nil _ (by simp)]; rfl
    cases k with
    | zero =>
      rw [List.replicate_zero, List.append_nil] at hl2
      rcases h2 _ hl2 with h | h <;> exact absurd h (by decide)
    | succ k =>
      rw [List.getLast?_append_of_ne_nil _ (by simp)] at hl2
      have := List.eq_of_mem_replicate (List.mem_of_getLast? hl2)
      exact absurd this (by decide)
  · cases x with
    | text s => exact hs ⟨s, rfl⟩
    | code s =>
      rw [he, writeWord, List.getLast?_append_of_ne_nil _ (by simp [ticks]), List.getLast?_append_of_ne_nil _ (by simp [ticks]), ticks] at hl
      exact absurd (List.eq_of_mem_replicate (List.mem_of_getLast? hl)) (by decide)
    | emph b xs =>
      rw [he, writeWord, ← List.append_assoc, List.getLast?_append_of_ne_nil _ (by cases b <;> simp [stars]), stars] at hl
      exact absurd (List.eq_of_mem_replicate (List.mem_of_getLast? hl)) (by decide)
    | link image d t xs =>
      have : ∀ a b c e : Str, (']' :: (a ++ (b ++ (c ++ (e ++ ")".toList))))).getLast? = some ')' := by
        intro a b c e
        have e1 : ']' :: (a ++ (b ++ (c ++ (e ++ ")".toList)))) = (']' :: (a ++ (b ++ (c ++ e)))) ++ [')'] := by
          simp
        rw [e1, List.getLast?_append_of_ne_nil _ (by simp)]; rfl
      rw [he, writeWord, List.getLast?_append_of_ne_nil _ (by simp), List.getLast?_append_of_ne_nil _ (by simp)] at hl
      rw [show (']' :: target d t).getLast? = some ')' from this _ _ _ _] at hl
      cases hl

/-- The first character of a line that is no digit. -/
theorem digits_end {a b r r' : Str} {x y : Char} (h : a ++ x :: r = b ++ y :: r') (ha : ∀ c ∈ a, isPyDigit c = true) (hx : isPyDigit x = false)
    (hb : ∀ c ∈ b, isPyDigit c = true) (hy : isPyDigit y = false) : x = y := by
  induction a generalizing b with
  | nil =>
    cases b with
    | nil => exact (List.cons.inj h).1
    | cons c b =>
      have := (List.cons.inj h).1
      rw [this, hb c (by simp)] at hx; cases hx
  | cons c a ih =>
    cases b with
    | nil =>
      have := (List.cons.inj h).1
      rw [← this, ha c (by simp)] at hy; cases hy
    | cons d b =>
      exact ih (List.cons.inj h).2 (fun c hc => ha c (by simp [hc])) (fun c hc => hb c (by simp [hc]))

/-- A line of words does not begin with a number and a delimiter. -/
theorem words_number {xs : List Word} (h : WordsOk xs) {num r : Str} {d : Char} (he : writeWords xs = num ++ d :: r)
    (hn : ∀ c ∈ num, isPyDigit c = true) (hd : d = '.' ∨ d = ')') : False := by
  have hdd : isPyDigit d = false := by rcases hd with rfl | rfl <;> decide +kernel
  have hdp : d ∈ asciiPunctuation := by rcases hd with rfl | rfl <;> decide
  cases xs with
  | nil => rw [writeWords] at he; cases num <;> cases he
  | cons x xs =>
    rw [WordsOk] at h
    rw [writeWords] at he
    by_cases hs : ∃ s, x = .text s
    · obtain ⟨s, rfl⟩ := hs
      rw [writeWord] at he
      have hsp : ∀ {c : Char} {q : Str}, space xs ++ writeWords xs = c :: q → c = ' ' := by
        intro c q hq
        unfold space at hq
        split at hq
        · rename_i hx
          rw [List.isEmpty_iff.1 hx, writeWords] at hq; cases hq
        · exact (List.cons.inj hq).1.symm
      rcases List.append_eq_append_iff.1 he with ⟨y, h1, h2⟩ | ⟨y, h1, h2⟩
      · cases y with
        | nil =>
          have := hsp (by rw [h2]; rfl)
          subst this; rcases hd with hd | hd <;> exact absurd hd (by decide)
        | cons c y =>
          have := hsp (by rw [h2]; rfl)
          subst this
          have := hn ' ' (by rw [h1]; simp)
          exact absurd this (by decide +kernel)
      · cases y with
        | nil =>
          rw [List.nil_append] at h2
          have := hsp h2.symm
          subst this; rcases hd with hd | hd <;> exact absurd hd (by decide)
        | cons c y =>
          have hc := (List.cons.inj h2).1
          subst hc
          have := backslashAll_no_marker h1 (fun c hc => pyDigit_not_punct (hn c hc)) hdp
          subst this
          rcases hd with hd | hd <;> exact absurd hd (by decide)
    · obtain ⟨c, q, hc, hm⟩ := word_head fun s hs' => hs ⟨s, hs'⟩
      rw [hc] at he
      have hcd : isPyDigit c = false := by
        have : ∀ c ∈ "*`[!".toList, isPyDigit c = false := by decide +kernel
        exact this c hm
      have := digits_end (a := []) he (by simp) hcd hn hdd
      subst this
      rcases hd with rfl | rfl <;> revert hm <;> decide

/-- A line of words starts no block. -/
theorem words_noBlock {xs : List Word} (h : ParaOk xs) : StartsNoBlock false (writeWords xs) := by
  obtain ⟨hne, hok, hhead⟩ := h
  have hord : ∀ num, ¬ OrderedMarker num (writeWords xs) := by
    rintro num ⟨d, r, he, _, _, hn, hd, _⟩
    exact words_number hok he hn hd
  have h0 : Char.ofNat 0 ∉ writeWords xs := fun h => (writeWords_chars xs hok _ h).1 rfl
  cases xs with
  | nil => exact absurd rfl hne
  | cons x rest =>
    have hok' := hok
    rw [WordsOk] at hok'
    cases x with
    | text s =>
      have hok2 := hok'.1
      rw [WordOk] at hok2
      cases s with
      | nil => exact absurd rfl hok2.1
      | cons c s =>
        obtain ⟨d, r, he, h'⟩ := backslashAll_head (c := c) (x := s)
        have e : writeWords (.text (c :: s) :: rest) = d :: (r ++ (space rest ++ writeWords rest)) := by
          rw [writeWords, writeWord, he]; rfl
        refine startsNoBlock_of e ?_ ?_ h0 hord
        · rcases h' with h' | ⟨rfl, h'⟩
          · exact .inl h'.1
          · exact .inr h'
        · rcases h' with ⟨rfl, _⟩ | ⟨rfl, _⟩
          · decide
          · exact (hok2.2 d (by simp)).2
    | link image d t ys =>
      cases image with
      | false => exact absurd rfl (hhead d t ys)
      | true =>
        obtain ⟨r, e⟩ : ∃ r, writeWords (.link true d t ys :: rest) = '!' :: r := ⟨_, by rw [writeWords, writeWord]; rfl⟩
        exact startsNoBlock_char e (by decide) (by decide +kernel) h0 hord
    | emph b ys =>
      rw [WordOk] at hok'
      obtain ⟨c, r, hc, hp, hsp⟩ := beginsPlain_head hok'.1.1
      obtain ⟨q, e⟩ : ∃ q, writeWords (.emph b ys :: rest) = stars b ++ c :: q := 
        ⟨r ++ (stars b ++ (space rest ++ writeWords rest)), by rw [writeWords, writeWord, hc]; simp⟩
      have hcs : c ≠ '*' := by rintro rfl; revert hp; decide +kernel
      have hsp' : isPySpace c = false := by
        obtain ⟨s, zs, rfl⟩ := hsp
        have := hok'.1.2.2
        rw [WordsOk, WordOk] at this
        exact (this.1.2 c (by simp)).2
      have hcc : c ≠ ' ' ∧ c ≠ '\t' := by
        refine ⟨?_, ?_⟩ <;> rintro rfl <;> revert hsp' <;> decide +kernel
      obtain ⟨q', e'⟩ : ∃ q', writeWords (.emph b ys :: rest) = '*' :: q' ∧ (∃ y, q' = y :: q'.tail ∧ y ≠ ' ' ∧ y ≠ '\t') ∧ c ∈ q' := by
        cases b
        · exact ⟨c :: q, e, ⟨c, rfl, hcc⟩, by simp⟩
        · exact ⟨'*' :: c :: q, e, ⟨'*', rfl, by decide, by decide⟩, by simp⟩
      obtain ⟨e', ⟨y, hy, hy'⟩, hcq⟩ := e'
      rw [e'] at h0 hord ⊢
      have ne : ∀ d ∈ ">_-#`~<+=".toList, '*' ≠ d := by decide
      refine ⟨⟨'*', q', rfl, by decide, by decide, by decide⟩, h0, by simp, ?_, ?_, ?_, ?_, ?_, ?_, ?_⟩
      · rintro ⟨d, hd, hh, hall, _⟩
        have : '*' = d := by simpa using hh
        subst this
        rcases hall c (List.mem_cons_of_mem _ hcq) with h | h | h
        · exact hcs h
        · exact hcc.1 h
        · exact hcc.2 h
      · rintro ⟨n, h1, _, z, hz, _⟩
        cases n with
        | zero => omega
        | succ n => rw [List.replicate_succ] at hz; exact ne '#' (by decide) (List.cons.inj hz).1
      · rintro ⟨d, n, info, h1, hz, _, hd⟩
        cases n with
        | zero => omega
        | succ n =>
          rw [List.replicate_succ] at hz
          rcases hd with ⟨rfl, _⟩ | rfl <;> exact ne _ (by decide) (List.cons.inj hz).1
      · intro i hi
        exact absurd (by simpa using htmlOpen_head hi) (ne '<' (by decide))
      · rintro ⟨d, z, hz, _, hend⟩
        rw [← (List.cons.inj hz).2, hy] at hend
        rcases hend with h | h | h
        · cases h
        · exact hy'.1 (by simpa using h)
        · exact hy'.2 (by simpa using h)
      · intro num h; exact absurd h (hord num)
      · intro h; cases h
    | code s =>
      rw [WordOk] at hok'
      obtain ⟨q, e, hq⟩ : ∃ q, writeWords (.code s :: rest) = ticks s ++ ' ' :: q ∧ '`' ∈ q :=
        ⟨s ++ [' '] ++ ticks s ++ (space rest ++ writeWords rest), by rw [writeWords, writeWord]; simp, by simp [ticks, List.replicate_succ]⟩
      obtain ⟨q', e'⟩ : ∃ q', writeWords (.code s :: rest) = '`' :: q' := ⟨List.replicate (s.count '`') '`' ++ ' ' :: q, by rw [e]; rfl⟩
      have hf : ¬ ∃ c n info, CodeFence c n info (writeWords (.code s :: rest)) := by
        rintro ⟨d, n, info, h1, hz, _, hd⟩
        have hd1 : d = '`' := by
          rw [e'] at hz
          cases n with
          | zero => omega
          | succ n => rw [List.replicate_succ] at hz; exact (List.cons.inj hz).1.symm
        subst hd1
        have hinf : '`' ∉ info := by
          rcases hd with hd | hd
          · exact hd.2
          · exact absurd hd (by decide)
        rw [e, ticks] at hz
        rcases List.append_eq_append_iff.1 hz with ⟨y, h1, h2⟩ | ⟨y, h1, h2⟩
        · cases y with
          | nil => exact hinf (by rw [← show ' ' :: q = info from h2]; simp [hq])
          | cons c y =>
            have hc := (List.cons.inj h2).1
            subst hc
            have : ' ' ∈ List.replicate n '`' := by rw [h1]; simp
            exact absurd (List.eq_of_mem_replicate this) (by decide)
        · exact hinf (by rw [h2]; simp [hq])
      rw [e'] at h0 hord hf ⊢
      have ne : ∀ d ∈ ">*_-#~<+=".toList, '`' ≠ d := by decide
      refine ⟨⟨'`', q', rfl, by decide, by decide, by decide⟩, h0, by simp, ?_, ?_, hf, ?_, ?_, ?_, ?_⟩
      · rintro ⟨d, hd, hh, _⟩
        have hh' : '`' = d := by simpa using hh
        rcases hd with rfl | rfl | rfl <;> exact ne _ (by decide) hh'
      · rintro ⟨n, h1, _, z, hz, _⟩
        cases n with
        | zero => omega
        | succ n => rw [List.replicate_succ] at hz; exact ne '#' (by decide) (List.cons.inj hz).1
      · intro i hi
        exact absurd (by simpa using htmlOpen_head hi) (ne '<' (by decide))
      · rintro ⟨d, z, hz, hd, hend⟩
        rcases hd with rfl | rfl | rfl <;> exact ne _ (by decide) (List.cons.inj hz).1
      · intro num h; exact absurd h (hord num)
      · intro h; cases h

/-- How a line of words begins. -/
theorem words_first {xs : List Word} (h : ParaOk xs) : ∃ c r, writeWords xs = c :: r ∧ isPySpace c = false ∧ c ≠ '+' ∧ c ≠ '-' ∧ c ≠ '[' ∧ c ≠ '<' ∧ c ≠ '=' := by
  have hb := words_noBlock h
  obtain ⟨hne, hok, hhead⟩ := h
  obtain ⟨c, r, he, hs⟩ := words_head hok hne
  have key : c ≠ '+' ∧ c ≠ '-' ∧ c ≠ '[' ∧ c ≠ '<' ∧ c ≠ '=' := by
    cases xs with
    | nil => exact absurd rfl hne
    | cons x rest =>
      rw [WordsOk] at hok
      rw [writeWords] at he
      cases x with
      | text s =>
        have hok2 := hok.1
        rw [WordOk] at hok2
        rw [writeWord] at he
        cases s with
        | nil => exact absurd rfl hok2.1
        | cons e s =>
          obtain ⟨d, r, he', h'⟩ := backslashAll_head (c := e) (x := s)
          rw [he'] at he
          have := (List.cons.inj he).1
          subst this
          rcases h' with ⟨rfl, _⟩ | ⟨rfl, h'⟩
          · decide
          · refine ⟨?_, ?_, ?_, ?_, ?_⟩ <;> rintro rfl <;> exact h' (by decide)
      | link image d t ys =>
        cases image with
        | false => exact absurd rfl (hhead d t ys)
        | true =>
          rw [writeWord] at he
          have : '!' = c := (List.cons.inj he).1
          subst this; decide
      | emph b ys =>
        rw [writeWord] at he
        have : '*' = c := by cases b <;> exact (List.cons.inj he).1
        subst this; decide
      | code s =>
        rw [writeWord] at he
        have : '`' = c := (List.cons.inj he).1
        subst this; decide
  exact ⟨c, r, he, hs, key⟩

theorem snoc_split {l a b : Str} {x : Char} (h : l ++ [x] = a ++ b) (hb : b ≠ []) : ∃ b', b = b' ++ [x] ∧ l = a ++ b' := by
  rcases List.eq_nil_or_concat b with rfl | ⟨b', y, rfl⟩
  · exact absurd rfl hb
  · rw [List.concat_eq_append, ← List.append_assoc] at h
    obtain ⟨h1, h2⟩ := List.append_inj' h rfl
    cases h2
    exact ⟨b', by rw [List.concat_eq_append], h1⟩

/-- A backslash at the end of a line of text. -/
theorem noBlock_backslash {l : Str} (h : StartsNoBlock false l) (hh : l.head? ≠ some '<') : StartsNoBlock false (l ++ ['\\']) := by
  obtain ⟨c, r, rfl, hc⟩ := h.first
  have hhead : ((c :: r) ++ ['\\']).head? = some c := rfl
  have es : ∀ {z : Str}, EndOrSpace (z ++ ['\\']) → EndOrSpace z := by
    intro z hz
    cases z with
    | nil => exact .inl rfl
    | cons d z =>
      rcases hz with h | h | h
      · cases h
      · exact .inr (.inl h)
      · exact .inr (.inr h)
  refine ⟨⟨c, r ++ ['\\'], rfl, hc⟩, ?_, h.quote, ?_, ?_, ?_, ?_, ?_, ?_, by intro h; cases h⟩
  · intro h0
    rcases List.mem_append.1 h0 with h0 | h0
    · exact h.noNul h0
    · revert h0; decide
  · rintro ⟨d, hd, _, hall, _⟩
    rcases hall '\\' (by simp) with h | h | h
    · rw [← h] at hd; revert hd; decide
    · revert h; decide
    · revert h; decide
  · rintro ⟨n, h1, h6, z, hz, he⟩
    have hz0 : z ≠ [] := by
      rintro rfl
      have : '\\' ∈ List.replicate n '#' ++ [] := by rw [← hz]; simp
      rw [List.append_nil] at this
      exact absurd (List.eq_of_mem_replicate this) (by decide)
    obtain ⟨z', rfl, e⟩ := snoc_split hz hz0
    exact h.atx ⟨n, h1, h6, z', e, es he⟩
  · rintro ⟨d, n, info, h1, hz, hi, hd⟩
    have hz0 : info ≠ [] := by
      rintro rfl
      have : '\\' ∈ List.replicate n d ++ [] := by rw [← hz]; simp
      rw [List.append_nil] at this
      have := List.eq_of_mem_replicate this
      subst this
      revert hd; decide
    obtain ⟨z', rfl, e⟩ := snoc_split hz hz0
    refine h.fence ⟨d, n, z', h1, e, ?_, ?_⟩
    · cases z' with
      | nil => simp
      | cons => exact hi
    · rcases hd with ⟨h1, h2⟩ | h
      · exact .inl ⟨h1, fun h => h2 (by simp [h])⟩
      · exact .inr h
  · intro i hi
    have := htmlOpen_head hi
    rw [hhead] at this
    exact absurd this hh
  · rintro ⟨d, z, hz, hd, he⟩
    obtain ⟨h1, h2⟩ := List.cons.inj hz
    subst h1
    rw [← h2] at he
    exact h.bullet ⟨c, r, rfl, hd, es he⟩
  · rintro num ⟨d, z, hz, h1, h2, h3, hd, he⟩
    have hz0 : z ≠ [] := by
      rintro rfl
      have := congrArg List.getLast? hz
      rw [List.getLast?_append_of_ne_nil _ (by simp), List.getLast?_append_of_ne_nil _ (by simp)] at this
      have : '\\' = d := by simpa using this
      subst this
      revert hd; decide
    rw [show num ++ d :: z = (num ++ [d]) ++ z by simp] at hz
    obtain ⟨z', rfl, e⟩ := snoc_split hz hz0
    exact h.ordered num ⟨d, z', by rw [e]; simp, h1, h2, h3, hd, es he⟩

/-- A line of text after another. -/
theorem noBlock_para {l : Str} (h : StartsNoBlock false l) (h1 : l.head? ≠ some '=') (h2 : l.head? ≠ some '-') : StartsNoBlock true l where
  first := h.first
  noNul := h.noNul
  quote := h.quote
  thematic := h.thematic
  atx := h.atx
  fence := h.fence
  html := fun i hi => absurd (h.html i hi).2 (by decide)
  bullet := h.bullet
  ordered := fun num hn => absurd (h.ordered num hn).1 (by decide)
  setext := by
    rintro _ ⟨c, hc, n, r, hn, rfl, _⟩
    cases n with
    | zero => omega
    | succ n =>
      rcases hc with rfl | rfl
      · exact h1 rfl
      · exact h2 rfl

/-- Lines of words start no block, and the last one does not end with white space. -/
theorem lines_noBlock : ∀ (more : List (Bool × List Word)) {xs : List Word}, ParaOk xs → (∀ y ∈ more, ParaOk y.2) →
    ∃ l ls, writeLines xs more = l :: ls ∧ (l = writeWords xs ∨ l = writeWords xs ++ ['\\']) ∧ StartsNoBlock false l ∧ (∀ x ∈ ls, StartsNoBlock true x) ∧
      (∀ x ∈ l :: ls, ∃ zs e, ParaOk zs ∧ x = writeWords zs ++ e ∧ (e = [] ∨ e = ['\\'])) ∧
      ∀ x c, (l :: ls).getLast? = some x → x.getLast? = some c → isPySpace c = false
  | [], xs, h, _ => by
    refine ⟨_, [], rfl, .inl rfl, words_noBlock h, by simp, ?_, ?_⟩
    · intro x hx
      rw [List.mem_singleton] at hx
      exact ⟨xs, [], h, by rw [hx, List.append_nil], .inl rfl⟩
    · intro l d hl hd
      simp only [List.getLast?_singleton, Option.some.injEq] at hl
      subst hl
      obtain ⟨e, h1, h2⟩ := words_ends h.2.1 h.1
      rw [h1] at hd; cases hd; exact h2
  | (hard, ys) :: more, xs, h, hm => by
    have hys : ParaOk ys := hm (hard, ys) (by simp)
    obtain ⟨l, ls, e, hl, k1, k2, k3, k4⟩ := lines_noBlock more hys fun z hz => hm z (by simp [hz])
    obtain ⟨c, r, he, _, _, _, _, hlt, _⟩ := words_first h
    obtain ⟨c', r', he', _, _, hmi, _, _, heq⟩ := words_first hys
    have hh : l.head? = some c' := by rcases hl with rfl | rfl <;> rw [he'] <;> rfl
    have hbr : ∀ b : Bool, (if b then ['\\'] else ([] : Str)) = [] ∨ (if b then ['\\'] else ([] : Str)) = ['\\'] := by decide
    refine ⟨_, l :: ls, by rw [writeLines, e], ?_, ?_, ?_, ?_, ?_⟩
    · rcases hbr hard with h | h
      · left; rw [h, List.append_nil]
      · right; rw [h]
    · rcases hbr hard with h' | h' <;> rw [h']
      · rw [List.append_nil]; exact words_noBlock h
      · exact noBlock_backslash (words_noBlock h) (by rw [he]; simpa using hlt)
    · intro x hx
      rcases List.mem_cons.1 hx with rfl | hx
      · exact noBlock_para k1 (by rw [hh]; simpa using heq) (by rw [hh]; simpa using hmi)
      · exact k2 x hx
    · intro x hx
      rcases List.mem_cons.1 hx with rfl | hx
      · exact ⟨xs, _, h, rfl, hbr hard⟩
      · exact k3 x hx
    · intro x d hx hd
      rw [List.getLast?_cons_cons] at hx
      exact k4 x d hx hd

theorem lines_para {xs : List Word} {more : List (Bool × List Word)} (h : ParaOk xs) (hm : ∀ y ∈ more, ParaOk y.2) :
    ∃ l ls, writeLines xs more = l :: ls ∧ ParaText l ls := by
  obtain ⟨c, r, he, hs, _, _, hb, _⟩ := words_first h
  obtain ⟨l, ls, e, hl, k1, k2, _, k4⟩ := lines_noBlock more h hm
  have hh : l.head? = some c := by rcases hl with rfl | rfl <;> rw [he] <;> rfl
  exact ⟨l, ls, e, k1, k2, noDef_head (by rw [hh]; simpa using hb), by intro d hd; rw [hh] at hd; cases hd; exact hs, k4⟩

theorem escapeXml_noLf {s : Str} (h : s ≠ []) (hn : ∀ c ∈ s, c ≠ '\n') : escapeXml s ≠ [] ∧ (escapeXml s).getLast? ≠ some '\n' := by
  rcases List.eq_nil_or_concat s with rfl | ⟨s', c, rfl⟩
  · exact absurd rfl h
  · rw [List.concat_eq_append, escapeXml_append']
    have key : escapeXml [c] ≠ [] ∧ (escapeXml [c]).getLast? ≠ some '\n' := by
      rw [escapeXml_eq_flatMap, List.flatMap_singleton]
      have hc := hn c (by simp)
      unfold replaceUnsafeChar
      repeat' split
      all_goals first | decide | (refine ⟨by simp, ?_⟩; simpa using hc)
    refine ⟨by simp [key.1], ?_⟩
    rw [List.getLast?_append_of_ne_nil _ key.1]; exact key.2

theorem wordHtml_last {safe : Bool} {x : Word} (h : WordOk x) : wordHtml safe x ≠ [] ∧ (wordHtml safe x).getLast? ≠ some '\n' := by
  have key : ∀ (a b : Str) (c : Char), c ≠ '\n' → a ++ (b ++ [c]) ≠ [] ∧ (a ++ (b ++ [c])).getLast? ≠ some '\n' := by
    intro a b c hc
    refine ⟨by simp, ?_⟩
    rw [← List.append_assoc, List.getLast?_append_of_ne_nil _ (by simp)]
    simpa using hc
  cases x with
  | text s =>
    rw [WordOk] at h
    rw [wordHtml]
    refine escapeXml_noLf h.1 fun c hc => ?_
    rintro rfl
    have := (h.2 _ hc).2
    revert this; decide
  | code s => rw [wordHtml]; exact key _ "</code".toList '>' (by decide)
  | emph b xs => cases b <;> rw [wordHtml]; exacts [key _ "</em".toList '>' (by decide), key _ "</strong".toList '>' (by decide)]
  | link image d t xs => cases image <;> rw [wordHtml]; exacts [key _ "</a".toList '>' (by decide), key _ " /".toList '>' (by decide)]

theorem wordsHtml_last {safe : Bool} : ∀ {xs : List Word}, WordsOk xs → xs ≠ [] → wordsHtml safe xs ≠ [] ∧ (wordsHtml safe xs).getLast? ≠ some '\n'
  | [], _, h => absurd rfl h
  | [x], h, _ => by
    rw [WordsOk] at h
    rw [wordsHtml, wordsHtml]
    have : wordHtml safe x ++ (space [] ++ []) = wordHtml safe x := by simp [space]
    rw [this]; exact wordHtml_last h.1
  | x :: y :: xs, h, _ => by
    rw [WordsOk] at h
    rw [wordsHtml]
    have ih := wordsHtml_last (safe := safe) (xs := y :: xs) h.2 (by simp)
    refine ⟨by simp [ih.1], ?_⟩
    rw [← List.append_assoc, List.getLast?_append_of_ne_nil _ ih.1]; exact ih.2

/-- The text of words stands for them. -/
theorem words_phrase {o : HtmlOpts} {refs : Str → Option RefDef} {xs : List Word} (h : WordsOk xs) :
    PhraseWith smart o refs (writeWords xs) (wordsHtml o.safe xs) := by
  obtain ⟨ys, h1, h2, _⟩ := words_wrote (safe := o.safe) (soft := o.softbreak) (refs := refs) xs [] [] [] [] h (by simp) (.inl rfl)
    (fun _ => .inl (.inl rfl)) (fun h => absurd rfl h) (by simp)
  have e : escapeXml [] = [] := by decide +kernel
  rw [e, List.nil_append] at h2
  exact ⟨ys, h1, h2.symm⟩

theorem wrote_break {safe : Bool} {soft : Str} {refs : Str → Option RefDef} {E : List Char} {b k : Str} :
    ∃ ys, Phrase smart refs E b ['\\', '\n'] k ys ∧ spansHtml safe soft ys = "<br />\n".toList :=
  ⟨[.hard], .atom .hardBreak, by simp [spansHtml, spanHtml, breakHtml]⟩

theorem lines_wrote {safe : Bool} {soft : Str} {refs : Str → Option RefDef} : ∀ (more : List (Bool × List Word)) (xs : List Word) (b : Str), WordsOk xs →
    (∀ y ∈ more, ParaOk y.2) → Before b → ∃ ss, Phrase smart refs [] b (joinLines (writeLines xs more)) [] ss ∧ spansHtml safe soft ss = linesHtml safe soft xs more
  | [], xs, b, h, _, hb => by
    obtain ⟨ys, h1, h2, _⟩ := words_wrote (smart := smart) (safe := safe) (soft := soft) (refs := refs) xs [] [] b [] h (by simp) (.inl rfl)
      (fun _ => .inl hb) (fun h => absurd rfl h) (by simp)
    have e : escapeXml [] = [] := by decide +kernel
    rw [e, List.nil_append] at h2
    exact ⟨ys, h1, h2⟩
  | (false, ys) :: more, xs, b, h, hm, hb => by
    have hys : ParaOk ys := hm (false, ys) (by simp)
    have ej : joinLines (writeLines xs ((false, ys) :: more)) = (writeWords xs ++ ['\n']) ++ joinLines (writeLines ys more) := by
      rw [writeLines]
      cases more <;> simp [writeLines, joinLines]
    have hk : (joinLines (writeLines ys more) ++ []).head? ≠ some ' ' := by
      obtain ⟨c, r, he, hs, _⟩ := words_first hys
      obtain ⟨l, ls, e, hl, _⟩ := lines_noBlock more hys fun z hz => hm z (by simp [hz])
      have hl' : ∃ q, l = c :: q := by
        rcases hl with rfl | rfl <;> rw [he]
        · exact ⟨r, rfl⟩
        · exact ⟨r ++ ['\\'], rfl⟩
      obtain ⟨q, rfl⟩ := hl'
      rw [e]
      have : (joinLines ((c :: q) :: ls) ++ []).head? = some c := by cases ls <;> rfl
      rw [this]
      rintro ⟨⟩
      revert hs; decide
    obtain ⟨us, u1, u2⟩ := words_line (smart := smart) (safe := safe) (soft := soft) (refs := refs) xs [] b (joinLines (writeLines ys more) ++ []) h
      (by simp) hk (fun _ => .inl hb) (fun h => absurd rfl h) (by simp)
    have e : escapeXml [] = [] := by decide +kernel
    rw [e, List.nil_append] at u2
    obtain ⟨ws, w1, w2⟩ := lines_wrote (safe := safe) (soft := soft) more ys (b ++ (writeWords xs ++ ['\n'])) hys.2.1
      (fun z hz => hm z (by simp [hz])) (by right; right; left; rw [← List.append_assoc, List.getLast?_append_of_ne_nil _ (by simp)]; rfl)
    refine ⟨us ++ ws, ?_, ?_⟩
    · rw [ej]; exact .seq u1 w1
    · rw [spansHtml_append, u2, w2, linesHtml, List.append_assoc]; rfl
  | (true, ys) :: more, xs, b, h, hm, hb => by
    have ej : joinLines (writeLines xs ((true, ys) :: more)) = writeWords xs ++ (['\\', '\n'] ++ joinLines (writeLines ys more)) := by
      rw [writeLines]
      cases more <;> simp [writeLines, joinLines]
    obtain ⟨us, u1, u2, _⟩ := words_wrote (smart := smart) (safe := safe) (soft := soft) (refs := refs) xs [] [] b
      (['\\', '\n'] ++ joinLines (writeLines ys more)) h (by simp) (.inr (.inl rfl)) (fun _ => .inl hb) (fun h => absurd rfl h)
      (fun h => absurd h (by show some '\\' ≠ some '*'; decide))
    have e : escapeXml [] = [] := by decide +kernel
    rw [e, List.nil_append] at u2
    have u1' : Phrase smart refs [] b (writeWords xs) ((['\\', '\n'] ++ joinLines (writeLines ys more)) ++ []) us := by
      rw [List.append_nil]; exact u1
    obtain ⟨vs, v1, v2⟩ := wrote_break (smart := smart) (safe := safe) (soft := soft) (refs := refs) (E := []) (b := b ++ writeWords xs)
      (k := joinLines (writeLines ys more) ++ [])
    obtain ⟨ws, w1, w2⟩ := lines_wrote (safe := safe) (soft := soft) more ys (b ++ writeWords xs ++ ['\\', '\n']) (hm (true, ys) (by simp)).2.1
      (fun z hz => hm z (by simp [hz])) (by right; right; left; rw [List.getLast?_append_of_ne_nil _ (by simp)]; rfl)
    refine ⟨us ++ (vs ++ ws), ?_, ?_⟩
    · rw [ej]; exact .seq u1' (.seq v1 w1)
    · rw [spansHtml_append, spansHtml_append, u2, v2, w2, linesHtml]; rfl

theorem linesHtml_last {safe : Bool} {soft : Str} : ∀ {more : List (Bool × List Word)} {xs : List Word}, ParaOk xs → (∀ y ∈ more, ParaOk y.2) →
    linesHtml safe soft xs more ≠ [] ∧ (linesHtml safe soft xs more).getLast? ≠ some '\n'
  | [], xs, h, _ => wordsHtml_last h.2.1 h.1
  | (hard, ys) :: more, xs, h, hm => by
    have ih := linesHtml_last (safe := safe) (soft := soft) (more := more) (hm (hard, ys) (by simp)) fun z hz => hm z (by simp [hz])
    rw [linesHtml]
    refine ⟨by simp [ih.1], ?_⟩
    rw [← List.append_assoc, List.getLast?_append_of_ne_nil _ ih.1]; exact ih.2

theorem doc_lines {o : HtmlOpts} {refs : Str → Option RefDef} {xs : List Word} {more : List (Bool × List Word)} (h : ParaOk xs) (hm : ∀ y ∈ more, ParaOk y.2) :
    Doc o.safe (PhraseWith smart o refs) (writeLines xs more) [⟨.para, linesHtml o.safe o.softbreak xs more⟩] false := by
  obtain ⟨l, ls, e, hp⟩ := lines_para h hm
  obtain ⟨ss, h1, h2⟩ := lines_wrote (smart := smart) (safe := o.safe) (soft := o.softbreak) (refs := refs) more xs [] h.2.1 hm (.inl rfl)
  rw [e] at h1 ⊢
  exact .para hp ⟨ss, h1, h2.symm⟩ (linesHtml_last h hm).1 (linesHtml_last h hm).2

theorem doc_para {o : HtmlOpts} {refs : Str → Option RefDef} {xs : List Word} (h : ParaOk xs) :
    Doc o.safe (PhraseWith smart o refs) [writeWords xs] [⟨.para, wordsHtml o.safe xs⟩] false :=
  doc_lines (more := []) h (by simp)

theorem doc_heading {o : HtmlOpts} {refs : Str → Option RefDef} {n : Nat} {xs : List Word} (h1 : 1 ≤ n) (h6 : n ≤ 6) (hne : xs ≠ []) (h : WordsOk xs) :
    Doc o.safe (PhraseWith smart o refs) [List.replicate n '#' ++ ' ' :: writeWords xs] [⟨.heading, headingHtml n (wordsHtml o.safe xs)⟩] false := by
  obtain ⟨c, r, he, hs⟩ := words_head h hne
  exact .heading h1 h6 (fun h0 => (writeWords_chars xs h _ h0).1 rfl) ⟨c, by rw [he]; rfl, hs⟩ (words_ends h hne) (words_closing h hne) (words_phrase h)

end CM
