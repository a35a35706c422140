import Verif.Spec.Write
import Verif.Proofs.PhraseHtml
import Verif.Proofs.Unescape
import Verif.Props.Unescape
/-
The text of words (see `Spec.Write`) stands for them.
-/
set_option linter.unusedVariables false
namespace CM
open Spec

/-- The text `t` between `b` and `k` stands for content with this HTML and this plain text; `link`: there is a link in it. -/
def Wrote (smart safe : Bool) (soft : Str) (refs : Str → Option RefDef) (E : List Char) (b t k html alt : Str) (link : Bool) : Prop :=
  ∃ ys, Phrase smart refs E b t k ys ∧ spansHtml safe soft ys = html ∧
    (∃ ss : List Str, altPartsList safe soft ys = ss.map some ∧ ss.flatten = alt) ∧ anyLink ys = link

theorem spansHtml_append (safe : Bool) (soft : Str) : ∀ xs ys, spansHtml safe soft (xs ++ ys) = spansHtml safe soft xs ++ spansHtml safe soft ys
  | [], ys => by rw [spansHtml]; rfl
  | x :: xs, ys => by rw [List.cons_append, spansHtml, spansHtml, spansHtml_append safe soft xs, List.append_assoc]

theorem altParts_append (safe : Bool) (soft : Str) : ∀ xs ys, altPartsList safe soft (xs ++ ys) = altPartsList safe soft xs ++ altPartsList safe soft ys
  | [], ys => by rw [altPartsList]; rfl
  | x :: xs, ys => by rw [List.cons_append, altPartsList, altPartsList, altParts_append safe soft xs, List.append_assoc]

theorem anyLink_append' : ∀ xs ys, anyLink (xs ++ ys) = (anyLink xs || anyLink ys)
  | [], ys => by rw [anyLink]; rfl
  | x :: xs, ys => by rw [List.cons_append, anyLink, anyLink, anyLink_append' xs, Bool.or_assoc]

theorem writeAlt_somes : ∀ (ss : List Str) (l : Str), writeAlt l (ss.map some) = ss.flatten
  | [], _ => rfl
  | s :: ss, _ => by rw [List.map_cons, writeAlt, writeAlt_somes ss, List.flatten_cons]

variable {smart safe : Bool} {soft : Str} {refs : Str → Option RefDef}

theorem Wrote.seq {E : List Char} {b t u k h1 h2 a1 a2 : Str} {l1 l2 : Bool} (x : Wrote smart safe soft refs E b t (u ++ k) h1 a1 l1)
    (y : Wrote smart safe soft refs E (b ++ t) u k h2 a2 l2) : Wrote smart safe soft refs E b (t ++ u) k (h1 ++ h2) (a1 ++ a2) (l1 || l2) := by
  obtain ⟨xs, x1, rfl, ⟨ss, x2, rfl⟩, rfl⟩ := x
  obtain ⟨ys, y1, rfl, ⟨rs, y2, rfl⟩, rfl⟩ := y
  refine ⟨xs ++ ys, .seq x1 y1, spansHtml_append .., ⟨ss ++ rs, ?_, by simp⟩, anyLink_append' ..⟩
  rw [altParts_append, x2, y2, List.map_append]

theorem Wrote.nil {E : List Char} {b k : Str} : Wrote smart safe soft refs E b [] k [] [] false :=
  ⟨[], .nil, by rw [spansHtml], ⟨[], by rw [altPartsList]; rfl, rfl⟩, by rw [anyLink]⟩

theorem wrote_atom {E : List Char} {b t k s : Str} (h : Atom smart t k [.text s]) : Wrote smart safe soft refs E b t k (escapeXml s) (escapeXml s) false :=
  ⟨[.text s], .atom h, by simp [spansHtml, spanHtml], ⟨[escapeXml s], by simp [altPartsList, altParts], by simp⟩, by simp [anyLink, hasLink]⟩

/-- The text ends or goes on with something that is not an ordinary character. -/
def StopsText (k : Str) : Prop := ∀ c, k.head? = some c → ¬ Ordinary c ∧ c ≠ '\n'

theorem escapeXml_append' (a b : Str) : escapeXml (a ++ b) = escapeXml a ++ escapeXml b := by
  simp only [escapeXml_eq_flatMap, List.flatMap_append]

theorem ordinary_of {c : Char} (h : c ∉ asciiPunctuation) (hn : c ≠ '\n') : Ordinary c := by
  intro hc
  have key : ∀ c ∈ "\n`[]\\!<&*_'\"".toList, c = '\n' ∨ c ∈ asciiPunctuation := by decide +kernel
  rcases key c hc with h1 | h1
  · exact hn h1
  · exact h h1

theorem wrote_text : ∀ (n : Nat) (s : Str) (E : List Char) (b k : Str), s.length ≤ n → (∀ c ∈ s, c ≠ '\n') → StopsText k →
    Wrote smart safe soft refs E b (backslashAll s) k (escapeXml s) (escapeXml s) false
  | _, [], E, b, k, _, _, _ => .nil
  | 0, c :: s, E, b, k, h, _, _ => by simp at h
  | n + 1, c :: s, E, b, k, hl, hn, hk => by
    by_cases hc : c ∈ asciiPunctuation
    · have e : backslashAll (c :: s) = ['\\', c] ++ backslashAll s := by simp only [backslashAll, List.flatMap_cons, if_pos hc]
      have e2 : escapeXml (c :: s) = escapeXml [c] ++ escapeXml s := escapeXml_append' [c] s
      rw [e, e2]
      exact (wrote_atom (.escape hc)).seq (wrote_text n s E _ k (by simpa using hl) (fun x hx => hn x (by simp [hx])) hk)
    · let p : Char → Bool := fun c => decide (c ∉ asciiPunctuation)
      have e0 : c :: s = (c :: s).takeWhile p ++ (c :: s).dropWhile p := (List.takeWhile_append_dropWhile ..).symm
      have hp : ∀ x ∈ (c :: s).takeWhile p, x ∉ asciiPunctuation := fun x hx => by simpa [p] using List.mem_takeWhile_imp hx
      have hne : (c :: s).takeWhile p ≠ [] := by
        rw [List.takeWhile_cons_of_pos (by simpa [p] using hc)]; simp
      have hd : ∀ x y, (c :: s).dropWhile p = x :: y → x ∈ asciiPunctuation := by
        intro x y h
        have := List.head?_dropWhile_not p (c :: s)
        rw [h] at this
        simpa [p] using this
      have hlen : ((c :: s).dropWhile p).length ≤ n := by
        have : (c :: s).dropWhile p = s.dropWhile p := List.dropWhile_cons_of_pos (by simpa [p] using hc)
        rw [this]
        have := (List.dropWhile_suffix (l := s) p).length_le
        simp at hl; omega
      have hn' : ∀ x ∈ (c :: s).dropWhile p, x ≠ '\n' := fun x hx => hn x (List.dropWhile_suffix _ |>.mem hx)
      have hm : ∀ x ∈ (c :: s).takeWhile p, x ≠ '\n' := fun x hx => hn x (List.takeWhile_prefix _ |>.mem hx)
      generalize (c :: s).takeWhile p = m at *
      generalize (c :: s).dropWhile p = r at *
      rw [e0, backslashAll_append, escapeXml_append', backslashAll_plain hp]
      have ht : typeset smart m = m := typeset_plain smart m fun x hx =>
        ⟨by rintro rfl; exact hp _ hx (by decide), by rintro rfl; exact hp _ hx (by decide)⟩
      have ha : ∀ {k' : Str}, StopsText k' → Atom smart m k' [.text m] := fun hk' => by
        have := Atom.plain (smart := smart) hne (fun x hx => ordinary_of (hp x hx) (hm x hx)) hk'
        rwa [ht] at this
      refine (wrote_atom (ha ?_)).seq (wrote_text n r E _ k hlen hn' hk)
      cases r with
      | nil => exact hk
      | cons x y =>
        have hx := hd x y rfl
        have : backslashAll (x :: y) = '\\' :: x :: backslashAll y := by simp only [backslashAll, List.flatMap_cons, if_pos hx]; rfl
        rw [this]
        intro c hc
        cases hc
        exact ⟨by unfold Ordinary; decide, by decide⟩

theorem isPunct_ascii : ∀ c ∈ asciiPunctuation, isPunct c = true := by decide +kernel

/-- What can stand before emphasis. -/
def Before (b : Str) : Prop := b.getLast? = none ∨ b.getLast? = some ' ' ∨ b.getLast? = some '\n' ∨ b.getLast? = some '['

/-- What can stand after it. -/
def After (k : Str) : Prop := k.head? = none ∨ k.head? = some ' ' ∨ k.head? = some '\\' ∨ k.head? = some ']' ∨ k.head? = some '\n'

theorem words_ne {x : Word} (h : WordOk x) : writeWord x ≠ [] := by
  cases x with
  | text s =>
    rw [WordOk] at h
    rw [writeWord]
    cases s with
    | nil => exact absurd rfl h.1
    | cons c s => obtain ⟨d, r, e, _⟩ := backslashAll_head (c := c) (x := s); rw [e]; simp
  | code s => rw [writeWord]; simp [ticks]
  | emph b xs => rw [writeWord]; cases b <;> simp [stars]
  | link b d t xs => rw [writeWord]; simp

theorem writeWords_last : ∀ (ys : List Word) (x : Word), writeWord x ≠ [] → (writeWords (ys ++ [x])).getLast? = (writeWord x).getLast?
  | [], x, h => by simp [writeWords, space]
  | y :: ys, x, h => by
    rw [List.cons_append, writeWords]
    have : writeWords (ys ++ [x]) ≠ [] := by
      intro e
      have := writeWords_last ys x h
      rw [e] at this
      cases hx : writeWord x with
      | nil => exact h hx
      | cons a b => rw [hx, List.getLast?_cons] at this; cases this
    rw [List.getLast?_append_of_ne_nil _ (by simp [this]), List.getLast?_append_of_ne_nil _ this, writeWords_last ys x h]

theorem noTicks_count {n : Nat} {s : Str} (h : s.count '`' < n) : NoTicks n s := by
  rintro ⟨a, b, rfl, _⟩
  rw [List.count_append, List.count_append, List.count_replicate_self] at h
  omega

theorem inAngle_all : ∀ {d : Str}, (∀ c ∈ d, LineChar c) → InAngle (backslashAll d)
  | [], _ => .nil
  | c :: d, h => by
    have ih := inAngle_all (d := d) fun x hx => h x (by simp [hx])
    have hc := h c (by simp)
    have hn : c ≠ '\n' := by
      rintro rfl
      rcases hc.2 with h | h
      · revert h; decide
      · revert h; decide
    by_cases hp : c ∈ asciiPunctuation
    · have : backslashAll (c :: d) = '\\' :: c :: backslashAll d := by simp only [backslashAll, List.flatMap_cons, if_pos hp]; rfl
      rw [this]; exact .escape hn ih
    · have : backslashAll (c :: d) = c :: backslashAll d := by simp only [backslashAll, List.flatMap_cons, if_neg hp]; rfl
      rw [this]
      refine .plain ?_ ?_ ih
      · intro hm
        have key : ∀ c ∈ "<>\n\\".toList, c = '\n' ∨ c ∈ asciiPunctuation := by decide +kernel
        rcases key c hm with h | h
        · exact hn h
        · exact hp h
      · intro h0
        exact hc.1 (Char.toNat_inj.1 h0)

theorem titleText_all : ∀ {d : Str}, (∀ c ∈ d, LineChar c) → ClearTitleText ['"'] (backslashAll d)
  | [], _ => .nil
  | c :: d, h => by
    have ih := titleText_all (d := d) fun x hx => h x (by simp [hx])
    have hc := h c (by simp)
    by_cases hp : c ∈ asciiPunctuation
    · have : backslashAll (c :: d) = '\\' :: c :: backslashAll d := by simp only [backslashAll, List.flatMap_cons, if_pos hp]; rfl
      rw [this]; exact .escape hp ih
    · have : backslashAll (c :: d) = c :: backslashAll d := by simp only [backslashAll, List.flatMap_cons, if_neg hp]; rfl
      rw [this]
      refine .plain ?_ ?_ ?_ ih
      · intro hm
        rw [List.mem_singleton] at hm
        subst hm; exact hp (by decide)
      · rintro rfl; exact hp (by decide)
      · intro h0
        exact hc.1 (Char.toNat_inj.1 h0)

theorem target_ok {x d t k : Str} (hd : ∀ c ∈ d, LineChar c) (ht : ∀ c ∈ t, LineChar c) :
    Target refs x (target d t) k (normalizeUri d) t := by
  have hdest : ∀ r, Destination ('<' :: (backslashAll d ++ ['>'])) (backslashAll d) r := fun r => .angle (inAngle_all hd)
  by_cases h : t = []
  · subst h
    have := Target.inline (refs := refs) (x := x) (s1 := []) (s2 := []) (k := k) ⟨0, .inl rfl⟩ (hdest _) ⟨0, .inl rfl⟩
      (by intro _ e; rw [← List.cons_append, List.getLast?_append_of_ne_nil _ (by simp)] at e; exact absurd e (by decide))
    rw [C24_all_escaped] at this
    have e : target d [] = '(' :: ([] ++ ('<' :: (backslashAll d ++ ['>']) ++ ([] ++ [')']))) := by
      unfold target
      show '(' :: '<' :: _ = _
      simp only [if_true, List.nil_append, List.cons_append, List.append_assoc]
      rfl
    rw [e]; exact this
  · have := Target.titled (refs := refs) (x := x) (s1 := []) (s2 := [' ']) (s3 := []) (k := k) (tl := '"' :: (backslashAll t ++ ['"'])) (y := backslashAll t)
      ⟨0, .inl rfl⟩ (hdest _) ⟨1, .inl rfl⟩ (by simp) (.double (titleText_all ht)) ⟨0, .inl rfl⟩
    rw [C24_all_escaped, C24_all_escaped] at this
    have e : target d t = '(' :: ([] ++ ('<' :: (backslashAll d ++ ['>']) ++ ([' '] ++ ('"' :: (backslashAll t ++ ['"']) ++ ([] ++ [')']))))) := by
      unfold target
      show '(' :: '<' :: _ = _
      simp only [if_neg h, List.nil_append, List.cons_append, List.append_assoc]
      rfl
    rw [e]; exact this

theorem word_head {x : Word} (h : ∀ s, x ≠ .text s) : ∃ c r, writeWord x = c :: r ∧ c ∈ "*`[!".toList := by
  cases x with
  | text s => exact absurd rfl (h s)
  | code s => rw [writeWord, ticks, List.replicate_succ]; exact ⟨'`', _, rfl, by decide⟩
  | emph b xs => rw [writeWord]; cases b <;> exact ⟨'*', _, rfl, by decide⟩
  | link b d t xs => rw [writeWord]; cases b <;> exact ⟨_, _, rfl, by decide⟩

theorem space_plain (xs : List Word) : backslashAll (space xs) = space xs ∧ escapeXml (space xs) = space xs := by
  unfold space
  split <;> decide +kernel

theorem beginsPlain_head {xs : List Word} (h : BeginsPlain xs) : ∃ c r, writeWords xs = c :: r ∧ isPunct c = false ∧
    ∃ s ys, xs = .text (c :: s) :: ys := by
  obtain ⟨c, s, ys, rfl, hc⟩ := h
  have hp : c ∉ asciiPunctuation := fun hm => by rw [isPunct_ascii c hm] at hc; cases hc
  refine ⟨c, backslashAll s ++ (space ys ++ writeWords ys), ?_, hc, s, ys, rfl⟩
  rw [writeWords, writeWord]
  have : backslashAll (c :: s) = c :: backslashAll s := by simp only [backslashAll, List.flatMap_cons, if_neg hp]; rfl
  rw [this]; rfl

theorem endsPlain_last {xs : List Word} (h : EndsPlain xs) : ∃ c, (writeWords xs).getLast? = some c ∧ isPunct c = false ∧
    ∃ s ys, xs = ys ++ [.text (s ++ [c])] := by
  obtain ⟨c, s, ys, rfl, hc⟩ := h
  have e : (writeWord (.text (s ++ [c]))).getLast? = some c := by
    rw [writeWord, backslashAll_getLast]; simp
  refine ⟨c, ?_, hc, s, ys, rfl⟩
  rw [writeWords_last ys _ (by intro h0; rw [h0] at e; cases e), e]

theorem wordsOk_append : ∀ {xs ys : List Word}, WordsOk (xs ++ ys) → WordsOk ys
  | [], ys, h => h
  | x :: xs, ys, h => by rw [List.cons_append, WordsOk] at h; exact wordsOk_append h.2

theorem wordsOk_mem {x : Word} : ∀ {xs : List Word}, WordsOk xs → x ∈ xs → WordOk x
  | y :: xs, h, hx => by
    rw [WordsOk] at h
    rcases List.mem_cons.1 hx with rfl | hx
    · exact h.1
    · exact wordsOk_mem h.2 hx

theorem opens_plain {b : Str} {c : Char} (hb : Before b) (hp : isPunct c = false) (hs : isPySpace c = false) :
    CanOpen (isPySpace · = true) (isPunct · = true) '*' b.getLast? (some c) ∧ ¬ CanClose (isPySpace · = true) (isPunct · = true) '*' b.getLast? (some c) := by
  constructor
  · refine ⟨⟨?_, .inl ?_⟩, fun h => absurd h (by decide)⟩
    · show ¬ isPySpace c = true; rw [hs]; decide
    · show ¬ isPunct c = true; rw [hp]; decide
  · rintro ⟨⟨h1, h2⟩, _⟩
    rcases hb with h | h | h | h <;> rw [h] at h1 h2
    · exact h1 trivial
    · exact h1 (by show isPySpace ' ' = true; decide)
    · exact h1 (by show isPySpace '\n' = true; decide)
    · rcases h2 with h2 | ⟨_, h2⟩
      · exact h2 (by show isPunct '[' = true; decide +kernel)
      · rcases h2 with h2 | h2
        · have : isPySpace c = true := h2
          rw [hs] at this; cases this
        · have : isPunct c = true := h2
          rw [hp] at this; cases this

theorem closes_plain {x : Option Char} {c : Char} (hp : isPunct c = false) (hs : isPySpace c = false) :
    CanClose (isPySpace · = true) (isPunct · = true) '*' (some c) x := by
  refine ⟨⟨?_, .inl ?_⟩, fun h => absurd h (by decide)⟩
  · show ¬ isPySpace c = true; rw [hs]; decide
  · show ¬ isPunct c = true; rw [hp]; decide

theorem wrote_emph {E : List Char} {b k x h a : Str} {l strong : Bool} {c e : Char} (hb : Before b) (hk : After k)
    (hc : x.head? = some c) (hcp : isPunct c = false) (hcs : isPySpace c = false) (he : x.getLast? = some e) (hep : isPunct e = false)
    (hes : isPySpace e = false) (hx : Wrote smart safe soft refs ('*' :: E) (b ++ stars strong) x (stars strong ++ k) h a l) :
    Wrote smart safe soft refs E b (stars strong ++ (x ++ stars strong)) k
      (if strong then tagged "<strong>" h "</strong>" else tagged "<em>" h "</em>") a l := by
  obtain ⟨ys, y1, rfl, ⟨ss, y2, rfl⟩, rfl⟩ := hx
  have hx0 : x ≠ [] := by rintro rfl; cases hc
  have hhead : ∀ z : Str, (x ++ z).head? = some c := by
    intro z; cases x with
    | nil => exact absurd rfl hx0
    | cons d x => exact hc
  have hlast : ∀ z : Str, (z ++ x).getLast? = some e := by
    intro z; rw [List.getLast?_append_of_ne_nil _ hx0, he]
  have hks : k.head? ≠ some '*' := by rcases hk with h | h | h | h | h <;> rw [h] <;> decide
  have hcs' : (some c : Option Char) ≠ some '*' := by
    rintro ⟨⟩; revert hcp; decide +kernel
  obtain ⟨o1, o2⟩ := opens_plain hb hcp hcs
  refine ⟨emphasis (if strong then 2 else 1) ys, ?_, ?_⟩
  · refine .emph (by split <;> decide) (.inl rfl) ?_ hks ?_ (.inl ?_) ?_ y1
    · rw [hhead]; exact hcs'
    · rw [hhead]; exact o1
    · rw [hhead]; exact o2
    · rw [hlast]; exact closes_plain hep hes
  · cases strong
    · refine ⟨by simp [emphasis, spansHtml, spanHtml], ⟨ss, ?_, rfl⟩, by simp [emphasis, anyLink, hasLink]⟩
      simp [emphasis, altPartsList, altParts, y2]
    · refine ⟨by simp [emphasis, spansHtml, spanHtml], ⟨ss, ?_, rfl⟩, by simp [emphasis, anyLink, hasLink]⟩
      simp [emphasis, altPartsList, altParts, y2]

theorem wrote_link {E : List Char} {b k x d t h a : Str} {l image : Bool} (hd : ∀ c ∈ d, LineChar c) (ht : ∀ c ∈ t, LineChar c)
    (hl : image = false → l = false) (hx : Wrote smart safe soft refs [] (b ++ opening image) x (']' :: (target d t ++ k)) h a l) :
    Wrote smart safe soft refs E b (opening image ++ (x ++ ']' :: target d t)) k
      (if image then imageHtml safe (normalizeUri d) t a else linkHtml safe (normalizeUri d) t h) a (if image then l else true) := by
  obtain ⟨ys, y1, rfl, ⟨ss, y2, rfl⟩, rfl⟩ := hx
  refine ⟨_, .link y1 (target_ok hd ht) hl, ?_⟩
  cases image
  · refine ⟨by simp [spansHtml, spanHtml], ⟨ss, by simp [altPartsList, altParts, y2], rfl⟩, by simp [anyLink, hasLink]⟩
  · refine ⟨by simp [spansHtml, spanHtml, y2, writeAlt_somes], ⟨ss, by simp [altPartsList, altParts, y2], rfl⟩, by simp [anyLink, hasLink]⟩

theorem wrote_code {E : List Char} {b k s : Str} (h1 : ∃ c ∈ s, c ≠ ' ') (h2 : ∀ c ∈ s, LineChar c) (hk : After k) :
    Wrote smart safe soft refs E b (ticks s ++ (' ' :: (s ++ [' ']) ++ ticks s)) k (tagged "<code>" (escapeXml s) "</code>") (escapeXml s) false := by
  refine ⟨[.code s], .atom (.code (by omega) (by simp) (by simp) ?_ ?_ ?_ ?_), by simp [spansHtml, spanHtml], ⟨[escapeXml s], by simp [altPartsList, altParts], by simp⟩,
    by simp [anyLink, hasLink]⟩
  · rw [← List.cons_append, List.getLast?_append_of_ne_nil _ (by simp)]; decide
  · refine noTicks_count ?_
    rw [List.count_cons_of_ne (by decide), List.count_append, List.count_cons_of_ne (by decide)]
    simp
  · rcases hk with h | h | h | h | h <;> rw [h] <;> decide
  · refine .inl ⟨?_, h1⟩
    unfold flatLines
    rw [List.map_cons, List.map_append]
    have : s.map (fun c => if c = '\n' then ' ' else c) = s := by
      conv_rhs => rw [← List.map_id s]
      refine List.map_congr_left fun c hc => ?_
      rw [if_neg, id]
      rintro rfl
      rcases (h2 _ hc).2 with h | h
      · revert h; decide
      · revert h; decide
    rw [this]; rfl

/-- Something of `"\\]*"` or nothing follows. -/
def Stop (k : Str) : Prop := k.head? = none ∨ k.head? = some '\\' ∨ k.head? = some ']' ∨ k.head? = some '*'

theorem Stop.stops {k : Str} (h : Stop k) : StopsText k := by
  intro c hc
  rcases h with h | h | h | h <;> rw [h] at hc <;> cases hc
  all_goals exact ⟨by unfold Ordinary; decide, by decide⟩

theorem words_step {x : Word} {rest : List Word} {acc b k : Str} {E : List Char} (hx : WordOk x) (hnt : ∀ s, x ≠ .text s) (ha : ∀ c ∈ acc, LineChar c) (hk : Stop k)
    (h1 : acc = [] → Before b ∨ x :: rest = [] ∨ ∃ s ys, x :: rest = .text s :: ys) (h2 : acc ≠ [] → x :: rest ≠ [] → acc.getLast? = some ' ')
    (h3 : k.head? = some '*' → x :: rest = [] ∨ ∃ s, (x :: rest).getLast? = some (.text s))
    (hw : ∀ b k, Before b → After k → Wrote smart safe soft refs E b (writeWord x) k (wordHtml safe x) (wordAlt x) (wordLink x))
    (ih : ∀ b, (∀ c ∈ space rest, LineChar c) → (space rest = [] → Before b ∨ rest = [] ∨ ∃ s ys, rest = .text s :: ys) →
      (space rest ≠ [] → rest ≠ [] → (space rest).getLast? = some ' ') → (k.head? = some '*' → rest = [] ∨ ∃ s, rest.getLast? = some (.text s)) →
      Wrote smart safe soft refs E b (backslashAll (space rest) ++ writeWords rest) k (escapeXml (space rest) ++ wordsHtml safe rest)
        (escapeXml (space rest) ++ wordsAlt rest) (wordsLink rest)) :
    Wrote smart safe soft refs E b (backslashAll acc ++ writeWords (x :: rest)) k (escapeXml acc ++ wordsHtml safe (x :: rest))
      (escapeXml acc ++ wordsAlt (x :: rest)) (wordsLink (x :: rest)) := by
  rw [writeWords, wordsHtml, wordsAlt, wordsLink]
  obtain ⟨d, r, hd, hd'⟩ := word_head hnt
  have key : ∀ d ∈ "*`[!".toList, ¬ Ordinary d ∧ d ≠ '\n' := by unfold Ordinary; decide
  have t1 : Wrote smart safe soft refs E b (backslashAll acc) ((writeWord x ++ (space rest ++ writeWords rest)) ++ k) (escapeXml acc) (escapeXml acc) false := by
    refine wrote_text _ acc E b _ le_rfl ?_ ?_
    · rintro c hc rfl
      rcases (ha _ hc).2 with h | h
      · revert h; decide
      · revert h; decide
    · rw [hd]
      intro c hc
      cases hc
      exact key _ hd'
  have hb : Before (b ++ backslashAll acc) := by
    by_cases h0 : acc = []
    · subst h0
      rw [show backslashAll [] = [] from rfl, List.append_nil]
      rcases h1 rfl with h | h | ⟨s, ys, h⟩
      · exact h
      · cases h
      · exact absurd (List.cons.inj h).1 (hnt s)
    · have e := h2 h0 (by simp)
      right; left
      rw [List.getLast?_append, backslashAll_getLast, e]; rfl
  have sp := space_plain rest
  have i1 := ih (b ++ backslashAll acc ++ writeWord x)
    (by
      intro c hc; unfold space at hc; split at hc
      · cases hc
      · rw [List.mem_singleton] at hc; subst hc; exact ⟨by decide, .inl rfl⟩)
    (by
      intro h
      cases rest with
      | nil => exact .inr (.inl rfl)
      | cons y ys => cases h)
    (by
      intro h _
      unfold space at h ⊢
      split
      · rename_i hh; rw [if_pos hh] at h; exact absurd rfl h
      · rfl)
    (by
      intro h
      rcases h3 h with h | ⟨s, h⟩
      · cases h
      · cases rest with
        | nil => exact .inl rfl
        | cons y ys => exact .inr ⟨s, by rw [← h, List.getLast?_cons_cons]⟩)
  rw [sp.1, sp.2] at i1
  have hk' : After ((space rest ++ writeWords rest) ++ k) := by
    cases rest with
    | nil =>
      rw [show (space [] ++ writeWords []) ++ k = k by rw [writeWords]; rfl]
      rcases hk with h | h | h | h
      · exact .inl h
      · exact .inr (.inr (.inl h))
      · exact .inr (.inr (.inr (.inl h)))
      · rcases h3 h with h3 | ⟨s, h3⟩
        · cases h3
        · rw [List.getLast?_singleton, Option.some.injEq] at h3
          exact absurd h3 (hnt s)
    | cons y ys => exact .inr (.inl rfl)
  exact t1.seq ((hw _ _ hb hk').seq i1)

mutual
theorem word_wrote : ∀ (x : Word) (E : List Char) (b k : Str), WordOk x → (∀ s, x ≠ .text s) → Before b → After k →
    Wrote smart safe soft refs E b (writeWord x) k (wordHtml safe x) (wordAlt x) (wordLink x)
  | .text s, E, b, k, hx, ht, hb, hk => absurd rfl (ht s)
  | .code s, E, b, k, hx, ht, hb, hk => by
    rw [WordOk] at hx
    rw [writeWord, wordHtml, wordAlt, wordLink]
    exact wrote_code hx.1 hx.2 hk
  | .emph strong xs, E, b, k, hx, ht, hb, hk => by
    rw [WordOk] at hx
    obtain ⟨c, r, c1, c2, s, zs, rfl⟩ := beginsPlain_head hx.1
    obtain ⟨e, e1, e2, s', ys, e3⟩ := endsPlain_last hx.2.1
    have hcs : isPySpace c = false := by
      have := wordsOk_mem (x := .text (c :: s)) hx.2.2 (by simp)
      rw [WordOk] at this
      exact (this.2 c (by simp)).2
    have hes : isPySpace e = false := by
      have := wordsOk_mem (x := .text (s' ++ [e])) hx.2.2 (by rw [e3]; simp)
      rw [WordOk] at this
      exact (this.2 e (by simp)).2
    have ih := words_wrote (.text (c :: s) :: zs) [] ('*' :: E) (b ++ stars strong) (stars strong ++ k) hx.2.2 (by simp)
      (.inr (.inr (.inr (by cases strong <;> rfl)))) (fun _ => .inr (.inr ⟨_, _, rfl⟩)) (fun h => absurd rfl h) (fun _ => .inr ⟨s' ++ [e], by rw [e3]; simp⟩)
    have hnil : backslashAll [] = [] := rfl
    have hnil' : escapeXml [] = [] := rfl
    rw [hnil, hnil', List.nil_append, List.nil_append, List.nil_append] at ih
    have := wrote_emph hb hk (by rw [c1]; rfl) c2 hcs e1 e2 hes ih
    rw [writeWord, wordAlt, wordLink]
    cases strong
    · rw [wordHtml]; exact this
    · rw [wordHtml]; exact this
  | .link image d t xs, E, b, k, hx, ht, hb, hk => by
    rw [WordOk] at hx
    obtain ⟨h1, h2, h3, h4⟩ := hx
    have ih := words_wrote xs [] [] (b ++ opening image) (']' :: (target d t ++ k)) h4 (by simp) (.inr (.inr (.inl rfl)))
      (fun _ => .inl (by right; right; right; rw [List.getLast?_append_of_ne_nil _ (by cases image <;> decide)]; cases image <;> rfl))
      (fun h => absurd rfl h) (fun h => absurd h (by show some ']' ≠ some '*'; decide))
    have hnil : backslashAll [] = [] := rfl
    have hnil' : escapeXml [] = [] := rfl
    rw [hnil, hnil', List.nil_append, List.nil_append, List.nil_append] at ih
    have := wrote_link (E := E) h1 h2 h3 ih
    rw [writeWord, wordAlt]
    cases image
    · rw [wordHtml, wordLink]; exact this
    · rw [wordHtml, wordLink]; exact this
/-- Words after the characters `acc` that are not yet read. -/
theorem words_wrote : ∀ (xs : List Word) (acc : Str) (E : List Char) (b k : Str), WordsOk xs → (∀ c ∈ acc, LineChar c) → Stop k →
    (acc = [] → Before b ∨ xs = [] ∨ ∃ s ys, xs = .text s :: ys) → (acc ≠ [] → xs ≠ [] → acc.getLast? = some ' ') →
    (k.head? = some '*' → xs = [] ∨ ∃ s, xs.getLast? = some (.text s)) →
    Wrote smart safe soft refs E b (backslashAll acc ++ writeWords xs) k (escapeXml acc ++ wordsHtml safe xs) (escapeXml acc ++ wordsAlt xs) (wordsLink xs)
  | [], acc, E, b, k, hx, ha, hk, h1, h2, h3 => by
    rw [writeWords, wordsHtml, wordsAlt, wordsLink, List.append_nil, List.append_nil]
    refine wrote_text _ acc E b k le_rfl ?_ hk.stops
    rintro c hc rfl
    rcases (ha _ hc).2 with h | h
    · revert h; decide
    · revert h; decide
  | .text s :: rest, acc, E, b, k, hx, ha, hk, h1, h2, h3 => by
    rw [WordsOk, WordOk] at hx
    have hsp : ∀ c ∈ space rest, c = ' ' := by
      intro c hc; unfold space at hc; split at hc
      · cases hc
      · simpa using hc
    have ih := words_wrote rest (acc ++ (s ++ space rest)) E b k hx.2
      (by
        intro c hc
        rw [List.mem_append, List.mem_append] at hc
        rcases hc with hc | hc | hc
        · exact ha c hc
        · exact ⟨(hx.1.2 c hc).1, .inr (hx.1.2 c hc).2⟩
        · rw [hsp c hc]; exact ⟨by decide, .inl rfl⟩)
      hk (fun h => absurd (List.append_eq_nil_iff.1 (List.append_eq_nil_iff.1 h).2).1 hx.1.1)
      (fun _ hr => by
        have : space rest = [' '] := by cases rest with
          | nil => exact absurd rfl hr
          | cons => rfl
        rw [this, ← List.append_assoc, List.getLast?_append_of_ne_nil _ (by simp)]; rfl)
      (fun h => by
        rcases h3 h with h3 | ⟨s', hs'⟩
        · cases h3
        cases rest with
        | nil => exact .inl rfl
        | cons y ys => exact .inr ⟨s', by rw [← hs', List.getLast?_cons_cons]⟩)
    rw [backslashAll_append, backslashAll_append, escapeXml_append', escapeXml_append', (space_plain rest).1, (space_plain rest).2] at ih
    rw [writeWords, writeWord, wordsHtml, wordHtml, wordsAlt, wordAlt, wordsLink, wordLink, Bool.false_or]
    simpa only [List.append_assoc] using ih
  | .code s :: rest, acc, E, b, k, hx, ha, hk, h1, h2, h3 => by
    rw [WordsOk] at hx
    exact words_step hx.1 (by intro s h; cases h) ha hk h1 h2 h3
      (fun b k hb hk => word_wrote (.code s) E b k hx.1 (by intro s h; cases h) hb hk)
      (fun b g1 g2 g3 g4 => words_wrote rest (space rest) E b k hx.2 g1 hk g2 g3 g4)
  | .emph strong xs :: rest, acc, E, b, k, hx, ha, hk, h1, h2, h3 => by
    rw [WordsOk] at hx
    exact words_step hx.1 (by intro s h; cases h) ha hk h1 h2 h3
      (fun b k hb hk => word_wrote (.emph strong xs) E b k hx.1 (by intro s h; cases h) hb hk)
      (fun b g1 g2 g3 g4 => words_wrote rest (space rest) E b k hx.2 g1 hk g2 g3 g4)
  | .link image d t xs :: rest, acc, E, b, k, hx, ha, hk, h1, h2, h3 => by
    rw [WordsOk] at hx
    exact words_step hx.1 (by intro s h; cases h) ha hk h1 h2 h3
      (fun b k hb hk => word_wrote (.link image d t xs) E b k hx.1 (by intro s h; cases h) hb hk)
      (fun b g1 g2 g3 g4 => words_wrote rest (space rest) E b k hx.2 g1 hk g2 g3 g4)
end

/-! ### Lines before a soft line break -/

/-- The text `t` between `b` and `k` stands for content with this HTML. -/
def Wrote1 (smart safe : Bool) (soft : Str) (refs : Str → Option RefDef) (b t k html : Str) : Prop :=
  ∃ ys, Phrase smart refs [] b t k ys ∧ spansHtml safe soft ys = html

theorem Wrote1.seq {b t u k h1 h2 : Str} (x : Wrote1 smart safe soft refs b t (u ++ k) h1)
    (y : Wrote1 smart safe soft refs (b ++ t) u k h2) : Wrote1 smart safe soft refs b (t ++ u) k (h1 ++ h2) := by
  obtain ⟨xs, x1, rfl⟩ := x
  obtain ⟨ys, y1, rfl⟩ := y
  exact ⟨xs ++ ys, .seq x1 y1, spansHtml_append ..⟩

theorem Wrote.one {b t k h a : Str} {l : Bool} (x : Wrote smart safe soft refs [] b t k h a l) : Wrote1 smart safe soft refs b t k h := by
  obtain ⟨ys, y1, y2, _⟩ := x
  exact ⟨ys, y1, y2⟩

theorem text_line : ∀ (n : Nat) (s : Str) (b k : Str), s.length ≤ n → (∀ c ∈ s, c ≠ '\n') → s.getLast? ≠ some ' ' → k.head? ≠ some ' ' →
    Wrote1 smart safe soft refs b (backslashAll s ++ ['\n']) k (escapeXml s ++ soft)
  | _, [], b, k, _, _, _, hk => ⟨[.soft], .atom (.newline (j := 0) hk), by
      have e : escapeXml [] = [] := by decide +kernel
      rw [e]; simp [spansHtml, spanHtml]⟩
  | 0, c :: s, b, k, h, _, _, _ => by simp at h
  | n + 1, c :: s, b, k, hl, hn, hs, hk => by
    by_cases hc : c ∈ asciiPunctuation
    · have e : backslashAll (c :: s) = ['\\', c] ++ backslashAll s := by simp only [backslashAll, List.flatMap_cons, if_pos hc]
      have e2 : escapeXml (c :: s) = escapeXml [c] ++ escapeXml s := escapeXml_append' [c] s
      rw [e, e2, List.append_assoc, List.append_assoc]
      refine (wrote_atom (.escape hc)).one.seq (text_line n s _ k (by simpa using hl) (fun x hx => hn x (by simp [hx])) ?_ hk)
      cases s with
      | nil => simp
      | cons d s => rwa [List.getLast?_cons_cons] at hs
    · let p : Char → Bool := fun c => decide (c ∉ asciiPunctuation)
      have e0 : c :: s = (c :: s).takeWhile p ++ (c :: s).dropWhile p := (List.takeWhile_append_dropWhile ..).symm
      have hp : ∀ x ∈ (c :: s).takeWhile p, x ∉ asciiPunctuation := fun x hx => by simpa [p] using List.mem_takeWhile_imp hx
      have hne : (c :: s).takeWhile p ≠ [] := by
        rw [List.takeWhile_cons_of_pos (by simpa [p] using hc)]; simp
      have hd : ∀ x y, (c :: s).dropWhile p = x :: y → x ∈ asciiPunctuation := by
        intro x y h
        have := List.head?_dropWhile_not p (c :: s)
        rw [h] at this
        simpa [p] using this
      have hlen : ((c :: s).dropWhile p).length ≤ n := by
        have : (c :: s).dropWhile p = s.dropWhile p := List.dropWhile_cons_of_pos (by simpa [p] using hc)
        rw [this]
        have := (List.dropWhile_suffix (l := s) p).length_le
        simp at hl; omega
      have hn' : ∀ x ∈ (c :: s).dropWhile p, x ≠ '\n' := fun x hx => hn x (List.dropWhile_suffix _ |>.mem hx)
      have hm : ∀ x ∈ (c :: s).takeWhile p, x ≠ '\n' := fun x hx => hn x (List.takeWhile_prefix _ |>.mem hx)
      generalize (c :: s).takeWhile p = m at *
      generalize (c :: s).dropWhile p = r at *
      rw [e0] at hs
      rw [e0, backslashAll_append, escapeXml_append', backslashAll_plain hp]
      have ht : typeset smart m = m := typeset_plain smart m fun x hx =>
        ⟨by rintro rfl; exact hp _ hx (by decide), by rintro rfl; exact hp _ hx (by decide)⟩
      cases r with
      | nil =>
        have ha := Atom.lineEnd (smart := smart) (m := m) (k := k) (i := 0) (j := 0) (.inl hne)
          (fun x hx => ordinary_of (hp x hx) (hm x hx)) (by rwa [List.append_nil] at hs) hk
        rw [ht] at ha
        rw [show m ++ backslashAll [] ++ ['\n'] = m ++ (List.replicate 0 ' ' ++ '\n' :: List.replicate 0 ' ') by simp [backslashAll]]
        refine ⟨_, .atom ha, ?_⟩
        have e : escapeXml [] = [] := by decide +kernel
        rw [e]; simp [spansHtml, spanHtml]
      | cons x y =>
        have hx := hd x y rfl
        have e3 : backslashAll (x :: y) = '\\' :: x :: backslashAll y := by simp only [backslashAll, List.flatMap_cons, if_pos hx]; rfl
        have ha := Atom.plain (smart := smart) (m := m) (k := (backslashAll (x :: y) ++ ['\n']) ++ k) hne
          (fun x hx => ordinary_of (hp x hx) (hm x hx)) (by
            rw [e3]
            intro c hc
            cases hc
            exact ⟨by unfold Ordinary; decide, by decide⟩)
        rw [ht] at ha
        rw [List.append_assoc, List.append_assoc]
        refine (wrote_atom ha).one.seq (text_line n (x :: y) _ k hlen hn' ?_ hk)
        rwa [List.getLast?_append_of_ne_nil _ (by simp)] at hs

theorem line_step {x : Word} {rest : List Word} {acc b k : Str} (hx : WordOk x) (hnt : ∀ s, x ≠ .text s) (ha : ∀ c ∈ acc, LineChar c)
    (h1 : acc = [] → Before b ∨ x :: rest = [] ∨ ∃ s ys, x :: rest = .text s :: ys) (h2 : acc ≠ [] → x :: rest ≠ [] → acc.getLast? = some ' ')
    (ih : ∀ b, (∀ c ∈ space rest, LineChar c) → (space rest = [] → Before b ∨ rest = [] ∨ ∃ s ys, rest = .text s :: ys) →
      (space rest ≠ [] → rest ≠ [] → (space rest).getLast? = some ' ') → (rest = [] → (space rest).getLast? ≠ some ' ') →
      Wrote1 smart safe soft refs b (backslashAll (space rest) ++ (writeWords rest ++ ['\n'])) k (escapeXml (space rest) ++ (wordsHtml safe rest ++ soft))) :
    Wrote1 smart safe soft refs b (backslashAll acc ++ (writeWords (x :: rest) ++ ['\n'])) k (escapeXml acc ++ (wordsHtml safe (x :: rest) ++ soft)) := by
  rw [writeWords, wordsHtml]
  obtain ⟨d, r, hd, hd'⟩ := word_head hnt
  have key : ∀ d ∈ "*`[!".toList, ¬ Ordinary d ∧ d ≠ '\n' := by unfold Ordinary; decide
  have t1 : Wrote smart safe soft refs [] b (backslashAll acc) ((writeWord x ++ (space rest ++ (writeWords rest ++ ['\n']))) ++ k) (escapeXml acc) (escapeXml acc) false := by
    refine wrote_text _ acc [] b _ le_rfl ?_ ?_
    · rintro c hc rfl
      rcases (ha _ hc).2 with h | h
      · revert h; decide
      · revert h; decide
    · rw [hd]
      intro c hc
      cases hc
      exact key _ hd'
  have hb : Before (b ++ backslashAll acc) := by
    by_cases h0 : acc = []
    · subst h0
      rw [show backslashAll [] = [] from rfl, List.append_nil]
      rcases h1 rfl with h | h | ⟨s, ys, h⟩
      · exact h
      · cases h
      · exact absurd (List.cons.inj h).1 (hnt s)
    · have e := h2 h0 (by simp)
      right; left
      rw [List.getLast?_append, backslashAll_getLast, e]; rfl
  have sp := space_plain rest
  have i1 := ih (b ++ backslashAll acc ++ writeWord x)
    (by
      intro c hc; unfold space at hc; split at hc
      · cases hc
      · rw [List.mem_singleton] at hc; subst hc; exact ⟨by decide, .inl rfl⟩)
    (by
      intro h
      cases rest with
      | nil => exact .inr (.inl rfl)
      | cons y ys => cases h)
    (by
      intro h _
      unfold space at h ⊢
      split
      · rename_i hh; rw [if_pos hh] at h; exact absurd rfl h
      · rfl)
    (by rintro rfl; simp [space])
  rw [sp.1, sp.2] at i1
  have hk' : After ((space rest ++ (writeWords rest ++ ['\n'])) ++ k) := by
    cases rest with
    | nil => rw [writeWords]; exact .inr (.inr (.inr (.inr rfl)))
    | cons y ys => exact .inr (.inl rfl)
  have := t1.one.seq ((word_wrote x [] _ _ hx hnt hb hk').one.seq i1)
  simpa only [List.append_assoc] using this

/-- Words after the characters `acc` that are not yet read, and a soft line break. -/
theorem words_line : ∀ (xs : List Word) (acc : Str) (b k : Str), WordsOk xs → (∀ c ∈ acc, LineChar c) → k.head? ≠ some ' ' →
    (acc = [] → Before b ∨ xs = [] ∨ ∃ s ys, xs = .text s :: ys) → (acc ≠ [] → xs ≠ [] → acc.getLast? = some ' ') →
    (xs = [] → acc.getLast? ≠ some ' ') →
    Wrote1 smart safe soft refs b (backslashAll acc ++ (writeWords xs ++ ['\n'])) k (escapeXml acc ++ (wordsHtml safe xs ++ soft))
  | [], acc, b, k, hx, ha, hk, h1, h2, h3 => by
    rw [writeWords, wordsHtml, List.nil_append, List.nil_append]
    refine text_line _ acc b k le_rfl ?_ (h3 rfl) hk
    rintro c hc rfl
    rcases (ha _ hc).2 with h | h
    · revert h; decide
    · revert h; decide
  | .text s :: rest, acc, b, k, hx, ha, hk, h1, h2, h3 => by
    rw [WordsOk, WordOk] at hx
    have hsp : ∀ c ∈ space rest, c = ' ' := by
      intro c hc; unfold space at hc; split at hc
      · cases hc
      · simpa using hc
    have ih := words_line rest (acc ++ (s ++ space rest)) b k hx.2
      (by
        intro c hc
        rw [List.mem_append, List.mem_append] at hc
        rcases hc with hc | hc | hc
        · exact ha c hc
        · exact ⟨(hx.1.2 c hc).1, .inr (hx.1.2 c hc).2⟩
        · rw [hsp c hc]; exact ⟨by decide, .inl rfl⟩)
      hk (fun h => absurd (List.append_eq_nil_iff.1 (List.append_eq_nil_iff.1 h).2).1 hx.1.1)
      (fun _ hr => by
        have : space rest = [' '] := by cases rest with
          | nil => exact absurd rfl hr
          | cons => rfl
        rw [this, ← List.append_assoc, List.getLast?_append_of_ne_nil _ (by simp)]; rfl)
      (by
        rintro rfl
        rw [show space [] = [] from rfl, List.append_nil, List.getLast?_append_of_ne_nil _ hx.1.1]
        intro h
        have := (hx.1.2 ' ' (List.mem_of_getLast? h)).2
        revert this; decide)
    rw [backslashAll_append, backslashAll_append, escapeXml_append', escapeXml_append', (space_plain rest).1, (space_plain rest).2] at ih
    rw [writeWords, writeWord, wordsHtml, wordHtml]
    simpa only [List.append_assoc] using ih
  | .code s :: rest, acc, b, k, hx, ha, hk, h1, h2, h3 => by
    rw [WordsOk] at hx
    exact line_step hx.1 (by intro s h; cases h) ha h1 h2 (fun b g1 g2 g3 g4 => words_line rest (space rest) b k hx.2 g1 hk g2 g3 g4)
  | .emph strong xs :: rest, acc, b, k, hx, ha, hk, h1, h2, h3 => by
    rw [WordsOk] at hx
    exact line_step hx.1 (by intro s h; cases h) ha h1 h2 (fun b g1 g2 g3 g4 => words_line rest (space rest) b k hx.2 g1 hk g2 g3 g4)
  | .link image d t xs :: rest, acc, b, k, hx, ha, hk, h1, h2, h3 => by
    rw [WordsOk] at hx
    exact line_step hx.1 (by intro s h; cases h) ha h1 h2 (fun b g1 g2 g3 g4 => words_line rest (space rest) b k hx.2 g1 hk g2 g3 g4)

end CM
