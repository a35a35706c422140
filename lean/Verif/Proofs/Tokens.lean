import Verif.Proofs.Render
import Verif.Proofs.Escape
import Verif.Spec.Tokens
/-
Lemmas for C07-C09: how the tokenizer reads what the renderer writes.
-/
set_option linter.unusedSimpArgs false
namespace CM
open Spec

theorem tokRun_append (st : TokState) (a b : Str) :
    tokRun st (a ++ b) = match tokRun st a with
      | none => none
      | some (ts, st') => match tokRun st' b with
        | none => none
        | some (us, st'') => some (ts ++ us, st'') := by
  induction a generalizing st with
  | nil =>
    simp only [List.nil_append, tokRun]
    cases tokRun st b with
    | none => rfl
    | some p => cases p; rfl
  | cons c a ih =>
    simp only [List.cons_append, tokRun]
    cases tokStep st c with
    | none => rfl
    | some p =>
      obtain ⟨st1, t⟩ := p
      simp only [ih]
      cases tokRun st1 a with
      | none => rfl
      | some q =>
        obtain ⟨ts, st2⟩ := q
        simp only
        cases tokRun st2 b with
        | none => rfl
        | some r => obtain ⟨us, st3⟩ := r; simp

theorem tokRun_append_some {st st' st'' : TokState} {a b : Str} {ts us : List Tok}
    (h1 : tokRun st a = some (ts, st')) (h2 : tokRun st' b = some (us, st'')) :
    tokRun st (a ++ b) = some (ts ++ us, st'') := by
  rw [tokRun_append, h1]; simp only [h2]

theorem tokRun_cons_some {st st' st'' : TokState} {c : Char} {b : Str} {t : Option Tok} {us : List Tok}
    (h1 : tokStep st c = some (st', t)) (h2 : tokRun st' b = some (us, st'')) :
    tokRun st (c :: b) = some (t.toList ++ us, st'') := by
  simp only [tokRun, h1, h2]

theorem tokRun_text (s : Str) (h : ∀ c ∈ s, c ≠ '<' ∧ c ≠ '>' ∧ c ≠ '"') :
    tokRun .data s = some (s.map .chr, .data) := by
  induction s with
  | nil => rfl
  | cons c s ih =>
    obtain ⟨h1, h2, h3⟩ := h c (by simp)
    exact tokRun_cons_some (t := some (.chr c)) (by simp [tokStep, h1, h2, h3])
      (ih fun c hc => h c (by simp [hc]))

theorem nameChar_ne {c : Char} (h : isNameChar c = true) :
    c ≠ '>' ∧ c ≠ ' ' ∧ c ≠ '=' ∧ c ≠ '/' ∧ c ≠ '!' := by
  refine ⟨?_, ?_, ?_, ?_, ?_⟩ <;> rintro rfl <;> revert h <;> decide

theorem tokRun_openName (s acc : Str) (h : ∀ c ∈ s, isNameChar c = true) :
    tokRun (.openName acc) s = some ([], .openName (acc ++ s)) := by
  induction s generalizing acc with
  | nil => simp [tokRun]
  | cons c s ih =>
    have hc := h c (by simp)
    obtain ⟨h1, h2, _⟩ := nameChar_ne hc
    have := tokRun_cons_some (t := none) (show tokStep (.openName acc) c = some (.openName (acc ++ [c]), none) by
      simp [tokStep, h1, h2, hc]) (ih (acc ++ [c]) fun c hc => h c (by simp [hc]))
    simpa using this

theorem tokRun_closeName (s acc : Str) (h : ∀ c ∈ s, isNameChar c = true) :
    tokRun (.closeName acc) s = some ([], .closeName (acc ++ s)) := by
  induction s generalizing acc with
  | nil => simp [tokRun]
  | cons c s ih =>
    have hc := h c (by simp)
    obtain ⟨h1, h2, _⟩ := nameChar_ne hc
    have := tokRun_cons_some (t := none) (show tokStep (.closeName acc) c = some (.closeName (acc ++ [c]), none) by
      simp [tokStep, h1, hc]) (ih (acc ++ [c]) fun c hc => h c (by simp [hc]))
    simpa using this

theorem tokRun_attrName (n : Str) (as : TokAttrs) (s acc : Str) (h : ∀ c ∈ s, isNameChar c = true) :
    tokRun (.attrName n as acc) s = some ([], .attrName n as (acc ++ s)) := by
  induction s generalizing acc with
  | nil => simp [tokRun]
  | cons c s ih =>
    have hc := h c (by simp)
    obtain ⟨_, _, h1, _⟩ := nameChar_ne hc
    have := tokRun_cons_some (t := none)
      (show tokStep (.attrName n as acc) c = some (.attrName n as (acc ++ [c]), none) by
        simp [tokStep, h1, hc]) (ih (acc ++ [c]) fun c hc => h c (by simp [hc]))
    simpa using this

theorem tokRun_attrValue (n : Str) (as : TokAttrs) (an : Str) (s acc : Str) (h : '"' ∉ s) :
    tokRun (.attrValue n as an acc) s = some ([], .attrValue n as an (acc ++ s)) := by
  induction s generalizing acc with
  | nil => simp [tokRun]
  | cons c s ih =>
    have h1 : c ≠ '"' := by rintro rfl; simp at h
    have := tokRun_cons_some (t := none)
      (show tokStep (.attrValue n as an acc) c = some (.attrValue n as an (acc ++ [c]), none) by
        simp [tokStep, h1]) (ih (acc ++ [c]) (by simp at h; exact h.2))
    simpa using this

/-- A name that can be used for a tag or attribute. -/
def NameOk (s : Str) : Prop := s ≠ [] ∧ ∀ c ∈ s, isNameChar c = true

instance (s : Str) : Decidable (NameOk s) := inferInstanceAs (Decidable (_ ∧ _))

/-- The text of one attribute. -/
def attrText (a : Str × Str) : Str := ' ' :: (a.1 ++ ('=' :: '"' :: (a.2 ++ ['"'])))

/-- After a tag name, or after an attribute. -/
def atGap (n : Str) (as : TokAttrs) : TokState := if as.isEmpty then .openName n else .afterValue n as

theorem step_gap_space (n : Str) (as : TokAttrs) : tokStep (atGap n as) ' ' = some (.space n as, none) := by
  unfold atGap; split
  · rename_i h; simp at h; subst h; rfl
  · rfl

theorem step_gap_gt (n : Str) (as : TokAttrs) :
    tokStep (atGap n as) '>' = some (.data, some (.opening n as)) := by
  unfold atGap; split
  · rename_i h; simp at h; subst h; rfl
  · rfl

theorem tokRun_attr (n : Str) (as : TokAttrs) (a : Str × Str) (hn : NameOk a.1) (hv : '"' ∉ a.2) :
    tokRun (atGap n as) (attrText a) = some ([], atGap n (as ++ [a])) := by
  obtain ⟨an, v⟩ := a
  obtain ⟨hne, hc⟩ := hn
  cases an with
  | nil => exact absurd rfl hne
  | cons c an =>
    have hc0 := hc c (by simp)
    obtain ⟨_, _, _, h4, _⟩ := nameChar_ne hc0
    have e4 : tokRun (.attrValue n as (c :: an) v) ['"'] =
        some ([], .afterValue n (as ++ [((c :: an), v)])) := rfl
    have e3 := tokRun_append_some (tokRun_attrValue n as (c :: an) v [] hv) e4
    have e2 := tokRun_cons_some (t := none) (show tokStep (.attrEq n as (c :: an)) '"' =
      some (.attrValue n as (c :: an) [], none) from rfl) e3
    have e2' := tokRun_cons_some (t := none) (show tokStep (.attrName n as ([c] ++ an)) '=' =
      some (.attrEq n as (c :: an), none) from rfl) e2
    have e1 := tokRun_append_some (tokRun_attrName n as an [c] fun x hx => hc x (by simp [hx])) e2'
    have e0 := tokRun_cons_some (t := none) (show tokStep (.space n as) c = some (.attrName n as [c], none) by
      simp [tokStep, h4, hc0]) e1
    have e := tokRun_cons_some (t := none) (step_gap_space n as) e0
    have hg : atGap n (as ++ [((c :: an), v)]) = .afterValue n (as ++ [((c :: an), v)]) := by
      simp [atGap]
    rw [hg]
    simpa [attrText] using e

theorem tokRun_attrs (n : Str) (bs : TokAttrs) (as : TokAttrs)
    (h : ∀ a ∈ bs, NameOk a.1 ∧ '"' ∉ a.2) :
    tokRun (atGap n as) (bs.flatMap attrText) = some ([], atGap n (as ++ bs)) := by
  induction bs generalizing as with
  | nil => simp [tokRun]
  | cons b bs ih =>
    rw [List.flatMap_cons]
    have := tokRun_append_some (tokRun_attr n as b (h b (by simp)).1 (h b (by simp)).2)
      (ih (as ++ [b]) fun a ha => h a (by simp [ha]))
    simpa using this

theorem tokRun_lt_name (n : Str) (hn : NameOk n) : tokRun .data ('<' :: n) = some ([], atGap n []) := by
  obtain ⟨hne, hc⟩ := hn
  cases n with
  | nil => exact absurd rfl hne
  | cons c n =>
    have hc0 := hc c (by simp)
    obtain ⟨_, _, _, h4, h5⟩ := nameChar_ne hc0
    have e1 := tokRun_cons_some (t := none) (show tokStep .lt c = some (.openName [c], none) by
      simp [tokStep, h4, h5, hc0]) (tokRun_openName n [c] fun x hx => hc x (by simp [hx]))
    have e0 := tokRun_cons_some (t := none) (show tokStep .data '<' = some (.lt, none) from rfl) e1
    simpa [atGap] using e0

theorem tokRun_openTag (n : Str) (as : TokAttrs) (hn : NameOk n) (h : ∀ a ∈ as, NameOk a.1 ∧ '"' ∉ a.2) :
    tokRun .data (HState.tagText n as false) = some ([.opening n as], .data) := by
  have e1 := tokRun_append_some (tokRun_lt_name n hn) (tokRun_attrs n as [] h)
  have e2 : tokRun (atGap n ([] ++ as)) ['>'] = some ([.opening n as], .data) :=
    tokRun_cons_some (t := some (.opening n as)) (step_gap_gt n as) rfl
  have := tokRun_append_some e1 e2
  have hf : attrText = fun a : Str × Str => ' ' :: (a.1 ++ ('=' :: '"' :: (a.2 ++ ['"']))) := rfl
  simpa [HState.tagText, hf] using this

theorem tokRun_voidTag (n : Str) (as : TokAttrs) (hn : NameOk n) (h : ∀ a ∈ as, NameOk a.1 ∧ '"' ∉ a.2) :
    tokRun .data (HState.tagText n as true) = some ([.void n as], .data) := by
  have e1 := tokRun_append_some (tokRun_lt_name n hn) (tokRun_attrs n as [] h)
  have e2 : tokRun (atGap n ([] ++ as)) [' ', '/', '>'] = some ([.void n as], .data) :=
    tokRun_cons_some (t := none) (step_gap_space n as) rfl
  have := tokRun_append_some e1 e2
  have hf : attrText = fun a : Str × Str => ' ' :: (a.1 ++ ('=' :: '"' :: (a.2 ++ ['"']))) := rfl
  simpa [HState.tagText, hf] using this

theorem tokRun_closeTag (n : Str) (hn : NameOk n) :
    tokRun .data (HState.tagText ('/' :: n) [] false) = some ([.closing n], .data) := by
  obtain ⟨hne, hc⟩ := hn
  have e3 : tokRun (.closeName ([] ++ n)) ['>'] = some ([.closing n], .data) := by
    cases n with
    | nil => exact absurd rfl hne
    | cons c n => rfl
  have e2 := tokRun_append_some (tokRun_closeName n [] hc) e3
  have e1 := tokRun_cons_some (t := none) (show tokStep .lt '/' = some (.closeName [], none) from rfl) e2
  have e0 := tokRun_cons_some (t := none) (show tokStep .data '<' = some (.lt, none) from rfl) e1
  simpa [HState.tagText] using e0

/-! ### Balanced pieces of output -/

/-- A piece of output that is a balanced sequence of allowed tokens. -/
def Good (P : Str → Str → Prop) (s : Str) : Prop :=
  ∃ ts, tokRun .data s = some (ts, .data) ∧ (∀ t ∈ ts, t.allowed P) ∧
    ∀ stack rest, nested stack (ts ++ rest) = nested stack rest

variable {P : Str → Str → Prop}

theorem Good.nil : Good P [] := ⟨[], rfl, by simp, by simp⟩

theorem Good.append {a b : Str} (ha : Good P a) (hb : Good P b) : Good P (a ++ b) := by
  obtain ⟨ts, h1, h2, h3⟩ := ha
  obtain ⟨us, k1, k2, k3⟩ := hb
  refine ⟨ts ++ us, tokRun_append_some h1 k1, ?_, ?_⟩
  · intro t ht
    rcases List.mem_append.mp ht with h | h
    · exact h2 t h
    · exact k2 t h
  · intro stack rest
    rw [List.append_assoc, h3, k3]

theorem Good.text {s : Str} (h : ∀ c ∈ s, c ≠ '<' ∧ c ≠ '>' ∧ c ≠ '"') : Good P s := by
  refine ⟨_, tokRun_text s h, ?_, ?_⟩
  · intro t ht
    obtain ⟨c, _, rfl⟩ := List.mem_map.mp ht
    trivial
  · intro stack rest
    clear h
    induction s with
    | nil => rfl
    | cons c s ih => simpa [nested] using ih

theorem Good.comment : Good P rawOmitted := by
  refine ⟨[.comment " raw HTML omitted ".toList], by decide, ?_, ?_⟩
  · intro t ht; simp at ht; subst ht; rfl
  · intro stack rest; cases stack <;> rfl

theorem nameOk_of_element {n : Str} (h : n ∈ elementNames) : NameOk n := by
  revert n; decide

theorem nameOk_of_void {n : Str} (h : n ∈ voidNames) : NameOk n := by
  revert n; decide

theorem nameOk_of_attr {n : Str} (h : n ∈ attributeNames) : NameOk n := by
  revert n; decide

/-- Attributes that can be written. -/
def AttrsOk (P : Str → Str → Prop) (as : TokAttrs) : Prop :=
  ∀ a ∈ as, a.1 ∈ attributeNames ∧ '"' ∉ a.2 ∧ P a.1 a.2

theorem Good.void {n : Str} {as : TokAttrs} (hn : n ∈ voidNames) (ha : AttrsOk P as) :
    Good P (HState.tagText n as true) := by
  refine ⟨_, tokRun_voidTag n as (nameOk_of_void hn)
    (fun a h => ⟨nameOk_of_attr (ha a h).1, (ha a h).2.1⟩), ?_, ?_⟩
  · intro t ht; simp at ht; subst ht
    exact ⟨hn, fun a h => ⟨(ha a h).1, (ha a h).2.2⟩⟩
  · intro stack rest; cases stack <;> rfl

theorem Good.elem {n : Str} {as : TokAttrs} {s : Str} (hn : n ∈ elementNames) (ha : AttrsOk P as)
    (hs : Good P s) :
    Good P (HState.tagText n as false ++ (s ++ HState.tagText ('/' :: n) [] false)) := by
  obtain ⟨ts, h1, h2, h3⟩ := hs
  have e := tokRun_append_some (tokRun_openTag n as (nameOk_of_element hn)
      (fun a h => ⟨nameOk_of_attr (ha a h).1, (ha a h).2.1⟩))
    (tokRun_append_some h1 (tokRun_closeTag n (nameOk_of_element hn)))
  refine ⟨_, e, ?_, ?_⟩
  · intro t ht
    simp only [List.mem_append, List.mem_singleton] at ht
    rcases ht with rfl | ht | rfl
    · exact ⟨hn, fun a h => ⟨(ha a h).1, (ha a h).2.2⟩⟩
    · exact h2 t ht
    · exact hn
  · intro stack rest
    simp [nested, h3]

theorem Good.tokenize {s : Str} (h : Good P s) :
    ∃ ts, tokenize s = some ts ∧ (∀ t ∈ ts, t.allowed P) ∧ nested [] ts = true := by
  obtain ⟨ts, h1, h2, h3⟩ := h
  refine ⟨ts, by simp [Spec.tokenize, h1], h2, ?_⟩
  have := h3 [] []
  simpa [nested] using this

end CM
