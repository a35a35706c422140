import Verif.Model.Regex
/-
Lemmas about the backtracking matcher: `run` as a search through an ordered list of possible
remainders, and the deterministic cases used for the patterns of the repo.
-/
set_option linter.unusedSimpArgs false
namespace CM

/-! ### The ordered list of remainders -/

def starAll (m : Str → List Str) : Nat → Str → List Str
  | 0, s => [s]
  | f + 1, s => (m s).flatMap (fun s' => if s'.length < s.length then starAll m f s' else []) ++ [s]

def lazyAll (m : Str → List Str) : Nat → Str → List Str
  | 0, s => [s]
  | f + 1, s => s :: (m s).flatMap (fun s' => if s'.length < s.length then lazyAll m f s' else [])

/-- Remainders after matching `r` at `s`, in backtracking order. -/
def Re.all (n : Nat) : Re → Str → List Str
  | .eps, s => [s]
  | .chr p, s =>
    match s with
    | [] => []
    | c :: cs => if p c then [cs] else []
  | .seq a b, s => (a.all n s).flatMap (b.all n)
  | .alt a b, s => a.all n s ++ b.all n s
  | .star a, s => starAll (a.all n) s.length s
  | .lazyStar a, s => lazyAll (a.all n) s.length s
  | .upTo m a, s => starAll (a.all n) m s
  | .bos, s => if s.length == n then [s] else []
  | .eos, s =>
    match s with
    | [] => [s]
    | [c] => if c == '\n' then [s] else []
    | _ :: _ :: _ => []
  | .look a, s => if (a.all n s).isEmpty then [] else [s]
  | .nlook a, s => if (a.all n s).isEmpty then [s] else []

theorem findSome?_flatMap' {α β γ : Type} (l : List α) (f : α → List β) (k : β → Option γ) :
    (l.flatMap f).findSome? k = l.findSome? (fun a => (f a).findSome? k) := by
  induction l with
  | nil => rfl
  | cons a l ih => simp [List.findSome?_append, List.findSome?_cons, ih]; cases List.findSome? k (f a) <;> simp

theorem starK_eq (m : Str → (Str → Option Str) → Option Str) (l : Str → List Str)
    (h : ∀ s k, m s k = (l s).findSome? k) (k : Str → Option Str) (f : Nat) :
    ∀ s, starK m k f s = (starAll l f s).findSome? k := by
  induction f with
  | zero => intro s; simp [starK, starAll]
  | succ f ih =>
    intro s
    simp only [starK, starAll, h, List.findSome?_append, findSome?_flatMap']
    have : (fun a => List.findSome? k (if a.length < s.length then starAll l f a else [])) =
        fun s' => if s'.length < s.length then starK m k f s' else none := by
      funext a; split <;> simp [ih]
    rw [this]
    cases List.findSome? (fun s' => if s'.length < s.length then starK m k f s' else none) (l s) <;> simp

theorem lazyK_eq (m : Str → (Str → Option Str) → Option Str) (l : Str → List Str)
    (h : ∀ s k, m s k = (l s).findSome? k) (k : Str → Option Str) (f : Nat) :
    ∀ s, lazyK m k f s = (lazyAll l f s).findSome? k := by
  induction f with
  | zero => intro s; simp [lazyK, lazyAll]
  | succ f ih =>
    intro s
    simp only [lazyK, lazyAll, h, List.findSome?_cons, findSome?_flatMap']
    have : (fun a => List.findSome? k (if a.length < s.length then lazyAll l f a else [])) =
        fun s' => if s'.length < s.length then lazyK m k f s' else none := by
      funext a; split <;> simp [ih]
    rw [this]
    cases k s <;> rfl

theorem upToK_eq (m : Str → (Str → Option Str) → Option Str) (l : Str → List Str)
    (h : ∀ s k, m s k = (l s).findSome? k) (k : Str → Option Str) (f : Nat) :
    ∀ s, upToK m k f s = (starAll l f s).findSome? k := by
  induction f with
  | zero => intro s; simp [upToK, starAll]
  | succ f ih =>
    intro s
    simp only [upToK, starAll, h, List.findSome?_append, findSome?_flatMap']
    have : (fun a => List.findSome? k (if a.length < s.length then starAll l f a else [])) =
        fun s' => if s'.length < s.length then upToK m k f s' else none := by
      funext a; split <;> simp [ih]
    rw [this]
    cases List.findSome? (fun s' => if s'.length < s.length then upToK m k f s' else none) (l s) <;> simp

theorem Re.run_eq_all (n : Nat) (r : Re) : ∀ s k, r.run n s k = (r.all n s).findSome? k := by
  induction r with
  | eps => intro s k; simp [run, all]
  | chr p =>
    intro s k
    cases s with
    | nil => simp [run, all]
    | cons c cs => simp only [run, all]; split <;> simp
  | seq a b iha ihb =>
    intro s k
    simp only [run, all, findSome?_flatMap', iha]
    congr 1; funext s'; exact ihb s' k
  | alt a b iha ihb =>
    intro s k
    simp only [run, all, List.findSome?_append, iha, ihb]
    cases List.findSome? k (all n a s) <;> simp
  | star a ih => intro s k; simp only [run, all]; exact starK_eq _ _ ih k _ s
  | lazyStar a ih => intro s k; simp only [run, all]; exact lazyK_eq _ _ ih k _ s
  | upTo m a ih => intro s k; simp only [run, all]; exact upToK_eq _ _ ih k _ s
  | bos => intro s k; simp only [run, all]; split <;> simp
  | eos =>
    intro s k
    match s with
    | [] => simp [run, all]
    | [c] => simp only [run, all]; split <;> simp
    | _ :: _ :: _ => simp [run, all]
  | look a ih =>
    intro s k
    simp only [run, all, ih]
    cases h : all n a s <;> simp
  | nlook a ih =>
    intro s k
    simp only [run, all, ih]
    cases h : all n a s <;> simp

/-! ### Remainders are suffixes -/

theorem starAll_suffix {m : Str → List Str} (h : ∀ s t, t ∈ m s → t <:+ s) (f : Nat) :
    ∀ s t, t ∈ starAll m f s → t <:+ s := by
  induction f with
  | zero => intro s t ht; simp [starAll] at ht; subst ht; exact List.suffix_refl _
  | succ f ih =>
    intro s t ht
    simp only [starAll, List.mem_append, List.mem_flatMap, List.mem_singleton] at ht
    rcases ht with ⟨u, hu, ht⟩ | rfl
    · split at ht
      · exact (ih u t ht).trans (h s u hu)
      · simp at ht
    · exact List.suffix_refl _

theorem lazyAll_suffix {m : Str → List Str} (h : ∀ s t, t ∈ m s → t <:+ s) (f : Nat) :
    ∀ s t, t ∈ lazyAll m f s → t <:+ s := by
  induction f with
  | zero => intro s t ht; simp [lazyAll] at ht; subst ht; exact List.suffix_refl _
  | succ f ih =>
    intro s t ht
    simp only [lazyAll, List.mem_cons, List.mem_flatMap] at ht
    rcases ht with rfl | ⟨u, hu, ht⟩
    · exact List.suffix_refl _
    · split at ht
      · exact (ih u t ht).trans (h s u hu)
      · simp at ht

theorem Re.all_suffix (n : Nat) (r : Re) : ∀ s t, t ∈ r.all n s → t <:+ s := by
  induction r with
  | eps => intro s t ht; simp [all] at ht; subst ht; exact List.suffix_refl _
  | chr p =>
    intro s t ht
    cases s with
    | nil => simp [all] at ht
    | cons c cs =>
      simp only [all] at ht
      split at ht <;> simp at ht
      subst ht; exact List.suffix_cons _ _
  | seq a b iha ihb =>
    intro s t ht
    simp only [all, List.mem_flatMap] at ht
    obtain ⟨u, hu, ht⟩ := ht
    exact (ihb u t ht).trans (iha s u hu)
  | alt a b iha ihb =>
    intro s t ht
    simp only [all, List.mem_append] at ht
    exact ht.elim (iha s t) (ihb s t)
  | star a ih => intro s t ht; exact starAll_suffix ih _ s t ht
  | lazyStar a ih => intro s t ht; exact lazyAll_suffix ih _ s t ht
  | upTo m a ih => intro s t ht; exact starAll_suffix ih _ s t ht
  | bos => intro s t ht; simp only [all] at ht; split at ht <;> simp at ht; subst ht; exact List.suffix_refl _
  | eos =>
    intro s t ht
    match s with
    | [] => simp [all] at ht; subst ht; exact List.suffix_refl _
    | [c] => simp only [all] at ht; split at ht <;> simp at ht; subst ht; exact List.suffix_refl _
    | _ :: _ :: _ => simp [all] at ht
  | look a ih => intro s t ht; simp only [all] at ht; split at ht <;> simp at ht; subst ht; exact List.suffix_refl _
  | nlook a ih => intro s t ht; simp only [all] at ht; split at ht <;> simp at ht; subst ht; exact List.suffix_refl _

theorem Re.run_some_mem {n : Nat} {r : Re} {s t : Str} (h : r.run n s some = some t) : t ∈ r.all n s := by
  rw [run_eq_all] at h
  obtain ⟨x, hx, h⟩ := List.exists_of_findSome?_eq_some h
  simp at h; subst h; exact hx

theorem Re.run_suffix {n : Nat} {r : Re} {s t : Str} (h : r.run n s some = some t) : t <:+ s :=
  all_suffix n r s t (run_some_mem h)

theorem Re.rest_suffix {r : Re} {s t : Str} (h : r.rest s = some t) : t <:+ s := run_suffix h

theorem Re.rest_eq_head (r : Re) (s : Str) : r.rest s = (r.all s.length s).head? := by
  unfold Re.rest
  rw [run_eq_all]
  cases all s.length r s <;> simp

/-- The matched text is a prefix and the rest follows. -/
theorem Re.matchPrefix_append {r : Re} {s m : Str} (h : r.matchPrefix s = some m) :
    ∃ t, r.rest s = some t ∧ s = m ++ t := by
  unfold Re.matchPrefix at h
  simp only [Option.map_eq_some_iff] at h
  obtain ⟨t, ht, hm⟩ := h
  obtain ⟨u, hu⟩ := Re.rest_suffix ht
  refine ⟨t, ht, ?_⟩
  subst hm
  rw [← hu]; simp

theorem Re.matchPrefix_of_rest {r : Re} {m t : Str} (h : r.rest (m ++ t) = some t) :
    r.matchPrefix (m ++ t) = some m := by
  simp [Re.matchPrefix, h]

theorem Re.matchPrefix_length {r : Re} {s m : Str} (h : r.matchPrefix s = some m) :
    m.length ≤ s.length := by
  obtain ⟨t, _, rfl⟩ := Re.matchPrefix_append h
  simp

theorem Re.matchPrefix_isSome (r : Re) (s : Str) : (r.matchPrefix s).isSome = (r.rest s).isSome := by
  simp [Re.matchPrefix]

/-! ### Deterministic cases -/

theorem Re.run_chr_nil (p : Char → Bool) (n : Nat) (k : Str → Option Str) :
    (Re.chr p).run n [] k = none := rfl
theorem Re.run_chr_cons (p : Char → Bool) (n : Nat) (k : Str → Option Str) (c : Char) (cs : Str) :
    (Re.chr p).run n (c :: cs) k = if p c then k cs else none := rfl

/-- A greedy run of a character class followed by something that cannot start with the class. -/
theorem starK_chr (p : Char → Bool) (n : Nat) (k : Str → Option Str)
    (hk : ∀ c cs, p c = true → k (c :: cs) = none) :
    ∀ f s, s.length ≤ f → starK ((Re.chr p).run n) k f s = k (s.dropWhile p) := by
  intro f
  induction f with
  | zero => intro s hs; cases s <;> simp_all [starK]
  | succ f ih =>
    intro s hs
    cases s with
    | nil => simp [starK, Re.run_chr_nil]
    | cons c cs =>
      simp only [starK, Re.run_chr_cons]
      by_cases hc : p c = true
      · simp only [hc, if_true, List.length_cons, Nat.lt_succ_self, List.dropWhile_cons]
        rw [ih cs (by simpa using hs)]
        cases h : k (cs.dropWhile p) with
        | none => simp [hk c cs hc]
        | some r => simp
      · simp [hc, List.dropWhile_cons]

theorem Re.run_star_chr (p : Char → Bool) (n : Nat) (s : Str) (k : Str → Option Str)
    (hk : ∀ c cs, p c = true → k (c :: cs) = none) :
    (Re.star (.chr p)).run n s k = k (s.dropWhile p) :=
  starK_chr p n k hk _ s (Nat.le_refl _)

/-- A greedy run whose continuation succeeds after the longest run. -/
theorem starK_chr_isSome (p : Char → Bool) (n : Nat) (k : Str → Option Str) :
    ∀ f s, s.length ≤ f → (k (s.dropWhile p)).isSome →
      starK ((Re.chr p).run n) k f s = k (s.dropWhile p) := by
  intro f
  induction f with
  | zero => intro s hs _; cases s <;> simp_all [starK]
  | succ f ih =>
    intro s hs hk
    cases s with
    | nil => simp [starK, Re.run_chr_nil]
    | cons c cs =>
      simp only [starK, Re.run_chr_cons]
      by_cases hc : p c = true
      · simp only [List.dropWhile_cons, hc, if_true] at hk
        simp only [hc, if_true, List.length_cons, Nat.lt_succ_self, List.dropWhile_cons]
        rw [ih cs (by simpa using hs) hk]
        cases h : k (cs.dropWhile p) with
        | none => simp [h] at hk
        | some r => simp
      · simp [hc, List.dropWhile_cons]

theorem Re.run_star_chr_isSome (p : Char → Bool) (n : Nat) (s : Str) (k : Str → Option Str)
    (hk : (k (s.dropWhile p)).isSome) :
    (Re.star (.chr p)).run n s k = k (s.dropWhile p) :=
  starK_chr_isSome p n k _ s (Nat.le_refl _) hk

theorem Re.run_star_chr_some (p : Char → Bool) (n : Nat) (s : Str) :
    (Re.star (.chr p)).run n s some = some (s.dropWhile p) :=
  Re.run_star_chr_isSome p n s some (by simp)

@[simp] theorem Re.all_chr_nil (p : Char → Bool) (n : Nat) : (Re.chr p).all n [] = [] := rfl
theorem Re.all_chr_cons (p : Char → Bool) (n : Nat) (c : Char) (cs : Str) :
    (Re.chr p).all n (c :: cs) = if p c then [cs] else [] := rfl

/-- All ways to match a greedy run of a class: every suffix reached by dropping class characters. -/
theorem mem_starAll_chr (p : Char → Bool) (n : Nat) :
    ∀ f s t, s.length ≤ f →
      (t ∈ starAll ((Re.chr p).all n) f s ↔ ∃ u, s = u ++ t ∧ ∀ c ∈ u, p c = true) := by
  intro f
  induction f with
  | zero =>
    intro s t hs
    have : s = [] := by cases s <;> simp_all
    subst this
    simp only [starAll, List.mem_singleton]
    constructor
    · rintro rfl; exact ⟨[], by simp⟩
    · rintro ⟨u, h, _⟩; have := List.append_eq_nil_iff.mp h.symm; exact this.2
  | succ f ih =>
    intro s t hs
    cases s with
    | nil =>
      simp only [starAll, Re.all_chr_nil, List.flatMap_nil, List.nil_append, List.mem_singleton]
      constructor
      · rintro rfl; exact ⟨[], by simp⟩
      · rintro ⟨u, h, _⟩; have := List.append_eq_nil_iff.mp h.symm; exact this.2
    | cons c cs =>
      by_cases hc : p c = true
      · have e : starAll ((Re.chr p).all n) (f + 1) (c :: cs) =
            starAll ((Re.chr p).all n) f cs ++ [c :: cs] := by
          simp [starAll, Re.all_chr_cons, hc]
        rw [e, List.mem_append, ih cs t (by simpa using hs), List.mem_singleton]
        constructor
        · rintro (⟨u, rfl, hu⟩ | rfl)
          · exact ⟨c :: u, by simp, by simpa [hc] using hu⟩
          · exact ⟨[], by simp⟩
        · rintro ⟨u, h, hu⟩
          cases u with
          | nil => right; simpa using h.symm
          | cons d u =>
            left
            simp only [List.cons_append, List.cons.injEq] at h
            exact ⟨u, h.2, fun x hx => hu x (by simp [hx])⟩
      · have e : starAll ((Re.chr p).all n) (f + 1) (c :: cs) = [c :: cs] := by
          simp [starAll, Re.all_chr_cons, hc]
        rw [e, List.mem_singleton]
        constructor
        · rintro rfl; exact ⟨[], by simp⟩
        · rintro ⟨u, h, hu⟩
          cases u with
          | nil => simpa using h.symm
          | cons d u =>
            simp only [List.cons_append, List.cons.injEq] at h
            exact absurd (hu d (by simp)) (by rw [← h.1]; simpa using hc)

theorem Re.run_lit1 (n : Nat) (c : Char) (s : Str) (k : Str → Option Str) :
    (Re.lit1 c).run n s k = match s with
      | [] => none
      | d :: ds => if d == c then k ds else none := by
  cases s <;> rfl

@[simp] theorem Re.run_seq (n : Nat) (a b : Re) (s : Str) (k : Str → Option Str) :
    (Re.seq a b).run n s k = a.run n s (fun s' => b.run n s' k) := rfl

/-! ### Substitution -/

theorem Re.sub_nil (r : Re) (f : Str → Str) : r.sub f [] = [] := by simp [Re.sub, Re.subLoop]

/-! ### Patterns without `^` do not depend on the length of the subject -/

def Re.noBos : Re → Bool
  | .bos => false
  | .seq a b | .alt a b => a.noBos && b.noBos
  | .star a | .lazyStar a | .upTo _ a | .look a | .nlook a => a.noBos
  | _ => true

theorem Re.all_noBos (n m : Nat) (r : Re) (h : r.noBos = true) : r.all n = r.all m := by
  induction r with
  | eps | chr | eos => rfl
  | seq a b iha ihb =>
    simp only [noBos, Bool.and_eq_true] at h
    funext s; simp only [all, iha h.1, ihb h.2]
  | alt a b iha ihb =>
    simp only [noBos, Bool.and_eq_true] at h
    funext s; simp only [all, iha h.1, ihb h.2]
  | star a ih | lazyStar a ih | upTo k a ih | look a ih | nlook a ih =>
    funext s; simp only [all, ih h]
  | bos => simp [noBos] at h

theorem Re.run_noBos (n m : Nat) (r : Re) (h : r.noBos = true) (s : Str) (k : Str → Option Str) :
    r.run n s k = r.run m s k := by
  rw [run_eq_all, run_eq_all, all_noBos n m r h]

theorem Re.run_rest {r : Re} (h : r.noBos = true) (n : Nat) (s : Str) : r.run n s some = r.rest s :=
  run_noBos _ _ r h s some

theorem Re.subLoop_fuel (r : Re) (f : Str → Str) (n : Nat) :
    ∀ fuel s, s.length ≤ fuel → r.subLoop f n fuel s = r.subLoop f n s.length s := by
  intro fuel
  induction fuel using Nat.strongRecOn with
  | ind fuel ih =>
    intro s hs
    cases s with
    | nil => cases fuel <;> simp [subLoop]
    | cons c cs =>
      cases fuel with
      | zero => simp at hs
      | succ k =>
        simp only [List.length_cons, Nat.add_le_add_iff_right] at hs
        simp only [subLoop, List.length_cons]
        cases run n r (c :: cs) some with
        | none => simp only [ih k (by omega) cs hs]
        | some t =>
          simp only
          by_cases ht : t.length < cs.length + 1
          · simp only [if_pos ht]
            rw [ih k (by omega) t (by omega)]
            by_cases hk : cs.length < k + 1
            · rw [ih cs.length (by omega) t (by omega)]
            · omega
          · simp only [if_neg ht, ih k (by omega) cs hs]

theorem Re.sub_cons {r : Re} (h : r.noBos = true) (f : Str → Str) (c : Char) (cs : Str) :
    r.sub f (c :: cs) =
      match r.rest (c :: cs) with
      | some t =>
        if t.length < cs.length + 1 then
          f ((c :: cs).take (cs.length + 1 - t.length)) ++ r.sub f t
        else c :: r.sub f cs
      | none => c :: r.sub f cs := by
  have key : ∀ (n : Nat) (s : Str), r.subLoop f n s.length s = r.sub f s := by
    intro n s
    have : ∀ fuel s, r.subLoop f n fuel s = r.subLoop f s.length fuel s := by
      have gen : ∀ m fuel s, r.subLoop f n fuel s = r.subLoop f m fuel s := by
        intro m fuel
        induction fuel with
        | zero => intro s; simp [subLoop]
        | succ k ih =>
          intro s
          cases s with
          | nil => simp [subLoop]
          | cons c cs => simp only [subLoop, run_noBos n m r h, ih]
      intro fuel s; exact gen _ fuel s
    rw [this]; rfl
  unfold Re.sub
  simp only [List.length_cons, subLoop, run_rest h]
  cases ht : r.rest (c :: cs) with
  | none => simp only [key]
  | some t =>
    simp only
    split
    · rw [subLoop_fuel _ _ _ cs.length t (by omega), key]; rfl
    · rw [key]; rfl

theorem Re.sub_none {r : Re} (h : r.noBos = true) (f : Str → Str) {c : Char} {cs : Str}
    (hn : r.rest (c :: cs) = none) : r.sub f (c :: cs) = c :: r.sub f cs := by
  rw [sub_cons h, hn]

theorem Re.sub_match {r : Re} (h : r.noBos = true) (f : Str → Str) {m t : Str} (hm : m ≠ [])
    (hr : r.rest (m ++ t) = some t) : r.sub f (m ++ t) = f m ++ r.sub f t := by
  cases m with
  | nil => exact absurd rfl hm
  | cons c cs =>
    rw [List.cons_append] at hr ⊢
    rw [sub_cons h, hr]
    simp only [List.length_append]
    rw [if_pos (by omega)]
    have : cs.length + t.length + 1 - t.length = cs.length + 1 := by omega
    rw [this]
    simp

theorem Re.found_iff {r : Re} (h : r.noBos = true) (s : Str) :
    r.found s = true ↔ ∃ u v, s = u ++ v ∧ (r.rest v).isSome := by
  have gen : ∀ n acc s, (r.searchFrom n acc s).isSome = true ↔ ∃ u v, s = u ++ v ∧ (r.rest v).isSome := by
    intro n acc s
    induction s generalizing acc with
    | nil =>
      simp only [searchFrom, run_rest h, Option.isSome_map]
      constructor
      · intro hh; exact ⟨[], [], rfl, hh⟩
      · rintro ⟨u, v, huv, hv⟩
        have := List.append_eq_nil_iff.mp huv.symm
        rw [this.2] at hv; exact hv
    | cons c cs ih =>
      simp only [searchFrom, run_rest h]
      cases hr : r.rest (c :: cs) with
      | some t => simp only [Option.isSome_some, true_iff]; exact ⟨[], c :: cs, rfl, by simp [hr]⟩
      | none =>
        simp only [ih]
        constructor
        · rintro ⟨u, v, rfl, hv⟩; exact ⟨c :: u, v, rfl, hv⟩
        · rintro ⟨u, v, huv, hv⟩
          cases u with
          | nil => rw [List.nil_append] at huv; rw [← huv, hr] at hv; simp at hv
          | cons d u =>
            simp only [List.cons_append, List.cons.injEq] at huv
            exact ⟨u, v, huv.2, hv⟩
  exact gen _ _ _

end CM
