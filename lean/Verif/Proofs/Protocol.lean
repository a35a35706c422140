import Verif.Model.Main
import Verif.Proofs.Regex
import Verif.Spec.Tokens
/-
Lemmas for C09: the two URL patterns of the HTML renderer.
-/
set_option linter.unusedSimpArgs false
namespace CM
open Spec

theorem Char.le128 {x : Char} (p : Char → Prop) [DecidablePred p] (hx : x.toNat < 128)
    (h : ∀ n : Fin 128, p (Char.ofNat n.val)) : p x := by
  have := h ⟨x.toNat, hx⟩
  simpa using this

theorem ciEq_ascii {c x : Char} (hc : c.toLower = c) (hx : x.toNat < 128) :
    ciEq c x = (x.toLower == c) := by
  unfold ciEq
  have h1 : (x.toNat == 0x130) = false := by simp; omega
  have h2 : (x.toNat == 0x131) = false := by simp; omega
  have h3 : (x.toNat == 0x17f) = false := by simp; omega
  have h4 : (x.toNat == 0x212a) = false := by simp; omega
  simp only [h1, h2, h3, h4, Bool.or_false, Bool.and_false, hc]
  by_cases h : x = c
  · subst h; simp [hc]
  · simp [h]

theorem ciWord_run (w : Str) (hw : ∀ c ∈ w, c.toLower = c) (n : Nat) (s : Str) (hs : Ascii s)
    (k : Str → Option Str) :
    (Re.ciWord w).run n s k = if ciPrefix w s then k (s.drop w.length) else none := by
  induction w generalizing s with
  | nil => simp [Re.ciWord, Re.run, ciPrefix]
  | cons c w ih =>
    have hc := hw c (by simp)
    cases s with
    | nil => cases w <;> simp [Re.ciWord, Re.run, ciPrefix]
    | cons x s =>
      have hx := ciEq_ascii hc (hs x (by simp))
      cases w with
      | nil =>
        simp only [Re.ciWord, Re.run_chr_cons, hx, ciPrefix, Bool.and_true, List.length_cons,
          List.length_nil, List.drop_succ_cons, List.drop_zero]
      | cons d w =>
        simp only [Re.ciWord, Re.run_seq, Re.run_chr_cons, hx]
        rw [ih (fun c hc => hw c (by simp [hc])) s (fun c hc => hs c (by simp [hc]))]
        have e : ciPrefix (c :: d :: w) (x :: s) = (x.toLower == c && ciPrefix (d :: w) s) := rfl
        rw [e]
        cases x.toLower == c <;> simp

theorem ciWord_isSome (w : Str) (hw : ∀ c ∈ w, c.toLower = c) (n : Nat) (s : Str) (hs : Ascii s) :
    ((Re.ciWord w).run n s some).isSome = ciPrefix w s := by
  rw [ciWord_run w hw n s hs]; cases ciPrefix w s <;> rfl

/-- Searching tries every position. -/
theorem searchFrom_isSome (r : Re) (n : Nat) (acc s : Str) :
    (r.searchFrom n acc s).isSome = true ↔ ∃ a b, s = a ++ b ∧ (r.run n b some).isSome = true := by
  induction s generalizing acc with
  | nil =>
    simp only [Re.searchFrom, Option.isSome_map]
    constructor
    · intro h; exact ⟨[], [], rfl, h⟩
    · rintro ⟨a, b, hab, h⟩
      rw [(List.append_eq_nil_iff.mp hab.symm).2] at h; exact h
  | cons c cs ih =>
    simp only [Re.searchFrom]
    cases hr : r.run n (c :: cs) some with
    | some t => simp only [Option.isSome_some, true_iff]; exact ⟨[], c :: cs, rfl, by simp [hr]⟩
    | none =>
      simp only [ih]
      constructor
      · rintro ⟨a, b, rfl, h⟩; exact ⟨c :: a, b, rfl, h⟩
      · rintro ⟨a, b, hab, h⟩
        cases a with
        | nil => rw [List.nil_append] at hab; rw [← hab, hr] at h; simp at h
        | cons d a =>
          simp only [List.cons_append, List.cons.injEq] at hab
          exact ⟨a, b, hab.2, h⟩

theorem run_alt_isSome (n : Nat) (a b : Re) (s : Str) (k : Str → Option Str) :
    ((Re.alt a b).run n s k).isSome = ((a.run n s k).isSome || (b.run n s k).isSome) := by
  simp only [Re.run]
  cases a.run n s k <;> simp

theorem lowerWord {w : String} (h : (w.toList.all fun c => c.toLower == c) = true) :
    ∀ c ∈ w.toList, c.toLower = c := by
  intro c hc
  have := List.all_eq_true.mp h c hc
  simpa using this

theorem ascii_suffix {a b : Str} (h : Ascii (a ++ b)) : Ascii b := fun c hc => h c (by simp [hc])

theorem reUnsafe_found (u : Str) (hu : Ascii u) :
    reUnsafeProtocol.found u = true ↔
      ciPrefix "javascript:".toList u = true ∨ ciOccurs "vbscript:".toList u ∨
        ciOccurs "file:".toList u ∨ ciOccurs "data:".toList u := by
  have e : reUnsafeProtocol = .alt (.seq .bos (.ciWord "javascript:".toList))
    (.alt (.ciWord "vbscript:".toList) (.alt (.ciWord "file:".toList) (.ciWord "data:".toList))) := rfl
  unfold Re.found Re.search
  rw [searchFrom_isSome, e]
  have key : ∀ b, Ascii b → ((Re.run u.length (.alt (.seq .bos (.ciWord "javascript:".toList))
    (.alt (.ciWord "vbscript:".toList) (.alt (.ciWord "file:".toList) (.ciWord "data:".toList)))) b some).isSome = true ↔
      (b.length = u.length ∧ ciPrefix "javascript:".toList b = true) ∨ ciPrefix "vbscript:".toList b = true ∨
        ciPrefix "file:".toList b = true ∨ ciPrefix "data:".toList b = true) := by
    intro b hb
    simp only [run_alt_isSome, Bool.or_eq_true]
    rw [ciWord_isSome _ (lowerWord (by decide)) _ _ hb, ciWord_isSome _ (lowerWord (by decide)) _ _ hb,
      ciWord_isSome _ (lowerWord (by decide)) _ _ hb]
    have : (Re.run u.length (.seq .bos (.ciWord "javascript:".toList)) b some).isSome = true ↔
        b.length = u.length ∧ ciPrefix "javascript:".toList b = true := by
      rw [Re.run_seq]
      have : ∀ k, Re.run u.length .bos b k = if b.length == u.length then k b else none := fun k => rfl
      rw [this]
      by_cases hl : b.length = u.length
      · simp only [hl, beq_self_eq_true, if_true, true_and]
        rw [ciWord_isSome _ (lowerWord (by decide)) _ _ hb]
      · simp [hl]
    rw [this]
  constructor
  · rintro ⟨a, b, hab, h⟩
    have hb : Ascii b := ascii_suffix (hab ▸ hu)
    rw [key b hb] at h
    rcases h with ⟨hl, h⟩ | h | h | h
    · have ha : a = [] := by
        have := congrArg List.length hab
        simp at this
        exact List.eq_nil_of_length_eq_zero (by omega)
      subst ha; left; rw [hab]; exact h
    · right; left; exact ⟨a, b, hab, h⟩
    · right; right; left; exact ⟨a, b, hab, h⟩
    · right; right; right; exact ⟨a, b, hab, h⟩
  · rintro (h | ⟨a, b, hab, h⟩ | ⟨a, b, hab, h⟩ | ⟨a, b, hab, h⟩)
    · exact ⟨[], u, rfl, (key u hu).mpr (Or.inl ⟨rfl, h⟩)⟩
    · exact ⟨a, b, hab, (key b (ascii_suffix (hab ▸ hu))).mpr (Or.inr (Or.inl h))⟩
    · exact ⟨a, b, hab, (key b (ascii_suffix (hab ▸ hu))).mpr (Or.inr (Or.inr (Or.inl h)))⟩
    · exact ⟨a, b, hab, (key b (ascii_suffix (hab ▸ hu))).mpr (Or.inr (Or.inr (Or.inr h)))⟩

theorem ciPrefix_append (v w s : Str) :
    ciPrefix (v ++ w) s = (ciPrefix v s && ciPrefix w (s.drop v.length)) := by
  induction v generalizing s with
  | nil => simp [ciPrefix]
  | cons c v ih =>
    cases s with
    | nil => simp [ciPrefix]
    | cons x s => simp [ciPrefix, ih, Bool.and_assoc]

theorem reSafe_found (u : Str) (hu : Ascii u) :
    reSafeDataProtocol.found u = (ciPrefix "data:image/png".toList u || ciPrefix "data:image/gif".toList u ||
      ciPrefix "data:image/jpeg".toList u || ciPrefix "data:image/webp".toList u) := by
  have e : reSafeDataProtocol = .seq .bos (.seq (.ciWord "data:image/".toList)
    (.alt (.ciWord "png".toList) (.alt (.ciWord "gif".toList) (.alt (.ciWord "jpeg".toList)
      (.ciWord "webp".toList))))) := rfl
  have key : ∀ b, Ascii b → ((Re.run u.length reSafeDataProtocol b some).isSome = true ↔
      b.length = u.length ∧ (ciPrefix "data:image/png".toList b || ciPrefix "data:image/gif".toList b ||
      ciPrefix "data:image/jpeg".toList b || ciPrefix "data:image/webp".toList b) = true) := by
    intro b hb
    rw [e, Re.run_seq]
    have h1 : ∀ k, Re.run u.length .bos b k = if b.length == u.length then k b else none := fun k => rfl
    rw [h1]
    simp only [Re.run_seq]
    rw [ciWord_run _ (lowerWord (by decide)) _ _ hb]
    have hd : Ascii (b.drop 11) := fun c hc => hb c (List.mem_of_mem_drop hc)
    by_cases hl : b.length = u.length
    · simp only [hl, beq_self_eq_true, if_true, true_and]
      have e1 : "data:image/png".toList = "data:image/".toList ++ "png".toList := rfl
      have e2 : "data:image/gif".toList = "data:image/".toList ++ "gif".toList := rfl
      have e3 : "data:image/jpeg".toList = "data:image/".toList ++ "jpeg".toList := rfl
      have e4 : "data:image/webp".toList = "data:image/".toList ++ "webp".toList := rfl
      have e5 : "data:image/".toList.length = 11 := rfl
      rw [e1, e2, e3, e4, ciPrefix_append, ciPrefix_append, ciPrefix_append, ciPrefix_append, e5]
      cases ciPrefix "data:image/".toList b
      · simp
      · simp only [if_true, Bool.true_and, run_alt_isSome]
        rw [ciWord_isSome _ (lowerWord (by decide)) _ _ hd, ciWord_isSome _ (lowerWord (by decide)) _ _ hd,
          ciWord_isSome _ (lowerWord (by decide)) _ _ hd, ciWord_isSome _ (lowerWord (by decide)) _ _ hd]
        simp [Bool.or_assoc]
    · simp [hl]
  rw [Bool.eq_iff_iff]
  unfold Re.found Re.search
  rw [searchFrom_isSome]
  constructor
  · rintro ⟨a, b, hab, h⟩
    obtain ⟨hl, h⟩ := (key b (ascii_suffix (hab ▸ hu))).mp h
    have ha : a = [] := by
      have := congrArg List.length hab
      simp at this
      exact List.eq_nil_of_length_eq_zero (by omega)
    subst ha; rw [hab]; exact h
  · intro h; exact ⟨[], u, rfl, (key u hu).mpr ⟨rfl, h⟩⟩

theorem dangerous_unsafe {u : Str} (hu : Ascii u) (h : dangerous u = true) : potentiallyUnsafe u = true := by
  unfold potentiallyUnsafe
  rw [reSafe_found u hu, Bool.and_eq_true, reUnsafe_found u hu]
  simp only [dangerous, Bool.or_eq_true, Bool.and_eq_true, Bool.not_eq_true'] at h
  have first : ∀ (v w : Str), v ≠ [] → w ≠ [] → v.head? ≠ w.head? → ciPrefix v u = true → ciPrefix w u = false := by
    intro v w hv hw hne h
    cases v with
    | nil => exact absurd rfl hv
    | cons a v =>
      cases w with
      | nil => exact absurd rfl hw
      | cons b w =>
        cases u with
        | nil => simp [ciPrefix] at h
        | cons x u =>
          simp only [ciPrefix, Bool.and_eq_true, beq_iff_eq] at h ⊢
          have : x.toLower ≠ b := by rw [h.1]; simpa using hne
          simp [this]
  rcases h with ((h | h) | h) | ⟨h, h'⟩
  · refine ⟨Or.inl h, ?_⟩
    rw [first _ "data:image/png".toList (by decide) (by decide) (by decide) h,
      first _ "data:image/gif".toList (by decide) (by decide) (by decide) h,
      first _ "data:image/jpeg".toList (by decide) (by decide) (by decide) h,
      first _ "data:image/webp".toList (by decide) (by decide) (by decide) h]
    rfl
  · refine ⟨Or.inr (Or.inl ⟨[], u, rfl, h⟩), ?_⟩
    rw [first _ "data:image/png".toList (by decide) (by decide) (by decide) h,
      first _ "data:image/gif".toList (by decide) (by decide) (by decide) h,
      first _ "data:image/jpeg".toList (by decide) (by decide) (by decide) h,
      first _ "data:image/webp".toList (by decide) (by decide) (by decide) h]
    rfl
  · refine ⟨Or.inr (Or.inr (Or.inl ⟨[], u, rfl, h⟩)), ?_⟩
    rw [first _ "data:image/png".toList (by decide) (by decide) (by decide) h,
      first _ "data:image/gif".toList (by decide) (by decide) (by decide) h,
      first _ "data:image/jpeg".toList (by decide) (by decide) (by decide) h,
      first _ "data:image/webp".toList (by decide) (by decide) (by decide) h]
    rfl
  · refine ⟨Or.inr (Or.inr (Or.inr ⟨[], u, rfl, h⟩)), ?_⟩
    rw [h']; rfl

end CM
