import Verif.Proofs.ParseOk
/-
Character references.
-/
set_option linter.unusedVariables false
namespace CM
open Spec

/-! ### Greedy bounded runs -/

theorem Re.run_upTo_chr_isSome (p : Char → Bool) (n : Nat) (k : Str → Option Str) (b : Str)
    (hk : (k b).isSome) : ∀ (m : Nat) (a : Str), (∀ c ∈ a, p c = true) → a.length ≤ m →
    (a.length = m ∨ ∀ c, b.head? = some c → p c = false) →
    (Re.upTo m (.chr p)).run n (a ++ b) k = k b := by
  intro m
  induction m with
  | zero => intro a _ h _; obtain rfl : a = [] := by simpa using h
            rfl
  | succ m ih =>
    intro a ha hl hb
    cases a with
    | nil =>
      simp only [List.nil_append]
      have hb' : ∀ c, b.head? = some c → p c = false := by
        rcases hb with h | h
        · simp at h
        · exact h
      simp only [Re.run, upToK]
      cases b with
      | nil => rfl
      | cons c cs => simp only [hb' c rfl]; simp
    | cons x xs =>
      have := ih xs (fun c hc => ha c (by simp [hc])) (by simpa using hl) (by
        rcases hb with h | h
        · left; simpa using h
        · exact Or.inr h)
      simp only [Re.run] at this ⊢
      simp only [List.cons_append, upToK]
      simp only [ha x (by simp), if_true, List.length_cons, List.length_append]
      rw [if_pos (by omega), this]
      obtain ⟨r, hr⟩ := Option.isSome_iff_exists.1 hk
      rw [hr]

theorem Re.run_star_chr_append (p : Char → Bool) (n : Nat) (k : Str → Option Str) (a b : Str)
    (hk : (k b).isSome) (ha : ∀ c ∈ a, p c = true) (hb : ∀ c, b.head? = some c → p c = false) :
    (Re.star (.chr p)).run n (a ++ b) k = k b := by
  have h : (a ++ b).dropWhile p = b := by
    rw [List.dropWhile_append_of_pos ha]
    exact lstripBy_of_head hb
  rw [Re.run_star_chr_isSome _ _ _ _ (by rw [h]; exact hk), h]

/-! ### Reading a reference again -/

theorem toLower_x {c : Char} (h : c.toLower = 'x') : c = 'x' ∨ c = 'X' := by
  by_cases hs : c.toNat < 128
  · have key : ∀ n, n < 128 → (Char.ofNat n).toLower = 'x' → Char.ofNat n = 'x' ∨ Char.ofNat n = 'X' := by decide
    have := key c.toNat hs
    rw [Char.ofNat_toNat] at this
    exact this h
  · left
    simp only [Char.toLower] at h
    split at h
    · rename_i hc
      have := UInt32.le_iff_toNat_le.1 hc.2
      exact absurd (Nat.lt_of_le_of_lt this (by decide)) hs
    · exact h

/-- The three shapes of a reference. -/
theorem entity_shape {n : Nat} {m t : Str} (h : Den n reENTITY m t) :
    (∃ x ds, m = '&' :: '#' :: x :: (ds ++ [';']) ∧ (x = 'x' ∨ x = 'X') ∧ 1 ≤ ds.length ∧ ds.length ≤ 6 ∧
      ∀ c ∈ ds, isHexCI c = true) ∨
    (∃ ds, m = '&' :: '#' :: (ds ++ [';']) ∧ 1 ≤ ds.length ∧ ds.length ≤ 7 ∧ ∀ c ∈ ds, isDig c = true) ∨
    (∃ x ds, m = '&' :: x :: (ds ++ [';']) ∧ isAlphaCI x = true ∧ 1 ≤ ds.length ∧ ds.length ≤ 31 ∧
      ∀ c ∈ ds, isAlnumCI c = true) := by
  obtain ⟨m1, m2, rfl, h1, m3, m4, rfl, h2, h3⟩ := h
  obtain rfl := den_lit1.1 h1
  obtain rfl := den_lit1.1 h3
  rcases h2 with h2 | h2 | h2
  · left
    obtain ⟨a, b, rfl, ha, x, y, rfl, ⟨c, hc, rfl⟩, hy⟩ := h2
    obtain rfl := den_lit1.1 ha
    obtain ⟨p, q, r⟩ := (den_between_chr (by omega)).1 hy
    refine ⟨c, y, by simp, ?_, p, q, r⟩
    simp only [ciEq, Bool.or_eq_true, beq_iff_eq, Bool.and_eq_true] at hc
    rcases hc with ((((h | h) | h) | h) | h)
    · exact Or.inl h
    · have e : 'x'.toLower = 'x' := by decide
      rw [e] at h
      exact toLower_x h
    · exact absurd h.1 (by decide)
    · exact absurd h.1 (by decide)
    · exact absurd h.1 (by decide)
  · right; left
    obtain ⟨a, b, rfl, ha, hy⟩ := h2
    obtain rfl := den_lit1.1 ha
    obtain ⟨p, q, r⟩ := (den_between_chr (by omega)).1 hy
    exact ⟨b, by simp, p, q, r⟩
  · right; right
    obtain ⟨a, b, rfl, ⟨c, hc, rfl⟩, hy⟩ := h2
    obtain ⟨p, q, r⟩ := (den_between_chr (by omega)).1 hy
    exact ⟨c, b, by simp, hc, p, q, r⟩

theorem semi_not_dig : isDig ';' = false := by decide
theorem semi_not_hex : isHexCI ';' = false := by decide

/-- The characters a named reference may contain for `html.unescape`. -/
def isRefChar (c : Char) : Bool := !(c == '\t' || c == '\n' || c.toNat == 12 || c == ' ' ||
  c == '<' || c == '&' || c == '#' || c == ';')

theorem inRange_iff (lo hi c : Char) : inRange lo hi c = true ↔ lo.toNat ≤ c.toNat ∧ c.toNat ≤ hi.toNat := by
  simp [inRange]

theorem alnumCI_refChar {c : Char} (h : isAlnumCI c = true) : isRefChar c = true := by
  have key : ∀ d : Char, isAlnumCI d = false → c ≠ d := by rintro d hd rfl; rw [hd] at h; cases h
  simp only [isRefChar, Bool.not_eq_true', Bool.or_eq_false_iff, beq_eq_false_iff_ne]
  refine ⟨⟨⟨⟨⟨⟨⟨key _ (by decide), key _ (by decide)⟩, ?_⟩, key _ (by decide)⟩, key _ (by decide)⟩, key _ (by decide)⟩,
    key _ (by decide)⟩, key _ (by decide)⟩
  intro h12
  have : c = Char.ofNat 12 := by rw [← h12, Char.ofNat_toNat]
  exact key (Char.ofNat 12) (by decide) this

theorem charref_dec (ds t : Str) (h1 : 1 ≤ ds.length) (hd : ∀ c ∈ ds, isDig c = true) :
    reCharref.rest ('&' :: '#' :: (ds ++ ';' :: t)) = some t := by
  cases ds with
  | nil => simp at h1
  | cons d ds =>
    unfold Re.rest
    generalize ('&' :: '#' :: (d :: ds ++ ';' :: t)).length = n
    have key : ((Re.star (.chr isDig)).run n (ds ++ ';' :: t) fun s => (Re.opt (.lit1 ';')).run n s some) = some t := by
      rw [Re.run_star_chr_append]
      · simp [Re.opt, Re.run, Re.lit1, upToK]
      · simp [Re.opt, Re.run, Re.lit1, upToK]
      · intro c hc; exact hd c (by simp [hc])
      · intro c hc; simp at hc; subst hc; decide
    simp only [reCharref, Re.alts, Re.seqs, Re.plus, Re.run_eq_all] at key ⊢
    simp only [← Re.run_eq_all] at key ⊢
    simp only [Re.run, Re.lit1, List.cons_append, beq_self_eq_true, if_true, hd d (by simp)] at key ⊢
    rw [key]

theorem charref_hex (x : Char) (hx : x = 'x' ∨ x = 'X') (ds t : Str) (h1 : 1 ≤ ds.length)
    (hd : ∀ c ∈ ds, isHexCI c = true) :
    reCharref.rest ('&' :: '#' :: x :: (ds ++ ';' :: t)) = some t := by
  cases ds with
  | nil => simp at h1
  | cons d ds =>
    unfold Re.rest
    generalize ('&' :: '#' :: x :: (d :: ds ++ ';' :: t)).length = n
    have key : ((Re.star (.chr isHexCI)).run n (ds ++ ';' :: t) fun s => (Re.opt (.lit1 ';')).run n s some) = some t := by
      rw [Re.run_star_chr_append]
      · simp [Re.opt, Re.run, Re.lit1, upToK]
      · simp [Re.opt, Re.run, Re.lit1, upToK]
      · intro c hc; exact hd c (by simp [hc])
      · intro c hc; simp at hc; subst hc; decide
    have hxd : isDig x = false := by rcases hx with rfl | rfl <;> decide
    have hxx : (x == 'x' || x == 'X') = true := by rcases hx with rfl | rfl <;> decide
    simp only [reCharref, Re.alts, Re.seqs, Re.plus] at key ⊢
    simp only [Re.run, Re.lit1, List.cons_append, beq_self_eq_true, if_true, hxd, Bool.false_eq_true, if_false,
      hxx, hd d (by simp)] at key ⊢
    rw [key]

theorem charref_named (ds t : Str) (h1 : 1 ≤ ds.length) (h2 : ds.length ≤ 32)
    (hd : ∀ c ∈ ds, isRefChar c = true) : reCharref.rest ('&' :: (ds ++ ';' :: t)) = some t := by
  cases ds with
  | nil => simp at h1
  | cons d ds =>
    unfold Re.rest
    generalize ('&' :: (d :: ds ++ ';' :: t)).length = n
    have key : ((Re.upTo 31 (.chr isRefChar)).run n (ds ++ ';' :: t) fun s => (Re.opt (.lit1 ';')).run n s some) = some t := by
      rw [Re.run_upTo_chr_isSome]
      · simp [Re.opt, Re.run, Re.lit1, upToK]
      · simp [Re.opt, Re.run, Re.lit1, upToK]
      · intro c hc; exact hd c (by simp [hc])
      · simpa using h2
      · right; intro c hc; simp at hc; subst hc; decide
    have hdd : (d == '#') = false := by
      have := hd d (by simp)
      simp only [isRefChar, Bool.not_eq_true', Bool.or_eq_false_iff] at this
      exact this.1.2
    have e : reCharref = .seq (.lit1 '&')
        (.alts [
          .seqs [.lit1 '#', .plus (.chr isDig), .opt (.lit1 ';')],
          .seqs [.lit1 '#', .chr (fun c => c == 'x' || c == 'X'), .plus (.chr isHexCI), .opt (.lit1 ';')],
          .seqs [.between 1 32 (.chr isRefChar), .opt (.lit1 ';')]]) := rfl
    rw [e]
    simp only [Re.alts, Re.seqs, Re.between, Re.exactly, Re.plus] at key ⊢
    simp only [Re.run, Re.lit1, List.cons_append, beq_self_eq_true, if_true, hdd, Bool.false_eq_true, if_false,
      hd d (by simp)] at key ⊢
    exact key

theorem reCharref_noBos : reCharref.noBos = true := by decide

theorem htmlUnescape_of_rest {m : Str} (hm : m.head? = some '&') (h : reCharref.rest m = some []) :
    htmlUnescape m = replaceCharref (m.drop 1) := by
  cases m with
  | nil => cases hm
  | cons c cs =>
    simp at hm; subst hm
    have hs := Re.sub_match reCharref_noBos (fun m => replaceCharref (m.drop 1)) (m := '&' :: cs) (t := []) (by simp)
      (by simpa using h)
    simp only [List.append_nil, Re.sub_nil] at hs
    rw [htmlUnescape, if_pos (by simp), hs]

theorem unescape_dec {ds : Str} (h1 : 1 ≤ ds.length) (hd : ∀ c ∈ ds, isDig c = true) :
    htmlUnescape ('&' :: '#' :: (ds ++ [';'])) = numCharref (intBase 10 ds) := by
  rw [htmlUnescape_of_rest rfl (charref_dec ds [] h1 hd)]
  cases ds with
  | nil => simp at h1
  | cons d ds =>
    have hx : (d == 'x' || d == 'X') = false := by
      have := hd d (by simp)
      simp only [Bool.or_eq_false_iff, beq_eq_false_iff_ne]
      constructor <;> (rintro rfl; revert this; decide)
    simp only [List.drop_succ_cons, List.drop_zero, List.cons_append, replaceCharref, hx, Bool.false_eq_true, if_false]
    rw [← List.cons_append, rstripBy_append (by simp)]
    intro c hc
    have := hd c (List.mem_of_getLast? hc)
    simp only [beq_eq_false_iff_ne]
    rintro rfl; revert this; decide

theorem unescape_hex {x : Char} (hx : x = 'x' ∨ x = 'X') {ds : Str} (h1 : 1 ≤ ds.length)
    (hd : ∀ c ∈ ds, isHexCI c = true) :
    htmlUnescape ('&' :: '#' :: x :: (ds ++ [';'])) = numCharref (intBase 16 ds) := by
  rw [htmlUnescape_of_rest rfl (charref_hex x hx ds [] h1 hd)]
  have hxx : (x == 'x' || x == 'X') = true := by rcases hx with rfl | rfl <;> decide
  simp only [List.drop_succ_cons, List.drop_zero, replaceCharref, hxx, if_true]
  rw [rstripBy_append (by simp)]
  intro c hc
  have := hd c (List.mem_of_getLast? hc)
  simp only [beq_eq_false_iff_ne]
  rintro rfl; revert this; decide

/-- What a name stands for. -/
def named (s : Str) : Str :=
  match html5Get s with
  | some v => v
  | none => (html5Prefix s (s.length - 1)).getD ('&' :: s)

theorem unescape_named {ds : Str} (h1 : 1 ≤ ds.length) (h2 : ds.length ≤ 32)
    (hd : ∀ c ∈ ds, isRefChar c = true) : htmlUnescape ('&' :: (ds ++ [';'])) = named (ds ++ [';']) := by
  rw [htmlUnescape_of_rest rfl (charref_named ds [] h1 h2 hd)]
  cases ds with
  | nil => simp at h1
  | cons d ds =>
    have hdd : d ≠ '#' := by
      have := hd d (by simp)
      simp only [isRefChar, Bool.not_eq_true', Bool.or_eq_false_iff, beq_eq_false_iff_ne] at this
      exact this.1.2
    simp only [List.drop_succ_cons, List.drop_zero, List.cons_append]
    unfold replaceCharref named
    split
    · rename_i h; simp at h; exact absurd h.1 hdd
    · split
      · rename_i h; simp [h]
      · rename_i h; simp only [h]
        split
        · rename_i h; rw [h]; rfl
        · rename_i h; rw [h]; rfl

/-! ### The tables -/

theorem html5_values : (html5Tab.all fun e => !e.2.isEmpty && e.2.all fun v => Char.ofNat v != Char.ofNat 0) = true := by
  decide +kernel

theorem html5Get_ok {s v : Str} (h : html5Get s = some v) : v ≠ [] ∧ ∀ c ∈ v, c ≠ Char.ofNat 0 := by
  simp only [html5Get, Option.map_eq_some_iff] at h
  obtain ⟨e, he, rfl⟩ := h
  have := List.all_eq_true.1 html5_values e (List.mem_of_find?_eq_some he)
  simp only [Bool.and_eq_true, Bool.not_eq_true', List.isEmpty_eq_false_iff, List.all_eq_true, bne_iff_ne] at this
  refine ⟨by simpa using this.1, ?_⟩
  intro c hc
  obtain ⟨w, hw, rfl⟩ := List.mem_map.1 hc
  exact this.2 w hw

theorem html5Prefix_ok {s : Str} (hs : ∀ c ∈ s, c ≠ Char.ofNat 0) : ∀ n v, html5Prefix s n = some v →
    v ≠ [] ∧ ∀ c ∈ v, c ≠ Char.ofNat 0
  | 0, v, h => by simp [html5Prefix] at h
  | 1, v, h => by simp [html5Prefix] at h
  | n + 2, v, h => by
    rw [html5Prefix] at h
    split at h
    · rename_i w hw
      have := html5Get_ok hw
      simp only [Option.some.injEq] at h
      subst h
      refine ⟨by simp [this.1], ?_⟩
      intro c hc
      rcases List.mem_append.1 hc with hc | hc
      · exact this.2 c hc
      · exact hs c (List.mem_of_mem_drop hc)
    · exact html5Prefix_ok hs (n + 1) v h

theorem html5Prefix_ne {s : Str} : ∀ n v, html5Prefix s n = some v → v ≠ []
  | 0, v, h => by simp [html5Prefix] at h
  | 1, v, h => by simp [html5Prefix] at h
  | n + 2, v, h => by
    rw [html5Prefix] at h
    split at h
    · rename_i w hw
      have := html5Get_ok hw
      simp only [Option.some.injEq] at h
      subst h
      simp [this.1]
    · exact html5Prefix_ne (n + 1) v h

theorem named_ne_nil (s : Str) : named s ≠ [] := by
  unfold named
  split
  · rename_i h; exact (html5Get_ok h).1
  · cases h : html5Prefix s (s.length - 1) with
    | none => simp
    | some v => exact html5Prefix_ne _ _ h

theorem named_no_nul {s : Str} (hs : ∀ c ∈ s, c ≠ Char.ofNat 0) : ∀ c ∈ named s, c ≠ Char.ofNat 0 := by
  unfold named
  split
  · rename_i h; exact (html5Get_ok h).2
  · cases h : html5Prefix s (s.length - 1) with
    | none =>
      intro c hc
      simp only [Option.getD_none, List.mem_cons] at hc
      rcases hc with rfl | hc
      · decide
      · exact hs c hc
    | some v => exact (html5Prefix_ok hs _ _ h).2

theorem invalidCharrefs_ok : (invalidCharrefs.all fun e => Char.ofNat e.2 != Char.ofNat 0) = true ∧
    invalidCharref 0 = some 0xFFFD := by
  decide +kernel

theorem ofNat_ne_zero {n : Nat} (h0 : n ≠ 0) (h : n.isValidChar) : Char.ofNat n ≠ Char.ofNat 0 := by
  intro e
  have h1 := congrArg Char.toNat e
  rw [show Char.ofNat n = Char.ofNatAux n h by simp [Char.ofNat, h]] at h1
  exact h0 h1

theorem numCharref_no_nul (n : Nat) : ∀ c ∈ numCharref n, c ≠ Char.ofNat 0 := by
  unfold numCharref
  split
  · rename_i v hv
    intro c hc
    simp only [List.mem_singleton] at hc
    subst hc
    simp only [invalidCharref, Option.map_eq_some_iff] at hv
    obtain ⟨e, he, rfl⟩ := hv
    simpa using List.all_eq_true.1 invalidCharrefs_ok.1 e (List.mem_of_find?_eq_some he)
  · rename_i hn
    split
    · intro c hc; simp only [List.mem_singleton] at hc; subst hc; decide
    · rename_i hr
      split
      · intro c hc; simp at hc
      · intro c hc
        simp only [List.mem_singleton] at hc
        subst hc
        simp only [Bool.or_eq_true, Bool.and_eq_true, decide_eq_true_eq, not_or, not_and, Nat.not_lt] at hr
        refine ofNat_ne_zero ?_ ?_
        · rintro rfl; rw [invalidCharrefs_ok.2] at hn; cases hn
        · simp only [Nat.isValidChar]; omega

theorem numCharref_nil {n : Nat} (h : numCharref n = []) : n ∈ invalidCodepoints := by
  unfold numCharref at h
  split at h
  · cases h
  · split at h
    · cases h
    · split at h
      · rename_i hc; simpa using hc
      · cases h

theorem replaceCharref_no_nul {s : Str} (hs : ∀ c ∈ s, c ≠ Char.ofNat 0) :
    ∀ c ∈ replaceCharref s, c ≠ Char.ofNat 0 := by
  unfold replaceCharref
  split
  · split
    · split <;> exact numCharref_no_nul _
    · intro c hc; simp at hc
  · have := named_no_nul hs
    unfold named at this
    split
    · rename_i h; rw [h] at this; exact this
    · rename_i h
      rw [h] at this
      split
      · rename_i h; rw [h] at this; exact this
      · rename_i h; rw [h] at this; exact this

theorem htmlUnescape_no_nul {s : Str} (hs : Strs (· ≠ Char.ofNat 0) s) : Strs (· ≠ Char.ofNat 0) (htmlUnescape s) := by
  unfold htmlUnescape
  split
  · exact sub_strs _ _ (fun m hm => replaceCharref_no_nul (strs_drop hm 1)) hs
  · exact hs

theorem unescapeString_no_nul {s : Str} (hs : Strs (· ≠ Char.ofNat 0) s) :
    Strs (· ≠ Char.ofNat 0) (unescapeString s) := by
  unfold unescapeString
  split
  · refine sub_strs _ _ (fun m hm => ?_) hs
    unfold unescapeChar
    split
    · intro c hc
      simp only [List.mem_singleton] at hc
      subst hc
      exact hm _ (by simp)
    · exact htmlUnescape_no_nul hm
  · exact hs

/-- A reference that decodes to nothing is a numeric one. -/
theorem voidRef_numeric {m : Str} (h : VoidRef m) :
    ∃ n ∈ invalidCodepoints,
      (∃ ds, m = '&' :: '#' :: (ds ++ [';']) ∧ 1 ≤ ds.length ∧ (∀ c ∈ ds, isDig c = true) ∧ intBase 10 ds = n) ∨
      (∃ x ds, m = '&' :: '#' :: x :: (ds ++ [';']) ∧ (x = 'x' ∨ x = 'X') ∧ 1 ≤ ds.length ∧
        (∀ c ∈ ds, isHexCI c = true) ∧ intBase 16 ds = n) := by
  obtain ⟨⟨n, t, h⟩, he⟩ := h
  rcases entity_shape h with ⟨x, ds, rfl, h1, h2, _, h3⟩ | ⟨ds, rfl, h2, _, h3⟩ | ⟨x, ds, rfl, h1, h2, h2', h3⟩
  · rw [unescape_hex h1 h2 h3] at he
    exact ⟨_, numCharref_nil he, Or.inr ⟨x, ds, rfl, h1, h2, h3, rfl⟩⟩
  · rw [unescape_dec h2 h3] at he
    exact ⟨_, numCharref_nil he, Or.inl ⟨ds, rfl, h2, h3, rfl⟩⟩
  · have hall : ∀ c ∈ x :: ds, isRefChar c = true := by
      intro c hc
      rcases List.mem_cons.1 hc with rfl | hc
      · exact alnumCI_refChar (by simp [isAlnumCI, h1])
      · exact alnumCI_refChar (h3 c hc)
    have := unescape_named (ds := x :: ds) (by simp) (by simpa using h2') hall
    rw [List.cons_append] at this
    rw [this] at he
    exact absurd he (named_ne_nil _)

end CM
