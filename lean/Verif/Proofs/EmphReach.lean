import Verif.Proofs.Wraps
/-
How `processEmphasis` treats stretches of siblings with matching delimiters.
-/
namespace CM
open Spec

/-! ### Steps of the loop -/

inductive EReach : EmphState → EmphState → Prop
  | refl {st : EmphState} : EReach st st
  | step {st st' : EmphState} {cl : Delim} {rest : List Delim} : st.after = cl :: rest → EReach (emphStep st cl rest) st' →
      EReach st st'

theorem EReach.trans {a b c : EmphState} (h1 : EReach a b) (h2 : EReach b c) : EReach a c := by
  induction h1 with
  | refl => exact h2
  | step h _ ih => exact .step h (ih h2)

theorem EReach.loop {st st' : EmphState} (h : EReach st st') (h' : st'.after = []) : ∀ {fuel : Nat},
    emphMeasure st.after < fuel → emphLoop fuel st = .ok st'.items := by
  induction h with
  | refl =>
    intro fuel hf
    cases fuel with
    | zero => omega
    | succ k => rw [emphLoop, h']
  | @step st st' cl rest h _ ih =>
    intro fuel hf
    cases fuel with
    | zero => omega
    | succ k =>
      have := emphStep_measure st cl rest h
      rw [emphLoop, h]
      exact ih h' (by omega)

theorem processEmphasis_reach {ds : List Delim} {its : List Item} {st' : EmphState}
    (h : EReach ⟨[], ds, its, fun _ => none, false⟩ st') (h' : st'.after = []) : processEmphasis ds its = .ok st'.items :=
  h.loop h' (by simp [emphMeasure, emphFuel])

/-! ### Finding the opener -/

theorem findOpener_skip {cl : Delim} {bot : Option Nat} {op : Delim} {below : List Delim} (h1 : op.cc = cl.cc)
    (h2 : op.canOpen = true) (h3 : isOddMatch op cl = false) (h4 : some op.node ≠ bot) : ∀ {N : List Delim} {odd : Bool},
    (∀ d ∈ N, some d.node ≠ bot) → (∀ d ∈ N, ¬ (d.cc = cl.cc ∧ d.canOpen = true ∧ isOddMatch d cl = false)) →
    findOpener cl bot (N ++ op :: below) odd = (some (op, below), false)
  | [], odd, _, _ => by
    rw [List.nil_append, findOpener]
    simp [h1, h2, h3, h4]
  | d :: N, odd, hN, hc => by
    rw [List.cons_append, findOpener]
    have e1 := hN d (by simp)
    have e2 := hc d (by simp)
    have : (d.cc == cl.cc && d.canOpen && !isOddMatch d cl) = false := by
      rw [Bool.eq_false_iff]; intro h
      simp only [Bool.and_eq_true, beq_iff_eq, Bool.not_eq_true'] at h
      exact e2 ⟨h.1.1, h.1.2, h.2⟩
    simp only [beq_iff_eq, e1, if_false, this, Bool.false_eq_true]
    exact findOpener_skip h1 h2 h3 h4 (fun x hx => hN x (by simp [hx])) (fun x hx => hc x (by simp [hx]))

theorem findOpener_nothing {cl : Delim} {bot : Option Nat} : ∀ {B : List Delim} {odd : Bool},
    (∀ d ∈ B, ¬ (d.cc = cl.cc ∧ d.canOpen = true)) → ∃ odd', findOpener cl bot B odd = (none, odd')
  | [], odd, _ => ⟨odd, rfl⟩
  | d :: B, odd, hc => by
    rw [findOpener]
    have e2 := hc d (by simp)
    have : (d.cc == cl.cc && d.canOpen) = false := by
      rw [Bool.eq_false_iff]; intro h; rw [Bool.and_eq_true, beq_iff_eq] at h; exact e2 h
    split
    · exact ⟨odd, rfl⟩
    · simp only [this, Bool.false_and, Bool.false_eq_true, if_false]
      exact findOpener_nothing fun x hx => hc x (by simp [hx])

/-! ### Single steps -/

/-- A delimiter that finds nothing to close. -/
theorem emphStep_none {B R : List Delim} {its : List Item} {bot : Char → Option Nat} {odd : Bool} {cl : Delim}
    (hcc : cl.cc = '*' ∨ cl.cc = '_') (h : cl.canClose = false ∨ ∀ d ∈ B, ¬ (d.cc = cl.cc ∧ d.canOpen = true)) :
    ∃ B' bot' odd', emphStep ⟨B, cl :: R, its, bot, odd⟩ cl R = ⟨B', R, its, bot', odd'⟩ ∧
      (B' = cl :: B ∨ B' = B ∧ cl.canOpen = false) ∧
      (bot' = bot ∨ cl.canClose = true ∧ bot' = fun ch => if ch == cl.cc then B.head?.map (·.node) else bot ch) := by
  unfold emphStep
  by_cases hc : cl.canClose = true
  · have h := h.resolve_left (by simp [hc])
    obtain ⟨odd', hf⟩ := findOpener_nothing (bot := bot cl.cc) (odd := odd) h
    have e6 : (cl.cc == '*' || cl.cc == '_') = true := by rcases hcc with h | h <;> rw [h] <;> rfl
    simp only [hc, Bool.not_true, Bool.false_eq_true, if_false, hf, e6, if_true]
    cases odd' with
    | true => exact ⟨_, _, _, rfl, .inl rfl, .inl rfl⟩
    | false =>
      refine ⟨_, _, _, rfl, ?_, .inr ⟨trivial, rfl⟩⟩
      cases hco : cl.canOpen with
      | true => exact .inl rfl
      | false => exact .inr ⟨rfl, rfl⟩
  · have hc : cl.canClose = false := by simpa using hc
    simp only [hc, Bool.not_false, if_true]
    exact ⟨_, _, _, rfl, .inl rfl, .inl rfl⟩

/-- The nodes around `ts` for `n` delimiters on both sides. -/
def wrapTrees : Nat → List Tree → List Tree
  | 0, ts => ts
  | 1, ts => [mkNode .emph ts]
  | n + 2, ts => wrapTrees n [mkNode .strong ts]

/-- What is left of a delimiter. -/
def leftDelim (d : Delim) (u : Nat) : List Delim := if d.numdelims - u = 0 then [] else [{ d with numdelims := d.numdelims - u }]

/-- One use of an opener and a closer. -/
theorem emphStep_match {N B R : List Delim} {pre inner post : List Item} {bot : Char → Option Nat} {odd : Bool} {op cl : Delim}
    {c : Char} (hc : c = '*' ∨ c = '_') (h1 : op.cc = c) (h2 : cl.cc = c) (h3 : op.canOpen = true)
    (h4 : cl.canClose = true) (h5 : isOddMatch op cl = false)
    (hb : some op.node ≠ bot c) (hN : ∀ d ∈ N, some d.node ≠ bot c ∧ ¬ (d.cc = c ∧ d.canOpen = true ∧ isOddMatch d cl = false))
    (hne : op.node ≠ cl.node) (h01 : op.node ≠ 0) (h02 : cl.node ≠ 0)
    (hi : ∀ it ∈ pre ++ (inner ++ post), it.id ≠ op.node ∧ it.id ≠ cl.node) {u : Nat}
    (hu : u = if 2 ≤ cl.numdelims ∧ 2 ≤ op.numdelims then 2 else 1) :
    emphStep ⟨N ++ op :: B, cl :: R, pre ++ ⟨op.node, textNode (List.replicate op.numdelims c)⟩ ::
        (inner ++ ⟨cl.node, textNode (List.replicate cl.numdelims c)⟩ :: post), bot, odd⟩ cl R =
      ⟨leftDelim op u ++ B, leftDelim cl u ++ R,
        pre ++ (keepIf (op.numdelims - u) op.node c ++ ⟨0, mkNode (if u = 1 then .emph else .strong) (inner.map (·.node))⟩ ::
          (keepIf (cl.numdelims - u) cl.node c ++ post)), bot, false⟩ := by
  have hf := findOpener_skip (cl := cl) (bot := bot c) (below := B) (odd := odd) (h1.trans h2.symm) h3 h5 hb
    (fun d hd => (hN d hd).1) (fun d hd => by rw [h2]; exact (hN d hd).2)
  have e6 : (cl.cc == '*' || cl.cc == '_') = true := by rw [h2]; rcases hc with h | h <;> rw [h] <;> rfl
  have hw := wrap_items (use := u) (k := if u = 1 then .emph else .strong) (a := pre) (m := inner) (b := post) h1 h2 hne
    (fun x hx => hi x (by simp [hx])) (fun x hx => hi x (by simp [hx])) (fun x hx => hi x (by simp [hx])) h01 h02
  have hu' : (if (decide (cl.numdelims ≥ 2) && decide (op.numdelims ≥ 2)) = true then 2 else 1) = u := by
    rw [hu]; simp
  have hk : (if (u == 1) = true then Kind.emph else Kind.strong) = if u = 1 then .emph else .strong := by simp
  unfold emphStep
  simp only [h4, Bool.not_true, Bool.false_eq_true, if_false]
  rw [show bot cl.cc = bot c by rw [h2]] 
  simp only [hf, e6, if_true, hu', hk]
  dsimp only at hw
  rw [hw]
  unfold leftDelim
  congr 1
  · by_cases h : op.numdelims - u = 0
    · simp [h]
    · rw [if_neg (by simpa using h), if_neg h]; rfl
  · by_cases h : cl.numdelims - u = 0
    · simp [h]
    · rw [if_neg (by simpa using h), if_neg h, ← h4]; rfl

/-! ### Stretches -/

/-- The quotation mark that opens. -/
def openQuote (c : Char) : Char := if c = '\'' then lsquo else ldquo

/-- The quotation mark that closes. -/
def closeQuote (c : Char) : Char := if c = '\'' then rsquo else rdquo

/-- A quotation mark that has been read: its node is as it stays. -/
def QuoteDone (its : List Item) (d : Delim) : Prop :=
  (d.cc = '\'' ∨ d.cc = '"') ∧ ∀ it ∈ its, it.id = d.node → it.node = textNode [openQuote d.cc]

/-- The delimiters `ds` and the siblings `its` with ids from `lo` to `hi` become `ts`, if the openers below are for the
characters `E` or quotation marks; the delimiters are not used for anything else. -/
structure Stretch (E : List Char) (lo hi : Nat) (its : List Item) (ds : List Delim) (ts : List Tree) : Prop where
  pos : 1 ≤ lo
  le : lo ≤ hi
  ids : ∀ it ∈ its, it.id = 0 ∨ lo ≤ it.id ∧ it.id < hi
  nodes : ∀ d ∈ ds, lo ≤ d.node ∧ d.node < hi
  run : ∀ (B R : List Delim) (pre post : List Item) (bot : Char → Option Nat) (odd : Bool),
    (∀ d ∈ B, 1 ≤ d.node ∧ d.node < lo) → (∀ d ∈ B, d.canOpen = true → d.cc ∈ E ∨ QuoteDone pre d) → (∀ c i, bot c = some i → i < lo) →
    (∀ it ∈ pre, it.id < lo) → (∀ it ∈ post, it.id = 0 ∨ hi ≤ it.id) →
    ∃ N its' bot' odd', EReach ⟨B, ds ++ R, pre ++ (its ++ post), bot, odd⟩ ⟨N ++ B, R, pre ++ (its' ++ post), bot', odd'⟩ ∧
      its'.map (·.node) = ts ∧ (∀ it ∈ its', it.id = 0 ∨ lo ≤ it.id ∧ it.id < hi) ∧
      (∀ d ∈ N, (d.canOpen = true → d.cc ∉ E ∧ QuoteDone its' d) ∧ lo ≤ d.node ∧ d.node < hi) ∧ (∀ c ∈ E, bot' c = bot c) ∧
      ∀ c i, bot' c = some i → i < hi

theorem Stretch.nil {E : List Char} {lo : Nat} (h0 : 1 ≤ lo) : Stretch E lo lo [] [] [] where
  pos := h0
  le := Nat.le_refl _
  ids := by simp
  nodes := by simp
  run := fun B R pre post bot odd h1 h2 h3 h4 h5 =>
    ⟨[], [], bot, odd, .refl, rfl, by simp, by simp, fun _ _ => rfl, h3⟩

/-- A node that is no delimiter. -/
theorem Stretch.one {E : List Char} {lo hi : Nat} {it : Item} (h0 : 1 ≤ lo) (h : it.id = 0 ∨ lo ≤ it.id ∧ it.id < hi) (hle : lo ≤ hi) :
    Stretch E lo hi [it] [] [it.node] where
  pos := h0
  le := hle
  ids := by simpa using h
  nodes := by simp
  run := fun B R pre post bot odd h1 h2 h3 h4 h5 =>
    ⟨[], [it], bot, odd, .refl, rfl, by simpa using h, by simp, fun _ _ => rfl, fun c i hc => Nat.lt_of_lt_of_le (h3 c i hc) hle⟩

theorem Stretch.append {E : List Char} {lo mid hi : Nat} {a b : List Item} {ds es : List Delim} {ts us : List Tree}
    (h : Stretch E lo mid a ds ts) (h' : Stretch E mid hi b es us) : Stretch E lo hi (a ++ b) (ds ++ es) (ts ++ us) where
  pos := h.pos
  le := Nat.le_trans h.le h'.le
  ids := by
    intro it hit
    have := h.le
    have := h'.le
    rcases List.mem_append.1 hit with hit | hit
    · rcases h.ids it hit with e | e <;> omega
    · rcases h'.ids it hit with e | e <;> omega
  nodes := by
    intro d hd
    have := h.le
    have := h'.le
    rcases List.mem_append.1 hd with hd | hd
    · have := h.nodes d hd; omega
    · have := h'.nodes d hd; omega
  run := by
    intro B R pre post bot odd h1 h2 h3 h4 h5
    have l1 := h.le
    have l2 := h'.le
    obtain ⟨N, a', bot', odd', r1, r2, r3, r4, r5, r6⟩ := h.run B (es ++ R) pre (b ++ post) bot odd h1 h2 h3 h4 (by
      intro it hit
      rcases List.mem_append.1 hit with hit | hit
      · rcases h'.ids it hit with e | e <;> omega
      · rcases h5 it hit with e | e <;> omega)
    obtain ⟨N', b', bot'', odd'', q1, q2, q3, q4, q5, q6⟩ := h'.run (N ++ B) R (pre ++ a') post bot' odd' (by
        intro d hd
        rcases List.mem_append.1 hd with hd | hd
        · have := h.pos; have := (r4 d hd).2; omega
        · have := h1 d hd; omega) (by
        intro d hd ho
        rcases List.mem_append.1 hd with hd | hd
        · obtain ⟨q1, q2⟩ := ((r4 d hd).1 ho).2
          refine .inr ⟨q1, fun it hit e => ?_⟩
          rcases List.mem_append.1 hit with hit | hit
          · have := h4 it hit; have := (r4 d hd).2; omega
          · exact q2 it hit e
        · refine (h2 d hd ho).imp_right fun q => ⟨q.1, fun it hit e => ?_⟩
          rcases List.mem_append.1 hit with hit | hit
          · exact q.2 it hit e
          · have := r3 it hit; have := h1 d hd; omega) r6 (by
        intro it hit
        rcases List.mem_append.1 hit with hit | hit
        · have := h4 it hit; omega
        · rcases r3 it hit with e | e
          · have := h.pos; omega
          · omega) h5
    refine ⟨N' ++ N, a' ++ b', bot'', odd'', ?_, by simp [r2, q2], ?_, ?_, fun c hc => (q5 c hc).trans (r5 c hc), q6⟩
    · simp only [List.append_assoc] at r1 q1 ⊢
      exact r1.trans q1
    · intro it hit
      rcases List.mem_append.1 hit with hit | hit
      · rcases r3 it hit with e | e <;> omega
      · rcases q3 it hit with e | e <;> omega
    · intro d hd
      rcases List.mem_append.1 hd with hd | hd
      · have := q4 d hd
        refine ⟨fun ho => ⟨(this.1 ho).1, (this.1 ho).2.1, fun it hit e => ?_⟩, by omega, by omega⟩
        rcases List.mem_append.1 hit with hit | hit
        · have := r3 it hit; have := h'.pos; omega
        · exact (this.1 ho).2.2 it hit e
      · have := r4 d hd
        refine ⟨fun ho => ⟨(this.1 ho).1, (this.1 ho).2.1, fun it hit e => ?_⟩, by omega, by omega⟩
        rcases List.mem_append.1 hit with hit | hit
        · exact (this.1 ho).2.2 it hit e
        · have := q3 it hit; have := h.pos; omega

theorem not_quote {c : Char} (h : c = '*' ∨ c = '_') : ¬ (c = '\'' ∨ c = '"') := by
  rcases h with rfl | rfl <;> decide

/-- A run of delimiters that is not used. -/
theorem Stretch.unused {E : List Char} {lo n m : Nat} {c : Char} {cl : Bool} {t : Tree} (h0 : 1 ≤ lo) (hc : c = '*' ∨ c = '_')
    (h : cl = false ∨ c ∉ E) : Stretch E lo (lo + 1) [⟨lo, t⟩] [⟨c, n, m, lo, false, cl⟩] [t] where
  pos := h0
  le := by omega
  ids := by simp
  nodes := by simp
  run := by
    intro B R pre post bot odd h1 h2 h3 h4 h5
    obtain ⟨B', bot', odd', e1, e2, e3⟩ := emphStep_none (B := B) (R := R) (its := pre ++ ([⟨lo, t⟩] ++ post)) (bot := bot)
      (odd := odd) (cl := ⟨c, n, m, lo, false, cl⟩) hc (by
        rcases h with h | h
        · exact .inl h
        · refine .inr fun d hd hcd => h ?_
          have := (h2 d hd hcd.2).resolve_right fun q => not_quote hc (by have := q.1; rw [hcd.1] at this; exact this)
          rwa [hcd.1] at this)
    have hb : ∀ c i, bot' c = some i → i < lo + 1 := by
      intro c' i hi
      rcases e3 with rfl | ⟨_, rfl⟩
      · have := h3 c' i hi; omega
      · dsimp only at hi
        split at hi
        · cases B with
          | nil => cases hi
          | cons d B =>
            have := h1 d (by simp)
            simp only [List.head?_cons, Option.map_some, Option.some.injEq] at hi; omega
        · have := h3 c' i hi; omega
    have hbe : ∀ c ∈ E, bot' c = bot c := by
      intro c' hc'
      rcases e3 with rfl | ⟨h4, rfl⟩
      · rfl
      · dsimp only at h4 ⊢
        rw [if_neg]
        rw [beq_iff_eq]
        rintro rfl
        exact h.elim (by simp [h4]) (fun h => h hc')
    rcases e2 with rfl | ⟨rfl, _⟩
    · exact ⟨[⟨c, n, m, lo, false, cl⟩], [⟨lo, t⟩], bot', odd', .step rfl (e1 ▸ .refl), rfl, by simp, by simp, hbe, hb⟩
    · exact ⟨[], [⟨lo, t⟩], bot', odd', .step rfl (e1 ▸ .refl), rfl, by simp, by simp, hbe, hb⟩

/-- An opener and a closer with as many characters each. -/
theorem emph_reach {B R : List Delim} {pre post : List Item} {bot : Char → Option Nat} {c : Char} {i j n : Nat} {o1 o2 : Bool}
    (hc : c = '*' ∨ c = '_') (hij : i ≠ j) (hi0 : i ≠ 0) (hj0 : j ≠ 0) (hb : some i ≠ bot c)
    (hi : ∀ it ∈ pre ++ post, it.id ≠ i ∧ it.id ≠ j) : ∀ (k : Nat), 1 ≤ k → ∀ (N : List Delim) (m : List Item) (odd : Bool),
    (∀ d ∈ N, some d.node ≠ bot c ∧ ¬ (d.cc = c ∧ d.canOpen = true)) → (∀ it ∈ m, it.id ≠ i ∧ it.id ≠ j) →
    ∃ its' odd', EReach ⟨N ++ ⟨c, k, n, i, true, o1⟩ :: B, ⟨c, k, n, j, o2, true⟩ :: R,
        pre ++ ⟨i, textNode (List.replicate k c)⟩ :: (m ++ ⟨j, textNode (List.replicate k c)⟩ :: post), bot, odd⟩
      ⟨B, R, pre ++ (its' ++ post), bot, odd'⟩ ∧ its'.map (·.node) = wrapTrees k (m.map (·.node)) ∧ ∀ it ∈ its', it.id = 0 := by
  intro k
  induction k using Nat.strongRecOn with
  | ind k ih =>
    intro hk N m odd hN hm
    have hodd : isOddMatch ⟨c, k, n, i, true, o1⟩ ⟨c, k, n, j, o2, true⟩ = false := by
      simp only [isOddMatch]
      have : ¬ (n % 3 ≠ 0 ∧ (n + n) % 3 = 0) := by omega
      rw [Bool.eq_false_iff]
      simp only [ne_eq, Bool.and_eq_true, bne_iff_ne, beq_iff_eq]
      exact fun h => this ⟨h.1.2, h.2⟩
    have hs := emphStep_match (N := N) (B := B) (R := R) (pre := pre) (inner := m) (post := post) (bot := bot) (odd := odd)
      (op := ⟨c, k, n, i, true, o1⟩) (cl := ⟨c, k, n, j, o2, true⟩) hc rfl rfl rfl rfl hodd hb
      (fun d hd => ⟨(hN d hd).1, fun h => (hN d hd).2 ⟨h.1, h.2.1⟩⟩) hij hi0 hj0 (by
        intro it hit
        simp only [List.mem_append] at hit
        rcases hit with h | h | h
        · exact hi it (by simp [h])
        · exact hm it h
        · exact hi it (by simp [h])) rfl
    match k, hk, ih, hs with
    | 1, _, _, hs =>
      exact ⟨[⟨0, mkNode .emph (m.map (·.node))⟩], false, .step rfl (by rw [hs]; exact .refl), rfl, by simp⟩
    | 2, _, _, hs =>
      exact ⟨[⟨0, mkNode .strong (m.map (·.node))⟩], false, .step rfl (by rw [hs]; exact .refl), rfl, by simp⟩
    | k + 3, _, ih, hs =>
      obtain ⟨its', odd', h1, h2, h3⟩ := ih (k + 1) (by omega) (by omega) [] [⟨0, mkNode .strong (m.map (·.node))⟩] false
        (by simp) (by simp; omega)
      refine ⟨its', odd', .step rfl ?_, ?_, h3⟩
      · have hu : (if 2 ≤ k + 3 ∧ 2 ≤ k + 3 then 2 else 1) = 2 := by simp
        dsimp only at hs
        rw [hu] at hs
        have e : k + 3 - 2 = k + 1 := by omega
        simp only [leftDelim, keepIf, e] at hs
        rw [hs]
        simpa using h1
      · rw [h2, wrapTrees]; rfl

theorem Stretch.emph {E : List Char} {lo j n : Nat} {c : Char} {o1 o2 : Bool} {its : List Item} {ds : List Delim} {ts : List Tree}
    (h0 : 1 ≤ lo) (hn : 1 ≤ n) (hc : c = '*' ∨ c = '_') (ho : o1 = false ∨ c ∉ E) (h : Stretch (c :: E) (lo + 1) j its ds ts) :
    Stretch E lo (j + 1) (⟨lo, textNode (List.replicate n c)⟩ :: (its ++ [⟨j, textNode (List.replicate n c)⟩]))
      (⟨c, n, n, lo, true, o1⟩ :: (ds ++ [⟨c, n, n, j, o2, true⟩])) (wrapTrees n ts) where
  pos := h0
  le := by have := h.le; omega
  ids := by
    have := h.le
    intro it hit
    simp only [List.mem_cons, List.mem_append, List.not_mem_nil, or_false] at hit
    rcases hit with rfl | hit | rfl
    · dsimp only; omega
    · have := h.ids it hit; omega
    · dsimp only; omega
  nodes := by
    have := h.le
    intro d hd
    simp only [List.mem_cons, List.mem_append, List.not_mem_nil, or_false] at hd
    rcases hd with rfl | hd | rfl
    · dsimp only; omega
    · have := h.nodes d hd; omega
    · dsimp only; omega
  run := by
    intro B R pre post bot odd h1 h2 h3 h4 h5
    have hle := h.le
    obtain ⟨B', bot1, odd1, e1, e2, e3⟩ := emphStep_none (B := B) (R := ds ++ ⟨c, n, n, j, o2, true⟩ :: R)
      (its := pre ++ (⟨lo, textNode (List.replicate n c)⟩ :: (its ++ ⟨j, textNode (List.replicate n c)⟩ :: post))) (bot := bot)
      (odd := odd) (cl := ⟨c, n, n, lo, true, o1⟩) hc (by
        rcases ho with h | h
        · exact .inl h
        · refine .inr fun d hd hcd => h ?_
          have := (h2 d hd hcd.2).resolve_right fun q => not_quote hc (by have := q.1; rw [hcd.1] at this; exact this)
          rwa [hcd.1] at this)
    have e2 : B' = ⟨c, n, n, lo, true, o1⟩ :: B := e2.resolve_right (by simp)
    subst e2
    have hb : ∀ c i, bot1 c = some i → i < lo := by
      intro c' i hi
      rcases e3 with rfl | ⟨_, rfl⟩
      · exact h3 c' i hi
      · dsimp only at hi
        split at hi
        · cases B with
          | nil => cases hi
          | cons d B =>
            have := h1 d (by simp)
            simp only [List.head?_cons, Option.map_some, Option.some.injEq] at hi; omega
        · exact h3 c' i hi
    have hbe : ∀ c ∈ E, bot1 c = bot c := by
      intro c' hc'
      rcases e3 with rfl | ⟨h4, rfl⟩
      · rfl
      · dsimp only at h4 ⊢
        rw [if_neg]
        rw [beq_iff_eq]
        rintro rfl
        exact ho.elim (by simp [h4]) (fun h => h hc')
    obtain ⟨N, its', bot2, odd2, r1, r2, r3, r4, r5, r6⟩ := h.run (⟨c, n, n, lo, true, o1⟩ :: B) (⟨c, n, n, j, o2, true⟩ :: R)
      (pre ++ [⟨lo, textNode (List.replicate n c)⟩]) (⟨j, textNode (List.replicate n c)⟩ :: post) bot1 odd1 (by
        intro d hd
        rcases List.mem_cons.1 hd with rfl | hd
        · dsimp only; omega
        · have := h1 d hd; omega) (by
        intro d hd hd'
        rcases List.mem_cons.1 hd with rfl | hd
        · simp
        · refine (h2 d hd hd').imp (fun q => by simp [q]) fun q => ⟨q.1, fun it hit e => ?_⟩
          rcases List.mem_append.1 hit with hit | hit
          · exact q.2 it hit e
          · obtain rfl := List.mem_singleton.1 hit
            have := h1 d hd
            dsimp only at e
            omega) (fun c i hc => by have := hb c i hc; omega) (by
        intro it hit
        rcases List.mem_append.1 hit with hit | hit
        · have := h4 it hit; omega
        · rw [List.mem_singleton] at hit; subst hit; dsimp only; omega) (by
        intro it hit
        rcases List.mem_cons.1 hit with rfl | hit
        · dsimp only; omega
        · have := h5 it hit; omega)
    have hbot : bot2 c = bot1 c := r5 c (by simp)
    obtain ⟨its'', odd3, q1, q2, q3⟩ := emph_reach (B := B) (R := R) (pre := pre) (post := post) (bot := bot2) (c := c) (i := lo)
      (j := j) (n := n) (o1 := o1) (o2 := o2) hc (by omega) (by omega) (by omega) (by
        intro he
        rw [hbot] at he
        have := hb c lo he.symm; omega) (by
        intro it hit
        rcases List.mem_append.1 hit with hit | hit
        · have := h4 it hit; omega
        · have := h5 it hit; omega) n hn N its' odd2 (by
        intro d hd
        refine ⟨fun he => ?_, fun hcd => ((r4 d hd).1 hcd.2).1 (by rw [hcd.1]; simp)⟩
        rw [hbot] at he
        have := hb c _ he.symm
        have := r4 d hd
        omega) (by
        intro it hit
        have := r3 it hit
        omega)
    refine ⟨[], its'', bot2, odd3, ?_, by rw [q2, r2], fun it hit => .inl (q3 it hit), by simp, ?_, ?_⟩
    · simp only [List.cons_append, List.append_assoc, List.nil_append] at r1 ⊢
      exact .step rfl (by rw [e1]; exact r1.trans q1)
    · intro c' hc'
      rw [r5 c' (by simp [hc']), hbe c' hc']
    · intro c' i hi
      have := r6 c' i hi
      omega

/-! ### Quotation marks -/

theorem setLiteral_id {i : Nat} {x : Str} {its : List Item} (h : ∀ it ∈ its, it.id = i → it.node = textNode x) :
    setLiteral i (fun _ => x) its = its := by
  unfold setLiteral
  refine (List.map_congr_left (g := id) fun it hit => ?_).trans (List.map_id its)
  by_cases e : it.id = i
  · obtain ⟨j, n⟩ := it
    have := h _ hit e
    dsimp only at this e
    subst this
    simp [e, textNode]
  · simp [e]

theorem setLiteral_mid {i : Nat} {x y : Str} {pre post : List Item} (h : ∀ it ∈ pre ++ post, it.id ≠ i) :
    setLiteral i (fun _ => x) (pre ++ ⟨i, textNode y⟩ :: post) = pre ++ ⟨i, textNode x⟩ :: post := by
  have h1 : ∀ l : List Item, (∀ it ∈ l, it.id ≠ i) → setLiteral i (fun _ => x) l = l := fun l hl =>
    setLiteral_id fun it hit e => absurd e (hl it hit)
  have e1 := h1 pre fun it hit => h it (by simp [hit])
  have e2 := h1 post fun it hit => h it (by simp [hit])
  unfold setLiteral at e1 e2 ⊢
  rw [List.map_append, List.map_cons, e1, e2]
  simp [textNode]

theorem findOpener_some {cl : Delim} {bot : Option Nat} {op : Delim} {below : List Delim} : ∀ {B : List Delim} {odd odd' : Bool},
    findOpener cl bot B odd = (some (op, below), odd') → op ∈ B ∧ op.cc = cl.cc ∧ op.canOpen = true
  | [], odd, odd', h => by simp [findOpener] at h
  | d :: B, odd, odd', h => by
    rw [findOpener] at h
    split at h
    · simp at h
    · dsimp only at h
      split at h
      · rename_i h2
        simp only [Bool.and_eq_true, beq_iff_eq] at h2
        have : d = op := (Prod.mk.inj (Option.some.inj (Prod.mk.inj h).1)).1
        subst this
        exact ⟨by simp, h2.1⟩
      · have := findOpener_some h
        exact ⟨by simp [this.1], this.2⟩

/-- A quotation mark that closes. -/
theorem emphStep_quote {B R : List Delim} {its : List Item} {bot : Char → Option Nat} {odd : Bool} {cl : Delim}
    (hcc : cl.cc = '\'' ∨ cl.cc = '"') (h : cl.canClose = true) :
    (∃ op odd', op ∈ B ∧ op.cc = cl.cc ∧ op.canOpen = true ∧
      emphStep ⟨B, cl :: R, its, bot, odd⟩ cl R =
        ⟨cl :: B, R, setLiteral op.node (fun _ => [openQuote cl.cc]) (setLiteral cl.node (fun _ => [closeQuote cl.cc]) its), bot, odd'⟩) ∨
    ∃ B' bot' odd',
      emphStep ⟨B, cl :: R, its, bot, odd⟩ cl R = ⟨B', R, setLiteral cl.node (fun _ => [closeQuote cl.cc]) its, bot', odd'⟩ ∧
      (B' = cl :: B ∨ B' = B) ∧ (bot' = bot ∨ bot' = fun ch => if ch == cl.cc then B.head?.map (·.node) else bot ch) := by
  have e6 : (cl.cc == '*' || cl.cc == '_') = false := by rcases hcc with h | h <;> rw [h] <;> rfl
  unfold emphStep
  simp only [h, Bool.not_true, Bool.false_eq_true, if_false, e6]
  cases hf : findOpener cl (bot cl.cc) B odd with
  | mk found odd' =>
    cases found with
    | none =>
      right
      rcases hcc with hq | hq
      · have e : (cl.cc == '\'') = true := by rw [hq]; rfl
        have eo : closeQuote cl.cc = rsquo := by rw [hq]; rfl
        simp only [e, if_true, eo]
        cases odd' with
        | true => exact ⟨_, _, _, rfl, .inl rfl, .inl rfl⟩
        | false =>
          refine ⟨_, _, _, rfl, ?_, .inr rfl⟩
          cases cl.canOpen <;> simp
      · have e : (cl.cc == '\'') = false := by rw [hq]; rfl
        have eo : closeQuote cl.cc = rdquo := by rw [hq]; rfl
        simp only [e, Bool.false_eq_true, if_false, eo]
        cases odd' with
        | true => exact ⟨_, _, _, rfl, .inl rfl, .inl rfl⟩
        | false =>
          refine ⟨_, _, _, rfl, ?_, .inr rfl⟩
          cases cl.canOpen <;> simp
    | some p =>
      obtain ⟨op, below⟩ := p
      left
      have hm := findOpener_some hf
      refine ⟨op, odd', hm.1, hm.2.1, hm.2.2, ?_⟩
      rcases hcc with hq | hq
      · have e : (cl.cc == '\'') = true := by rw [hq]; rfl
        have eo : closeQuote cl.cc = rsquo := by rw [hq]; rfl
        have ec : openQuote cl.cc = lsquo := by rw [hq]; rfl
        simp only [e, if_true, eo, ec]
      · have e : (cl.cc == '\'') = false := by rw [hq]; rfl
        have eo : closeQuote cl.cc = rdquo := by rw [hq]; rfl
        have ec : openQuote cl.cc = ldquo := by rw [hq]; rfl
        simp only [e, Bool.false_eq_true, if_false, eo, ec]

/-- A quotation mark that closes, after one that stays as it is, or after none. -/
theorem Stretch.closing {E : List Char} {lo : Nat} {q : Char} {y : Str} (h0 : 1 ≤ lo) (hq : q = '\'' ∨ q = '"') (hE : q ∉ E) :
    Stretch E lo (lo + 1) [⟨lo, textNode y⟩] [⟨q, 1, 1, lo, false, true⟩] [textNode [closeQuote q]] where
  pos := h0
  le := by omega
  ids := by simp
  nodes := by simp
  run := by
    intro B R pre post bot odd h1 h2 h3 h4 h5
    have hset : setLiteral lo (fun _ => [closeQuote q]) (pre ++ ([⟨lo, textNode y⟩] ++ post)) =
        pre ++ ([⟨lo, textNode [closeQuote q]⟩] ++ post) := setLiteral_mid fun it hit => by
      rcases List.mem_append.1 hit with hit | hit
      · have := h4 it hit; omega
      · have := h5 it hit; omega
    rcases emphStep_quote (B := B) (R := R) (its := pre ++ ([⟨lo, textNode y⟩] ++ post)) (bot := bot) (odd := odd)
      (cl := ⟨q, 1, 1, lo, false, true⟩) hq rfl with ⟨op, odd', m1, m2, m3, e⟩ | ⟨B', bot', odd', e, e2, e3⟩
    · dsimp only at m2 e
      have hop : setLiteral op.node (fun _ => [openQuote q]) (pre ++ ([⟨lo, textNode [closeQuote q]⟩] ++ post)) =
          pre ++ ([⟨lo, textNode [closeQuote q]⟩] ++ post) := setLiteral_id fun it hit he => by
        have hb := h1 op m1
        rcases List.mem_append.1 hit with hit | hit
        · have := (h2 op m1 m3).resolve_left (by rw [m2]; exact hE)
          rw [← m2]
          exact this.2 it hit he
        · rcases List.mem_append.1 hit with hit | hit
          · obtain rfl := List.mem_singleton.1 hit
            dsimp only at he; omega
          · have := h5 it hit; omega
      rw [hset, hop] at e
      exact ⟨[⟨q, 1, 1, lo, false, true⟩], [⟨lo, textNode [closeQuote q]⟩], bot, odd', .step rfl (e ▸ .refl), rfl, by simp, by simp,
        fun _ _ => rfl, fun c i hc => by have := h3 c i hc; omega⟩
    · dsimp only at e e3
      rw [hset] at e
      have hb : ∀ c i, bot' c = some i → i < lo + 1 := by
        intro c' i hi
        rcases e3 with rfl | rfl
        · have := h3 c' i hi; omega
        · dsimp only at hi
          split at hi
          · cases B with
            | nil => cases hi
            | cons d B =>
              have := h1 d (by simp)
              simp only [List.head?_cons, Option.map_some, Option.some.injEq] at hi; omega
          · have := h3 c' i hi; omega
      have hbe : ∀ c ∈ E, bot' c = bot c := by
        intro c' hc'
        rcases e3 with rfl | rfl
        · rfl
        · dsimp only
          rw [if_neg]
          rw [beq_iff_eq]
          rintro rfl
          exact hE hc'
      rcases e2 with rfl | rfl
      · exact ⟨[⟨q, 1, 1, lo, false, true⟩], [⟨lo, textNode [closeQuote q]⟩], bot', odd', .step rfl (e ▸ .refl), rfl, by simp, by simp, hbe, hb⟩
      · exact ⟨[], [⟨lo, textNode [closeQuote q]⟩], bot', odd', .step rfl (e ▸ .refl), rfl, by simp, by simp, hbe, hb⟩

/-- A quotation mark that closes nothing. -/
theorem Stretch.standing {E : List Char} {lo : Nat} {q : Char} {o : Bool} {y : Str} (h0 : 1 ≤ lo)
    (ho : o = true → (q = '\'' ∨ q = '"') ∧ q ∉ E ∧ y = [openQuote q]) :
    Stretch E lo (lo + 1) [⟨lo, textNode y⟩] [⟨q, 1, 1, lo, o, false⟩] [textNode y] where
  pos := h0
  le := by omega
  ids := by simp
  nodes := by simp
  run := by
    intro B R pre post bot odd h1 h2 h3 h4 h5
    refine ⟨[⟨q, 1, 1, lo, o, false⟩], [⟨lo, textNode y⟩], bot, odd, .step rfl ?_, rfl, by simp, ?_, fun _ _ => rfl,
      fun c i hc => by have := h3 c i hc; omega⟩
    · simp only [emphStep, Bool.not_false, if_true]; exact .refl
    · intro d hd
      obtain rfl := List.mem_singleton.1 hd
      refine ⟨fun h => ?_, by dsimp only; omega, by dsimp only; omega⟩
      obtain ⟨a, b, c⟩ := ho h
      refine ⟨b, a, fun it hit _ => ?_⟩
      obtain rfl := List.mem_singleton.1 hit
      dsimp only
      rw [c]

/-- Single quotation marks around something. -/
theorem Stretch.single {E : List Char} {lo j : Nat} {its : List Item} {ds : List Delim} {ts : List Tree} (h0 : 1 ≤ lo) (hE : '\'' ∉ E)
    (h : Stretch ('\'' :: E) (lo + 1) j its ds ts) :
    Stretch E lo (j + 1) (⟨lo, textNode [rsquo]⟩ :: (its ++ [⟨j, textNode [rsquo]⟩]))
      (⟨'\'', 1, 1, lo, true, false⟩ :: (ds ++ [⟨'\'', 1, 1, j, false, true⟩])) (textNode [lsquo] :: (ts ++ [textNode [rsquo]])) where
  pos := h0
  le := by have := h.le; omega
  ids := by
    have := h.le
    intro it hit
    simp only [List.mem_cons, List.mem_append, List.not_mem_nil, or_false] at hit
    rcases hit with rfl | hit | rfl
    · dsimp only; omega
    · have := h.ids it hit; omega
    · dsimp only; omega
  nodes := by
    have := h.le
    intro d hd
    simp only [List.mem_cons, List.mem_append, List.not_mem_nil, or_false] at hd
    rcases hd with rfl | hd | rfl
    · dsimp only; omega
    · have := h.nodes d hd; omega
    · dsimp only; omega
  run := by
    intro B R pre post bot odd h1 h2 h3 h4 h5
    have hle := h.le
    obtain ⟨N, its', bot2, odd2, r1, r2, r3, r4, r5, r6⟩ := h.run (⟨'\'', 1, 1, lo, true, false⟩ :: B) (⟨'\'', 1, 1, j, false, true⟩ :: R)
      (pre ++ [⟨lo, textNode [rsquo]⟩]) (⟨j, textNode [rsquo]⟩ :: post) bot odd (by
        intro d hd
        rcases List.mem_cons.1 hd with rfl | hd
        · dsimp only; omega
        · have := h1 d hd; omega) (by
        intro d hd hd'
        rcases List.mem_cons.1 hd with rfl | hd
        · simp
        · refine (h2 d hd hd').imp (fun q => by simp [q]) fun q => ⟨q.1, fun it hit e => ?_⟩
          rcases List.mem_append.1 hit with hit | hit
          · exact q.2 it hit e
          · obtain rfl := List.mem_singleton.1 hit
            have := h1 d hd
            dsimp only at e
            omega) (fun c i hc => by have := h3 c i hc; omega) (by
        intro it hit
        rcases List.mem_append.1 hit with hit | hit
        · have := h4 it hit; omega
        · rw [List.mem_singleton] at hit; subst hit; dsimp only; omega) (by
        intro it hit
        rcases List.mem_cons.1 hit with rfl | hit
        · dsimp only; omega
        · have := h5 it hit; omega)
    have hbot : bot2 '\'' = bot '\'' := r5 _ (by simp)
    have hf := findOpener_skip (cl := ⟨'\'', 1, 1, j, false, true⟩) (bot := bot2 '\'') (op := ⟨'\'', 1, 1, lo, true, false⟩) (below := B)
      (odd := odd2) (N := N) rfl rfl rfl (by
        intro he
        rw [hbot] at he
        have := h3 _ _ he.symm
        dsimp only at this; omega) (by
        intro d hd he
        rw [hbot] at he
        have := h3 _ _ he.symm
        have := (r4 d hd).2; omega) (by
        intro d hd ⟨hcd1, hcd2, _⟩
        have hcd := And.intro hcd1 hcd2
        exact ((r4 d hd).1 hcd.2).1 (by rw [hcd.1]; simp))
    have hs1 : setLiteral j (fun _ => [rsquo]) (pre ++ [⟨lo, textNode [rsquo]⟩] ++ (its' ++ ⟨j, textNode [rsquo]⟩ :: post)) =
        pre ++ [⟨lo, textNode [rsquo]⟩] ++ (its' ++ ⟨j, textNode [rsquo]⟩ :: post) := setLiteral_id fun it hit he => by
      simp only [List.mem_append, List.mem_cons, List.not_mem_nil, or_false] at hit
      rcases hit with (hit | rfl) | hit | rfl | hit
      · have := h4 it hit; omega
      · rfl
      · have := r3 it hit; omega
      · rfl
      · have := h5 it hit; omega
    have hs2 : setLiteral lo (fun _ => [lsquo]) (pre ++ [⟨lo, textNode [rsquo]⟩] ++ (its' ++ ⟨j, textNode [rsquo]⟩ :: post)) =
        pre ++ ((⟨lo, textNode [lsquo]⟩ :: (its' ++ [⟨j, textNode [rsquo]⟩])) ++ post) := by
      have := setLiteral_mid (i := lo) (x := [lsquo]) (y := [rsquo]) (pre := pre) (post := its' ++ ⟨j, textNode [rsquo]⟩ :: post) (by
        intro it hit
        simp only [List.mem_append, List.mem_cons] at hit
        rcases hit with hit | hit | rfl | hit
        · have := h4 it hit; omega
        · have := r3 it hit; omega
        · dsimp only; omega
        · have := h5 it hit; omega)
      simpa using this
    have hstep : emphStep ⟨N ++ ⟨'\'', 1, 1, lo, true, false⟩ :: B, ⟨'\'', 1, 1, j, false, true⟩ :: R,
        pre ++ [⟨lo, textNode [rsquo]⟩] ++ (its' ++ ⟨j, textNode [rsquo]⟩ :: post), bot2, odd2⟩ ⟨'\'', 1, 1, j, false, true⟩ R =
        ⟨⟨'\'', 1, 1, j, false, true⟩ :: (N ++ ⟨'\'', 1, 1, lo, true, false⟩ :: B), R,
          pre ++ ((⟨lo, textNode [lsquo]⟩ :: (its' ++ [⟨j, textNode [rsquo]⟩])) ++ post), bot2, false⟩ := by
      unfold emphStep
      simp only [Bool.not_true, Bool.false_eq_true, if_false, hf, show (('\'' == '*') || ('\'' == '_')) = false by rfl, beq_self_eq_true, if_true,
        hs1, hs2]
    refine ⟨⟨'\'', 1, 1, j, false, true⟩ :: (N ++ [⟨'\'', 1, 1, lo, true, false⟩]), ⟨lo, textNode [lsquo]⟩ :: (its' ++ [⟨j, textNode [rsquo]⟩]),
      bot2, false, ?_, by simp [r2], ?_, ?_, fun c hc => r5 c (by simp [hc]), fun c i hc => by have := r6 c i hc; omega⟩
    · simp only [List.append_assoc, List.cons_append, List.nil_append] at r1 hstep ⊢
      refine .step rfl ?_
      simp only [emphStep, Bool.not_false, if_true]
      exact r1.trans (.step rfl (by rw [hstep]; exact .refl))
    · intro it hit
      simp only [List.mem_cons, List.mem_append, List.not_mem_nil, or_false] at hit
      rcases hit with rfl | hit | rfl
      · dsimp only; omega
      · have := r3 it hit; omega
      · dsimp only; omega
    · intro d hd
      simp only [List.mem_cons, List.mem_append, List.not_mem_nil, or_false] at hd
      rcases hd with rfl | hd | rfl
      · exact ⟨fun h => by simp at h, by dsimp only; omega, by dsimp only; omega⟩
      · have hr := r4 d hd
        refine ⟨fun ho => ⟨fun he => (hr.1 ho).1 (by simp [he]), (hr.1 ho).2.1, fun it hit e => ?_⟩, by omega, by omega⟩
        simp only [List.mem_cons, List.mem_append, List.not_mem_nil, or_false] at hit
        rcases hit with rfl | hit | rfl
        · dsimp only at e; omega
        · exact (hr.1 ho).2.2 it hit e
        · dsimp only at e; omega
      · refine ⟨fun _ => ⟨hE, .inl rfl, fun it hit e => ?_⟩, by dsimp only; omega, by dsimp only; omega⟩
        simp only [List.mem_cons, List.mem_append, List.not_mem_nil, or_false] at hit
        rcases hit with rfl | hit | rfl
        · rfl
        · have := r3 it hit; dsimp only at e; omega
        · dsimp only at e; omega

end CM
