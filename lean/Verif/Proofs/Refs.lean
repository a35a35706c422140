import Verif.Spec.Refs
import Verif.Proofs.SourceDoc
/-
Where the entries of the reference map come from (C31, C54).
-/
namespace CM
open Spec

/-! ### The pieces of a definition -/

theorem lineEnd_rest (s : Str) : reSpaceAtEndOfLine.rest s = match s.dropWhile (· == ' ') with
    | [] => some []
    | c :: t => if c == '\n' then some t else none := by
  unfold Re.rest reSpaceAtEndOfLine
  rw [Re.run_seq]
  have hk : ∀ c t, c ≠ '\n' → (Re.alt (.lit1 '\n') .eos).run s.length (c :: t) some = none := by
    intro c t h
    cases t <;> simp [Re.run, Re.lit1, h]
  have := Re.run_star_chr (· == ' ') s.length s (fun s' => (Re.alt (.lit1 '\n') .eos).run s.length s' some)
  rw [show Re.lit1 ' ' = .chr (· == ' ') from rfl, this]
  · cases s.dropWhile (· == ' ') with
    | nil => rfl
    | cons c t =>
      by_cases h : c = '\n'
      · simp [Re.run, Re.lit1, h]
      · rw [hk c t h]; simp [h]
  · intro c cs hc
    have : c = ' ' := by simpa using hc
    subst this
    exact hk _ _ (by decide)

theorem dropWhile_space (s : Str) : ∃ a, s = List.replicate a ' ' ++ s.dropWhile (· == ' ') := by
  refine ⟨(s.takeWhile (· == ' ')).length, ?_⟩
  have h : s.takeWhile (· == ' ') = List.replicate (s.takeWhile (· == ' ')).length ' ' :=
    eq_replicate_of_all (fun c hc => (List.mem_takeWhile_imp (p := (· == ' ')) hc))
  rw [← h, List.takeWhile_append_dropWhile]

theorem dropWhile_replicate {a : Nat} {c : Char} {t : Str} (h : t.head? ≠ some c) :
    (List.replicate a c ++ t).dropWhile (· == c) = t := by
  induction a with
  | zero =>
    cases t with
    | nil => rfl
    | cons d t => simp only [List.head?_cons, ne_eq, Option.some.injEq] at h; simp [h]
  | succ a ih => rw [List.replicate_succ, List.cons_append, List.dropWhile_cons_of_pos (by simp), ih]

theorem lineRest_iff {m t : Str} : reSpaceAtEndOfLine.rest (m ++ t) = some t ↔ LineRest m t := by
  rw [lineEnd_rest]
  constructor
  · intro h
    obtain ⟨a, ha⟩ := dropWhile_space (m ++ t)
    refine ⟨a, ?_⟩
    split at h
    · rename_i e
      rw [e] at ha
      simp only [Option.some.injEq] at h
      subst h
      right; simpa using ha
    · rename_i c u e
      rw [e] at ha
      split at h
      · rename_i hc
        simp only [Option.some.injEq] at h
        subst h
        have hc : c = '\n' := by simpa using hc
        subst hc
        left
        rw [← List.append_cancel_right_eq _ u, ha]; simp
      · cases h
  · rintro ⟨a, rfl | ⟨rfl, rfl⟩⟩
    · rw [show List.replicate a ' ' ++ ['\n'] ++ t = List.replicate a ' ' ++ '\n' :: t by simp,
        dropWhile_replicate (by simp)]; rfl
    · rw [dropWhile_replicate (by simp)]

theorem lineRest_of_match {c : Ctx} {pos : Nat} {m : Str} {p : Nat} (h : c.match_ reSpaceAtEndOfLine pos = some (m, p)) :
    LineRest m (c.rest p) ∧ c.rest pos = m ++ c.rest p ∧ p = pos + m.length := by
  obtain ⟨h1, h2, _⟩ := match_den h
  refine ⟨?_, h2, h1⟩
  simp only [Ctx.match_, Option.map_eq_some_iff, Prod.mk.injEq] at h
  obtain ⟨m', h3, rfl, _⟩ := h
  obtain ⟨t, h4, h5⟩ := Re.matchPrefix_append h3
  obtain rfl : t = c.rest p := List.append_cancel_left (h5.symm.trans h2)
  rw [h2] at h4
  exact lineRest_iff.1 h4

theorem lineRest_match {c : Ctx} {pos : Nat} {m t : Str} (h : c.rest pos = m ++ t) (hm : LineRest m t) :
    c.match_ reSpaceAtEndOfLine pos = some (m, pos + m.length) := match_of_rest h (lineRest_iff.2 hm)

theorem match_none_iff {c : Ctx} {r : Re} {pos : Nat} : c.match_ r pos = none ↔
    ¬ ∃ m t, c.rest pos = m ++ t ∧ Den (c.rest pos).length r m t := by
  rw [← Re.rest_isSome_iff]
  constructor
  · intro h; rw [match_none_rest h]; simp
  · intro h
    cases e : c.match_ r pos with
    | none => rfl
    | some mp =>
      obtain ⟨m, p⟩ := mp
      obtain ⟨_, h2, h3⟩ := match_den e
      exact absurd (Re.rest_isSome_iff.2 ⟨_, _, h2, h3⟩) h

theorem titleText_den {n : Nat} {p : Char → Bool} {qs : Str} (hp : ∀ c, c ∉ qs → c.toNat ≠ 0 → p c = true) {m : Str}
    (h : TitleText qs m) (t : Str) : Den n (.star (.alt reESCAPED_CHAR (.chr p))) m t := by
  induction h with
  | nil => exact ⟨0, .nil⟩
  | @plain c s h1 h2 _ ih =>
    obtain ⟨k, ih⟩ := ih
    exact ⟨k + 1, .cons (m1 := [c]) (.inr ⟨c, hp c h1 h2, rfl⟩) ih⟩
  | @escape c s h1 _ ih =>
    obtain ⟨k, ih⟩ := ih
    exact ⟨k + 1, .cons (m1 := ['\\', c]) (.inl ⟨['\\'], [c], rfl, den_lit1.2 rfl, c, (isEscapable_iff c).2 h1, rfl⟩) ih⟩

theorem title_den {n : Nat} {m x : Str} (h : Title m x) (t : Str) : Den n reLinkTitle m t := by
  simp only [reLinkTitle, Re.alts, Re.seqs]
  cases h with
  | double h =>
    exact .inl ⟨['"'], _, rfl, den_lit1.2 rfl, _, _, rfl, titleText_den (fun c h1 h2 => by simp at h1; simp [h1, h2]) h _,
      den_lit1.2 rfl⟩
  | single h =>
    exact .inr (.inl ⟨['\''], _, rfl, den_lit1.2 rfl, _, _, rfl,
      titleText_den (fun c h1 h2 => by simp at h1; simp [h1, h2]) h _, den_lit1.2 rfl⟩)
  | paren h =>
    exact .inr (.inr ⟨['('], _, rfl, den_lit1.2 rfl, _, _, rfl,
      titleText_den (fun c h1 h2 => by simp at h1; simp [h1, h2]) h _, den_lit1.2 rfl⟩)

theorem title_start {tl x : Str} (h : Title tl x) : ∃ c r, tl = c :: r ∧ c ≠ ' ' ∧ c ≠ '\n' := by
  cases h <;> exact ⟨_, _, rfl, by decide, by decide⟩

/-- `spnl` is determined by what follows. -/
theorem spnl_of {c : Ctx} {pos : Nat} {s t : Str} (h : c.rest pos = s ++ t) (hs : Spnl s) (h1 : t.head? ≠ some ' ')
    (h2 : t.head? ≠ some '\n') : c.spnl pos = pos + s.length := by
  have key : reSpnl.rest (s ++ t) = some t := by
    unfold Re.rest reSpnl
    rw [Re.run_seq]
    have hop : ∀ (n : Nat) (u : Str), u.head? ≠ some ' ' → u.head? ≠ some '\n' →
        (Re.opt (.seq (.lit1 '\n') (.star (.lit1 ' ')))).run n u some = some u := by
      intro n u g1 g2
      cases u with
      | nil => rfl
      | cons a u => simp only [List.head?_cons, ne_eq, Option.some.injEq] at g2; simp [Re.opt, Re.run, upToK, Re.lit1, g2]
    have hop2 : ∀ (n : Nat) (u : Str), (Re.opt (.seq (.lit1 '\n') (.star (.lit1 ' ')))).run n ('\n' :: u) some =
        some (u.dropWhile (· == ' ')) := by
      intro n u
      have hlen : (u.dropWhile (· == ' ')).length < u.length + 1 :=
        Nat.lt_succ_of_le ((List.dropWhile_suffix _).sublist.length_le)
      have := Re.run_star_chr_isSome (· == ' ') n u
        (fun s' => if s'.length < ('\n' :: u).length then some s' else none) (by simp [hlen])
      simp only [List.length_cons, hlen, if_true] at this
      show upToK ((Re.seq (.lit1 '\n') (.star (.lit1 ' '))).run n) some 1 ('\n' :: u) = _
      simp only [upToK, Re.run_seq, Re.run_lit1, beq_self_eq_true, if_true, List.length_cons]
      rw [show Re.lit1 ' ' = .chr (· == ' ') from rfl, this]
    obtain ⟨a, rfl | ⟨b, rfl⟩⟩ := hs
    · have := Re.run_star_chr_isSome (· == ' ') (List.replicate a ' ' ++ t).length (List.replicate a ' ' ++ t)
        (fun s' => (Re.opt (.seq (.lit1 '\n') (.star (.lit1 ' ')))).run (List.replicate a ' ' ++ t).length s' some)
      rw [dropWhile_replicate h1, hop _ _ h1 h2] at this
      exact this rfl
    · generalize hn : (List.replicate a ' ' ++ '\n' :: List.replicate b ' ' ++ t).length = n
      have := Re.run_star_chr_isSome (· == ' ') n (List.replicate a ' ' ++ '\n' :: List.replicate b ' ' ++ t)
        (fun s' => (Re.opt (.seq (.lit1 '\n') (.star (.lit1 ' ')))).run n s' some)
      rw [List.append_assoc, dropWhile_replicate (by simp), List.cons_append, hop2, dropWhile_replicate h1] at this
      rw [List.append_assoc, List.cons_append]
      exact this rfl
  rw [Ctx.spnl, match_of_rest h key]

/-! ### parseReference -/

/-- The reference map with one more definition. -/
def addRef (m : RefMap) (l dest title : Str) : RefMap :=
  match m.get (normalizeReference l) with
  | some _ => m
  | none => m ++ [(normalizeReference l, ⟨dest, title⟩)]

/-- The end of `parseReference`. -/
def refAdd (m : RefMap) (l dest title : Str) (e : Nat) : Nat × RefMap :=
  if (normalizeReference l).isEmpty then (0, m)
  else match m.get (normalizeReference l) with
    | some _ => (e, m)
    | none => (e, m ++ [(normalizeReference l, ⟨dest, title⟩)])

/-- The part of `parseReference` after the title. -/
def refEnd (c : Ctx) (m : RefMap) (l dest title : Str) (p q1 : Nat) : Nat × RefMap :=
  match (match c.match_ reSpaceAtEndOfLine p with
    | some (_, e) => some e
    | none => if title.isEmpty then none else (c.match_ reSpaceAtEndOfLine q1).map (·.2)) with
  | none => (0, m)
  | some e => refAdd m l dest title e

/-- What `parseReference` can return. -/
def RefOut (s : Str) (m : RefMap) (o : Nat × RefMap) : Prop := o = (0, m) ∨
  ∃ w r l dest title, s = w ++ r ∧ Definition false w r l dest title ∧ normalizeReference l ≠ [] ∧
    o = (w.length, addRef m l dest title)

/-- What `parseReference` finds. -/
theorem parseReference_shape (s : Str) (m : RefMap) : RefOut s m (parseReference s m) := by
  unfold parseReference
  generalize hc : (⟨s, [], false⟩ : Ctx) = c
  have hs : c.rest 0 = s := by rw [← hc]; rfl
  dsimp only
  rcases parseLinkLabel_shape c 0 with ⟨p, hl⟩ | ⟨l, hl, hlab, hl2⟩
  · rw [hl]; exact Or.inl rfl
  rw [hl]
  by_cases hn : (l.length == 0 || l.length == 2) = true
  · rw [if_pos hn]; exact Or.inl rfl
  rw [if_neg hn]
  have hlen : 2 < l.length := by
    obtain ⟨x, rfl, _⟩ := hlab
    simp only [List.length_cons, List.length_append, List.length_nil] at hn ⊢
    simp only [Bool.or_eq_true, beq_iff_eq, not_or] at hn
    omega
  by_cases hp : (c.peek (0 + l.length) != some ':') = true
  · rw [if_pos hp]; exact Or.inl rfl
  rw [if_neg hp]
  rw [hs] at hl2
  simp only [Nat.zero_add] at hl2 hp ⊢
  have hcol : c.rest l.length = ':' :: c.rest (l.length + 1) := by
    simp only [bne_iff_ne, ne_eq, Decidable.not_not] at hp
    cases h : c.rest l.length with
    | nil => simp only [Ctx.rest, List.drop_eq_nil_iff] at h; simp [Ctx.peek, h] at hp
    | cons x t =>
      rw [rest_succ h]
      have := rest_peek h
      rw [hp] at this
      rw [Option.some.inj this]
  have htake : s.take l.length = l := by rw [hl2, List.take_left]
  rw [htake]
  obtain ⟨s1, g1, g2, g3⟩ := spnl_shape c (l.length + 1)
  generalize c.spnl (l.length + 1) = q at g2 g3
  cases hd : parseLinkDestination c q with
  | none => exact Or.inl rfl
  | some dp =>
    obtain ⟨dest, q1⟩ := dp
    obtain ⟨d, raw, d1, d2, d3, rfl, d5, d6⟩ := parseLinkDestination_shape hd
    simp only
    obtain ⟨s2, e1, e2, e3⟩ := spnl_shape c q1
    have hsp := fun s t h1 h2 h3 h4 => spnl_of (c := c) (pos := q1) (s := s) (t := t) h1 h2 h3 h4
    generalize c.spnl q1 = q2 at e2 e3 hsp
    have hpre : s = l ++ ':' :: (s1 ++ (d ++ c.rest q1)) := by rw [hl2, hcol, g2, d1]
    have hne : (q2 != q1) = true ↔ s2 ≠ [] := by
      rw [e3]; cases s2 <;> simp
    -- the end
    have fin : ∀ (title : Str) (p : Nat) (tl : Str), c.rest q1 = tl ++ c.rest p → p = q1 + tl.length →
        (∀ e r, c.rest p = e ++ r → LineRest e r →
          Definition false (l ++ ':' :: (s1 ++ (d ++ (tl ++ e)))) r l (normalizeUri (unescapeString raw)) title) →
        (¬ (∃ e r, c.rest p = e ++ r ∧ LineRest e r) → title ≠ [] → ∀ e r, c.rest q1 = e ++ r → LineRest e r →
          Definition false (l ++ ':' :: (s1 ++ (d ++ e))) r l (normalizeUri (unescapeString raw)) title) →
        RefOut s m (refEnd c m l (normalizeUri (unescapeString raw)) title p q1) := by
      intro title p tl t1 t2 t3 t4
      have out : ∀ (e : Nat) (w r : Str), s = w ++ r → e = w.length →
          Definition false w r l (normalizeUri (unescapeString raw)) title →
          RefOut s m (refAdd m l (normalizeUri (unescapeString raw)) title e) := by
        intro e w r hw he hdef
        unfold refAdd RefOut
        by_cases hz : (normalizeReference l).isEmpty = true
        · rw [if_pos hz]; exact Or.inl rfl
        · rw [if_neg hz]
          refine Or.inr ⟨w, r, l, _, title, hw, hdef, fun h => hz (by rw [h]; rfl), ?_⟩
          rw [he, addRef]
          split <;> simp_all
      unfold refEnd
      cases hm : c.match_ reSpaceAtEndOfLine p with
      | some me =>
        obtain ⟨e, pe⟩ := me
        obtain ⟨k1, k2, k3⟩ := lineRest_of_match hm
        simp only
        refine out pe (l ++ ':' :: (s1 ++ (d ++ (tl ++ e)))) (c.rest pe) ?_ ?_ (t3 e _ k2 k1)
        · rw [hpre, t1, k2]; simp
        · simp only [List.length_append, List.length_cons]; omega
      | none =>
        simp only
        by_cases ht : title.isEmpty = true
        · rw [if_pos ht]; exact Or.inl rfl
        rw [if_neg ht]
        cases hm2 : c.match_ reSpaceAtEndOfLine q1 with
        | none => exact Or.inl rfl
        | some me =>
          obtain ⟨e, pe⟩ := me
          obtain ⟨k1, k2, k3⟩ := lineRest_of_match hm2
          simp only [Option.map_some]
          refine out pe (l ++ ':' :: (s1 ++ (d ++ e))) (c.rest pe) ?_ ?_ (t4 ?_ (fun h => ht (by rw [h]; rfl)) e _ k2 k1)
          · rw [hpre, k2]; simp
          · simp only [List.length_append, List.length_cons]; omega
          · rintro ⟨e', r', h1, h2⟩
            rw [lineRest_match h1 h2] at hm
            cases hm
    by_cases hq : (q2 != q1) = true
    · rw [if_pos hq]
      cases ht : parseLinkTitle c q2 with
      | some tp =>
        obtain ⟨x, q3⟩ := tp
        obtain ⟨tl, dx, f1, f2, f3, rfl⟩ := parseLinkTitle_shape ht
        simp only
        refine fin _ q3 (s2 ++ tl) ?_ ?_ ?_ ?_
        · rw [e2, f1]; simp
        · rw [List.length_append]; omega
        · intro e r h1 h2
          rw [List.append_assoc]
          refine .titled hlab hlen g1 ?_ e1 (hne.1 hq) f3 h2
          rw [← h1, ← f1, ← e2]; exact d3
        · intro hno hti e r h1 h2
          refine .stray rfl hlab hlen g1 (by rw [← h1]; exact d3) h2 (s2 := s2) (tl := tl) (r' := c.rest q3) ?_ e1 (hne.1 hq) f3 hno hti
          rw [← h1, e2, f1]
      | none =>
        simp only
        refine fin _ q1 [] rfl rfl ?_ ?_
        · intro e r h1 h2
          rw [List.nil_append]
          refine .untitled hlab hlen g1 (by rw [← h1]; exact d3) h2 ?_
          rintro ⟨s', tl, dx, e', r', k1, k2, k3, k4, k5⟩
          obtain ⟨a, u, rfl, ha1, ha2⟩ := title_start k4
          have hq2 := hsp s' _ (h1.trans k1) k2 (by simpa using ha1) (by simpa using ha2)
          have hr2 : c.rest q2 = (a :: u) ++ (e' ++ r') := by
            rw [hq2]; exact rest_add (h1.trans k1)
          simp only [parseLinkTitle, Option.map_eq_none_iff] at ht
          exact match_none_iff.1 ht ⟨_, _, hr2, title_den k4 _⟩
        · intro _ h; exact absurd rfl h
    · rw [if_neg hq]
      simp only
      refine fin _ q1 [] rfl rfl ?_ ?_
      · intro e r h1 h2
        rw [List.nil_append]
        refine .untitled hlab hlen g1 (by rw [← h1]; exact d3) h2 ?_
        rintro ⟨s', tl, dx, e', r', k1, k2, k3, k4, k5⟩
        obtain ⟨a, u, rfl, ha1, ha2⟩ := title_start k4
        have hq2 := hsp s' _ (h1.trans k1) k2 (by simpa using ha1) (by simpa using ha2)
        apply hq
        rw [hq2]
        cases s' with
        | nil => exact absurd rfl k3
        | cons => simp
      · intro _ h; exact absurd rfl h

/-! ### Where the definitions of a document come from -/

/-- Every entry of the map is a definition in the lines. -/
def RefsFrom (ls : List Str) (m : RefMap) : Prop :=
  ∀ k d, m.get k = some d → k ≠ [] ∧ DefinedIn false ls k d.destination d.title

theorem addRef_from {ls : List Str} {m : RefMap} {l dest title : Str} (hm : RefsFrom ls m)
    (hl : normalizeReference l ≠ []) (hd : DefinedIn false ls (normalizeReference l) dest title) :
    RefsFrom ls (addRef m l dest title) := by
  unfold addRef
  split
  · exact hm
  · rename_i hn
    intro k d hk
    cases h : m.get k with
    | some d' =>
      rw [get_append_some h] at hk
      rw [Option.some.injEq] at hk
      subst hk
      exact hm k d' h
    | none =>
      rw [get_append_none h] at hk
      split at hk
      · rename_i he
        simp only [beq_iff_eq] at he
        simp only [Option.some.injEq] at hk
        subst hk he
        exact ⟨hl, hd⟩
      · cases hk

theorem refLoop_from {ls : List Str} {y : Str} (hy : TextFrom ls y) : ∀ (fuel : Nat) (x : Str) (m : RefMap) (h : Bool)
    (x' : Str) (m' : RefMap) (h' : Bool), AfterDefinitions false y x → RefsFrom ls m →
    refLoop fuel x m h = .ok (x', m', h') → RefsFrom ls m' ∧ AfterDefinitions false y x' := by
  intro fuel
  induction fuel with
  | zero => intro x m h x' m' h' _ _ e; simp [refLoop] at e
  | succ fuel ih =>
    intro x m h x' m' h' hx hm e
    simp only [refLoop] at e
    by_cases hp : (peekAt x 0 == some '[') = true
    · rw [if_pos hp] at e
      rcases parseReference_shape x m with hr | ⟨w, r, l, dest, title, h1, h2, h3, h4⟩
      · rw [hr] at e
        simp only [beq_self_eq_true, if_true] at e
        cases e
        exact ⟨hm, hx⟩
      · rw [h4] at e
        simp only at e
        have hm' : RefsFrom ls (addRef m l dest title) :=
          addRef_from hm h3 ⟨y, w, r, l, hy, h1 ▸ hx, h2, rfl⟩
        by_cases hn : (w.length == 0) = true
        · rw [if_pos hn] at e
          cases e
          exact ⟨hm', hx⟩
        · rw [if_neg hn] at e
          subst h1
          rw [List.drop_left] at e
          exact ih _ _ _ _ _ _ (hx.next h2) hm' e
    · rw [if_neg hp] at e
      cases e
      exact ⟨hm, hx⟩

/-- The open paragraphs consist of lines. -/
def ParasFrom (ls : List Str) (c : Core) : Prop :=
  ∀ b ∈ c.spine, b.data.t = .paragraph → ∀ x, b.data.stringContent = some x → TextFrom ls x

theorem finalizeBlock_refs {d : NodeData} {cs : List Tree} {m m' : RefMap} {t : Option Tree}
    (h : finalizeBlock d cs m = .ok (t, m')) : m' = m ∨ d.t = .paragraph ∧ ∃ x x' b, d.stringContent = some x ∧
      refLoop (x.length + 1) x m false = .ok (x', m', b) := by
  unfold finalizeBlock at h
  cases hk : d.t
  case paragraph =>
    rw [hk] at h
    simp only [finalizeParagraph] at h
    right
    cases hx : d.stringContent with
    | none => rw [hx] at h; cases h
    | some x =>
      rw [hx] at h
      simp only [bind, Except.bind] at h
      cases hr : refLoop (x.length + 1) x m false with
      | error e => rw [hr] at h; cases h
      | ok r =>
        obtain ⟨x', m1, b⟩ := r
        rw [hr] at h
        refine ⟨rfl, x, x', b, rfl, ?_⟩
        simp only [pure, Except.pure] at h
        split at h
        · cases h
        · rename_i heq
          split at heq <;> (cases heq; cases h; exact hr)
  case codeBlock =>
    rw [hk] at h
    cases hc : finalizeCode d with
    | error e => rw [hc] at h; cases h
    | ok r => rw [hc] at h; cases h; exact .inl rfl
  case htmlBlock =>
    rw [hk] at h
    cases hc : finalizeHtml d with
    | error e => rw [hc] at h; cases h
    | ok r => rw [hc] at h; cases h; exact .inl rfl
  all_goals (rw [hk] at h; cases h; exact .inl rfl)

theorem close_from {ls : List Str} {l len : Nat} {b : OpenBlk} {m m' : RefMap} {t : Option Tree}
    (hb : b.data.t = .paragraph → ∀ x, b.data.stringContent = some x → TextFrom ls x) (hm : RefsFrom ls m)
    (h : finalizeBlock (closeData l len b.data) b.children m = .ok (t, m')) : RefsFrom ls m' := by
  rcases finalizeBlock_refs h with rfl | ⟨h1, x, x', b', h2, h3⟩
  · exact hm
  · exact (refLoop_from (hb h1 x h2) _ _ _ _ _ _ _ .here hm h3).1

theorem lineText_from {ls : List Str} {c : Core} (hc : c.text ∈ ls) {x : Str} (hx : TextFrom ls x) (k off : Nat) :
    TextFrom ls (x ++ lineText c k off) := .line k hx hc (List.drop_suffix off _)

theorem step_from {ls : List Str} {c c' : Core} (ht : c.text ∈ ls) (hp : ParasFrom ls c) (hm : RefsFrom ls c.refmap)
    (h : Step c c') : ParasFrom ls c' ∧ RefsFrom ls c'.refmap := by
  cases h with
  | @close l b par up t m e1 e2 e3 e4 =>
    unfold ParasFrom at hp
    rw [e1] at hp
    refine ⟨?_, close_from (hp b (by simp)) hm e4⟩
    intro b' hb'
    rcases List.mem_cons.1 hb' with rfl | hb'
    · exact hp par (by simp)
    · exact hp b' (by simp [hb'])
  | @push b r d e1 e2 e3 =>
    refine ⟨?_, hm⟩
    intro b' hb'
    rcases List.mem_cons.1 hb' with rfl | hb'
    · intro h; cases e3 <;> cases h
    · exact hp b' hb'
  | @paragraph b r ch off e1 e2 e3 e4 e5 =>
    refine ⟨?_, hm⟩
    intro b' hb'
    rcases List.mem_cons.1 hb' with rfl | hb'
    · intro _ x hx
      simp only [setContent, Option.some.injEq] at hx
      subst hx
      have := lineText_from ht .nil 0 off
      exact this
    · exact hp b' hb'
  | pushItem col l e1 e2 e3 e4 =>
    refine ⟨?_, hm⟩
    intro b' hb'
    rcases List.mem_cons.1 hb' with rfl | hb'
    · intro h; cases h
    · exact hp b' hb'
  | pushList col l e1 e2 e3 =>
    refine ⟨?_, hm⟩
    intro b' hb'
    rcases List.mem_cons.1 hb' with rfl | hb'
    · intro h; cases h
    rcases List.mem_cons.1 hb' with rfl | hb'
    · intro h; cases h
    · exact hp b' hb'
  | @addLine b r x k off e1 e2 e3 =>
    refine ⟨?_, hm⟩
    unfold ParasFrom at hp
    rw [e1] at hp
    intro b' hb'
    rcases List.mem_cons.1 hb' with rfl | hb'
    · intro h z hz
      simp only [setContent, Option.some.injEq] at hz
      subst hz
      exact lineText_from ht (hp b (by simp) h x e3) k off
    · exact hp b' (by simp [hb'])
  | @flags b r blank flag e1 =>
    refine ⟨?_, hm⟩
    unfold ParasFrom at hp
    rw [e1] at hp
    intro b' hb'
    simp only [flagSpine, List.mem_map, List.mem_cons] at hb'
    obtain ⟨b0, h0, rfl⟩ := hb'
    rcases h0 with rfl | h0
    · intro h x hx
      refine hp b (by simp) ?_ x ?_
      · split at h <;> exact h
      · split at hx <;> exact hx
    · exact hp b0 (by simp [h0])
  | @refs b r x m h e1 e2 e3 e4 =>
    unfold ParasFrom at hp
    rw [e1] at hp
    refine ⟨?_, (refLoop_from (hp b (by simp) e2 x e3) _ _ _ _ _ _ _ .here hm e4).1⟩
    intro b' hb'
    rcases List.mem_cons.1 hb' with rfl | hb'
    · intro h z hz
      simp only [Option.some.injEq] at hz
      subst hz
      exact .nil
    · exact hp b' (by simp [hb'])
  | @setext b r x x' m h lvl e1 e2 e3 e4 e5 e6 e7 e8 =>
    unfold ParasFrom at hp
    rw [e1] at hp
    refine ⟨?_, (refLoop_from (hp b (by simp) e2 x e3) _ _ _ _ _ _ _ .here hm e4).1⟩
    intro b' hb'
    rcases List.mem_cons.1 hb' with rfl | hb'
    · intro h; cases h
    · exact hp b' (by simp [hb'])

theorem steps_from {ls : List Str} {c c' : Core} (ht : c.text ∈ ls) (hp : ParasFrom ls c) (hm : RefsFrom ls c.refmap)
    (h : Steps c c') : ParasFrom ls c' ∧ RefsFrom ls c'.refmap := by
  induction h with
  | refl => exact ⟨hp, hm⟩
  | tail hs hstep ih => exact step_from (by rw [(steps_core_line hs).2.1]; exact ht) ih.1 ih.2 hstep

theorem lineSteps_from {ls : List Str} {c c' : Core} (ht : c.text ∈ ls) (hp : ParasFrom ls c) (hm : RefsFrom ls c.refmap)
    (h : LineSteps c c') : ParasFrom ls c' ∧ RefsFrom ls c'.refmap := by
  cases h with
  | steps h => exact steps_from ht hp hm h
  | @final c1 _ hs hf =>
    obtain ⟨h1, h2⟩ := steps_from ht hp hm hs
    cases hf with
    | @close b par up t m f1 f2 f3 f4 =>
      unfold ParasFrom at h1
      rw [f1] at h1
      refine ⟨?_, close_from (h1 b (by simp)) h2 f4⟩
      intro b' hb'
      rcases List.mem_cons.1 hb' with rfl | hb'
      · exact h1 par (by simp)
      · exact h1 b' (by simp [hb'])

theorem reaches_from {ls : List Str} {lines : List Str} {c : Core} (h : Reaches lines c)
    (hl : ∀ ln ∈ lines, replaceChar (Char.ofNat 0) (Char.ofNat 0xFFFD) ln ∈ ls) :
    ParasFrom ls c ∧ RefsFrom ls c.refmap := by
  induction h with
  | nil =>
    refine ⟨?_, ?_⟩
    · intro b hb
      simp only [startCore, List.mem_singleton] at hb
      subst hb
      intro h; cases h
    · intro k d h; simp [startCore, RefMap.get] at h
  | @line lines c c' ln _ hs ih =>
    obtain ⟨h1, h2⟩ := ih (fun l hl' => hl l (List.mem_append_left _ hl'))
    have := lineSteps_from (c := nextLine c ln) (hl ln (by simp)) h1 h2 hs
    exact this

/-- The lines of a text, without NUL. -/
def textLines (s : Str) : List Str := (inputLines s).map (replaceChar (Char.ofNat 0) (Char.ofNat 0xFFFD))

theorem blockPhase_from {p p' : PState} {s : Str} (h : blockPhase p s = .ok p') : RefsFrom (textLines s) p'.refmap := by
  obtain ⟨p1, c, c2, b, h1, h2, h3, h4, h5, h6, h7, h8, h9⟩ := blockPhase_ok p s
  rw [h] at h1
  simp only [Except.ok.injEq] at h1
  subst h1
  have hl : ∀ ln ∈ inputLines s, replaceChar (Char.ofNat 0) (Char.ofNat 0xFFFD) ln ∈ textLines s :=
    fun ln hln => List.mem_map_of_mem hln
  obtain ⟨i1, i2⟩ := reaches_from h2 hl
  rw [h9]
  have key : ∀ {c c2 : Core}, Relation.ReflTransGen Closing c c2 → ParasFrom (textLines s) c →
      RefsFrom (textLines s) c.refmap → ParasFrom (textLines s) c2 ∧ RefsFrom (textLines s) c2.refmap := by
    intro c c2 hs hp hm
    induction hs with
    | refl => exact ⟨hp, hm⟩
    | tail _ hc ih =>
      obtain ⟨l, b, par, up, t, m, g1, g2, g3, g4, rfl⟩ := hc
      obtain ⟨j1, j2⟩ := ih
      unfold ParasFrom at j1
      rw [g1] at j1
      refine ⟨?_, close_from (j1 b (by simp)) j2 g4⟩
      intro b' hb'
      rcases List.mem_cons.1 hb' with rfl | hb'
      · exact j1 par (by simp)
      · exact j1 b' (by simp [hb'])
  exact (key h3 i1 i2).2

theorem parseWith_refs {smart : Bool} {p : PState} {s : Str} {t : Tree} {p' : PState}
    (h : parseWith smart p s = .ok (t, p')) : RefsFrom (textLines s) p'.refmap := by
  obtain ⟨_, p1, h1, h2⟩ := parseWith_from smart p s h
  rw [← h2]
  exact blockPhase_from h1

theorem textLines_of {s : Str} {ls : List Str} (h : TextLines s ls) : textLines s = ls.map noNul := by
  rw [textLines, (textLines_iff s ls).1 h]
  refine List.map_congr_left fun l _ => ?_
  simp [replaceChar, noNul]

end CM
