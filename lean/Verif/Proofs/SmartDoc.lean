import Verif.Proofs.SmartPos
import Verif.Proofs.History
import Verif.Props.Smart

/-! From a condition on the text of a document to its paragraphs and headings. -/

namespace CM
open Spec

/-! ### Words that a text does not contain -/

def Forbids (W : Str → Prop) (l : Str) : Prop := ∀ w, W w → ¬ w <:+: l

structure Words (W : Str → Prop) : Prop where
  ne : ∀ w, W w → w ≠ []
  nl : ∀ w, W w → '\n' ∉ w
  sp : ∀ w, W w → w.head? ≠ some ' '
  nul : ∀ w, W (cleaned w) → W w

theorem Forbids.infix {W : Str → Prop} {l l' : Str} (h : Forbids W l) (hl : l' <:+: l) : Forbids W l' :=
  fun w hw hi => h w hw (hi.trans hl)

theorem infix_nl {w a b : Str} (hw : '\n' ∉ w) (h : w <:+: a ++ '\n' :: b) : w <:+: a ∨ w <:+: b := by
  obtain ⟨u, v, h⟩ := h
  rw [List.append_assoc] at h
  rcases List.append_eq_append_iff.1 h with ⟨x, rfl, h2⟩ | ⟨x, rfl, h2⟩
  · rcases List.append_eq_append_iff.1 h2 with ⟨y, rfl, h3⟩ | ⟨y, rfl, h3⟩
    · exact Or.inl ⟨u, y, by simp⟩
    · cases y with
      | nil => exact Or.inl ⟨u, [], by simp⟩
      | cons c y => cases h3; exact absurd (by simp) hw
  · cases x with
    | nil =>
      cases w with
      | nil => exact Or.inr (List.nil_infix)
      | cons c w => cases h2; exact absurd (by simp) hw
    | cons c x =>
      cases h2
      exact Or.inr ⟨x, v, by simp⟩

theorem infix_spaces {w l : Str} {k : Nat} (hw : w.head? ≠ some ' ') (hne : w ≠ []) (h : w <:+: List.replicate k ' ' ++ l) :
    w <:+: l := by
  induction k with
  | zero => simpa using h
  | succ k ih =>
    rw [List.replicate_succ, List.cons_append] at h
    rcases List.infix_cons_iff.1 h with h | h
    · cases w with
      | nil => exact absurd rfl hne
      | cons c w =>
        obtain ⟨t, ht⟩ := h
        have := congrArg List.head? ht
        exact absurd this hw
    · exact ih h

theorem Lines.end_nl {T : Str → Prop} {x : Str} (h : Lines T x) : x = [] ∨ ∃ y, x = y ++ ['\n'] := by
  induction h with
  | nil => exact Or.inl rfl
  | line k _ _ _ => exact Or.inr ⟨_, by rw [← List.append_assoc, ← List.append_assoc]⟩
  | @drop x n _ ih =>
    rcases ih with rfl | ⟨y, rfl⟩
    · simp
    · by_cases hn : n ≤ y.length
      · exact Or.inr ⟨y.drop n, by rw [List.drop_append_of_le_length hn]⟩
      · exact Or.inl (List.drop_eq_nil_of_le (by simp; omega))

theorem Lines.forbids {W : Str → Prop} (hW : Words W) {x : Str} (h : Lines (Forbids W) x) : Forbids W x := by
  induction h with
  | nil =>
    intro w hw hi
    exact hW.ne w hw (List.infix_nil.1 hi)
  | @line x l k hx hl ih =>
    intro w hw hi
    have hn := hW.nl w hw
    have hlast : ∀ {z : Str}, w <:+: z ++ ['\n'] → w <:+: z := by
      intro z hz
      rcases infix_nl hn hz with h | h
      · exact h
      · exact absurd (List.infix_nil.1 h) (hW.ne w hw)
    have hline : w <:+: List.replicate k ' ' ++ (l ++ ['\n']) → False := by
      intro h
      rw [← List.append_assoc] at h
      exact hl w hw (infix_spaces (hW.sp w hw) (hW.ne w hw) (hlast h))
    rcases hx.end_nl with rfl | ⟨y, rfl⟩
    · exact hline hi
    · rw [List.append_assoc] at hi
      rcases infix_nl hn hi with h | h
      · exact ih w hw (h.trans ⟨[], ['\n'], rfl⟩)
      · exact hline h
  | drop n _ ih => exact ih.infix (List.drop_suffix _ _).isInfix

/-- Removing what a pattern matches at the end. -/
theorem subLoop_end {r : Re} {n : Nat} (hr : ∀ s t, r.run n s some = some t → ∀ c ∈ t, c = '\n') : ∀ (f : Nat) (s : Str),
    ∃ p q, r.subLoop (fun _ => []) n f s = p ++ q ∧ p <+: s ∧ ∀ c ∈ q, c = '\n'
  | 0, s => ⟨s, [], by simp [Re.subLoop], List.prefix_rfl, by simp⟩
  | f + 1, [] => ⟨[], [], rfl, List.prefix_rfl, by simp⟩
  | f + 1, c :: cs => by
    have keep : ∃ p q, c :: r.subLoop (fun _ => []) n f cs = p ++ q ∧ p <+: c :: cs ∧ ∀ c ∈ q, c = '\n' := by
      obtain ⟨p, q, h1, h2, h3⟩ := subLoop_end hr f cs
      exact ⟨c :: p, q, by rw [h1]; rfl, (List.cons_prefix_cons).2 ⟨rfl, h2⟩, h3⟩
    unfold Re.subLoop
    cases hm : r.run n (c :: cs) some with
    | none => exact keep
    | some t =>
      dsimp only
      split
      · obtain ⟨p, q, h1, h2, h3⟩ := subLoop_end hr f t
        refine ⟨[], p ++ q, by simpa using h1, List.nil_prefix, ?_⟩
        intro c hc
        rcases List.mem_append.1 hc with h | h
        · exact hr _ _ hm c (h2.mem h)
        · exact h3 c h
      · exact keep

theorem infix_nls {w p q : Str} (hn : '\n' ∉ w) (hne : w ≠ []) (hq : ∀ c ∈ q, c = '\n') (h : w <:+: p ++ q) : w <:+: p := by
  cases q with
  | nil => simpa using h
  | cons c q =>
    have hc : c = '\n' := hq c (by simp)
    subst hc
    rcases infix_nl hn h with h | h
    · exact h
    · exfalso
      cases w with
      | nil => exact hne rfl
      | cons d w =>
        have := hq d (by simp [h.mem (List.mem_cons_self (a := d))])
        subst this
        exact hn (by simp)

theorem sub_forbids {W : Str → Prop} (hW : Words W) {r : Re} (hr : ∀ n s t, r.run n s some = some t → ∀ c ∈ t, c = '\n')
    {l : Str} (h : Forbids W l) : Forbids W (r.sub (fun _ => []) l) := by
  intro w hw hi
  obtain ⟨p, q, h1, h2, h3⟩ := subLoop_end (hr l.length) l.length l
  unfold Re.sub at hi
  rw [h1] at hi
  exact h w hw ((infix_nls (hW.nl w hw) (hW.ne w hw) h3 hi).trans h2.isInfix)

theorem run_eos {n : Nat} {r : Re} (hr : ∀ m t, Den n r m t → t = [] ∨ t = ['\n']) {s t : Str} (h : r.run n s some = some t) :
    ∀ c ∈ t, c = '\n' := by
  obtain ⟨m, -, hd⟩ := (Re.mem_all_iff _ _ _ _).1 (Re.run_some_mem h)
  rcases hr m t hd with rfl | rfl <;> simp

theorem atx_forbids {W : Str → Prop} (hW : Words W) {l : Str} (h : Forbids W l) : Forbids W (atxContent l) := by
  unfold atxContent
  refine sub_forbids hW (fun n s t hs => run_eos ?_ hs) (sub_forbids hW (fun n s t hs => run_eos ?_ hs) h)
  · intro m t hd
    obtain ⟨_, _, _, _, _, _, _, _, _, _, _, _, _, hd⟩ := hd
    exact hd
  · intro m t hd
    obtain ⟨_, _, _, _, _, _, _, _, _, _, _, _, _, _, _, _, _, hd⟩ := hd
    exact hd

theorem Content.forbids {W : Str → Prop} (hW : Words W) {x : Str} (h : Content (Forbids W) x) : Forbids W (strip x) := by
  refine Forbids.infix ?_ (strip_infix x)
  rcases h with h | ⟨l, hl, rfl⟩
  · exact h.forbids hW
  · exact atx_forbids hW hl

theorem textLines_infix {s : Str} {ls : List Str} (h : TextLines s ls) : ∀ l ∈ ls, l <:+: s := by
  have cons : ∀ {l t : Str} {ls : List Str} {r : Str}, (∀ l ∈ ls, l <:+: r) → r <:+: t → l <:+: t →
      ∀ l' ∈ l :: ls, l' <:+: t := by
    intro l t ls r h1 h2 h3 l' hl'
    rcases List.mem_cons.1 hl' with rfl | h
    · exact h3
    · exact (h1 l' h).trans h2
  induction h with
  | last _ => intro l hl; simp at hl; subst hl; exact List.infix_rfl
  | lastLf _ => intro l hl; simp at hl; subst hl; exact (List.prefix_append _ _).isInfix
  | lastCrLf _ => intro l hl; simp at hl; subst hl; exact (List.prefix_append _ _).isInfix
  | @lf l r ls _ _ _ ih => exact cons ih ⟨l ++ ['\n'], [], by simp⟩ (List.prefix_append _ _).isInfix
  | @crlf l r ls _ _ _ ih => exact cons ih ⟨l ++ ['\r', '\n'], [], by simp⟩ (List.prefix_append _ _).isInfix
  | @cr l r ls _ _ _ ih => exact cons ih ⟨l ++ ['\r'], [], by simp⟩ (List.prefix_append _ _).isInfix

theorem inputLines_infix {s l : Str} (h : l ∈ inputLines s) : l <:+: s :=
  textLines_infix ((textLines_iff s _).2 rfl) l h

theorem infix_map {f : Char → Char} {w l : Str} (h : w <:+: l.map f) : ∃ w', w' <:+: l ∧ w = w'.map f := by
  obtain ⟨u, v, h⟩ := h
  obtain ⟨a, b, rfl, h1, h2⟩ := List.map_eq_append_iff.1 h.symm
  obtain ⟨c, d, rfl, h3, h4⟩ := List.map_eq_append_iff.1 h1
  exact ⟨d, ⟨c, b, rfl⟩, h4.symm⟩

theorem cleaned_forbids {W : Str → Prop} (hW : Words W) {l : Str} (h : Forbids W l) : Forbids W (cleaned l) := by
  intro w hw hi
  obtain ⟨w', h1, rfl⟩ := infix_map hi
  exact h w' (hW.nul w' hw) h1

/-! ### The whole document -/

mutual
theorem processInlines_sim {T : Str → Prop} {m : RefMap}
    (hC : ∀ x, Content T x → Both (fun us vs => SmartTrees vs us) (parseInlines true m x) (parseInlines false m x)) :
    ∀ t : Tree, EveryNode (BlockOk T fun _ => True) t →
      Both (fun u v => SmartTree v u) (processInlines true m t) (processInlines false m t)
  | .node d cs => by
    intro h
    obtain ⟨h1, h2⟩ := everyNode_iff.1 h
    simp only [processInlines]
    refine Both.bind (processInlinesList_sim hC cs (everyNodeList_iff.2 h2)) fun us vs hs => ?_
    refine Both.ite (fun hp => ?_) fun _ => Both.ok (.node (Or.inl rfl) hs)
    have hcont : ∃ x, d.stringContent = some x ∧ Content T x := by
      simp only [Bool.or_eq_true, beq_iff_eq] at hp
      rcases hp with hp | hp
      · obtain ⟨x, a, b, _⟩ := h1.data.para hp; exact ⟨x, a, Or.inl b⟩
      · exact h1.data.head hp
    obtain ⟨x, hx, hc⟩ := hcont
    rw [hx]
    dsimp only
    exact Both.bind (hC x hc) fun a b hab => Both.ok (.node (Or.inl rfl) (hs.append hab))
theorem processInlinesList_sim {T : Str → Prop} {m : RefMap}
    (hC : ∀ x, Content T x → Both (fun us vs => SmartTrees vs us) (parseInlines true m x) (parseInlines false m x)) :
    ∀ ts : List Tree, EveryNodeList (BlockOk T fun _ => True) ts →
      Both (fun us vs => SmartTrees vs us) (processInlinesList true m ts) (processInlinesList false m ts)
  | [] => fun _ => Both.ok .nil
  | t :: ts => by
    intro h
    obtain ⟨h1, h2⟩ := h
    simp only [processInlinesList]
    refine Both.bind (processInlines_sim hC t h1) fun a b hab => ?_
    exact Both.bind (processInlinesList_sim hC ts h2) fun as bs habs => Both.ok (.cons hab habs)
end

theorem parse_sim {W : Str → Prop} (hW : Words W) {D : Char → Nat → Bool → Bool → Prop} (hE : EmphSim D)
    {A : Str → Nat → Prop} (hA : ∀ x m, Forbids W x → Calm D x m (A x)) {s : Str} (hs : Forbids W s) :
    Both (fun u v => SmartTree v u) (parse true s) (parse false s) := by
  obtain ⟨p', d, cs, h1, h2, h3, h4, -⟩ := blockPhase_tree (T := Forbids W) charsOk_true (fun _ _ _ _ => trivial)
    (fun l n h => h.infix (List.drop_suffix _ _).isInfix) (fun w hw h => hW.ne w hw (List.infix_nil.1 h)) PState.init s
    (fun ln hl => cleaned_forbids hW (hs.infix (inputLines_infix hl)))
  simp only [parse, parseWith, h1, bind, Except.bind, h3]
  have := processInlines_sim (m := p'.refmap) (fun x hx => parseInlines_sim hE (hA _ _ (hx.forbids hW))) _ h4
  rcases this with ⟨u, v, e1, e2, huv⟩ | ⟨e, e1, e2⟩
  · rw [e1, e2]; exact Or.inl ⟨u, v, rfl, rfl, huv⟩
  · rw [e1, e2]; exact Or.inr ⟨e, rfl, rfl⟩

/-! ### The three conditions -/

theorem cleaned_cons (c : Char) (w : Str) : cleaned (c :: w) = (if c = Char.ofNat 0 then Char.ofNat 0xFFFD else c) :: cleaned w := by
  simp only [cleaned, replaceChar, List.map_cons, beq_iff_eq]

theorem cleaned_char {c d : Char} (h : (if c = Char.ofNat 0 then Char.ofNat 0xFFFD else c) = d) (hd : d ≠ Char.ofNat 0xFFFD) :
    c = d := by
  split at h
  · exact absurd h.symm hd
  · exact h

theorem cleaned_word {w v : Str} (h : cleaned w = v) (hv : Char.ofNat 0xFFFD ∉ v) : w = v := by
  induction w generalizing v with
  | nil => exact h
  | cons c w ih =>
    rw [cleaned_cons] at h
    subst h
    rw [List.mem_cons, not_or] at hv
    have e1 := cleaned_char rfl (Ne.symm hv.1)
    have e2 := ih rfl hv.2
    rw [← e1, ← e2]

theorem countDelims_quote {x : Str} {m : RefMap} {cc : Char} {p : Nat} (h : isQuote cc = true) :
    countDelims ⟨x, m, false⟩ cc p = 1 := by
  unfold countDelims
  exact if_pos h

theorem scanDelims_num {x : Str} {m : RefMap} {cc : Char} {p : Nat} {info : DelimInfo}
    (h : scanDelims ⟨x, m, false⟩ cc p = some info) : info.numdelims = countDelims ⟨x, m, false⟩ cc p := by
  unfold scanDelims at h
  simp only at h
  split at h
  · cases h
  · cases h; rfl

/-- No quotation marks. -/
theorem parse_noQuotes {s : Str} (h : NoQuotes s) : Both (fun u v => SmartTree v u) (parse true s) (parse false s) := by
  refine parse_sim (W := fun w => w = ['\''] ∨ w = ['"']) (D := fun cc _ _ _ => isQuote cc = false) (A := fun _ _ => True)
    ⟨?_, ?_, ?_, ?_⟩ (emphSim_noQuote fun _ _ _ _ h => h) ?_ ?_
  · rintro w (rfl | rfl) <;> simp
  · rintro w (rfl | rfl) <;> decide
  · rintro w (rfl | rfl) <;> decide
  · rintro w (hw | hw)
    · exact Or.inl (cleaned_word hw (by decide))
    · exact Or.inr (cleaned_word hw (by decide))
  · intro x m hx
    refine ⟨trivial, fun _ _ _ _ => trivial, ?_⟩
    intro p cc info _ hp hcc _
    have hm : [cc] <:+: x := by
      obtain ⟨a, b, rfl⟩ := List.append_of_mem (List.mem_of_getElem? hp)
      exact ⟨a, b, by simp⟩
    rcases hcc with rfl | rfl | rfl | rfl
    · rfl
    · rfl
    · exact absurd hm (hx _ (Or.inl rfl))
    · exact absurd hm (hx _ (Or.inr rfl))
  · rintro w (rfl | rfl) hi
    · exact h.1 (hi.mem (by simp))
    · exact h.2 (hi.mem (by simp))

/-- A run of two characters. -/
theorem run_infix {x : Str} {m : RefMap} {cc : Char} {p : Nat} (hc : Mark cc) :
    List.replicate (countDelims ⟨x, m, false⟩ cc p) cc <:+: x := by
  have hq : (cc == '\'' || cc == '"') = false := by rcases hc with rfl | rfl <;> rfl
  unfold countDelims
  rw [hq]
  have : (x.drop p).takeWhile (· == cc) = List.replicate ((x.drop p).takeWhile (· == cc)).length cc :=
    List.eq_replicate_iff.2 ⟨rfl, fun b hb => by simpa using List.mem_takeWhile_imp hb⟩
  simp only [Bool.false_eq_true, if_false, Ctx.rest]
  rw [← this]
  exact (List.takeWhile_prefix _).isInfix.trans (List.drop_suffix _ _).isInfix

/-- Every run has one character. -/
theorem parse_singleMarks {s : Str} (h : SingleMarks s) : Both (fun u v => SmartTree v u) (parse true s) (parse false s) := by
  refine parse_sim (W := fun w => w = ['*', '*'] ∨ w = ['_', '_']) (D := fun _ n _ _ => n = 1) (A := fun _ _ => True)
    ⟨?_, ?_, ?_, ?_⟩ (emphSim_free ?_) ?_ ?_
  · rintro w (rfl | rfl) <;> simp
  · rintro w (rfl | rfl) <;> decide
  · rintro w (rfl | rfl) <;> decide
  · rintro w (hw | hw)
    · exact Or.inl (cleaned_word hw (by decide))
    · exact Or.inr (cleaned_word hw (by decide))
  · intro o cl ho hcl _ _ _
    unfold isOddMatch
    rw [ho, hcl]
    simp
  · intro x m hx
    refine ⟨trivial, fun _ _ _ _ => trivial, ?_⟩
    intro p cc info _ hp hcc hs
    rw [scanDelims_num hs]
    have key : Mark cc → countDelims ⟨x, m, false⟩ cc p = 1 := by
      intro hM
      have hi := run_infix (x := x) (m := m) (p := p) hM
      have hn0 : countDelims ⟨x, m, false⟩ cc p ≠ 0 := by
        intro h0
        unfold scanDelims at hs
        simp [h0] at hs
      refine Classical.byContradiction fun hne => ?_
      obtain ⟨k, hk⟩ : ∃ k, countDelims ⟨x, m, false⟩ cc p = k + 2 := ⟨_, (Nat.sub_add_cancel (by omega)).symm⟩
      rw [hk] at hi
      have h2 : [cc, cc] <:+: x := List.IsInfix.trans ⟨[], List.replicate k cc, by simp [List.replicate_succ]⟩ hi
      rcases hM with rfl | rfl
      · exact hx _ (Or.inl rfl) h2
      · exact hx _ (Or.inr rfl) h2
    rcases hcc with rfl | rfl | rfl | rfl
    · exact key (Or.inl rfl)
    · exact key (Or.inr rfl)
    · exact countDelims_quote rfl
    · exact countDelims_quote rfl
  · rintro w (rfl | rfl) hi
    · exact h.1 hi
    · exact h.2 hi

/-- A character as the parser sees it. -/
def clean (c : Char) : Char := if c = Char.ofNat 0 then Char.ofNat 0xFFFD else c

theorem clean_space (c : Char) : isPySpace (clean c) = isPySpace c := by
  unfold clean
  split
  · subst_vars; decide
  · rfl

theorem clean_punct (c : Char) : isPunct (clean c) = isPunct c := by
  unfold clean
  split
  · subst_vars; decide +kernel
  · rfl

theorem clean_canOpen {c b a : Char}
    (h : CanOpen (isPySpace · = true) (isPunct · = true) c (some (clean b)) (some (clean a))) :
    CanOpen (isPySpace · = true) (isPunct · = true) c (some b) (some a) := by
  simpa only [CanOpen, LeftFlanking, RightFlanking, White, Punct, clean_space, clean_punct] using h

theorem clean_canClose {c b a : Char}
    (h : CanClose (isPySpace · = true) (isPunct · = true) c (some (clean b)) (some (clean a))) :
    CanClose (isPySpace · = true) (isPunct · = true) c (some b) (some a) := by
  simpa only [CanClose, LeftFlanking, RightFlanking, White, Punct, clean_space, clean_punct] using h

/-- A run that can open and close, with its neighbours. -/
def TwoSided (w : Str) : Prop :=
  ∃ (c b a : Char) (n : Nat), (c = '*' ∨ c = '_') ∧ b ≠ c ∧ a ≠ c ∧ 1 ≤ n ∧
    CanOpen (isPySpace · = true) (isPunct · = true) c (some b) (some a) ∧
    CanClose (isPySpace · = true) (isPunct · = true) c (some b) (some a) ∧ w = b :: List.replicate n c ++ [a]

theorem twoSided_words : Words fun w => TwoSided w ∨ w = ['\\', '*', '*'] ∨ w = ['\\', '_', '_'] := by
  refine ⟨?_, ?_, ?_, ?_⟩
  · rintro w (⟨_, _, _, _, _, _, _, _, _, _, rfl⟩ | rfl | rfl) <;> simp
  · rintro w (⟨c, b, a, n, hc, _, _, _, ho, hcl, rfl⟩ | rfl | rfl)
    · intro hm
      simp only [List.cons_append, List.mem_cons, List.mem_append, List.mem_replicate, List.not_mem_nil, or_false] at hm
      rcases hm with h | ⟨-, h⟩ | h
      · subst h; exact hcl.1.1 (show isPySpace '\n' = true from by decide)
      · subst h; rcases hc with h | h <;> cases h
      · subst h; exact ho.1.1 (show isPySpace '\n' = true from by decide)
    · decide
    · decide
  · rintro w (⟨c, b, a, n, hc, _, _, _, ho, hcl, rfl⟩ | rfl | rfl)
    · intro h
      simp only [List.cons_append, List.head?_cons, Option.some.injEq] at h
      subst h; exact hcl.1.1 (show isPySpace ' ' = true from by decide)
    · decide
    · decide
  · rintro w (⟨c, b, a, n, hc, hb, ha, hn, ho, hcl, hw⟩ | hw | hw)
    · left
      have hcn : Char.ofNat 0xFFFD ∉ List.replicate n c := by
        intro h
        rw [List.mem_replicate] at h
        rw [← h.2] at hc
        revert hc; decide
      have hc0 : clean c = c := by rcases hc with rfl | rfl <;> rfl
      cases w with
      | nil => cases hw
      | cons b' w =>
        rw [cleaned_cons, List.cons_append, List.cons.injEq] at hw
        obtain ⟨hb', hw⟩ := hw
        have : cleaned w = List.map (fun x => if x == Char.ofNat 0 then Char.ofNat 0xFFFD else x) w := rfl
        rw [this, List.map_eq_append_iff] at hw
        obtain ⟨w1, w2, rfl, h1, h2⟩ := hw
        obtain ⟨a', rfl, h3⟩ := List.map_eq_singleton_iff.1 h2
        have h1' := cleaned_word (w := w1) h1 hcn
        replace hb' : clean b' = b := hb'
        replace h3 : clean a' = a := by simpa [clean] using h3
        subst hb' h3 h1'
        exact ⟨c, b', a', n, hc, fun e => hb (by rw [e, hc0]), fun e => ha (by rw [e, hc0]), hn, clean_canOpen ho, clean_canClose hcl, rfl⟩
    · exact Or.inr (Or.inl (cleaned_word hw (by decide)))
    · exact Or.inr (Or.inr (cleaned_word hw (by decide)))

theorem run_parts {x : Str} {m : RefMap} {cc : Char} {p : Nat} (hc : Mark cc) :
    ∃ t, x.drop p = List.replicate (countDelims ⟨x, m, false⟩ cc p) cc ++ t ∧ t.head? ≠ some cc := by
  have hq : (cc == '\'' || cc == '"') = false := by rcases hc with rfl | rfl <;> rfl
  unfold countDelims
  rw [hq]
  have : (x.drop p).takeWhile (· == cc) = List.replicate ((x.drop p).takeWhile (· == cc)).length cc :=
    List.eq_replicate_iff.2 ⟨rfl, fun b hb => by simpa using List.mem_takeWhile_imp hb⟩
  simp only [Bool.false_eq_true, if_false, Ctx.rest]
  rw [← this]
  refine ⟨(x.drop p).dropWhile (· == cc), (List.takeWhile_append_dropWhile).symm, ?_⟩
  intro h
  have := List.head?_dropWhile_not (· == cc) (x.drop p)
  rw [h] at this
  simp at this

/-- No run can both open and close. -/
theorem parse_oneSided {s : Str} (h : OneSidedMarks s) : Both (fun u v => SmartTree v u) (parse true s) (parse false s) := by
  refine parse_sim (W := _) (D := fun cc n o c => (isQuote cc = true → n = 1) ∧ (isQuote cc = false → ¬ (o = true ∧ c = true)))
    (A := AtRun) twoSided_words (emphSim_free ?_) ?_ ?_
  · intro o cl ho hcl hcc hopen hclose
    unfold isOddMatch
    cases hq : isQuote cl.cc with
    | true =>
      rw [ho.1 (hcc ▸ hq), hcl.1 hq]
      simp
    | false =>
      have h1 := ho.2 (hcc ▸ hq)
      have h2 := hcl.2 hq
      have h3 : o.canClose = false := by cases h : o.canClose <;> simp_all
      have h4 : cl.canOpen = false := by cases h : cl.canOpen <;> simp_all
      rw [h3, h4]
      rfl
  · intro x m hx
    refine ⟨fun c _ h => by omega, fun st st' _ h => parseInline_at h, ?_⟩
    intro p cc info hA hp hcc hs
    refine ⟨fun hq => by rw [scanDelims_num hs]; exact countDelims_quote hq, fun hq => ?_⟩
    have hM : Mark cc := by
      rcases hcc with rfl | rfl | rfl | rfl
      · exact Or.inl rfl
      · exact Or.inr rfl
      · cases hq
      · cases hq
    obtain ⟨t, ht, hh⟩ := run_parts (x := x) (m := m) (p := p) hM
    have hn0 : countDelims ⟨x, m, false⟩ cc p ≠ 0 := by
      intro h0
      unfold scanDelims at hs
      simp [h0] at hs
    have hpl : p < x.length := (List.getElem?_eq_some_iff.1 hp).1
    have hxe : x = x.take p ++ (List.replicate (countDelims ⟨x, m, false⟩ cc p) cc ++ t) := by
      rw [← ht, List.take_append_drop]
    obtain ⟨o, cl, h1, h2, h3⟩ := C37_scanDelims (x.take p) t m false cc (countDelims ⟨x, m, false⟩ cc p) hM (by omega) hh
    rw [← hxe, List.length_take, Nat.min_eq_left (by omega), hs] at h1
    cases h1
    rintro ⟨ho, hc⟩
    have ho := h2.1 ho
    have hc := h3.1 hc
    cases hb : (x.take p).getLast? with
    | none => rw [hb] at hc; exact hc.1.1 trivial
    | some b =>
      cases ha : t.head? with
      | none => rw [ha] at ho; exact ho.1.1 trivial
      | some a =>
        rw [hb, ha] at ho hc
        obtain ⟨u, hu⟩ := List.getLast?_eq_some_iff.1 hb
        obtain ⟨v, hv⟩ : ∃ v, t = a :: v := by
          cases t with
          | nil => cases ha
          | cons d v => cases ha; exact ⟨v, rfl⟩
        have hac : a ≠ cc := by rintro rfl; exact hh ha
        have hp1 : 1 ≤ p := by
          cases p with
          | zero => simp at hb
          | succ p => omega
        have hpb : x[p - 1]? = some b := by
          rw [List.getLast?_eq_getElem?, List.length_take, Nat.min_eq_left (by omega), List.getElem?_take] at hb
          rwa [if_pos (by omega)] at hb
        by_cases hbc : b = cc
        · subst hbc
          obtain ⟨h2p, hbs⟩ := hA b hM hp1 hpb hp
          have hw : ['\\', b, b] <:+: x := by
            refine ⟨x.take (p - 2), x.drop (p + 1), ?_⟩
            have e1 : x.drop (p - 2) = '\\' :: x.drop (p - 2 + 1) := by
              rw [List.drop_eq_getElem_cons (by omega)]
              congr 1
              exact (List.getElem?_eq_some_iff.1 hbs).2
            have e2 : x.drop (p - 1) = b :: x.drop (p - 1 + 1) := by
              rw [List.drop_eq_getElem_cons (by omega)]
              congr 1
              exact (List.getElem?_eq_some_iff.1 hpb).2
            have e3 : x.drop p = b :: x.drop (p + 1) := by
              rw [List.drop_eq_getElem_cons (by omega)]
              congr 1
              exact (List.getElem?_eq_some_iff.1 hp).2
            rw [show p - 2 + 1 = p - 1 by omega, e2, show p - 1 + 1 = p by omega, e3] at e1
            conv => rhs; rw [← List.take_append_drop (p - 2) x, e1]
            simp
          rcases hM with rfl | rfl
          · exact hx _ (Or.inr (Or.inl rfl)) hw
          · exact hx _ (Or.inr (Or.inr rfl)) hw
        · refine hx _ (Or.inl ⟨cc, b, a, countDelims ⟨x, m, false⟩ cc p, hM, hbc, hac, by omega, ho, hc, rfl⟩) ⟨u, v, ?_⟩
          refine Eq.trans ?_ hxe.symm
          rw [hu, hv]
          simp
  · rintro w (⟨c, b, a, n, hc, hb, ha, hn, ho, hcl, rfl⟩ | rfl | rfl) hi
    · exact h.1 c b a n hc hb ha hn ho hcl hi
    · exact h.2.1 hi
    · exact h.2.2 hi

end CM
