import Verif.Proofs.Smart
/-
C36: smart punctuation.  C37: classification of delimiter runs.
-/
namespace CM
open Spec

/-- **C36.** A run of `n ≥ 2` hyphens becomes em dashes followed by en dashes according to the rule. -/
theorem C36_smartDashes (n : Nat) (h : 2 ≤ n) :
    ∃ a b, smartDashes (List.replicate n '-') = List.replicate a '—' ++ List.replicate b '–' ∧
      DashRule n a b := by
  refine ⟨(smartCounts n).1, (smartCounts n).2, ?_, ?_⟩
  · simp [smartDashes, emDash, enDash]
  · simp only [smartCounts, DashRule]
    split
    · simp_all; omega
    · split
      · simp_all; omega
      · split
        · simp_all
          refine ⟨by omega, by omega, by omega, fun a b hab => by omega⟩
        · simp_all
          refine ⟨by omega, by omega, by omega, fun _ _ a b hab => by omega⟩

/-- The rule leaves no choice. -/
theorem C36_rule_unique {n a b a' b' : Nat} (h : DashRule n a b) (h' : DashRule n a' b') :
    a = a' ∧ b = b' := by
  obtain ⟨h1, h2, h3, h4⟩ := h
  obtain ⟨h1', h2', h3', h4'⟩ := h'
  by_cases c3 : 3 ∣ n
  · have := h2 c3; have := h2' c3; omega
  · by_cases c2 : 2 ∣ n
    · have := h3 c3 c2; have := h3' c3 c2; omega
    · have := h4 c3 c2 _ _ h1'; have := h4' c3 c2 _ _ h1; omega

/-- **C36.** What the inline parser makes of a maximal stretch `m` of ordinary text: the text itself,
or with the smart option the text in which `...` is an ellipsis and every maximal run of `n ≥ 2`
hyphens is `smartDashes`.  (`pre`, `t`: the text before and after it.) -/
theorem C36_parseString (pre m t : Str) (refmap : RefMap) (smart : Bool) (st : IState)
    (hpos : st.pos = pre.length) (hne : m ≠ []) (hm : ∀ c ∈ m, c ∉ "\n`[]\\!<&*_'\"".toList)
    (ht : ∀ c, t.head? = some c → c ∈ "\n`[]\\!<&*_'\"".toList) :
    parseString ⟨pre ++ (m ++ t), refmap, smart⟩ st =
      (true, { st with
        pos := pre.length + m.length
        children := st.children ++ [⟨0, .node { t := .text, literal := some (if smart then mapRuns '-' (fun n => if n ≤ 1 then List.replicate n '-' else smartDashes (List.replicate n '-')) 0 (ellipses m) else m) } []⟩] }) := by
  have hmain : ∀ c, isMain c = true ↔ c ∉ "\n`[]\\!<&*_'\"".toList := by
    intro c; simp [isMain, lit]
  have h1 := matchPrefix_reMain m t (fun c hc => (hmain c).mpr (hm c hc)) hne
    (fun c hc => by
      have := ht c hc
      cases h : isMain c with
      | false => rfl
      | true => exact absurd this ((hmain c).mp h))
  simp only [parseString, Ctx.match_, Ctx.rest, hpos, List.drop_left, h1, Option.map_some]
  cases smart with
  | false => simp [IState.push, textNode]
  | true =>
    simp only [if_true, IState.push, textNode]
    rw [reEllipses_sub _ m (Nat.le_refl _), reDash_sub _ _ (Nat.le_refl _)]
    rfl

example : smartDashes (lit "-----") = lit "—–" ∧ smartDashes (lit "-------") = lit "—––" := by decide

/-- A position in a text where the hypotheses of `C36_parseString` hold. -/
example : let m := lit "a--b..."
    m ≠ [] ∧ (∀ c ∈ m, c ∉ lit "\n`[]\\!<&*_'\"") ∧ (∀ c, (lit "*x").head? = some c → c ∈ lit "\n`[]\\!<&*_'\"") := by
  decide

/-- **C37.** Classification of a delimiter run: for a maximal run of `n ≥ 1` characters `c` (`*` or
`_`) between `pre` and `post`, the parser finds exactly `n` delimiters, which can open (close)
emphasis iff the rules of the specification say so.  White space is what Python's `\s` matches and
punctuation the class of the code (see `C37_ascii_punctuation`). -/
theorem C37_scanDelims (pre post : Str) (refmap : RefMap) (smart : Bool) (c : Char) (n : Nat)
    (hq : c = '*' ∨ c = '_') (hn : 1 ≤ n) (hp : post.head? ≠ some c) :
    ∃ o cl, scanDelims ⟨pre ++ (List.replicate n c ++ post), refmap, smart⟩ c pre.length = some ⟨n, o, cl⟩ ∧
      (o = true ↔ CanOpen (isPySpace · = true) (isPunct · = true) c pre.getLast? post.head?) ∧
      (cl = true ↔ CanClose (isPySpace · = true) (isPunct · = true) c pre.getLast? post.head?) := by
  have hc := countDelims_eq pre post refmap smart c n hq hp
  refine ⟨(flanking c (pre.getLast?.getD '\n') (post.head?.getD '\n')).1,
    (flanking c (pre.getLast?.getD '\n') (post.head?.getD '\n')).2, ?_, ?_, ?_⟩
  · unfold scanDelims
    simp only [hc]
    rw [if_neg (by simp; omega)]
    have h1 : (if (pre.length == 0) = true then '\n'
        else (pre ++ (List.replicate n c ++ post))[pre.length - 1]?.getD '\n') = pre.getLast?.getD '\n' := by
      rcases List.eq_nil_or_concat pre with rfl | ⟨u, d, rfl⟩
      · rfl
      · simp
    have h2 : (Ctx.peek ⟨pre ++ (List.replicate n c ++ post), refmap, smart⟩ (pre.length + n)).getD '\n' =
        post.head?.getD '\n' := by
      simp only [Ctx.peek]
      rw [List.getElem?_append_right (by omega), List.getElem?_append_right (by simp)]
      cases post <;> simp
    simp only [h1, h2]
  all_goals
    have hws : ∀ x : Option Char, isUniWhitespace (x.getD '\n') = true ↔ White (isPySpace · = true) x := by
      intro x
      cases x with
      | none => simp only [Option.getD_none, White, iff_true]; decide
      | some d =>
        simp only [Option.getD_some, isUniWhitespace, White, Bool.or_eq_true, beq_iff_eq]
        constructor
        · rintro (h | h)
          · exact h
          · simp [isPySpace, h]
        · exact .inl
    have hpu : ∀ x : Option Char, isPunct (x.getD '\n') = true ↔ Punct (isPunct · = true) x := by
      intro x
      cases x with
      | none => simp only [Option.getD_none, Punct, iff_false]; decide +kernel
      | some d => rfl
    have a1 := hws pre.getLast?
    have a2 := hws post.head?
    have a3 := hpu pre.getLast?
    have a4 := hpu post.head?
    revert a1 a2 a3 a4
    unfold flanking
    generalize isUniWhitespace (pre.getLast?.getD '\n') = b1
    generalize isUniWhitespace (post.head?.getD '\n') = b2
    generalize isPunct (pre.getLast?.getD '\n') = b3
    generalize isPunct (post.head?.getD '\n') = b4
    intro a1 a2 a3 a4
    simp only [CanOpen, CanClose, LeftFlanking, RightFlanking, ← a1, ← a2, ← a3, ← a4]
    clear a1 a2 a3 a4
    rcases hq with rfl | rfl <;> revert b1 b2 b3 b4 <;> decide

/-- **C37.** On ASCII the punctuation class is the list of the specification, and white space is
space, tab, LF, VT, FF, CR and the four separators U+001C-U+001F. -/
theorem C37_ascii_punctuation : ∀ n < 128,
    (isPunct (Char.ofNat n) = true ↔ Char.ofNat n ∈ asciiPunctuation) ∧
    (isPySpace (Char.ofNat n) = true ↔ n ∈ [9, 10, 11, 12, 13, 28, 29, 30, 31, 32]) := by decide +kernel

example : scanDelims ⟨lit "a **b", [], false⟩ '*' 2 = some ⟨2, true, false⟩ ∧
    scanDelims ⟨lit "a_b", [], false⟩ '_' 1 = some ⟨1, false, false⟩ := by decide +kernel
example : lit "a **b" = lit "a " ++ (List.replicate 2 '*' ++ lit "b") ∧ (lit "b").head? ≠ some '*' := by decide

end CM
