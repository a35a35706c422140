import Mathlib.Data.List.Forall2
import Verif.Proofs.FencedRun
/-
Evaluating the block parser on indented code blocks.
-/
set_option linter.unusedVariables false
namespace CM
open Spec

/-! ### Trailing empty lines -/

theorem trail_parts {n : Nat} {m t : Str} (h : Den n reTrailNl m t) :
    m.head? = some '\n' ∧ (∀ c ∈ m, c = '\n' ∨ c = ' ') ∧ (t = [] ∨ t = ['\n']) := by
  obtain ⟨m1, m2, rfl, h1, rfl, ht⟩ := h
  rw [List.append_nil]
  refine ⟨?_, ?_, ht⟩
  · obtain ⟨a, b, rfl, ⟨c, d, rfl, ⟨x, hx, rfl⟩, _⟩, _⟩ := h1
    have : x = '\n' := by simpa using hx
    rw [this]; rfl
  · have key : ∀ {a t : Str}, Den n (.seq (.lit1 '\n') (.star (.lit1 ' '))) a t → ∀ c ∈ a, c = '\n' ∨ c = ' ' := by
      rintro a t ⟨c, d, rfl, ⟨x, hx, rfl⟩, hd⟩ y hy
      have : x = '\n' := by simpa using hx
      subst this
      have hd' := den_star_chr.1 hd
      rcases List.mem_append.1 hy with hy | hy
      · left; simpa using hy
      · right; simpa using hd' y hy
    obtain ⟨a, b, rfl, h2, k, h3⟩ := h1
    have it : ∀ {k : Nat} {b t : Str}, Iter (fun m t => Den n (.seq (.lit1 '\n') (.star (.lit1 ' '))) m t) k b t →
        ∀ c ∈ b, c = '\n' ∨ c = ' ' := by
      intro k b t h
      induction h with
      | nil => simp
      | cons h1 _ ih =>
        intro c hc
        rcases List.mem_append.1 hc with hc | hc
        · exact key h1 c hc
        · exact ih c hc
    intro c hc
    rcases List.mem_append.1 hc with hc | hc
    · exact key h2 c hc
    · exact it h3 c hc

theorem trail_sub_gen (f : Str → Str) : ∀ a : Str,
    ('\n' ∉ a ∨ ∃ a1 ch a2, a = a1 ++ ch :: a2 ∧ ch ≠ '\n' ∧ ch ≠ ' ' ∧ '\n' ∉ a2) →
    reTrailNl.sub f (a ++ ['\n']) = a ++ f ['\n']
  | [], _ => by
    have h : reTrailNl.rest (['\n'] ++ []) = some [] := by decide +kernel
    have := Re.sub_match (r := reTrailNl) rfl f (m := ['\n']) (t := []) (by simp) h
    rw [Re.sub_nil] at this
    simpa using this
  | c :: a, h => by
    have hnone : reTrailNl.rest (c :: (a ++ ['\n'])) = none := by
      rw [← Option.not_isSome_iff_eq_none, Re.rest_isSome_iff]
      rintro ⟨m, t, he, hd⟩
      obtain ⟨h1, h2, h3⟩ := trail_parts hd
      rcases h with h | ⟨a1, ch, a2, h, hc1, hc2, _⟩
      · apply h
        cases m with
        | nil => cases h1
        | cons x m =>
          simp only [List.head?_cons, Option.some.injEq] at h1
          simp only [List.cons_append, List.cons.injEq] at he
          rw [he.1, h1]; simp
      · have hmem : ch ∈ m ++ t := by
          rw [← he, ← List.cons_append, h]; simp
        rcases List.mem_append.1 hmem with hm | hm
        · rcases h2 ch hm with e | e
          · exact hc1 e
          · exact hc2 e
        · rcases h3 with rfl | rfl
          · cases hm
          · exact hc1 (by simpa using hm)
    rw [List.cons_append, Re.sub_none rfl f hnone, trail_sub_gen f a]
    · rfl
    rcases h with h | ⟨a1, ch, a2, h, hc1, hc2, h2⟩
    · exact Or.inl (fun hx => h (by simp [hx]))
    · cases a1 with
      | nil =>
        simp only [List.nil_append, List.cons.injEq] at h
        rw [h.2]; exact Or.inl h2
      | cons y a1 =>
        simp only [List.cons_append, List.cons.injEq] at h
        exact Or.inr ⟨a1, ch, a2, h.2, hc1, hc2, h2⟩

theorem trail_sub (f : Str → Str) (hf : f ['\n'] = ['\n']) (a : Str)
    (h : '\n' ∉ a ∨ ∃ a1 ch a2, a = a1 ++ ch :: a2 ∧ ch ≠ '\n' ∧ ch ≠ ' ' ∧ '\n' ∉ a2) : reTrailNl.sub f (a ++ ['\n']) = a ++ ['\n'] := by
  rw [trail_sub_gen f a h, hf]

theorem trail_run (n : Nat) (k : Str → Option Str) (h : (k []).isSome = true) : ∀ j f, j ≤ f →
    starK ((Re.seq (.lit1 '\n') (.star (.lit1 ' '))).run n) k f (List.replicate j '\n') = k [] := by
  intro j
  induction j with
  | zero =>
    intro f _
    cases f with
    | zero => rfl
    | succ f => simp [starK, Re.run, Re.lit1]
  | succ j ih =>
    intro f hf
    obtain ⟨f, rfl⟩ : ∃ g, f = g + 1 := ⟨f - 1, by omega⟩
    obtain ⟨v, hv⟩ := Option.isSome_iff_exists.1 h
    have key : (Re.seq (.lit1 '\n') (.star (.lit1 ' '))).run n (List.replicate (j + 1) '\n')
        (fun s' => if s'.length < (List.replicate (j + 1) '\n').length then starK ((Re.seq (.lit1 '\n') (.star (.lit1 ' '))).run n) k f s' else none) = k [] := by
      rw [List.replicate_succ, Re.run, Re.run_lit1]
      have h2 := ih f (by omega)
      cases j with
      | zero => simpa [Re.run, starK] using h2
      | succ j =>
        rw [List.replicate_succ] at h2 ⊢
        simp [Re.run, starK, Re.lit1] at h2 ⊢
        exact h2
    rw [starK, key, hv]

/-- Only one of several line feeds at the end is kept. -/
theorem trail_sub_more (f : Str → Str) (hf : ∀ x, f x = ['\n']) (j : Nat) : ∀ a : Str,
    ('\n' ∉ a ∨ ∃ a1 ch a2, a = a1 ++ ch :: a2 ∧ ch ≠ '\n' ∧ ch ≠ ' ' ∧ '\n' ∉ a2) →
    reTrailNl.sub f (a ++ List.replicate (j + 1) '\n') = a ++ ['\n']
  | [], _ => by
    have h : reTrailNl.rest (List.replicate (j + 1) '\n' ++ []) = some [] := by
      rw [List.append_nil]
      unfold Re.rest reTrailNl Re.plus
      rw [Re.run, Re.run, List.replicate_succ, Re.run, Re.run_lit1]
      have := trail_run (('\n' :: List.replicate j '\n').length) (fun s' => Re.eos.run ('\n' :: List.replicate j '\n').length s' some) rfl j j (Nat.le_refl _)
      cases j with
      | zero => rfl
      | succ j =>
        rw [List.replicate_succ] at this ⊢
        simp [Re.run, starK, Re.lit1] at this ⊢
        exact this
    have := Re.sub_match (r := reTrailNl) rfl f (m := List.replicate (j + 1) '\n') (t := []) (by simp) h
    rw [Re.sub_nil, hf] at this
    simpa using this
  | c :: a, h => by
    have hnone : reTrailNl.rest (c :: (a ++ List.replicate (j + 1) '\n')) = none := by
      rw [← Option.not_isSome_iff_eq_none, Re.rest_isSome_iff]
      rintro ⟨m, t, he, hd⟩
      obtain ⟨h1, h2, h3⟩ := trail_parts hd
      rcases h with h | ⟨a1, ch, a2, h, hc1, hc2, _⟩
      · apply h
        cases m with
        | nil => cases h1
        | cons x m =>
          simp only [List.head?_cons, Option.some.injEq] at h1
          simp only [List.cons_append, List.cons.injEq] at he
          rw [he.1, h1]; simp
      · have hmem : ch ∈ m ++ t := by
          rw [← he, ← List.cons_append, h]; simp
        rcases List.mem_append.1 hmem with hm | hm
        · rcases h2 ch hm with e | e
          · exact hc1 e
          · exact hc2 e
        · rcases h3 with rfl | rfl
          · cases hm
          · exact hc1 (by simpa using hm)
    rw [List.cons_append, Re.sub_none rfl f hnone, trail_sub_more f hf j a]
    · rfl
    rcases h with h | ⟨a1, ch, a2, h, hc1, hc2, h2⟩
    · exact Or.inl (fun hx => h (by simp [hx]))
    · cases a1 with
      | nil =>
        simp only [List.nil_append, List.cons.injEq] at h
        rw [h.2]; exact Or.inl h2
      | cons y a1 =>
        simp only [List.cons_append, List.cons.injEq] at h
        exact Or.inr ⟨a1, ch, a2, h.2, hc1, hc2, h2⟩

/-! ### Lines -/

/-- An open indented code block that starts in line `l`. -/
def indNode (l : Nat) (x : Str) (b : Bool) : NodeData :=
  { t := .codeBlock, sourcepos := some ((l, 5), (0, 0)), stringContent := some x, lastLineBlank := b }

theorem noNul_notBlank {x : Str} (h : NotBlank x) : NotBlank (noNul x) := by
  obtain ⟨c, hc, h1, h2⟩ := h
  refine ⟨if c = Char.ofNat 0 then Char.ofNat 0xFFFD else c, List.mem_map_of_mem hc, ?_⟩
  split
  · decide
  · exact ⟨h1, h2⟩

theorem noNul_append (a b : Str) : noNul (a ++ b) = noNul a ++ noNul b := List.map_append

theorem noNul_indentedAs {l x : Str} (h : IndentedAs l x) : IndentedAs (noNul l) (noNul x) := by
  rcases h with rfl | ⟨rfl, k, hk, rfl⟩
  · left; rw [noNul_append]; rfl
  · right; refine ⟨rfl, k, hk, ?_⟩; simp [noNul]

theorem skip_spaces (x : Str) : ("    ".toList ++ x).takeWhile isSpTab = "    ".toList ++ x.takeWhile isSpTab ∧
    ("    ".toList ++ x).dropWhile isSpTab = x.dropWhile isSpTab := by
  constructor <;> rfl

/-- Looking at a line with four spaces. -/
theorem find_four {p : PState} {x : Str} (hl : p.currentLine = "    ".toList ++ x) (ho : p.offset = 0) (hc : p.column = 0)
    (hx : OneLine x) : ∃ a b c i, findNextNonspace p =
      { p with blank := a, nextNonspace := b, nextNonspaceColumn := c, indent := i, indented := true } ∧ 4 ≤ i ∧
      (NotBlank x → a = false) := by
  have h4 : 4 ≤ columnFrom 0 (("    ".toList ++ x).takeWhile isSpTab) := by
    rw [(skip_spaces x).1, columnFrom_append]
    exact columnFrom_le 4 _
  refine ⟨match (("    ".toList ++ x).dropWhile isSpTab).head? with
      | none => true
      | some c => c == '\n' || c == '\r', 0 + (("    ".toList ++ x).takeWhile isSpTab).length,
    columnFrom 0 (("    ".toList ++ x).takeWhile isSpTab), columnFrom 0 (("    ".toList ++ x).takeWhile isSpTab), ?_, h4, ?_⟩
  · unfold findNextNonspace
    rw [hl, ho, hc, List.drop_zero, skipWs_eq, ← decide_eq_true h4]
    rfl
  · rintro ⟨c, hc, h1, h2⟩
    rw [(skip_spaces x).2]
    cases hd : x.dropWhile isSpTab with
    | nil =>
      exfalso
      have := List.dropWhile_eq_nil_iff.1 hd c hc
      simp [isSpTab, h1, h2] at this
    | cons y ys =>
      have hy : y ∈ x := by
        have : y ∈ x.dropWhile isSpTab := by rw [hd]; simp
        exact (List.dropWhile_sublist _).subset this
      have := hx y hy
      simp [this.1, this.2]

theorem advance_four {p : PState} {x : Str} (hl : p.currentLine = "    ".toList ++ x) (ho : p.offset = 0) (hc : p.column = 0) :
    advanceOffset 4 true p = { p with offset := 4, column := 4, partiallyConsumedTab := false } := by
  have := advanceLoop_plain (line := "    ".toList ++ x) (b := true) "    ".toList x 0 0 p.partiallyConsumedTab rfl (by decide)
  have h4 : ("    ".toList).length = 4 := rfl
  rw [h4] at this
  simp only [advanceOffset, hl, ho, hc, this]
  rfl

theorem noNul_oneLine {x : Str} (h : OneLine x) : OneLine (noNul x) := by
  intro c hc
  rcases noNul_mem hc with hc | rfl
  · exact h c hc
  · decide

/-- The first line. -/
theorem ind_open {p : PState} {d : NodeData} {cs : List Tree} {m : RefMap} {n k : Nat}
    (h : AtDoc p d cs m n k) {x : Str} (hx : NotBlank x) (h1 : OneLine x) :
    ∃ p', incorporateLine p ("    ".toList ++ x) = .ok p' ∧
      AtLeaf p' (indNode (n + 1) (noNul x ++ ['\n']) false) { d with lastLineBlank := false } cs m (n + 1)
        ("    ".toList ++ x).length := by
  have hlen : ("    ".toList ++ x).length = ("    ".toList ++ noNul x).length := by simp [noNul]
  have hrep : replaceChar (Char.ofNat 0) (Char.ofNat 0xFFFD) ("    ".toList ++ x) = "    ".toList ++ noNul x := by
    rw [replaceChar_nul, noNul_append]; rfl
  rw [hlen]
  have hx' := noNul_notBlank hx
  have h1' := noNul_oneLine h1
  generalize noNul x = y at hrep hx' h1'
  obtain ⟨sp, doc, ot, cl, lno, off, col, nn, nnc, ind, indd, bl, pct, ac, lm, rm, lll⟩ := p
  obtain ⟨h1, h2, h3, h4, h5⟩ := h
  simp only at h1 h3 h4 h5
  subst h1 h3 h4 h5
  obtain ⟨u1, u2, u3, u4, hfind, hu1, hu2⟩ := find_four (p := PState.mk [⟨d, cs⟩] doc 1 ("    ".toList ++ y) (lno + 1) 0 0 nn nnc ind indd false false true 1 rm lll)
    (x := y) rfl rfl rfl h1'
  obtain rfl := hu2 hx'
  have hadv := advance_four (p := PState.mk [⟨d, cs⟩] doc 1 ("    ".toList ++ y) (lno + 1) 0 0 u2 u3 u4 true false false true 1 rm lll)
    (x := y) rfl rfl rfl
  have hdrop : ("    ".toList ++ y).drop 4 = y := rfl
  unfold incorporateLine
  rw [hrep]
  generalize "    ".toList ++ y = z at *
  simp [contLoop, bind, Except.bind, blockAt, h2, pure, Except.pure, acceptsLines, startsLoop, hfind,
    blockStarts, tryStarts, startBlockQuote, startAtx, startFenced, startHtml, startSetext, startThematic, startListItem,
    startIndented, tipKind, hadv, closeUnmatched, addChild,
    addChildLoop, canContain, addText, lineBlankFlag, addLine, appendContent, hdrop]
  constructor <;> simp [indNode, h2]

theorem kbeq (b : Bool) (n : Nat) : (b && (!Kind.codeBlock == Kind.blockQuote && (!Kind.codeBlock == Kind.item || !n == 0))) = b := by
  cases b <;> rfl

theorem ex_and3 {α : Type} {A B : α → Prop} {C : Prop} (hc : C) (h : ∃ p, A p ∧ B p) : ∃ p, A p ∧ B p ∧ C := by
  obtain ⟨p, h1, h2⟩ := h
  exact ⟨p, h1, h2, hc⟩

/-- A further line. -/
theorem ind_line {p : PState} {d : NodeData} {cs : List Tree} {m : RefMap} {n k l : Nat} {x : Str} {b : Bool}
    (h : AtLeaf p (indNode l x b) d cs m n k) {ln y : Str} (hl : IndentedAs ln y) (h1 : OneLine ln) :
    ∃ p' b', incorporateLine p ln = .ok p' ∧
      AtLeaf p' (indNode l (x ++ noNul y ++ ['\n']) b') { d with lastLineBlank := b' } cs m (n + 1) ln.length ∧
      (NotBlank y → b' = false) ∧ (ln = [] → b' = true) := by
  have hlen : ln.length = (noNul ln).length := by simp [noNul]
  have hrep := replaceChar_nul ln
  rw [hlen]
  have hl' := noNul_indentedAs hl
  have h1' := noNul_oneLine h1
  have hy1 : NotBlank y → NotBlank (noNul y) := noNul_notBlank
  have hln1 : ln = [] → noNul ln = [] := by rintro rfl; rfl
  generalize noNul y = y' at hl' hy1
  generalize noNul ln = ln' at hrep hl' h1' hln1
  obtain ⟨sp, doc, ot, cl, lno, off, col, nn, nnc, ind, indd, bl, pct, ac, lm, rm, lll⟩ := p
  obtain ⟨h1, h2, h3, h4, h5⟩ := h
  simp only at h1 h3 h4 h5
  subst h1 h3 h4 h5
  rcases hl' with rfl | ⟨rfl, j, hj, rfl⟩
  · obtain ⟨u1, u2, u3, u4, hfind, hu1, hu2⟩ := find_four (p := PState.mk [⟨indNode l x b, []⟩, ⟨d, cs⟩] doc 2 ("    ".toList ++ y') (lno + 1) 0 0 nn nnc ind indd false false ac lm rm lll)
      (x := y') rfl rfl rfl (fun c hc => h1' c (List.mem_append_right _ hc))
    have hadv := advance_four (p := PState.mk [⟨indNode l x b, []⟩, ⟨d, cs⟩] doc 2 ("    ".toList ++ y') (lno + 1) 0 0 u2 u3 u4 true u1 false ac lm rm lll)
      (x := y') rfl rfl rfl
    have hdrop : ("    ".toList ++ y').drop 4 = y' := rfl
    have hb : (NotBlank y → u1 = false) ∧ (ln = [] → u1 = true) := ⟨fun h => hu2 (hy1 h), fun h => by cases hln1 h⟩
    simp only [indNode] at hfind hadv
    unfold incorporateLine
    rw [hrep]
    generalize "    ".toList ++ y' = z at *
    refine exists_comm.1 ⟨u1, ?_⟩
    refine ex_and3 hb ?_
    simp [contLoop, bind, Except.bind, blockAt, h2, pure, Except.pure, acceptsLines, hfind, indNode, continueBlock, hu1,
      addText, tipKind, closeUnmatched, lineBlankFlag, addLine, appendContent, markLastChild, hadv, hdrop]
    constructor <;> simp [indNode, h2, kbeq]
  · have hfind : ∀ sp, findNextNonspace (PState.mk sp doc 2 (List.replicate j ' ') (lno + 1) 0 0 nn nnc ind indd false false ac lm rm lll) =
        PState.mk sp doc 2 (List.replicate j ' ') (lno + 1) 0 0 j j j false true false ac lm rm lll := by
      intro sp
      have e1 : (List.replicate j ' ').takeWhile isSpTab = List.replicate j ' ' := by
        rw [List.takeWhile_replicate]; rfl
      have e2 : (List.replicate j ' ').dropWhile isSpTab = [] := by
        rw [List.dropWhile_replicate]; rfl
      simp only [findNextNonspace, skipWs_eq, List.drop_zero, e1, e2, List.length_replicate, Nat.sub_zero]
      rw [columnFrom_noTab _ (s := List.replicate j ' ') (by simp [List.mem_replicate]), List.length_replicate]
      simp
      omega
    unfold incorporateLine
    rw [hrep]
    have hnj : ¬ 4 ≤ j := by omega
    refine exists_comm.1 ⟨true, ?_⟩
    refine ex_and3 ⟨fun h => (by obtain ⟨_, hh, _⟩ := hy1 h; exact absurd hh (by simp)), fun _ => rfl⟩ ?_
    simp [contLoop, bind, Except.bind, blockAt, h2, pure, Except.pure, acceptsLines, hfind, indNode, continueBlock, hnj,
      addText, tipKind, closeUnmatched, lineBlankFlag, addLine, appendContent, markLastChild, advanceNextNonspace]
    constructor <;> simp [indNode, h2, kbeq]

theorem ind_lines {cs : List Tree} {m : RefMap} {l : Nat} {ls xs : List Str} (hls : List.Forall₂ IndentedAs ls xs)
    {p : PState} {d : NodeData} {n k : Nat} {x : Str} {b : Bool} (h : AtLeaf p (indNode l x b) d cs m n k)
    (hl : ∀ ln ∈ ls, OneLine ln) :
    ∃ p' k' b' d', ls.foldlM incorporateLine p = .ok p' ∧
      AtLeaf p' (indNode l (x ++ xs.flatMap fun ln => noNul ln ++ ['\n']) b') d' cs m (n + ls.length) k' ∧
      (d.lastLineBlank = b → d'.lastLineBlank = b') ∧ (∀ y, xs.getLast? = some y → NotBlank y → b' = false) ∧
      (ls.getLast? = some [] → b' = true) ∧ (ls = [] → b' = b) := by
  induction hls generalizing p d n k x b with
  | nil => exact ⟨p, k, b, d, rfl, by simpa using h, id, fun y h => by (cases h), fun h => by (cases h), fun _ => rfl⟩
  | cons hy hr ih =>
    rename_i ln y ls ys
    obtain ⟨p1, b1, e1, h1, f1, f2⟩ := ind_line h hy (hl ln (by simp))
    obtain ⟨p2, k2, b2, d2, e2, h2, f3, f4, f5, f6⟩ := ih h1 (fun a ha => hl a (by simp [ha]))
    refine ⟨p2, k2, b2, d2, ?_, ?_, fun _ => f3 rfl, ?_, ?_, fun h => by cases h⟩
    · rw [List.foldlM_cons, e1]; exact e2
    · simp only [List.flatMap_cons, List.length_cons, List.append_assoc] at h2 ⊢
      rw [Nat.add_comm ls.length 1, ← Nat.add_assoc]
      exact h2
    · intro z hz hz'
      cases hr with
      | nil =>
        simp only [List.getLast?_singleton, Option.some.injEq] at hz
        subst hz
        rw [f6 rfl]; exact f1 hz'
      | cons hr1 hr2 =>
        rw [List.getLast?_cons_cons] at hz
        exact f4 z hz hz'
    · intro hz
      cases hr with
      | nil =>
        simp only [List.getLast?_singleton, Option.some.injEq] at hz
        rw [f6 rfl]; exact f2 hz
      | cons hr1 hr2 =>
        rw [List.getLast?_cons_cons] at hz
        exact f5 hz

/-- A closed indented code block. -/
def indDone (l n k : Nat) (body : Str) (b : Bool) : NodeData :=
  { t := .codeBlock, sourcepos := some ((l, 5), (n, k)), stringContent := none, isOpen := false, literal := some body,
    lastLineBlank := b }

theorem end_ind {p : PState} {d : NodeData} {cs : List Tree} {m : RefMap} {n k l : Nat} {body : Str} {b : Bool}
    {fuel : Nat} (h : AtLeaf p (indNode l body b) d cs m n k) :
    ∃ p', finalizeAll n (fuel + 3) p = .ok p' ∧
      p'.doc = some (.node { d with isOpen := false, sourcepos := d.sourcepos.map fun sp => (sp.1, (n, k)) }
        (cs ++ [.node (indDone l n k (reTrailNl.sub (fun _ => ['\n']) body) b) []])) ∧ p'.refmap = m := by
  obtain ⟨sp, doc, ot, cl, lno, off, col, nn, nnc, ind, indd, bl, pct, ac, lm, rm, lll⟩ := p
  obtain ⟨h1, h2, h3, h4, h5⟩ := h
  simp only at h1 h3 h4 h5
  subst h1 h3 h4 h5
  simp [finalizeAll, finalizeTip, bind, Except.bind, indNode, pure, Except.pure, finalizeBlock, finalizeCode, h2, indDone]

theorem notBlank_split {x : Str} (h : NotBlank x) (h1 : '\n' ∉ x) (a : Str) :
    ∃ a1 ch a2, a ++ x = a1 ++ ch :: a2 ∧ ch ≠ '\n' ∧ ch ≠ ' ' ∧ '\n' ∉ a2 := by
  obtain ⟨c, hc, h2, h3⟩ := h
  obtain ⟨u, v, rfl⟩ := List.append_of_mem hc
  refine ⟨a ++ u, c, v, by simp, ?_, h2, fun hv => h1 (by simp [hv])⟩
  rintro rfl
  exact h1 (by simp)

theorem parse_indented {smart : Bool} {s first : Str} {ls xs : List Str}
    (hs : TextLines s (("    ".toList ++ first) :: ls)) (h1 : NotBlank first) (h2 : List.Forall₂ IndentedAs ls xs)
    (h3 : ∀ x ∈ (first :: xs).getLast?, NotBlank x) :
    ∃ d k b, d.t = .document ∧ parse smart s = .ok (.node d [.node (indDone 1 (ls.length + 1) k
      ((first :: xs).flatMap fun ln => noNul ln ++ ['\n']) b) []]) := by
  have hone := textLines_oneLine hs
  have hf1 : OneLine first := fun c hc => hone ("    ".toList ++ first) List.mem_cons_self c (List.mem_append_right _ hc)
  obtain ⟨p1, e1, a1⟩ := ind_open atDoc_reset h1 hf1
  obtain ⟨p2, k2, b2, d2, e2, a2, _⟩ := ind_lines h2 a1 (fun l hl => hone l (by simp [hl]))
  have hline : 0 + 1 + ls.length = ls.length + 1 := by omega
  have hxs : ∀ y ∈ first :: xs, OneLine y := by
    intro y hy
    rcases List.mem_cons.1 hy with rfl | hy
    · exact hf1
    · obtain ⟨i, hi, rfl⟩ := List.mem_iff_getElem.1 hy
      have hlen := h2.length_eq
      have := List.forall₂_iff_get.1 h2
      have h := this.2 i (by omega) hi
      have hl := hone ls[i] (by simp)
      rcases h with h | ⟨h, _⟩
      · intro c hc
        refine hl c ?_
        have : ls[i] = "    ".toList ++ xs[i] := h
        rw [this]
        exact List.mem_append_right _ hc
      · have : xs[i] = [] := h
        rw [this]
        intro c hc
        cases hc
  have htext : reTrailNl.sub (fun _ => ['\n']) (noNul first ++ ['\n'] ++ xs.flatMap fun ln => noNul ln ++ ['\n']) =
      (first :: xs).flatMap fun ln => noNul ln ++ ['\n'] := by
    have hcons : (noNul first ++ ['\n'] ++ xs.flatMap fun ln => noNul ln ++ ['\n']) =
        (first :: xs).flatMap fun ln => noNul ln ++ ['\n'] := rfl
    rw [hcons]
    generalize first :: xs = ys at *
    rcases List.eq_nil_or_concat ys with rfl | ⟨zs, z, rfl⟩
    · rfl
    · rw [List.concat_eq_append] at *
      rw [List.flatMap_append]
      simp only [List.flatMap_cons, List.flatMap_nil, List.append_nil, ← List.append_assoc]
      apply trail_sub
      · rfl
      · right
        have hz : NotBlank z := h3 z (by simp)
        exact notBlank_split (noNul_notBlank hz) (oneLine_nl (hxs z (by simp))) _
  rw [hline] at a2
  obtain ⟨p4, e4, b4, c4⟩ := end_ind (fuel := 0) a2
  rw [htext] at b4
  refine ⟨_, k2, b2, ?_, (parse_run (p := p2) hs ?_ (by rw [a2.spine]) ?_ b4 c4).trans (processInlines_leaf ?_ rfl)⟩
  · exact a2.doc
  · rw [List.foldlM_cons, e1]
    exact e2
  · simpa using e4
  · exact a2.doc

end CM
