import Verif.Proofs.Emphasis
import Verif.Proofs.InlineRun
import Verif.Spec.Emphasis
/-
`processEmphasis` on any stack and siblings (C28).
-/
namespace CM
open Spec

theorem straight_star {c : Char} (h : c = '*' ∨ c = '_') : straight c = c := by
  rcases h with rfl | rfl <;> rfl

theorem emphStep_measure (st : EmphState) (cl : Delim) (rest : List Delim) (ha : st.after = cl :: rest) :
    emphMeasure (emphStep st cl rest).after < emphMeasure st.after := by
  have hm : emphMeasure rest < emphMeasure st.after := by rw [ha]; simp [emphMeasure]
  unfold emphStep
  split
  · exact hm
  · generalize findOpener cl (st.openersBottom cl.cc) st.before st.oddMatch = f
    obtain ⟨found, odd⟩ := f
    have nf : ∀ items, emphMeasure (if odd then
        ({ st with before := cl :: st.before, after := rest, items := items, oddMatch := odd } : EmphState)
      else
        { before := if cl.canOpen then cl :: st.before else st.before
          after := rest
          items := items
          openersBottom := fun ch => if ch == cl.cc then st.before.head?.map (·.node) else st.openersBottom ch
          oddMatch := odd }).after < emphMeasure st.after := by
      intro items
      split <;> exact hm
    dsimp only
    split
    · cases found with
      | none => exact nf _
      | some ob =>
        obtain ⟨op, below⟩ := ob
        dsimp only
        generalize hu : (if (decide (cl.numdelims ≥ 2) && decide (op.numdelims ≥ 2)) = true then 2 else 1) = use
        have hu1 : 1 ≤ use := by rw [← hu]; split <;> omega
        split
        · exact hm
        · rename_i h0
          have h0 : cl.numdelims - use ≠ 0 := by simpa using h0
          rw [ha]
          simp only [emphMeasure, List.map_cons, List.sum_cons]
          omega
    · split
      · cases found with
        | none => exact nf _
        | some ob => exact hm
      · cases found with
        | none => exact nf _
        | some ob => exact hm

theorem emphLoop_ends : ∀ (fuel : Nat) (st : EmphState), emphMeasure st.after < fuel → ∃ its, emphLoop fuel st = .ok its := by
  intro fuel
  induction fuel with
  | zero => intro st h; omega
  | succ k ih =>
    intro st hm
    rw [emphLoop]
    cases ha : st.after with
    | nil => exact ⟨_, rfl⟩
    | cons cl rest =>
      have := emphStep_measure st cl rest ha
      exact ih _ (by omega)

theorem processEmphasis_ends (ds : List Delim) (its : List Item) : ∃ its', processEmphasis ds its = .ok its' :=
  emphLoop_ends _ _ (by simp [emphMeasure, emphFuel])

/-- The symbol of a character of a node that a stack refers to. -/
def DW (_ : Nat) (c : Char) (x : Sym) : Prop := x = .char c

theorem all_char {c : Char} : ∀ {s : List Sym}, (∀ x ∈ s, DW 0 c x) → s = List.replicate s.length (.char c)
  | [], _ => rfl
  | x :: s, h => by
    rw [List.length_cons, List.replicate_succ, ← all_char (s := s) (fun y hy => h y (by simp [hy])), h x (by simp)]

theorem map_run {n : Nat} {c : Char} (h : c = '*' ∨ c = '_') :
    (List.replicate n c).map (fun c => Sym.char (straight c)) = List.replicate n (.char c) := by
  rw [List.map_replicate, straight_star h]

theorem tok_wraps {it : Item} {s : List Sym} (h : Tok DW true it s) : Wraps [it.node] s := by
  cases h with
  | @run i c s hn hc hx =>
    have : Wraps [textNode (List.replicate s.length c)] ((List.replicate s.length c).map _) := .text
    rw [map_run hc, ← all_char (fun x h => hx x h)] at this
    exact this
  | @single i q x _ hq hx =>
    rw [show x = Sym.char (straight q) by rcases hq with rfl | rfl <;> exact hx]
    exact Wraps.text (x := [q])
  | @double i q x _ hq hx =>
    rw [show x = Sym.char (straight q) by rcases hq with rfl | rfl <;> exact hx]
    exact Wraps.text (x := [q])
  | @openB i x hx =>
    rw [show x = Sym.char (straight '[') from hx]
    exact Wraps.text (x := ['['])
  | @openI i x y hx hy =>
    rw [show x = Sym.char (straight '!') from hx, show y = Sym.char (straight '[') from hy]
    exact Wraps.text (x := ['!', '['])

theorem emphRel_wraps : EmphRel DW (fun _ => True) true Wraps where
  nil := .nil
  append := .append
  tok := fun _ h => tok_wraps h
  num := fun _ => trivial
  wrap := by
    intro op cl use ts s xs ys hc he _ _ _ _ _ _ _ _ hu hx hy hdx hdy hr
    rw [all_char (fun x h => hdx x h), all_char (fun x h => hdy x h), hx, hy]
    rcases hu with rfl | rfl
    · exact .emph hc hr
    · exact .strong hc hr

theorem stack_tok {it : Item} (h0 : it.id ≠ 0) (h : StackText it.node) : Tok DW true it (symbols it) := by
  obtain ⟨i, t⟩ := it
  unfold symbols
  rw [if_neg h0]
  cases h with
  | @run n c hn hc =>
    have := Tok.run (D := DW) (smart := true) (i := i) (c := c) (s := List.replicate n (Sym.char c)) (by simpa using hn) hc
      (by intro x hx; exact (List.mem_replicate.1 hx).2)
    rw [List.length_replicate] at this
    show Tok DW true ⟨i, textNode (List.replicate n c)⟩ ((List.replicate n c).map _)
    rw [map_run hc]; exact this
  | @quote c hc =>
    simp only [List.mem_cons, List.not_mem_nil, or_false] at hc
    rcases hc with rfl | rfl | rfl | rfl
    · exact .single (q := lsquo) rfl (.inr rfl) rfl
    · exact .single (q := rsquo) rfl (.inl rfl) rfl
    · exact .double (q := ldquo) rfl (.inl rfl) rfl
    · exact .double (q := rdquo) rfl (.inr rfl) rfl
  | openB => exact .openB rfl
  | openI => exact .openI rfl rfl

theorem stack_seg : ∀ {its : List Item}, (∀ it ∈ its, it.id ≠ 0 → StackText it.node) →
    Seg DW true Wraps its (its.flatMap symbols)
  | [], _ => .nil
  | it :: its, h => by
    rw [List.flatMap_cons]
    have ih := stack_seg (its := its) (fun x hx => h x (by simp [hx]))
    by_cases h0 : it.id = 0
    · have : symbols it = [.leaf it.node] := by simp [symbols, h0]
      rw [this]
      exact Seg.run (its := [it]) (by simpa using h0) .leaf ih
    · exact .tok h0 (stack_tok h0 (h it (by simp) h0)) ih

/-- `processEmphasis` on any stack for any siblings. -/
theorem processEmphasis_wraps {ds : List Delim} {its : List Item} (h : StackFor ds its) :
    ∃ its', processEmphasis ds its = .ok its' ∧ Wraps (its'.map (·.node)) (its.flatMap symbols) := by
  obtain ⟨its', e⟩ := processEmphasis_ends ds its
  refine ⟨its', e, ?_⟩
  have hinv : EInv DW (fun _ => True) true Wraps [] ds its (its.flatMap symbols) := by
    refine ⟨stack_seg h.text, h.inc, by simpa using h.order, ?_, fun _ _ => trivial⟩
    intro d hd
    obtain ⟨h0, it, hit, hid, s, hs, he⟩ := h.entry d (by simpa using hd)
    refine ⟨h0, it, hit, hid, ?_⟩
    rw [hs]
    rcases he with ⟨h1, h2, rfl⟩ | ⟨h1, h2⟩ | ⟨h1, h2⟩
    · exact .inl ⟨h1, h2, rfl⟩
    · refine .inr (.inl ⟨h1, ?_⟩)
      rcases h2 with rfl | rfl
      · exact .inr rfl
      · exact .inl rfl
    · refine .inr (.inr ⟨h1, ?_⟩)
      rcases h2 with rfl | rfl
      · exact .inl rfl
      · exact .inr rfl
  exact (processEmphasis_inv emphRel_wraps hinv e).1.rel emphRel_wraps

end CM
