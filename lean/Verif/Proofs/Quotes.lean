import Verif.Spec.Quotes
import Verif.Proofs.PhraseHtml
import Verif.Proofs.WriteInline
/-
How quotation marks are paired (see `Spec.Prose`).
-/
set_option linter.unusedVariables false
namespace CM
open Spec

/-! ### Reading -/

/-- The siblings that are made for a text, the first quotation mark with this id. -/
def proseItems : Nat → List Bit → List Item
  | _, [] => []
  | i, .span x :: r => ⟨0, spanTree x⟩ :: proseItems i r
  | i, .quote c _ _ :: r => ⟨i, textNode [firstQuote c]⟩ :: proseItems (i + 1) r

/-- Its delimiters. -/
def proseDelims : Nat → List Bit → List Delim
  | _, [] => []
  | i, .span _ :: r => proseDelims i r
  | i, .quote c o cl :: r => ⟨c, 1, 1, i, o, cl⟩ :: proseDelims (i + 1) r

/-- How many quotation marks there are. -/
def quoteCount : List Bit → Nat
  | [] => 0
  | .span _ :: r => quoteCount r
  | .quote _ _ _ :: r => quoteCount r + 1

theorem quoteCount_append : ∀ xs ys, quoteCount (xs ++ ys) = quoteCount xs + quoteCount ys
  | [], ys => by simp [quoteCount]
  | .span x :: r, ys => by simp [quoteCount, quoteCount_append r ys]
  | .quote c o cl :: r, ys => by simp [quoteCount, quoteCount_append r ys]; omega

theorem proseItems_append : ∀ (i : Nat) (xs ys : List Bit), proseItems i (xs ++ ys) = proseItems i xs ++ proseItems (i + quoteCount xs) ys
  | i, [], ys => by simp [proseItems, quoteCount]
  | i, .span x :: r, ys => by simp [proseItems, quoteCount, proseItems_append i r ys]
  | i, .quote c o cl :: r, ys => by
    simp only [List.cons_append, proseItems, quoteCount, proseItems_append (i + 1) r ys]
    rw [show i + 1 + quoteCount r = i + (quoteCount r + 1) by omega]

theorem proseDelims_append : ∀ (i : Nat) (xs ys : List Bit), proseDelims i (xs ++ ys) = proseDelims i xs ++ proseDelims (i + quoteCount xs) ys
  | i, [], ys => by simp [proseDelims, quoteCount]
  | i, .span x :: r, ys => by simp [proseDelims, quoteCount, proseDelims_append i r ys]
  | i, .quote c o cl :: r, ys => by
    simp only [List.cons_append, proseDelims, quoteCount, proseDelims_append (i + 1) r ys]
    rw [show i + 1 + quoteCount r = i + (quoteCount r + 1) by omega]

theorem prose_spans (i : Nat) : ∀ xs : List Span, proseItems i (xs.map .span) = (xs.map fun x => ⟨0, spanTree x⟩) ∧
    proseDelims i (xs.map .span) = [] ∧ quoteCount (xs.map .span) = 0
  | [] => ⟨rfl, rfl, rfl⟩
  | x :: xs => by
    obtain ⟨h1, h2, h3⟩ := prose_spans i xs
    simp only [List.map_cons, proseItems, proseDelims, quoteCount, h1, h2, h3]
    exact ⟨trivial, trivial, trivial⟩

theorem prose_run {c : Ctx} (hs : c.smart = true) {b t k : Str} {ts : List Bit} (h : Prose b t k ts) : ∀ {st : IState},
    c.subject = b ++ (t ++ k) → st.pos = b.length → NlOk st (t ++ k) →
    ∃ st', RunTo c st st' ∧ st'.pos = st.pos + t.length ∧ st'.children = st.children ++ proseItems st.nextId ts ∧
      st'.delims = (proseDelims st.nextId ts).reverse ++ st.delims ∧ st'.nextId = st.nextId + quoteCount ts ∧ NlOk st' k := by
  induction h with
  | nil =>
    intro st hsub hpos hnl
    exact ⟨st, .refl, rfl, by simp [proseItems], by simp [proseDelims], rfl, hnl⟩
  | @atom b t k xs h =>
    intro st hsub hpos hnl
    rw [← hs] at h
    obtain ⟨st', a, n⟩ := atom_adds h hsub hpos hnl
    obtain ⟨e1, e2, e3⟩ := prose_spans st.nextId xs
    exact ⟨st', a.run, a.pos, by rw [a.children, e1], by rw [a.delims, e2]; rfl, by rw [a.nextId, e3]; rfl, n⟩
  | @quote b k q o cl hq h1 h2 =>
    intro st hsub hpos hnl
    obtain ⟨o', cl', hst, g1, g2⟩ := step_smart hs (t := k) hsub hpos hq
    have : o' = o := by rw [Bool.eq_iff_iff, g1, h1]
    subst this
    have : cl' = cl := by rw [Bool.eq_iff_iff, g2, h2]
    subst this
    refine ⟨_, .step hst (by dsimp only; omega) (lt_of_subject (t := [q]) hsub hpos (by simp)) .refl, by simp, rfl, rfl, rfl, ?_⟩
    refine nlOk_last (i := st.nextId) (n := textNode [firstQuote q]) (by simp) fun _ => ⟨_, firstQuote q, rfl, rfl, ?_⟩
    rcases hq with rfl | rfl <;> decide
  | @seq b t u k xs ys _ _ ih1 ih2 =>
    intro st hsub hpos hnl
    obtain ⟨st1, a1, a2, a3, a4, a5, a6⟩ := ih1 (st := st) (by rw [hsub]; simp) hpos (by simpa using hnl)
    obtain ⟨st2, b1, b2, b3, b4, b5, b6⟩ := ih2 (st := st1) (by rw [hsub]; simp) (by rw [a2, hpos]; simp) a6
    refine ⟨st2, a1.trans b1, by rw [b2, a2]; simp; omega, ?_, ?_, by rw [b5, a5, quoteCount_append]; omega, b6⟩
    · rw [b3, a3, a5, proseItems_append, List.append_assoc]
    · rw [b4, a4, a5, proseDelims_append, List.reverse_append, List.append_assoc]

/-! ### Pairing -/

/-- It opens, for this character. -/
def opensFor (q : Char) (d : Delim) : Bool := d.cc == q && d.canOpen

/-- The node of the nearest single quotation mark that opens. -/
def nearest (B : List Delim) : Option Nat := (B.find? (opensFor '\'')).map (·.node)

/-- What the quotation marks of `ts` make of what stands before. -/
def marked (i : Option Nat) (ts : List Bit) (pre : List Item) : List Item :=
  match i with
  | none => pre
  | some i => if closedNext ts then setLiteral i (fun _ => [lsquo]) pre else pre

theorem setLiteral_twice (i : Nat) (x : Str) (a : List Item) : setLiteral i (fun _ => x) (setLiteral i (fun _ => x) a) = setLiteral i (fun _ => x) a := by
  unfold setLiteral
  rw [List.map_map]
  refine List.map_congr_left fun it _ => ?_
  obtain ⟨j, ⟨d, cs⟩⟩ := it
  by_cases h : j = i <;> simp [h, Option.map_map, Function.comp_def]

theorem mem_setLiteral {i : Nat} {f : Str → Str} {a : List Item} {it : Item} (h : it ∈ setLiteral i f a) (hi : it.id ≠ i) : it ∈ a := by
  unfold setLiteral at h
  obtain ⟨x, hx, e⟩ := List.mem_map.1 h
  obtain ⟨j, ⟨d, cs⟩⟩ := x
  by_cases hj : j = i
  · simp only [hj, beq_self_eq_true, if_true] at e
    rw [← e] at hi
    exact absurd rfl hi
  · simp only [hj, beq_iff_eq, if_false] at e
    rw [← e]; exact hx

theorem id_setLiteral {i : Nat} {f : Str → Str} {a : List Item} {it : Item} (h : it ∈ setLiteral i f a) : ∃ it' ∈ a, it'.id = it.id := by
  unfold setLiteral at h
  obtain ⟨x, hx, e⟩ := List.mem_map.1 h
  refine ⟨x, hx, ?_⟩
  rw [← e]
  obtain ⟨j, ⟨d, cs⟩⟩ := x
  by_cases hj : j = i <;> simp [hj]

/-- What holds while quotation marks are paired. -/
structure Pairing (B : List Delim) (pre : List Item) (bot : Char → Option Nat) (i : Nat) : Prop where
  pos : 1 ≤ i
  nodes : ∀ d ∈ B, 1 ≤ d.node ∧ d.node < i
  orig : ∀ d ∈ B, d.origdelims = 1
  ids : ∀ it ∈ pre, it.id < i
  bots : ∀ c j, bot c = some j → j < i
  /-- the search for an opener gets to the nearest one -/
  reach : ∀ B1 d B2, B = B1 ++ d :: B2 → d.canOpen = true → ∀ e ∈ B1 ++ [d], some e.node ≠ bot d.cc
  inj : ∀ d ∈ B, ∀ e ∈ B, d.node = e.node → d = e
  double : ∀ d ∈ B, d.cc = '"' → d.canOpen = true → ∀ it ∈ pre, it.id = d.node → it.node = textNode [ldquo]

theorem isOddMatch_ones {a b : Delim} (ha : a.origdelims = 1) (hb : b.origdelims = 1) : isOddMatch a b = false := by
  simp [isOddMatch, ha, hb]

/-- The search finds the nearest opener. -/
theorem Pairing.find {B : List Delim} {pre : List Item} {bot : Char → Option Nat} {i : Nat} (h : Pairing B pre bot i) {cl : Delim}
    (hc : cl.origdelims = 1) (odd : Bool) :
    (∃ op below, B.find? (opensFor cl.cc) = some op ∧ op ∈ B ∧ op.cc = cl.cc ∧ op.canOpen = true ∧
      findOpener cl (bot cl.cc) B odd = (some (op, below), false)) ∨
    (B.find? (opensFor cl.cc) = none ∧ (∀ d ∈ B, ¬ (d.cc = cl.cc ∧ d.canOpen = true)) ∧
      ∃ odd', findOpener cl (bot cl.cc) B odd = (none, odd')) := by
  cases hf : B.find? (opensFor cl.cc) with
  | none =>
    right
    have : ∀ d ∈ B, ¬ (d.cc = cl.cc ∧ d.canOpen = true) := by
      intro d hd hcd
      have := List.find?_eq_none.1 hf d hd
      simp [opensFor, hcd] at this
    exact ⟨rfl, this, findOpener_nothing this⟩
  | some op =>
    left
    obtain ⟨hp, B1, B2, e, hno⟩ := List.find?_eq_some_iff_append.1 hf
    simp only [opensFor, Bool.and_eq_true, beq_iff_eq] at hp
    have hr := h.reach B1 op B2 e hp.2
    rw [hp.1] at hr
    refine ⟨op, B2, rfl, by rw [e]; simp, hp.1, hp.2, ?_⟩
    rw [e]
    refine findOpener_skip hp.1 hp.2 (isOddMatch_ones (h.orig op (by rw [e]; simp)) hc) (hr op (by simp)) (fun d hd => hr d (by simp [hd])) ?_
    intro d hd hcd
    have := hno d hd
    simp [opensFor, hcd.1, hcd.2.1] at this

theorem emphStep_found {B R : List Delim} {its : List Item} {bot : Char → Option Nat} {odd odd' : Bool} {cl op : Delim} {below : List Delim}
    (hcc : cl.cc = '\'' ∨ cl.cc = '"') (h : cl.canClose = true) (hf : findOpener cl (bot cl.cc) B odd = (some (op, below), odd')) :
    emphStep ⟨B, cl :: R, its, bot, odd⟩ cl R =
      ⟨cl :: B, R, setLiteral op.node (fun _ => [openQuote cl.cc]) (setLiteral cl.node (fun _ => [closeQuote cl.cc]) its), bot, odd'⟩ := by
  have e6 : (cl.cc == '*' || cl.cc == '_') = false := by rcases hcc with h | h <;> rw [h] <;> rfl
  unfold emphStep
  simp only [h, Bool.not_true, Bool.false_eq_true, if_false, e6, hf]
  rcases hcc with hq | hq
  · have e : (cl.cc == '\'') = true := by rw [hq]; rfl
    have eo : closeQuote cl.cc = rsquo := by rw [hq]; rfl
    have ec : openQuote cl.cc = lsquo := by rw [hq]; rfl
    simp only [e, if_true, eo, ec]
  · have e : (cl.cc == '\'') = false := by rw [hq]; rfl
    have eo : closeQuote cl.cc = rdquo := by rw [hq]; rfl
    have ec : openQuote cl.cc = ldquo := by rw [hq]; rfl
    simp only [e, Bool.false_eq_true, if_false, eo, ec]

theorem emphStep_lost {B R : List Delim} {its : List Item} {bot : Char → Option Nat} {odd odd' : Bool} {cl : Delim}
    (hcc : cl.cc = '\'' ∨ cl.cc = '"') (h : cl.canClose = true) (hf : findOpener cl (bot cl.cc) B odd = (none, odd')) :
    ∃ B' bot', emphStep ⟨B, cl :: R, its, bot, odd⟩ cl R = ⟨B', R, setLiteral cl.node (fun _ => [closeQuote cl.cc]) its, bot', odd'⟩ ∧
      (B' = cl :: B ∨ B' = B) ∧ (bot' = bot ∨ bot' = fun ch => if ch == cl.cc then B.head?.map (·.node) else bot ch) := by
  have e6 : (cl.cc == '*' || cl.cc == '_') = false := by rcases hcc with h | h <;> rw [h] <;> rfl
  unfold emphStep
  simp only [h, Bool.not_true, Bool.false_eq_true, if_false, e6, hf]
  rcases hcc with hq | hq
  · have e : (cl.cc == '\'') = true := by rw [hq]; rfl
    have eo : closeQuote cl.cc = rsquo := by rw [hq]; rfl
    simp only [e, if_true, eo]
    cases odd' with
    | true => exact ⟨_, _, rfl, .inl rfl, .inl rfl⟩
    | false =>
      refine ⟨_, _, rfl, ?_, .inr rfl⟩
      cases cl.canOpen <;> simp
  · have e : (cl.cc == '\'') = false := by rw [hq]; rfl
    have eo : closeQuote cl.cc = rdquo := by rw [hq]; rfl
    simp only [e, Bool.false_eq_true, if_false, eo]
    cases odd' with
    | true => exact ⟨_, _, rfl, .inl rfl, .inl rfl⟩
    | false =>
      refine ⟨_, _, rfl, ?_, .inr rfl⟩
      cases cl.canOpen <;> simp

theorem emphStep_pass {B R : List Delim} {its : List Item} {bot : Char → Option Nat} {odd : Bool} {cl : Delim} (h : cl.canClose = false) :
    emphStep ⟨B, cl :: R, its, bot, odd⟩ cl R = ⟨cl :: B, R, its, bot, odd⟩ := by
  simp [emphStep, h]

/-- Inline content comes after it. -/
theorem Pairing.span {B : List Delim} {pre : List Item} {bot : Char → Option Nat} {i : Nat} (h : Pairing B pre bot i) (n : Tree) :
    Pairing B (pre ++ [⟨0, n⟩]) bot i where
  pos := h.pos
  nodes := h.nodes
  orig := h.orig
  ids := by
    intro it hit
    rcases List.mem_append.1 hit with hit | hit
    · exact h.ids it hit
    · rw [List.mem_singleton.1 hit]; exact h.pos
  bots := h.bots
  reach := h.reach
  inj := h.inj
  double := by
    intro d hd h1 h2 it hit he
    rcases List.mem_append.1 hit with hit | hit
    · exact h.double d hd h1 h2 it hit he
    · rw [List.mem_singleton.1 hit] at he
      have := (h.nodes d hd).1
      dsimp only at he; omega

/-- The next quotation mark is put on the stack. -/
theorem Pairing.push {B : List Delim} {pre : List Item} {bot : Char → Option Nat} {i : Nat} (h : Pairing B pre bot i) {d : Delim} {n : Tree}
    (hi : d.node = i) (ho : d.origdelims = 1) (hn : d.cc = '"' → d.canOpen = true → n = textNode [ldquo]) :
    Pairing (d :: B) (pre ++ [⟨i, n⟩]) bot (i + 1) where
  pos := by omega
  nodes := by
    intro e he
    have hp := h.pos
    rcases List.mem_cons.1 he with rfl | he
    · omega
    · have := h.nodes e he; omega
  orig := by
    intro e he
    rcases List.mem_cons.1 he with rfl | he
    · exact ho
    · exact h.orig e he
  ids := by
    intro it hit
    rcases List.mem_append.1 hit with hit | hit
    · have := h.ids it hit; omega
    · rw [List.mem_singleton.1 hit]; exact Nat.lt_succ_self i
  bots := fun c j e => Nat.lt_succ_of_lt (h.bots c j e)
  reach := by
    intro B1 e B2 he hc x hx
    have hb : some i ≠ bot e.cc := fun hh => by have := h.bots _ _ hh.symm; omega
    cases B1 with
    | nil =>
      simp only [List.nil_append, List.cons.injEq] at he
      simp only [List.nil_append, List.mem_singleton] at hx
      rw [hx, ← he.1, hi, he.1]; exact hb
    | cons y B1 =>
      simp only [List.cons_append, List.cons.injEq] at he
      simp only [List.cons_append, List.mem_cons] at hx
      rcases hx with rfl | hx
      · rw [← he.1, hi]; exact hb
      · exact h.reach B1 e B2 he.2 hc x hx
  inj := by
    intro a ha b hb e
    rcases List.mem_cons.1 ha with ha' | ha' <;> rcases List.mem_cons.1 hb with hb' | hb'
    · rw [ha', hb']
    · have := h.nodes b hb'; rw [ha'] at e; omega
    · have := h.nodes a ha'; rw [hb'] at e; omega
    · exact h.inj a ha' b hb' e
  double := by
    intro e he h1 h2 it hit hid
    rcases List.mem_append.1 hit with hit | hit
    · have hlt := h.ids it hit
      rcases List.mem_cons.1 he with rfl | he
      · omega
      · exact h.double e he h1 h2 it hit hid
    · rw [List.mem_singleton.1 hit] at hid ⊢
      dsimp only at hid ⊢
      rcases List.mem_cons.1 he with rfl | he
      · exact hn h1 h2
      · have := h.nodes e he; omega

/-- Nothing opens it. -/
theorem Pairing.lost {B : List Delim} {pre : List Item} {bot : Char → Option Nat} {i : Nat} (h : Pairing B pre bot i) {q : Char}
    (hno : ∀ d ∈ B, ¬ (d.cc = q ∧ d.canOpen = true)) :
    Pairing B pre (fun ch => if ch == q then B.head?.map (·.node) else bot ch) i where
  pos := h.pos
  nodes := h.nodes
  orig := h.orig
  ids := h.ids
  bots := by
    intro c j e
    by_cases hc : c = q
    · simp only [hc, beq_self_eq_true, if_true] at e
      cases B with
      | nil => simp at e
      | cons d B =>
        simp only [List.head?_cons, Option.map_some, Option.some.injEq] at e
        have := h.nodes d (by simp); omega
    · simp only [hc, beq_iff_eq, if_false] at e
      exact h.bots c j e
  reach := by
    intro B1 d B2 e hc x hx
    have hq : d.cc ≠ q := fun hh => hno d (by rw [e]; simp) ⟨hh, hc⟩
    simp only [hq, beq_iff_eq, if_false]
    exact h.reach B1 d B2 e hc x hx
  inj := h.inj
  double := h.double

/-- More room for ids. -/
theorem Pairing.next {B : List Delim} {pre : List Item} {bot : Char → Option Nat} {i : Nat} (h : Pairing B pre bot i) (n : Tree) :
    Pairing B (pre ++ [⟨i, n⟩]) bot (i + 1) where
  pos := by omega
  nodes := fun d hd => ⟨(h.nodes d hd).1, Nat.lt_succ_of_lt (h.nodes d hd).2⟩
  orig := h.orig
  ids := by
    intro it hit
    rcases List.mem_append.1 hit with hit | hit
    · have := h.ids it hit; omega
    · rw [List.mem_singleton.1 hit]; exact Nat.lt_succ_self i
  bots := fun c j e => Nat.lt_succ_of_lt (h.bots c j e)
  reach := h.reach
  inj := h.inj
  double := by
    intro e he h1 h2 it hit hid
    rcases List.mem_append.1 hit with hit | hit
    · exact h.double e he h1 h2 it hit hid
    · rw [List.mem_singleton.1 hit] at hid
      have := h.nodes e he
      dsimp only at hid; omega

/-- A single quotation mark is made an opening one. -/
theorem Pairing.set {B : List Delim} {pre : List Item} {bot : Char → Option Nat} {i : Nat} (h : Pairing B pre bot i) {op : Delim}
    (hop : op ∈ B) (hq : op.cc = '\'') (x : Str) : Pairing B (setLiteral op.node (fun _ => x) pre) bot i where
  pos := h.pos
  nodes := h.nodes
  orig := h.orig
  ids := by
    intro it hit
    obtain ⟨it', h1, h2⟩ := id_setLiteral hit
    have := h.ids it' h1
    omega
  bots := h.bots
  reach := h.reach
  inj := h.inj
  double := by
    intro d hd h1 h2 it hit hid
    have hne : d.node ≠ op.node := fun e => by
      have := h.inj d hd op hop e
      rw [this, hq] at h1; exact absurd h1 (by decide)
    exact h.double d hd h1 h2 it (mem_setLiteral hit (by rw [hid]; exact hne)) hid

/-- The siblings at the end. -/
def settledItems : Nat → List Bit → List Item
  | _, [] => []
  | i, .span x :: r => ⟨0, spanTree x⟩ :: settledItems i r
  | i, .quote c o cl :: r => ⟨i, textNode [curly c o cl r]⟩ :: settledItems (i + 1) r

theorem settledItems_nodes : ∀ (i : Nat) (ts : List Bit), (settledItems i ts).map (·.node) = (settle ts).map spanTree
  | i, [] => rfl
  | i, .span x :: r => by simp [settledItems, settle, settledItems_nodes i r]
  | i, .quote c o cl :: r => by
    simp only [settledItems, settle, List.map_cons, settledItems_nodes (i + 1) r]
    rfl

theorem proseItems_ids : ∀ (i : Nat) (ts : List Bit), ∀ it ∈ proseItems i ts, it.id = 0 ∨ i ≤ it.id
  | i, [], it, h => by simp [proseItems] at h
  | i, .span x :: r, it, h => by
    simp only [proseItems, List.mem_cons] at h
    rcases h with rfl | h
    · exact .inl rfl
    · exact proseItems_ids i r it h
  | i, .quote c o cl :: r, it, h => by
    simp only [proseItems, List.mem_cons] at h
    rcases h with rfl | h
    · exact .inr (Nat.le_refl _)
    · rcases proseItems_ids (i + 1) r it h with h | h
      · exact .inl h
      · exact .inr (by omega)

/-- Quotation marks of the two kinds, none of which opens and closes. -/
def QuotesOk (ts : List Bit) : Prop := ∀ c o cl, Bit.quote c o cl ∈ ts → (c = '\'' ∨ c = '"') ∧ (cl = true → o = false)

theorem marked_append {B : List Delim} {ts : List Bit} {pre : List Item} {it : Item} (h : ∀ d ∈ B, it.id ≠ d.node) :
    marked (nearest B) ts (pre ++ [it]) = marked (nearest B) ts pre ++ [it] := by
  unfold marked nearest
  cases hf : B.find? (opensFor '\'') with
  | none => rfl
  | some op =>
    have := h op (List.mem_of_find?_eq_some hf)
    simp only [Option.map_some]
    split
    · rw [setLiteral_append, setLiteral_none (a := [it]) (by simpa using this)]
    · rfl

theorem pairs_run : ∀ (ts : List Bit), QuotesOk ts → ∀ {B : List Delim} {pre : List Item} {bot : Char → Option Nat} {odd : Bool} {i : Nat},
    Pairing B pre bot i → ∃ B' bot' odd', EReach ⟨B, proseDelims i ts, pre ++ proseItems i ts, bot, odd⟩
      ⟨B', [], marked (nearest B) ts pre ++ settledItems i ts, bot', odd'⟩
  | [], _, B, pre, bot, odd, i, h => by
    refine ⟨B, bot, odd, ?_⟩
    have : marked (nearest B) [] pre = pre := by unfold marked; split <;> simp [closedNext]
    rw [this]; exact .refl
  | .span x :: r, hq, B, pre, bot, odd, i, h => by
    obtain ⟨B', bot', odd', ih⟩ := pairs_run r (fun c o cl hm => hq c o cl (by simp [hm])) (odd := odd) (h.span (spanTree x))
    refine ⟨B', bot', odd', ?_⟩
    rw [marked_append fun d hd => by have := (h.nodes d hd).1; dsimp only; omega] at ih
    have e : marked (nearest B) (.span x :: r) pre = marked (nearest B) r pre := by unfold marked; rfl
    rw [e]
    simpa [proseDelims, proseItems, settledItems] using ih
  | .quote c o cl :: r, hq, B, pre, bot, odd, i, h => by
    obtain ⟨hc, hoc⟩ := hq c o cl (by simp)
    have hr : QuotesOk r := fun c o cl hm => hq c o cl (by simp [hm])
    have hids : ∀ d ∈ B, i ≠ d.node := fun d hd => by have := (h.nodes d hd).2; omega
    have hrest : ∀ it ∈ proseItems (i + 1) r, it.id ≠ i := fun it hit => by
      have := h.pos
      rcases proseItems_ids (i + 1) r it hit with h | h <;> omega
    have hpre : ∀ it ∈ pre, it.id ≠ i := fun it hit => by have := h.ids it hit; omega
    simp only [proseDelims, proseItems, settledItems]
    cases cl with
    | false =>
      have hp := h.push (d := ⟨c, 1, 1, i, o, false⟩) (n := textNode [firstQuote c]) rfl rfl (by rintro rfl _; rfl)
      obtain ⟨B', bot', odd', ih⟩ := pairs_run r hr (odd := odd) hp
      refine ⟨B', bot', odd', .step rfl ?_⟩
      rw [emphStep_pass rfl]
      by_cases ho : o = true ∧ c = '\''
      · obtain ⟨rfl, rfl⟩ := ho
        have e1 : nearest (⟨'\'', 1, 1, i, true, false⟩ :: B) = some i := by simp [nearest, opensFor]
        have e2 : marked (nearest B) (.quote '\'' true false :: r) pre = pre := by
          unfold marked; split <;> simp [closedNext]
        rw [e1] at ih
        rw [e2]
        have e3 : marked (some i) r (pre ++ [⟨i, textNode [firstQuote '\'']⟩]) = pre ++ [⟨i, textNode [curly '\'' true false r]⟩] := by
          unfold marked curly
          cases hcn : closedNext r
          · simp [firstQuote, rsquo]
          · simp only [if_true, Bool.and_self]
            rw [setLiteral_mid (by simpa using hpre)]
            rfl
        rw [e3] at ih
        simpa using ih
      · have e1 : nearest (⟨c, 1, 1, i, o, false⟩ :: B) = nearest B := by
          have : opensFor '\'' ⟨c, 1, 1, i, o, false⟩ = false := by
            rw [Bool.eq_false_iff]
            simp only [opensFor, ne_eq, Bool.and_eq_true, beq_iff_eq]
            exact fun hh => ho ⟨hh.2, hh.1⟩
          simp [nearest, this]
        rw [e1, marked_append hids] at ih
        have e2 : marked (nearest B) (.quote c o false :: r) pre = marked (nearest B) r pre := by
          have : closedNext (.quote c o false :: r) = closedNext r := by
            rcases hc with rfl | rfl
            · cases o with
              | true => exact absurd ⟨rfl, rfl⟩ ho
              | false => rfl
            · rfl
          unfold marked
          rw [this]
        have e3 : curly c o false r = firstQuote c := by
          rcases hc with rfl | rfl
          · cases o with
            | true => exact absurd ⟨rfl, rfl⟩ ho
            | false => rfl
          · rfl
        rw [e2, e3]
        simpa using ih
    | true =>
      obtain rfl := hoc rfl
      have e3 : curly c false true r = closeQuote c := by rcases hc with rfl | rfl <;> rfl
      have e4 : setLiteral i (fun _ => [closeQuote c]) (pre ++ ⟨i, textNode [firstQuote c]⟩ :: proseItems (i + 1) r) =
          pre ++ ⟨i, textNode [closeQuote c]⟩ :: proseItems (i + 1) r :=
        setLiteral_mid fun it hit => (List.mem_append.1 hit).elim (hpre it) (hrest it)
      have e5 : opensFor '\'' ⟨c, 1, 1, i, false, true⟩ = false := by simp [opensFor]
      have e6 : nearest (⟨c, 1, 1, i, false, true⟩ :: B) = nearest B := by simp [nearest, e5]
      rw [e3]
      rcases h.find (cl := ⟨c, 1, 1, i, false, true⟩) rfl odd with ⟨op, below, f1, f2, f3, f4, f5⟩ | ⟨f1, f2, odd1, f3⟩
      · dsimp only at f1 f3
        have e7 : emphStep ⟨B, ⟨c, 1, 1, i, false, true⟩ :: proseDelims (i + 1) r,
            pre ++ ⟨i, textNode [firstQuote c]⟩ :: proseItems (i + 1) r, bot, odd⟩ ⟨c, 1, 1, i, false, true⟩ (proseDelims (i + 1) r) =
            ⟨⟨c, 1, 1, i, false, true⟩ :: B, proseDelims (i + 1) r,
              (setLiteral op.node (fun _ => [openQuote c]) pre ++ [⟨i, textNode [closeQuote c]⟩]) ++ proseItems (i + 1) r, bot, false⟩ := by
          rw [emphStep_found hc rfl f5, e4, setLiteral_append, setLiteral_none (a := _ :: _)]
          · simp
          · intro it hit
            have h1 := h.nodes op f2
            rcases List.mem_cons.1 hit with rfl | hit
            · dsimp only; omega
            · rcases proseItems_ids (i + 1) r it hit with h | h <;> omega
        rcases hc with rfl | rfl
        · have hp := (h.set f2 f3 [openQuote '\'']).push (d := ⟨'\'', 1, 1, i, false, true⟩) (n := textNode [closeQuote '\'']) rfl rfl (by simp)
          obtain ⟨B', bot', odd', ih⟩ := pairs_run r hr (odd := false) hp
          refine ⟨B', bot', odd', .step rfl ?_⟩
          rw [e7]
          rw [e6, marked_append hids] at ih
          have e8 : nearest B = some op.node := by unfold nearest; rw [f1]; rfl
          have e9 : marked (nearest B) r (setLiteral op.node (fun _ => [openQuote '\'']) pre) =
              marked (nearest B) (.quote '\'' false true :: r) pre := by
            rw [e8]
            unfold marked
            have : closedNext (.quote '\'' false true :: r) = true := rfl
            simp only [this, if_true]
            split
            · exact setLiteral_twice _ _ _
            · rfl
          rw [e9] at ih
          simpa using ih
        · have e8 : setLiteral op.node (fun _ => [openQuote '"']) pre = pre :=
            setLiteral_id fun it hit he => h.double op f2 f3 f4 it hit he
          rw [e8] at e7
          have hp := h.push (d := ⟨'"', 1, 1, i, false, true⟩) (n := textNode [closeQuote '"']) rfl rfl (by simp)
          obtain ⟨B', bot', odd', ih⟩ := pairs_run r hr (odd := false) hp
          refine ⟨B', bot', odd', .step rfl ?_⟩
          rw [e7]
          rw [e6, marked_append hids] at ih
          have e9 : marked (nearest B) (.quote '"' false true :: r) pre = marked (nearest B) r pre := by unfold marked; rfl
          rw [e9]
          simpa using ih
      · obtain ⟨B1, bot1, g1, g2, g3⟩ := emphStep_lost (R := proseDelims (i + 1) r)
          (its := pre ++ ⟨i, textNode [firstQuote c]⟩ :: proseItems (i + 1) r) hc rfl f3
        dsimp only at f1 f2 g1 g3
        have hp : Pairing B1 (pre ++ [⟨i, textNode [closeQuote c]⟩]) bot1 (i + 1) := by
          have hb : Pairing B pre bot1 i := by
            rcases g3 with rfl | rfl
            · exact h
            · exact h.lost f2
          rcases g2 with rfl | rfl
          · exact hb.push rfl rfl (by simp)
          · exact hb.next _
        have e7 : nearest B1 = nearest B := by
          rcases g2 with rfl | rfl
          · exact e6
          · rfl
        obtain ⟨B', bot', odd', ih⟩ := pairs_run r hr (odd := odd1) hp
        refine ⟨B', bot', odd', .step rfl ?_⟩
        rw [g1, e4]
        rw [e7, marked_append hids] at ih
        have e9 : marked (nearest B) (.quote c false true :: r) pre = marked (nearest B) r pre := by
          rcases hc with rfl | rfl
          · have : nearest B = none := by unfold nearest; rw [f1]; rfl
            rw [this]; rfl
          · unfold marked; rfl
        rw [e9]
        simpa using ih

/-! ### The whole text -/

theorem prose_ok {b t k : Str} {ts : List Bit} (h : Prose b t k ts) : QuotesOk ts := by
  induction h with
  | nil => intro c o cl hm; cases hm
  | atom h =>
    intro c o cl hm
    obtain ⟨x, _, e⟩ := List.mem_map.1 hm
    cases e
  | quote hq h1 h2 =>
    intro c o cl hm
    cases List.mem_singleton.1 hm
    refine ⟨hq, fun hc => ?_⟩
    rw [Bool.eq_false_iff]
    exact fun ho => (h1.1 ho).2 (h2.1 hc)
  | seq _ _ ih1 ih2 =>
    intro c o cl hm
    exact (List.mem_append.1 hm).elim (ih1 c o cl) (ih2 c o cl)

theorem spanTrees_map : ∀ xs : List Span, spanTrees xs = xs.map spanTree
  | [] => rfl
  | x :: xs => by rw [spanTrees, List.map_cons, spanTrees_map xs]

theorem parseInlines_prose {m : RefMap} {x t : Str} {ts : List Bit} (hx : strip x = t) (h : Prose [] t [] ts) :
    parseInlines true m x = .ok (spanTrees (settle ts)) := by
  have hnl : NlOk ⟨0, [], [], [], 1⟩ (t ++ []) := by intro _ it hit; cases hit
  obtain ⟨st', a1, a2, a3, a4, a5, a6⟩ := prose_run (c := ⟨t, m, true⟩) rfl h (st := ⟨0, [], [], [], 1⟩) (by simp) rfl hnl
  have hp : Pairing [] [] (fun _ => none) 1 := by
    refine ⟨Nat.le_refl _, ?_, ?_, ?_, ?_, ?_, ?_, ?_⟩ <;> simp
  obtain ⟨B', bot', odd', hr⟩ := pairs_run ts (prose_ok h) (odd := false) hp
  have e1 := processEmphasis_reach hr rfl
  have hstop : Run ⟨t, m, true⟩ st' st' := Run.stop (by
    rw [a2]; simp [Ctx.rest])
  have hrun := a1.run hstop
  simp only [List.nil_append, List.append_nil] at a3 a4
  unfold parseInlines
  rw [hx]
  simp only
  rw [hrun _ (by simp)]
  simp only [List.nil_append] at e1
  simp only [bind, Except.bind, pure, Except.pure, a4, a3, List.reverse_reverse, e1]
  have : marked (nearest []) ts [] = [] := rfl
  rw [this, List.nil_append, settledItems_nodes, spanTrees_map]

theorem proseHtml_inline {o : HtmlOpts} (h1 : o.sourcepos = false) (m : RefMap) : InlineHtml (true, m) o (ProseHtml o) := by
  rintro t h ⟨ts, hp, rfl⟩ x hx
  exact ⟨_, parseInlines_prose hx hp, fun p g b lo => render_spans h1 _ p g b lo⟩

/-! ### Text of ordinary characters and quotation marks -/

theorem opensAt_iff {a b : Option Char} : opensAt a b = true ↔ OpensQuote a b := by
  simp [opensAt, OpensQuote]

theorem closesAt_iff {a b : Option Char} : closesAt a b = true ↔ RightFlanking (isPySpace · = true) (isPunct · = true) a b := by
  simp [closesAt]

theorem curlyText_ordinary : ∀ {m : Str}, (∀ c ∈ m, Ordinary c) → ∀ (b : Option Char) (r : Str),
    curlyText b (m ++ r) = m ++ curlyText (m.getLast?.or b) r ∧ closesNext b (m ++ r) = closesNext (m.getLast?.or b) r
  | [], _, b, r => by simp
  | c :: m, h, b, r => by
    have hc := h c (by simp)
    have c1 : c ≠ '"' := by rintro rfl; exact absurd hc (by decide)
    have c2 : c ≠ '\'' := by rintro rfl; exact absurd hc (by decide)
    obtain ⟨ih1, ih2⟩ := curlyText_ordinary (m := m) (fun x hx => h x (by simp [hx])) (some c) r
    have e : m.getLast?.or (some c) = (c :: m).getLast?.or b := by
      cases m with
      | nil => rfl
      | cons d m => rw [List.getLast?_cons_cons]; cases hm : (d :: m).getLast? <;> simp_all
    rw [e] at ih1 ih2
    simp only [List.cons_append, curlyText, closesNext, c1, c2, if_false, decide_false, Bool.false_and, Bool.false_eq_true, ih1, ih2]
    exact ⟨trivial, trivial⟩

theorem prose_text : ∀ (n : Nat) {t : Str}, t.length ≤ n → (∀ c ∈ t, Ordinary c ∨ c = '\'' ∨ c = '"') → ∀ (b : Str),
    ∃ ts, Prose b t [] ts ∧ closedNext ts = closesNext b.getLast? t ∧
      ∀ safe soft, spansHtml safe soft (settle ts) = escapeXml (typeset true (curlyText b.getLast? t))
  | _, [], _, _, b => ⟨[], .nil, rfl, fun _ _ => by rw [curlyText, typeset_nil]; rfl⟩
  | 0, _ :: _, h, _, _ => by simp at h
  | n + 1, c :: t, hn, h, b => by
    by_cases hc : Ordinary c
    · -- a stretch of ordinary characters
      obtain ⟨m, r, e, hm, hr⟩ : ∃ m r, c :: t = m ++ r ∧ (∀ x ∈ m, Ordinary x) ∧ (∀ x, r.head? = some x → ¬ Ordinary x) := by
        refine ⟨(c :: t).takeWhile (fun x => decide (Ordinary x)), (c :: t).dropWhile (fun x => decide (Ordinary x)),
          List.takeWhile_append_dropWhile.symm, ?_, ?_⟩
        · intro x hx
          exact of_decide_eq_true (List.mem_takeWhile_imp (p := fun x => decide (Ordinary x)) hx)
        · intro x hx
          have := List.head?_dropWhile_not (fun x => decide (Ordinary x)) (c :: t)
          rw [hx] at this
          simpa using this
      have hmne : m ≠ [] := by
        rintro rfl
        rw [List.nil_append] at e
        exact hr c (by rw [← e]; rfl) hc
      rw [e] at hn h ⊢
      have hrl : r.length ≤ n := by
        have : 1 ≤ m.length := by cases m with | nil => exact absurd rfl hmne | cons => simp
        simp only [List.length_append] at hn; omega
      obtain ⟨ts, p1, p2, p3⟩ := prose_text n hrl (fun x hx => h x (by simp [hx])) (b ++ m)
      have ea : Atom true m r [.text (typeset true m)] := .plain hmne hm fun x hx => ⟨hr x hx, by
        rintro rfl
        rcases h '\n' (List.mem_append_right _ (List.mem_of_head? hx)) with h | h | h
        · exact absurd h (by unfold Ordinary; decide)
        · cases h
        · cases h⟩
      have eb : (b ++ m).getLast? = m.getLast?.or b.getLast? := by
        rw [List.getLast?_append]
      obtain ⟨q1, q2⟩ := curlyText_ordinary hm b.getLast? r
      rw [eb] at p2 p3
      refine ⟨.span (.text (typeset true m)) :: ts, .seq (xs := [_]) (.atom (xs := [_]) (by rw [List.append_nil]; exact ea)) p1, ?_, fun safe soft => ?_⟩
      · rw [q2, ← p2]; rfl
      · rw [q1]
        have e3 : typeset true (m ++ curlyText (m.getLast?.or b.getLast?) r) = typeset true m ++ typeset true (curlyText (m.getLast?.or b.getLast?) r) := by
          cases r with
          | nil => rw [curlyText, typeset_nil]; simp
          | cons x r =>
            have hx : x = '\'' ∨ x = '"' := (h x (by simp)).resolve_left (hr x rfl)
            rw [curlyText]
            generalize hy : (if x = '"' then _ else _ : Char) = y
            have hy' : y ≠ '.' ∧ y ≠ '-' := by
              subst hy
              rcases hx with rfl | rfl
              · simp only [show ('\'' : Char) ≠ '"' by decide, if_false, if_true]
                split <;> exact ⟨by decide, by decide⟩
              · simp only [if_true]
                split <;> exact ⟨by decide, by decide⟩
            rw [typeset_append true hy'.1 hy'.2]
            have := typeset_append true hy'.1 hy'.2 [] (curlyText (some x) r)
            rw [List.nil_append, typeset_nil, List.nil_append] at this
            rw [this]
        rw [e3, escapeXml_append', ← p3 safe soft]
        simp [settle, spansHtml, spanHtml]
    · have hq : c = '\'' ∨ c = '"' := (h c (by simp)).resolve_left hc
      obtain ⟨ts, p1, p2, p3⟩ := prose_text n (t := t) (by simpa using hn) (fun x hx => h x (by simp [hx])) (b ++ [c])
      rw [List.getLast?_concat] at p2 p3
      refine ⟨.quote c (opensAt b.getLast? t.head?) (closesAt b.getLast? t.head?) :: ts,
        .seq (t := [c]) (xs := [_]) (.quote hq (by rw [List.append_nil]; exact opensAt_iff) (by rw [List.append_nil]; exact closesAt_iff)) p1, ?_, fun safe soft => ?_⟩
      · rw [closesNext, ← p2]
        rcases hq with rfl | rfl
        · cases opensAt b.getLast? t.head? <;> cases closesAt b.getLast? t.head? <;> simp [closedNext]
        · simp [closedNext]
      · have e : curlyText b.getLast? (c :: t) = curly c (opensAt b.getLast? t.head?) (closesAt b.getLast? t.head?) ts :: curlyText (some c) t := by
          rw [curlyText, curly, p2]
          rcases hq with rfl | rfl <;> simp
        have hy : ∀ o cl, curly c o cl ts ≠ '.' ∧ curly c o cl ts ≠ '-' := by
          intro o cl
          unfold curly
          split <;> split <;> exact ⟨by decide, by decide⟩
        have h3 := typeset_append true (hy (opensAt b.getLast? t.head?) (closesAt b.getLast? t.head?)).1 (hy _ _).2 [] (curlyText (some c) t)
        rw [List.nil_append, typeset_nil, List.nil_append] at h3
        rw [e, h3]
        have h4 := escapeXml_append' [curly c (opensAt b.getLast? t.head?) (closesAt b.getLast? t.head?) ts] (typeset true (curlyText (some c) t))
        rw [List.singleton_append] at h4
        rw [h4, ← p3 safe soft]
        simp [settle, spansHtml, spanHtml]

end CM
