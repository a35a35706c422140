import Verif.Proofs.LinkForms
import Verif.Proofs.Emphasis
import Verif.Proofs.Ticks
import Verif.Props.Smart
/-
Every inline node comes from the text: the inline parser keeps `Source`.
-/
set_option linter.unusedSimpArgs false
set_option linter.unusedVariables false
namespace CM
open Spec

variable {smart strict L : Bool} {refs : Str → Option RefDef} {S : Str}

/-! ### Source -/

theorem decodes_ne {m x : Str} (h : Decodes m x) : m ≠ [] := by
  obtain ⟨y, rfl⟩ := entity_amp ((decodes_entity h).1 [])
  simp

theorem linkTail_pos {i j k : Nat} {dest title : Str} (h : LinkTail strict refs S i j k dest title) : j < k := by
  cases h <;> omega

theorem source_pos {ts : List Tree} {i j : Nat} (h : Source smart strict refs S L ts i j) :
    i ≤ j ∧ (ts = [] → i = j) ∧ (ts ≠ [] → i < j) := by
  induction h with
  | nil => simp
  | append h1 h2 ih1 ih2 =>
    rename_i L a b i j k
    refine ⟨by omega, ?_, ?_⟩
    · intro e
      rw [List.append_eq_nil_iff] at e
      have := ih1.2.1 e.1; have := ih2.2.1 e.2; omega
    · intro e
      by_cases ha : a = []
      · have := ih1.2.1 ha
        have := ih2.2.2 (by rintro rfl; simp [ha] at e)
        omega
      · have := ih1.2.2 ha; omega
  | plain _ _ hm | smartPlain _ _ hm =>
    have := List.length_pos_of_ne_nil hm
    exact ⟨by omega, by simp, fun _ => by omega⟩
  | ref _ hm =>
    have := List.length_pos_of_ne_nil (decodes_ne hm)
    exact ⟨by omega, by simp, fun _ => by omega⟩
  | @html L i m r _ hm =>
    have : 0 < m.length := by
      cases m with
      | nil => have := (htmlTag_ends hm).1; simp at this
      | cons => simp
    exact ⟨by omega, by simp, fun _ => by omega⟩
  | lineEnd _ _ _ _ _ ih => exact ⟨by omega, by simp, fun _ => by omega⟩
  | link _ _ _ h4 ih => have := linkTail_pos h4; exact ⟨by omega, by simp, fun _ => by omega⟩
  | image _ _ _ _ h4 ih => have := linkTail_pos h4; exact ⟨by omega, by simp, fun _ => by omega⟩
  | _ => exact ⟨by omega, by simp, fun _ => by omega⟩

theorem source_mono {ts : List Tree} {i j : Nat} (h : Source smart strict refs S L ts i j) :
    Source smart strict refs S true ts i j := by
  induction h with
  | nil => exact .nil
  | append _ _ h1 h2 => exact .append h1 h2
  | plain a b c d e => exact .plain a b c d e
  | smartPlain a b c d e f => exact .smartPlain a b c d e f
  | escape a b => exact .escape a b
  | hardBreak a => exact .hardBreak a
  | backslash a b => exact .backslash a b
  | newline a b => exact .newline a b
  | lineEnd _ b c d e ih => exact .lineEnd ih b c d e
  | code a b c d e f g h => exact .code a b c d e f g h
  | ticks a b c d => exact .ticks a b c d
  | ref a b => exact .ref a b
  | amp a b => exact .amp a b
  | uri a b => exact .uri a b
  | email a b => exact .email a b
  | html a b => exact .html a b
  | less a b => exact .less a b
  | delims a b c => exact .delims a b c
  | emph a b _ ih => exact .emph a b ih
  | strong a b _ ih => exact .strong a b ih
  | quote a b c => exact .quote a b c
  | single a b c => exact .single a b c
  | double a b c => exact .double a b c
  | bang a b => exact .bang a b
  | openB a => exact .openB a
  | openImg a => exact .openImg a
  | closeB a => exact .closeB a
  | link a b c d _ => exact .link a b c d
  | image a b c d e ih => exact .image a b c ih e

theorem source_mono' {L' : Bool} {ts : List Tree} {i j : Nat} (h : Source smart strict refs S L ts i j)
    (hl : L = true → L' = true) : Source smart strict refs S L' ts i j := by
  cases L' with
  | true => exact source_mono h
  | false =>
    cases L with
    | true => exact absurd (hl rfl) (by simp)
    | false => exact h

theorem single_last {α : Type} {x t : α} {us : List α} (h : [x] = us ++ [t]) : us = [] ∧ t = x := by
  cases us with
  | nil => simp at h; exact ⟨rfl, h.symm⟩
  | cons a us => simp at h

/-- The last node, if it is a text. -/
theorem source_last {ts : List Tree} {i j : Nat} (h : Source smart strict refs S L ts i j) :
    ∀ {us : List Tree} {d : NodeData} {cs : List Tree}, ts = us ++ [.node d cs] → d.t = .text →
      (∃ l, Tree.node d cs = textNode l) ∧ ∃ m, Source smart strict refs S L us i m ∧
        Source smart strict refs S L [.node d cs] m j := by
  have key : ∀ {i j : Nat} {x : Tree} {us : List Tree} {d : NodeData} {cs : List Tree},
      Source smart strict refs S L [x] i j → [x] = us ++ [.node d cs] → (∃ l, x = textNode l) →
      (∃ l, Tree.node d cs = textNode l) ∧ ∃ m, Source smart strict refs S L us i m ∧
        Source smart strict refs S L [.node d cs] m j := by
    intro i j x us d cs hs e hl
    obtain ⟨rfl, rfl⟩ := single_last e
    exact ⟨hl, i, .nil, hs⟩
  have bad : ∀ {i j : Nat} {d' : NodeData} {cs' : List Tree} {us : List Tree} {d : NodeData} {cs : List Tree},
      [Tree.node d' cs'] = us ++ [.node d cs] → d.t = .text → d'.t ≠ .text → 
      (∃ l, Tree.node d cs = textNode l) ∧ ∃ m, Source smart strict refs S L us i m ∧
        Source smart strict refs S L [.node d cs] m j := by
    intro i j d' cs' us d cs e h1 h2
    obtain ⟨rfl, e⟩ := single_last e
    have e1 : d = d' := by cases e; rfl
    rw [e1] at h1
    exact absurd h1 h2
  induction h with
  | nil => intro us d cs e; simp at e
  | append h1 h2 ih1 ih2 =>
    intro us d cs e hd
    rcases List.append_eq_append_iff.1 e with ⟨a', e1, e2⟩ | ⟨c', e1, e2⟩
    · obtain ⟨hl, m, h3, h4⟩ := ih2 (fun h => key h) (fun e h1 h2 => bad e h1 h2) e2 hd
      refine ⟨hl, m, ?_, h4⟩
      rw [e1]; exact .append h1 h3
    · cases c' with
      | nil =>
        simp only [List.append_nil, List.nil_append] at e1 e2
        obtain ⟨hl, m, h3, h4⟩ := ih2 (fun h => key h) (fun e h1 h2 => bad e h1 h2) (us := []) e2.symm hd
        refine ⟨hl, m, ?_, h4⟩
        rw [← e1]
        have := (source_pos h3).2.1 rfl
        subst this
        exact h1
      | cons y c' =>
        simp only [List.cons_append, List.cons.injEq] at e2
        obtain ⟨rfl, e3⟩ := e2
        have e3' := List.append_eq_nil_iff.1 e3.symm
        obtain ⟨rfl, rfl⟩ := e3'
        obtain ⟨hl, m, h3, h4⟩ := ih1 (fun h => key h) (fun e h1 h2 => bad e h1 h2) e1 hd
        refine ⟨hl, m, h3, ?_⟩
        have := (source_pos h2).2.1 rfl
        subst this
        exact h4
  | plain a b c d e => intro us d cs e' hd; exact key (.plain a b c ‹_› ‹_›) e' ⟨_, rfl⟩
  | smartPlain a b c d e f => intro us d cs e' hd; exact key (.smartPlain a b c ‹_› ‹_› f) e' ⟨_, rfl⟩
  | escape a b => intro us d cs e' hd; exact key (.escape a b) e' ⟨_, rfl⟩
  | hardBreak a => intro us d cs e' hd; exact bad e' hd (by simp)
  | backslash a b => intro us d cs e' hd; exact key (.backslash a b) e' ⟨_, rfl⟩
  | newline a b => intro us d cs e' hd; exact bad e' hd (by simp)
  | lineEnd _ b c d e ih =>
    intro us d cs e' hd
    exfalso
    cases us with
    | nil => simp at e'
    | cons u us =>
      simp only [List.cons_append, List.cons.injEq] at e'
      obtain ⟨_, e⟩ := single_last e'.2
      revert e
      split <;> (intro e; cases e; simp at hd)
  | code a b c d e f g h => intro us d cs e' hd; exact bad e' hd (by simp)
  | ticks a b c d => intro us d cs e' hd; exact key (.ticks a b c ‹_›) e' ⟨_, rfl⟩
  | ref a b => intro us d cs e' hd; exact key (.ref a b) e' ⟨_, rfl⟩
  | amp a b => intro us d cs e' hd; exact key (.amp a b) e' ⟨_, rfl⟩
  | uri a b => intro us d cs e' hd; exact bad e' hd (by simp)
  | email a b => intro us d cs e' hd; exact bad e' hd (by simp)
  | html a b => intro us d cs e' hd; exact bad e' hd (by simp)
  | less a b => intro us d cs e' hd; exact key (.less a b) e' ⟨_, rfl⟩
  | delims a b c => intro us d cs e' hd; exact key (.delims a b c) e' ⟨_, rfl⟩
  | emph a b _ ih => intro us d cs e' hd; exact bad e' hd (by simp)
  | strong a b _ ih => intro us d cs e' hd; exact bad e' hd (by simp)
  | quote a b c => intro us d cs e' hd; exact key (.quote a b c) e' ⟨_, rfl⟩
  | single a b c => intro us d cs e' hd; exact key (.single a b c) e' ⟨_, rfl⟩
  | double a b c => intro us d cs e' hd; exact key (.double a b c) e' ⟨_, rfl⟩
  | bang a b => intro us d cs e' hd; exact key (.bang a b) e' ⟨_, rfl⟩
  | openB a => intro us d cs e' hd; exact key (.openB a) e' ⟨_, rfl⟩
  | openImg a => intro us d cs e' hd; exact key (.openImg a) e' ⟨_, rfl⟩
  | closeB a => intro us d cs e' hd; exact key (.closeB a) e' ⟨_, rfl⟩
  | link a b c d _ => intro us d cs e' hd; exact bad e' hd (by simp)
  | image a b c d e ih => intro us d cs e' hd; exact bad e' hd (by simp)

/-! ### Positions -/

theorem split_range {a b : List Nat} {i n : Nat} (h : a ++ b = List.range' i n) :
    a = List.range' i a.length ∧ b = List.range' (i + a.length) b.length := by
  have hn : n = a.length + b.length := by
    have := congrArg List.length h
    simpa using this.symm
  rw [hn, ← List.range'_append_1] at h
  exact List.append_inj h (by simp)

/-- Nodes that stand for these positions, if they are successive. -/
def RS (smart strict : Bool) (refs : Str → Option RefDef) (S : Str) (L : Bool) (ts : List Tree) (s : List Nat) : Prop :=
  ∀ i, s = List.range' i s.length → Source smart strict refs S L ts i (i + s.length)

/-- The position belongs to the node with this number; `info` has the place and length of each. -/
def DS (S : Str) (info : List (Nat × Nat)) (id : Nat) (c : Char) (x : Nat) : Prop :=
  ∃ p n, info[id]? = some (p, n) ∧ p ≤ x ∧ x < p + n ∧ S[x]? = some c

def OkS (S : Str) (info : List (Nat × Nat)) (d : Delim) : Prop :=
  ∃ p, info[d.node]? = some (p, d.origdelims) ∧ (d.cc = '*' ∨ d.cc = '_' → DelimRun S d.cc p d.origdelims ∧
    (d.canOpen = true ↔ RunOpens S d.cc p d.origdelims) ∧ (d.canClose = true ↔ RunCloses S d.cc p d.origdelims))

def Mono (info : List (Nat × Nat)) : Prop := info.Pairwise fun a b => a.1 + a.2 ≤ b.1

theorem rs_of_source {ts : List Tree} {i n : Nat} (hn : 1 ≤ n) (h : Source smart strict refs S L ts i (i + n)) :
    RS smart strict refs S L ts (List.range' i n) := by
  intro j e
  rw [List.length_range'] at e ⊢
  cases n with
  | zero => omega
  | succ n =>
    rw [List.range'_succ, List.range'_succ, List.cons.injEq] at e
    rw [← e.1]; exact h

theorem drop_replicate {c : Char} : ∀ (n i : Nat), (∀ x ∈ List.range' i n, S[x]? = some c) →
    ∃ r, S.drop i = List.replicate n c ++ r
  | 0, i, _ => ⟨S.drop i, rfl⟩
  | n + 1, i, h => by
    rw [List.range'_succ] at h
    obtain ⟨r, hr⟩ := drop_replicate n (i + 1) (fun x hx => h x (by simp [hx]))
    obtain ⟨hlt, he⟩ := List.getElem?_eq_some_iff.1 (h i (by simp))
    exact ⟨r, by rw [List.drop_eq_getElem_cons hlt, he, hr]; rfl⟩

theorem drop_one {c : Char} {i : Nat} (h : S[i]? = some c) : S.drop i = c :: S.drop (i + 1) := by
  obtain ⟨hlt, he⟩ := List.getElem?_eq_some_iff.1 h
  rw [List.drop_eq_getElem_cons hlt, he]

theorem tok_source {info : List (Nat × Nat)} {it : Item} {s : List Nat} (h : Tok (DS S info) smart it s) :
    RS smart strict refs S L [it.node] s := by
  intro i e
  cases h with
  | run h1 hc hd =>
    rename_i k c
    obtain ⟨r, hr⟩ := drop_replicate (S := S) (c := c) s.length i (by
      rw [← e]; intro x hx; obtain ⟨_, _, _, _, _, h⟩ := hd x hx; exact h)
    exact .delims hr h1 hc
  | single hs hq hd =>
    obtain ⟨_, _, _, _, _, h⟩ := hd
    simp at e; subst e
    refine .single hs (drop_one h) ?_
    rcases hq with rfl | rfl
    · right; decide
    · left; decide
  | double hs hq hd =>
    obtain ⟨_, _, _, _, _, h⟩ := hd
    simp at e; subst e
    refine .double hs (drop_one h) ?_
    rcases hq with rfl | rfl
    · left; decide
    · right; decide
  | openB hd =>
    obtain ⟨_, _, _, _, _, h⟩ := hd
    simp at e; subst e
    exact .openB (drop_one h)
  | openI h1 h2 =>
    obtain ⟨_, _, _, _, _, h1⟩ := h1
    obtain ⟨_, _, _, _, _, h2⟩ := h2
    simp [List.range'_succ] at e
    obtain ⟨rfl, rfl⟩ := e
    exact .openImg (by rw [drop_one h1, drop_one h2])

theorem mono_lt {info : List (Nat × Nat)} (hm : Mono info) {i j p m q n : Nat} (h : i < j) (h1 : info[i]? = some (p, m))
    (h2 : info[j]? = some (q, n)) : p + m ≤ q := by
  obtain ⟨hi, e1⟩ := List.getElem?_eq_some_iff.1 h1
  obtain ⟨hj, e2⟩ := List.getElem?_eq_some_iff.1 h2
  have := List.pairwise_iff_getElem.1 hm i j hi hj h
  rw [e1, e2] at this
  exact this

theorem rs_append {a b : List Tree} {s t : List Nat} (h1 : RS smart strict refs S L a s) (h2 : RS smart strict refs S L b t) :
    RS smart strict refs S L (a ++ b) (s ++ t) := by
  intro i e
  obtain ⟨e1, e2⟩ := split_range e
  have := Source.append (h1 i e1) (h2 _ e2)
  rw [List.length_append, ← Nat.add_assoc]
  exact this

theorem emphRel_source {info : List (Nat × Nat)} (hm : Mono info) :
    EmphRel (DS S info) (OkS S info) smart (RS smart strict refs S L) where
  nil := by intro i e; exact .nil
  append := rs_append
  tok := fun _ h => tok_source h
  num := by
    rintro d n ⟨p, h1, h2⟩
    exact ⟨p, h1, h2⟩
  wrap := by
    intro op cl use ts s xs ys hc hcc hop hcl h0 h0' hlt ho hcl' hodd huse hx hy hdx hdy hr i e
    rw [List.append_assoc] at e
    obtain ⟨e1, e2⟩ := split_range e
    obtain ⟨e2, e3⟩ := split_range e2
    have hs := hr _ e2
    obtain ⟨p, hp, hp'⟩ := hop
    obtain ⟨q, hq, hq'⟩ := hcl
    obtain ⟨r1, r2, r3⟩ := hp' (by rw [hcc]; exact hc)
    obtain ⟨q1, q2, q3⟩ := hq' hc
    rw [hcc] at r1 r2 r3
    have hpq := mono_lt hm hlt hp hq
    have inx : ∀ x ∈ xs, p ≤ x ∧ x < p + op.origdelims := by
      intro x hx
      obtain ⟨p', n', h1, h2, h3, _⟩ := hdx x hx
      rw [hp] at h1
      simp only [Option.some.injEq, Prod.mk.injEq] at h1
      obtain ⟨rfl, rfl⟩ := h1
      exact ⟨h2, h3⟩
    have iny : ∀ x ∈ ys, q ≤ x ∧ x < q + cl.origdelims := by
      intro x hx
      obtain ⟨p', n', h1, h2, h3, _⟩ := hdy x hx
      rw [hq] at h1
      simp only [Option.some.injEq, Prod.mk.injEq] at h1
      obtain ⟨rfl, rfl⟩ := h1
      exact ⟨h2, h3⟩
    rw [hx] at e1 hs e2 e3
    rw [hy] at e3
    have mx : ∀ k, k < use → p ≤ i + k ∧ i + k < p + op.origdelims := by
      intro k hk
      refine inx _ ?_
      rw [e1, List.mem_range'_1]; omega
    have my : ∀ k, k < use → q ≤ i + use + s.length + k ∧ i + use + s.length + k < q + cl.origdelims := by
      intro k hk
      refine iny _ ?_
      rw [e3, List.mem_range'_1]; omega
    have hpair : Paired S cl.cc use i (i + use + s.length) := by
      have hu : 1 ≤ use := by omega
      have h1 := mx 0 (by omega)
      have h2 := mx (use - 1) (by omega)
      have h3 := my 0 (by omega)
      have h4 := my (use - 1) (by omega)
      refine ⟨p, op.origdelims, q, cl.origdelims, r1, q1, by omega, by omega, hpq, by omega, by omega,
        r2.1 ho, q3.1 hcl', ?_⟩
      rintro ⟨ha, hb, hnot⟩
      have : isOddMatch op cl = true := by
        simp only [isOddMatch, Bool.and_eq_true, Bool.or_eq_true, bne_iff_ne, beq_iff_eq]
        refine ⟨⟨?_, ?_⟩, by omega⟩
        · rcases ha with ha | ha
          · exact Or.inl (q2.2 ha)
          · exact Or.inr (r3.2 ha)
        · intro hz; apply hnot; omega
      rw [hodd] at this; cases this
    rcases huse with rfl | rfl
    · have := Source.emph (smart := smart) (strict := strict) (refs := refs) hc hpair hs
      have e' : i + (xs ++ s ++ ys).length = i + 1 + s.length + 1 := by simp [hx, hy]; omega
      rw [e']; exact this
    · have := Source.strong (smart := smart) (strict := strict) (refs := refs) hc hpair hs
      have e' : i + (xs ++ s ++ ys).length = i + 2 + s.length + 2 := by simp [hx, hy]; omega
      rw [e']; exact this

/-! ### The children and the bracket stack -/

theorem Tok.mono {α : Type} {D D' : Nat → Char → α → Prop} (hd : ∀ i c x, D i c x → D' i c x) {it : Item} {s : List α}
    (h : Tok D smart it s) : Tok D' smart it s := by
  cases h with
  | run h1 h2 h3 => exact .run h1 h2 fun x hx => hd _ _ _ (h3 x hx)
  | single h1 h2 h3 => exact .single h1 h2 (hd _ _ _ h3)
  | double h1 h2 h3 => exact .double h1 h2 (hd _ _ _ h3)
  | openB h => exact .openB (hd _ _ _ h)
  | openI h h' => exact .openI (hd _ _ _ h) (hd _ _ _ h')

theorem Seg.mono {α : Type} {D D' : Nat → Char → α → Prop} {R R' : List Tree → List α → Prop}
    (hd : ∀ i c x, D i c x → D' i c x) (hr : ∀ ts s, R ts s → R' ts s) {its : List Item} {s : List α}
    (h : Seg D smart R its s) : Seg D' smart R' its s := by
  induction h with
  | nil => exact .nil
  | run h1 h2 _ ih => exact .run h1 (hr _ _ h2) ih
  | tok h1 h2 _ ih => exact .tok h1 (h2.mono hd) ih

theorem ds_more {info : List (Nat × Nat)} {e : Nat × Nat} (i : Nat) (c : Char) (x : Nat) (h : DS S info i c x) :
    DS S (info ++ [e]) i c x := by
  obtain ⟨p, n, h1, h2⟩ := h
  refine ⟨p, n, ?_, h2⟩
  rw [List.getElem?_append_left (List.getElem?_eq_some_iff.1 h1).1]
  exact h1

theorem oks_more {info : List (Nat × Nat)} {e : Nat × Nat} {d : Delim} (h : OkS S info d) : OkS S (info ++ [e]) d := by
  obtain ⟨p, h1, h2⟩ := h
  refine ⟨p, ?_, h2⟩
  rw [List.getElem?_append_left (List.getElem?_eq_some_iff.1 h1).1]
  exact h1

/-- No link in brackets may appear now without making an opening bracket inactive. -/
def flagOf (bs : List Bracket) : Bool := !(bs.any fun b => b.active && !b.image)

def OpenWord (S : Str) (b : Bracket) (w : List Nat) : Prop :=
  (b.image = false ∧ w = [b.index] ∧ S[b.index]? = some '[') ∨
  (b.image = true ∧ ∃ k, b.index = k + 1 ∧ w = [k, k + 1] ∧ S[k]? = some '!' ∧ S[k + 1]? = some '[')

inductive BrInv (smart strict : Bool) (refs : Str → Option RefDef) (S : Str) (info : List (Nat × Nat)) :
    List Bracket → List Item → List Nat → Prop
  | nil {its : List Item} {w : List Nat} : Seg (DS S info) smart (RS smart strict refs S true) its w →
      BrInv smart strict refs S info [] its w
  | cons {b : Bracket} {bs : List Bracket} {pre post : List Item} {w1 w0 w2 : List Nat} {t : Tree} :
      BrInv smart strict refs S info bs pre w1 → b.node ≠ 0 → Tok (DS S info) smart ⟨b.node, t⟩ w0 → OpenWord S b w0 →
      Seg (DS S info) smart (RS smart strict refs S (flagOf (b :: bs))) post w2 →
      BrInv smart strict refs S info (b :: bs) (pre ++ ⟨b.node, t⟩ :: post) (w1 ++ (w0 ++ w2))

variable {info : List (Nat × Nat)}

theorem BrInv.more {e : Nat × Nat} {bs : List Bracket} {its : List Item} {w : List Nat}
    (h : BrInv smart strict refs S info bs its w) : BrInv smart strict refs S (info ++ [e]) bs its w := by
  induction h with
  | nil h => exact .nil (h.mono ds_more fun _ _ h => h)
  | cons _ h1 h2 h3 h4 ih => exact .cons ih h1 (h2.mono ds_more) h3 (h4.mono ds_more fun _ _ h => h)

theorem BrInv.push {bs : List Bracket} {its its' : List Item} {w w' : List Nat} (h : BrInv smart strict refs S info bs its w)
    (h' : Seg (DS S info) smart (RS smart strict refs S (flagOf bs)) its' w') :
    BrInv smart strict refs S info bs (its ++ its') (w ++ w') := by
  cases h with
  | nil h => exact .nil (h.append h')
  | cons h0 h1 h2 h3 h4 =>
    rw [List.append_assoc, List.append_assoc, List.append_assoc, List.cons_append]
    exact .cons h0 h1 h2 h3 (h4.append h')

theorem rs_mono {L' : Bool} (hl : L = true → L' = true) (ts : List Tree) (s : List Nat)
    (h : RS smart strict refs S L ts s) : RS smart strict refs S L' ts s :=
  fun i e => source_mono' (h i e) hl

theorem flagOf_cons {b : Bracket} {bs : List Bracket} (h : flagOf (b :: bs) = true) : flagOf bs = true := by
  simp only [flagOf, List.any_cons, Bool.not_or, Bool.and_eq_true] at h
  exact h.2

theorem BrInv.pop {b : Bracket} {bs : List Bracket} {its : List Item} {w : List Nat}
    (h : BrInv smart strict refs S info (b :: bs) its w) : BrInv smart strict refs S info bs its w := by
  cases h with
  | cons h0 h1 h2 h3 h4 =>
    refine h0.push (.tok h1 h2 (h4.mono (fun _ _ _ h => h) (rs_mono flagOf_cons)))

theorem BrInv.toSeg {bs : List Bracket} {its : List Item} {w : List Nat}
    (h : BrInv smart strict refs S info bs its w) : Seg (DS S info) smart (RS smart strict refs S true) its w := by
  induction bs generalizing its w with
  | nil => cases h with | nil h => exact h
  | cons b bs ih => exact ih h.pop

theorem flagOf_deactivate (bs : List Bracket) : flagOf (deactivate bs) = true := by
  induction bs with
  | nil => rfl
  | cons b bs ih =>
    simp only [flagOf, deactivate, List.map_cons, List.any_cons, Bool.not_or, Bool.and_eq_true] at ih ⊢
    refine ⟨?_, ih⟩
    cases hb : b.image <;> simp [hb]

theorem BrInv.deact {bs : List Bracket} {its : List Item} {w : List Nat}
    (h : BrInv smart strict refs S info bs its w) : BrInv smart strict refs S info (deactivate bs) its w := by
  induction h with
  | nil h => exact .nil h
  | @cons b bs pre post w1 w0 w2 t _ h1 h2 h3 h4 ih =>
    have e : ∃ b', deactivate (b :: bs) = b' :: deactivate bs ∧ b'.node = b.node ∧ b'.image = b.image ∧
        b'.index = b.index := by
      refine ⟨if b.image then b else { b with active := false }, rfl, ?_⟩
      split <;> simp
    obtain ⟨b', e, e1, e2, e3⟩ := e
    have hf := flagOf_deactivate (b :: bs)
    rw [e] at hf ⊢
    rw [← e1] at h1 h2 ⊢
    refine .cons ih h1 h2 ?_ (h4.mono (fun _ _ _ h => h) (rs_mono (fun _ => hf)))
    unfold OpenWord at h3 ⊢
    rw [e2, e3]; exact h3

theorem tok_last {α : Type} {D : Nat → Char → α → Prop} {i : Nat} {d : NodeData} {cs : List Tree} {l : Str} {s : List α}
    (h : Tok D smart ⟨i, .node d cs⟩ s) (hl : d.literal = some l) : l.getLast? ≠ some ' ' := by
  generalize e : (⟨i, .node d cs⟩ : Item) = it at h
  cases h with
  | run h1 hc _ =>
    rename_i j c
    simp only [textNode, Item.mk.injEq] at e
    obtain ⟨_, e⟩ := e
    cases e
    simp only [Option.some.injEq] at hl
    subst hl
    rw [List.getLast?_replicate]
    split
    · simp
    · rcases hc with rfl | rfl <;> simp
  | single _ hq _ =>
    simp only [textNode, Item.mk.injEq] at e
    obtain ⟨_, e⟩ := e
    cases e
    simp only [Option.some.injEq] at hl
    subst hl
    rcases hq with rfl | rfl <;> decide
  | double _ hq _ =>
    simp only [textNode, Item.mk.injEq] at e
    obtain ⟨_, e⟩ := e
    cases e
    simp only [Option.some.injEq] at hl
    subst hl
    rcases hq with rfl | rfl <;> decide
  | openB _ =>
    simp only [textNode, Item.mk.injEq] at e
    obtain ⟨_, e⟩ := e
    cases e
    simp only [Option.some.injEq] at hl
    subst hl
    decide
  | openI _ _ =>
    simp only [textNode, Item.mk.injEq] at e
    obtain ⟨_, e⟩ := e
    cases e
    simp only [Option.some.injEq] at hl
    subst hl
    decide

theorem seg_nil {its : List Item} {w : List Nat} (h : Seg (DS S info) smart (RS smart strict refs S L) its w) :
    its = [] → ∀ k n, w = List.range' k n → w = [] := by
  induction h with
  | nil => intros; rfl
  | run h0 hr _ ih =>
    intro e k n hw
    rw [List.append_eq_nil_iff] at e
    obtain ⟨e1, e2⟩ := split_range hw
    have h2 := ih e.2 _ _ e2
    have := hr _ e1
    rw [e.1] at this
    have := (source_pos this).2.1 rfl
    rw [h2, List.append_nil, ← List.length_eq_zero_iff]
    omega
  | tok => intro e; simp at e

theorem seg_last {ts : List Item} {w : List Nat} (h : Seg (DS S info) smart (RS smart strict refs S L) ts w) :
    ∀ {its : List Item} {i : Nat} {d : NodeData} {cs : List Tree}, ts = its ++ [⟨i, .node d cs⟩] → d.t = .text →
    ∀ k n, w = List.range' k n → (∃ w', Tok (DS S info) smart ⟨i, .node d cs⟩ w') ∨
      (i = 0 ∧ ∃ w1 w2, w = w1 ++ w2 ∧ Seg (DS S info) smart (RS smart strict refs S L) its w1 ∧
        RS smart strict refs S L [.node d cs] w2 ∧ ∃ l, Tree.node d cs = textNode l) := by
  induction h with
  | nil => intro its i d cs e; simp at e
  | @tok it its' s s' h0 ht hseg ih =>
    intro its i d cs e hd k n hw
    cases its with
    | nil =>
      simp only [List.nil_append, List.cons.injEq] at e
      left
      exact ⟨s, by rw [← e.1]; exact ht⟩
    | cons x its =>
      simp only [List.cons_append, List.cons.injEq] at e
      obtain ⟨_, e2⟩ := split_range hw
      rcases ih e.2 hd _ _ e2 with h | ⟨rfl, w1, w2, h1, h2, h3⟩
      · exact Or.inl h
      · refine Or.inr ⟨rfl, s ++ w1, w2, by rw [h1, List.append_assoc], ?_, h3⟩
        rw [← e.1]
        exact .tok h0 ht h2
  | @run a its' s s' h0 hr hseg ih =>
    intro its i d cs e hd k n hw
    obtain ⟨e1, e2⟩ := split_range hw
    rcases List.eq_nil_or_concat its' with rfl | ⟨u, x, rfl⟩
    · have hs' := seg_nil hseg rfl _ _ e2
      rw [List.append_nil] at e
      rw [e] at hr h0
      have hi : i = 0 := h0 ⟨i, .node d cs⟩ (by simp)
      right
      refine ⟨hi, ?_⟩
      have hsrc := hr k e1
      rw [List.map_append, List.map_cons, List.map_nil] at hsrc
      obtain ⟨hl, m, hm1, hm2⟩ := source_last hsrc rfl hd
      have p1 := source_pos hm1
      have p2 := (source_pos hm2).2.2 (by simp)
      refine ⟨List.range' k (m - k), List.range' m (k + s.length - m), ?_, ?_, ?_, hl⟩
      · rw [hs', List.append_nil]
        conv => lhs; rw [e1]
        have := List.range'_append_1 (s := k) (m := m - k) (n := k + s.length - m)
        rw [show k + (m - k) = m by omega, show m - k + (k + s.length - m) = s.length by omega] at this
        exact this.symm
      · by_cases hk : m = k
        · have : its = [] := by
            refine Classical.byContradiction fun hne => ?_
            have := p1.2.2 (by simpa using hne)
            omega
          subst this; subst hk
          simp
          exact .nil
        · have := rs_of_source (n := m - k) (by omega) (by rw [show k + (m - k) = m by omega]; exact hm1)
          have h := Seg.run (D := DS S info) (smart := smart) (its := its) (its' := []) (fun it hit => h0 it (by simp [hit])) this .nil
          simpa using h
      · exact rs_of_source (by omega) (by rw [show m + (k + s.length - m) = k + s.length by omega]; exact hm2)
    · rw [List.concat_eq_append, ← List.append_assoc] at e
      obtain ⟨e3, e4⟩ := List.append_inj' e rfl
      simp only [List.cons.injEq, and_true] at e4
      rcases ih (its := u) (by rw [e4, List.concat_eq_append]) hd _ _ e2 with h | ⟨rfl, w1, w2, h1, h2, h3⟩
      · exact Or.inl h
      · refine Or.inr ⟨rfl, s ++ w1, w2, by rw [h1, List.append_assoc], ?_, h3⟩
        rw [← e3]
        exact .run h0 hr h2

theorem BrInv.last {bs : List Bracket} {ts : List Item} {w : List Nat} (h : BrInv smart strict refs S info bs ts w)
    {its : List Item} {i : Nat} {d : NodeData} {cs : List Tree} {l : Str} (e : ts = its ++ [⟨i, .node d cs⟩])
    (hd : d.t = .text) (hl : d.literal = some l) (hsp : l.getLast? = some ' ') {k n : Nat} (hw : w = List.range' k n) :
    i = 0 ∧ ∃ w1 w2, w = w1 ++ w2 ∧ BrInv smart strict refs S info bs its w1 ∧
      RS smart strict refs S (flagOf bs) [.node d cs] w2 ∧ ∃ l, Tree.node d cs = textNode l := by
  cases h with
  | nil h =>
    rcases seg_last h e hd _ _ hw with ⟨_, h⟩ | ⟨h1, w1, w2, h2, h3, h4⟩
    · exact absurd hsp (tok_last h hl)
    · exact ⟨h1, w1, w2, h2, .nil h3, h4⟩
  | @cons b bs pre post w1 w0 w2 t h0 h1 h2 h3 h4 =>
    rcases List.eq_nil_or_concat post with rfl | ⟨u, x, rfl⟩
    · obtain ⟨e3, e4⟩ := List.append_inj' e rfl
      simp only [List.cons.injEq, and_true] at e4
      rw [e4] at h2
      exact absurd hsp (tok_last h2 hl)
    · have e' : (pre ++ ⟨b.node, t⟩ :: u) ++ [x] = its ++ [⟨i, .node d cs⟩] := by rw [← e]; simp
      obtain ⟨e3, e4⟩ := List.append_inj' e' rfl
      simp only [List.cons.injEq, and_true] at e4
      obtain ⟨_, e2⟩ := split_range hw
      obtain ⟨_, e2⟩ := split_range e2
      rcases seg_last h4 (its := u) (by rw [e4, List.concat_eq_append]) hd _ _ e2 with ⟨_, h⟩ | ⟨g1, v1, v2, g2, g3, g4⟩
      · exact absurd hsp (tok_last h hl)
      · refine ⟨g1, w1 ++ (w0 ++ v1), v2, by rw [g2]; simp, ?_, g4⟩
        rw [← e3]
        exact .cons h0 h1 h2 h3 g3

end CM
