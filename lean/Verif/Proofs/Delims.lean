import Verif.Spec.Delims
import Verif.Proofs.PhraseHtml
/-
The stack of delimiters of `processEmphasis` against the openers of `Spec.Halfway`.
-/
set_option linter.unusedVariables false
namespace CM
open Spec

/-! ### Openers and siblings -/

/-- It may open emphasis. -/
def emphOpener (d : Delim) : Bool := d.canOpen && (d.cc == '*' || d.cc == '_')

/-- The siblings `its` hold the openers `fs` with their delimiters, after `base`. -/
inductive Lay : List Opener → List Span → List Delim → List Item → Prop
  | base {base : List Span} {its : List Item} : its.map (·.node) = spanTrees base → Lay [] base [] its
  | opener {fs : List Opener} {base : List Span} {ops : List Delim} {its mid : List Item} {c : Char} {n : Nat} {inner : List Span} {op : Delim} :
      Lay fs base ops its → mid.map (·.node) = spanTrees inner → op.cc = c → op.numdelims = n → 1 ≤ n → 1 ≤ op.node →
      (∀ it ∈ its, it.id < op.node) → (∀ it ∈ mid, it.id = 0 ∨ op.node < it.id) →
      Lay (⟨c, n, op.origdelims, op.canClose, inner⟩ :: fs) base (op :: ops) (its ++ ⟨op.node, textNode (List.replicate n c)⟩ :: mid)

theorem Lay.nodes {fs : List Opener} {base : List Span} {ops : List Delim} {its : List Item} (h : Lay fs base ops its) :
    its.map (·.node) = spanTrees (unopened fs base) := by
  induction h with
  | base h => exact h
  | opener _ h1 _ _ _ _ _ _ ih =>
    rw [List.map_append, List.map_cons, ih, h1, unopened, spanTrees_append, spanTrees]
    rfl

/-- Every opener has its node among the siblings. -/
theorem Lay.mem {fs : List Opener} {base : List Span} {ops : List Delim} {its : List Item} (h : Lay fs base ops its) :
    ∀ d ∈ ops, ∃ it ∈ its, it.id = d.node ∧ it.node = textNode (List.replicate d.numdelims d.cc) ∧ 1 ≤ d.numdelims := by
  induction h with
  | base h => simp
  | @opener fs base ops its mid c n inner op _ h1 h2 h3 h4 _ _ _ ih =>
    intro d hd
    rcases List.mem_cons.1 hd with rfl | hd
    · exact ⟨_, List.mem_append_right _ List.mem_cons_self, rfl, by rw [h2, h3], by omega⟩
    · obtain ⟨it, hit, h⟩ := ih d hd
      exact ⟨it, List.mem_append_left _ hit, h⟩

/-- More content. -/
theorem Lay.put {fs : List Opener} {base : List Span} {ops : List Delim} {its mid : List Item} {ys : List Span} (h : Lay fs base ops its)
    (hm : mid.map (·.node) = spanTrees ys) (hid : ∀ it ∈ mid, it.id = 0 ∨ ∀ d ∈ ops, d.node < it.id) :
    Lay (Halfway.put ys ⟨fs, base⟩).openers (Halfway.put ys ⟨fs, base⟩).base ops (its ++ mid) := by
  cases h with
  | base h => exact .base (by rw [List.map_append, h, hm]; exact (spanTrees_append ..).symm)
  | opener h h1 h2 h3 h4 h5 h6 h7 =>
    rw [List.append_assoc, List.cons_append]
    refine .opener h (by rw [List.map_append, h1, hm, spanTrees_append]) h2 h3 h4 h5 h6 fun it hit => ?_
    rcases List.mem_append.1 hit with hit | hit
    · exact h7 it hit
    · exact (hid it hit).imp_right fun h => h _ (by simp)

theorem kept_odd {f : Opener} {d cl : Delim} (h1 : f.length = d.origdelims) (h2 : f.closes = d.canClose) :
    f.kept cl.origdelims cl.canOpen = isOddMatch d cl := by
  rw [Bool.eq_iff_iff]
  simp only [Opener.kept, isOddMatch, h1, h2, Bool.and_eq_true, Bool.or_eq_true, beq_iff_eq, bne_iff_ne, Bool.not_eq_true', ne_eq,
    Bool.and_eq_false_iff, beq_eq_false_iff_ne]
  constructor
  · rintro ⟨⟨a, b⟩, c⟩
    exact ⟨⟨a.symm, by omega⟩, b⟩
  · rintro ⟨⟨a, b⟩, c⟩
    exact ⟨⟨a.symm, c⟩, .inr b⟩

/-- The nearest opener for a closer. -/
theorem Lay.take {cl : Delim} {fs : List Opener} {base : List Span} {ops : List Delim} {its : List Item} (h : Lay fs base ops its) :
    (takeOpener cl.cc cl.origdelims cl.canOpen fs = none ∧ ∀ d ∈ ops, d.cc = cl.cc → isOddMatch d cl = true) ∨
    ∃ above f fs' o1 op o2 pre inner, takeOpener cl.cc cl.origdelims cl.canOpen fs = some (above, f, fs') ∧ ops = o1 ++ op :: o2 ∧
      (∀ d ∈ o1, d.cc = cl.cc → isOddMatch d cl = true) ∧ op.cc = cl.cc ∧
      op.numdelims = f.n ∧ 1 ≤ f.n ∧ 1 ≤ op.node ∧ Lay fs' base o2 pre ∧ its = pre ++ ⟨op.node, textNode (List.replicate f.n cl.cc)⟩ :: inner ∧
      inner.map (·.node) = spanTrees (f.inner ++ above) ∧ (∀ it ∈ pre, it.id < op.node) ∧ (∀ it ∈ inner, it.id = 0 ∨ op.node < it.id) ∧
      isOddMatch op cl = false ∧ f.c = cl.cc ∧ f.length = op.origdelims ∧ f.closes = op.canClose := by
  induction h with
  | base h => exact .inl ⟨rfl, by simp⟩
  | @opener fs base ops its mid x n inn op h h1 h2 h3 h4 h5 h6 h7 ih =>
    have hk := kept_odd (f := ⟨x, n, op.origdelims, op.canClose, inn⟩) (d := op) (cl := cl) rfl rfl
    by_cases hx : x = cl.cc ∧ isOddMatch op cl = false
    · right
      refine ⟨[], ⟨x, n, op.origdelims, op.canClose, inn⟩, fs, [], op, ops, its, mid, ?_, rfl, by simp, h2.trans hx.1, h3, h4, h5, h, ?_, ?_, h6, h7, hx.2, hx.1, rfl, rfl⟩
      · rw [takeOpener, if_pos ⟨hx.1, by rw [hk]; exact hx.2⟩]
      · rw [hx.1]
      · rw [List.append_nil]; exact h1
    · have ht : ∀ {fs}, takeOpener cl.cc cl.origdelims cl.canOpen (⟨x, n, op.origdelims, op.canClose, inn⟩ :: fs) =
          match takeOpener cl.cc cl.origdelims cl.canOpen fs with
          | none => none
          | some (above, g, r') => some (above ++ .text (List.replicate n x) :: inn, g, r') := by
        intro fs
        rw [takeOpener, if_neg (by rw [hk]; exact hx)]
        cases takeOpener cl.cc cl.origdelims cl.canOpen fs <;> rfl
      have hop : op.cc = cl.cc → isOddMatch op cl = true := by
        intro he
        rw [← Bool.not_eq_false]
        exact fun h0 => hx ⟨h2.symm.trans he, h0⟩
      rcases ih with ⟨g1, g2⟩ | ⟨above, f, fs', o1, o, o2, pre, inner, g1, g2, g3, g4, g5, g6, g7, g8, g9, g10, g11, g12, g13⟩
      · left
        refine ⟨by rw [ht, g1], fun d hd => ?_⟩
        rcases List.mem_cons.1 hd with rfl | hd
        · exact hop
        · exact g2 d hd
      · right
        have hlt : o.node < op.node := h6 ⟨o.node, _⟩ (by rw [g9]; exact List.mem_append_right _ List.mem_cons_self)
        refine ⟨above ++ .text (List.replicate n x) :: inn, f, fs', op :: o1, o, o2, pre, inner ++ ⟨op.node, textNode (List.replicate n x)⟩ :: mid,
          by rw [ht, g1], by rw [g2]; rfl, ?_, g4, g5, g6, g7, g8, by rw [g9]; simp, ?_, g11, ?_, g13⟩
        · intro d hd
          rcases List.mem_cons.1 hd with rfl | hd
          · exact hop
          · exact g3 d hd
        · rw [List.map_append, List.map_cons, g10, h1, ← List.append_assoc, spanTrees_append (f.inner ++ above), spanTrees]
          rfl
        · intro it hit
          rcases List.mem_append.1 hit with hit | hit
          · exact g12 it hit
          · rcases List.mem_cons.1 hit with rfl | hit
            · exact .inr hlt
            · rcases h7 it hit with h | h
              · exact .inl h
              · exact .inr (by omega)

/-- The search finds nothing: what was compared last. -/
theorem findOpener_last {cl : Delim} {bot : Option Nat} : ∀ {B : List Delim} {odd : Bool},
    (∀ d ∈ B, d.cc = cl.cc → d.canOpen = true → isOddMatch d cl = true) →
    ∃ odd', findOpener cl bot B odd = (none, odd') ∧
      (bot = none → odd' = match B.getLast? with | none => odd | some d => isOddMatch d cl)
  | [], odd, _ => ⟨odd, rfl, fun _ => rfl⟩
  | d :: B, odd, hc => by
    rw [findOpener]
    have e2 := hc d (by simp)
    have : (d.cc == cl.cc && d.canOpen && !isOddMatch d cl) = false := by
      rw [Bool.eq_false_iff]; intro h
      simp only [Bool.and_eq_true, beq_iff_eq, Bool.not_eq_true'] at h
      rw [e2 h.1.1 h.1.2] at h
      exact absurd h.2 (by simp)
    split
    · rename_i hb
      refine ⟨odd, rfl, fun h => ?_⟩
      rw [h] at hb; simp at hb
    · simp only [this, Bool.false_eq_true, if_false]
      obtain ⟨odd', h1, h2⟩ := findOpener_last (B := B) (bot := bot) (odd := isOddMatch d cl) fun x hx => hc x (by simp [hx])
      refine ⟨odd', h1, fun hb => ?_⟩
      rw [h2 hb]
      cases B with
      | nil => rfl
      | cons y B => rfl

/-- A delimiter that finds nothing to close. -/
theorem emphStep_left {B R : List Delim} {its : List Item} {bot : Char → Option Nat} {odd : Bool} {cl : Delim}
    (hcc : cl.cc = '*' ∨ cl.cc = '_') (h : cl.canClose = false ∨ ∀ d ∈ B, d.cc = cl.cc → d.canOpen = true → isOddMatch d cl = true) :
    ∃ B' bot' odd', emphStep ⟨B, cl :: R, its, bot, odd⟩ cl R = ⟨B', R, its, bot', odd'⟩ ∧
      (B' = cl :: B ∧ bot' = bot ∧ (cl.canClose = false ∨ odd' = true) ∨
        cl.canClose = true ∧ odd' = false ∧ (B' = cl :: B ∧ cl.canOpen = true ∨ B' = B ∧ cl.canOpen = false) ∧
        bot' = fun ch => if ch == cl.cc then B.head?.map (·.node) else bot ch) ∧
      (cl.canClose = true → bot cl.cc = none → odd' = match B.getLast? with | none => odd | some d => isOddMatch d cl) := by
  unfold emphStep
  by_cases hc : cl.canClose = true
  · have h := h.resolve_left (by simp [hc])
    obtain ⟨odd', hf, hl⟩ := findOpener_last (bot := bot cl.cc) (odd := odd) h
    have e6 : (cl.cc == '*' || cl.cc == '_') = true := by rcases hcc with h | h <;> rw [h] <;> rfl
    simp only [hc, Bool.not_true, Bool.false_eq_true, if_false, hf, e6, if_true]
    cases odd' with
    | true => exact ⟨_, _, _, rfl, .inl ⟨rfl, rfl, .inr rfl⟩, fun _ => hl⟩
    | false =>
      refine ⟨_, _, _, rfl, .inr ⟨trivial, rfl, ?_, rfl⟩, fun _ => hl⟩
      cases hco : cl.canOpen with
      | true => exact .inl ⟨rfl, rfl⟩
      | false => exact .inr ⟨rfl, rfl⟩
  · have hc : cl.canClose = false := by simpa using hc
    simp only [hc, Bool.not_false, if_true]
    exact ⟨_, _, _, rfl, .inl ⟨rfl, rfl, .inl trivial⟩, fun h => absurd h (by simp)⟩

theorem pairwise_all {α : Type} {r : α → α → Prop} : ∀ {l : List α}, (∀ a ∈ l, ∀ b ∈ l, r a b) → l.Pairwise r
  | [], _ => .nil
  | x :: l, h => .cons (fun b hb => h x (by simp) b (by simp [hb])) (pairwise_all fun a ha b hb => h a (by simp [ha]) b (by simp [hb]))

/-! ### The state -/

/-- The state of `processEmphasis` before the delimiters with nodes from `i` on. -/
structure Stack (one : Bool) (full : List Chunk) (st : Halfway) (i : Nat) (B : List Delim) (pre : List Item) (bot : Char → Option Nat)
    (odd : Bool) : Prop where
  pos : 1 ≤ i
  lay : Lay st.openers st.base (B.filter emphOpener) pre
  order : B.Pairwise fun a b => emphOpener b = true → b.node < a.node
  nodes : ∀ d ∈ B, 1 ≤ d.node ∧ d.node < i
  ids : ∀ it ∈ pre, it.id < i
  bots : ∀ c j, bot c = some j → j < i
  reach : ∀ d ∈ B, emphOpener d = true → ∀ j, bot d.cc = some j → j < d.node
  quotes : ∀ d ∈ B, d.canOpen = true → d.cc ∈ ['*', '_'] ∨ QuoteDone pre d
  runs : ∀ d ∈ B, emphOpener d = true → .run d.cc d.origdelims true d.canClose ∈ full
  /-- With runs of one kind, the lowest delimiter can always open, and there is no bound. -/
  lowest : one = true → (∀ c, bot c = none) ∧ (B = [] → odd = false) ∧ ∀ d, B.getLast? = some d → emphOpener d = true

theorem emphOpener_iff {d : Delim} : emphOpener d = true ↔ d.canOpen = true ∧ (d.cc = '*' ∨ d.cc = '_') := by
  simp [emphOpener]

theorem quoteDone_mono {pre mid : List Item} {d : Delim} (h : QuoteDone pre d) (hm : ∀ it ∈ mid, it.id ≠ d.node) : QuoteDone (pre ++ mid) d :=
  ⟨h.1, fun it hit e => (List.mem_append.1 hit).elim (fun hit => h.2 it hit e) fun hit => absurd e (hm it hit)⟩

/-- A stretch of the grammar `Phrase`. -/
theorem Stack.stretch {one : Bool} {full : List Chunk} {st : Halfway} {i hi : Nat} {B R : List Delim} {pre its post : List Item} {bot : Char → Option Nat} {odd : Bool}
    {ds : List Delim} {xs : List Span} (h : Stack one full st i B pre bot odd) (h1 : one = false) (hs : Stretch ['*', '_'] i hi its ds (spanTrees xs))
    (hp : ∀ it ∈ post, it.id = 0 ∨ hi ≤ it.id) :
    ∃ B' pre' bot' odd', EReach ⟨B, ds ++ R, pre ++ (its ++ post), bot, odd⟩ ⟨B', R, pre' ++ post, bot', odd'⟩ ∧
      Stack one full (st.put xs) hi B' pre' bot' odd' := by
  obtain ⟨N, its', bot', odd', r1, r2, r3, r4, r5, r6⟩ := hs.run B R pre post bot odd h.nodes h.quotes h.bots h.ids hp
  have hle := hs.le
  have hpos := h.pos
  have hN : ∀ d ∈ N, emphOpener d = false := by
    intro d hd
    rw [Bool.eq_false_iff]
    intro he
    rw [emphOpener_iff] at he
    exact ((r4 d hd).1 he.1).1 (by simpa using he.2)
  have hf : (N ++ B).filter emphOpener = B.filter emphOpener := by
    rw [List.filter_append, List.filter_eq_nil_iff.2 fun d hd => by simp [hN d hd], List.nil_append]
  refine ⟨N ++ B, pre ++ its', bot', odd', by rw [List.append_assoc]; exact r1, ?_⟩
  constructor
  · omega
  · rw [hf]
    refine h.lay.put r2 fun it hit => (r3 it hit).imp_right fun hh d hd => ?_
    have := (h.nodes d (List.mem_of_mem_filter hd)).2
    omega
  · refine List.pairwise_append.2 ⟨pairwise_all ?_, h.order, fun a ha b hb _ => ?_⟩
    · intro a _ b hb he; rw [hN b hb] at he; cases he
    · have := (r4 a ha).2; have := h.nodes b hb; omega
  · intro d hd
    rcases List.mem_append.1 hd with hd | hd
    · have := (r4 d hd).2; omega
    · have := h.nodes d hd; omega
  · intro it hit
    rcases List.mem_append.1 hit with hit | hit
    · have := h.ids it hit; omega
    · have := r3 it hit; omega
  · exact r6
  · intro d hd he j hj
    rcases List.mem_append.1 hd with hd | hd
    · rw [hN d hd] at he; cases he
    · rw [r5 d.cc (by simpa using (emphOpener_iff.1 he).2)] at hj
      exact h.reach d hd he j hj
  · intro d hd ho
    rcases List.mem_append.1 hd with hd | hd
    · obtain ⟨q1, q2⟩ := ((r4 d hd).1 ho).2
      refine .inr ⟨q1, fun it hit e => ?_⟩
      rcases List.mem_append.1 hit with hit | hit
      · have := h.ids it hit; have := (r4 d hd).2; omega
      · exact q2 it hit e
    · refine (h.quotes d hd ho).imp_right fun q => quoteDone_mono q fun it hit e => ?_
      have := r3 it hit; have := h.nodes d hd; omega
  · intro d hd he
    rcases List.mem_append.1 hd with hd | hd
    · rw [hN d hd] at he; cases he
    · exact h.runs d hd he
  · intro h2; rw [h1] at h2; cases h2

/-- More content, without delimiters. -/
theorem Stack.atoms {one : Bool} {full : List Chunk} {st : Halfway} {i hi : Nat} {B : List Delim} {pre its : List Item} {bot : Char → Option Nat} {odd : Bool}
    {xs : List Span} (h : Stack one full st i B pre bot odd) (hs : its.map (·.node) = spanTrees xs)
    (hid : ∀ it ∈ its, it.id = 0 ∨ i ≤ it.id ∧ it.id < hi) (hle : i ≤ hi) : Stack one full (st.put xs) hi B (pre ++ its) bot odd := by
  have hpos := h.pos
  refine ⟨by omega, ?_, h.order, ?_, ?_, ?_, h.reach, ?_, h.runs, h.lowest⟩
  · refine h.lay.put hs fun it hit => (hid it hit).imp_right fun hh d hd => ?_
    have := (h.nodes d (List.mem_of_mem_filter hd)).2
    omega
  · intro d hd
    have := h.nodes d hd; omega
  · intro it hit
    rcases List.mem_append.1 hit with hit | hit
    · have := h.ids it hit; omega
    · have := hid it hit; omega
  · intro c j hj
    have := h.bots c j hj; omega
  · intro d hd ho
    refine (h.quotes d hd ho).imp_right fun q => quoteDone_mono q fun it hit e => ?_
    have := hid it hit; have := h.nodes d hd; omega

/-- One use of a closer. -/
theorem Stack.use {one : Bool} {full : List Chunk} {st : Halfway} {i : Nat} {B R : List Delim} {pre post : List Item} {bot : Char → Option Nat} {odd : Bool}
    {c : Char} {m n : Nat} {o : Bool} (h : Stack one full st i B pre bot odd) (hc : c = '*' ∨ c = '_') (hm : 1 ≤ m)
    (hpost : ∀ it ∈ post, it.id = 0 ∨ i < it.id) :
    (takeOpener c n o st.openers = none ∧ ∀ d ∈ B, d.cc = c → d.canOpen = true → isOddMatch d ⟨c, m, n, i, o, true⟩ = true) ∨
    ∃ above f fs u B' pre', takeOpener c n o st.openers = some (above, f, fs) ∧ u = (if 2 ≤ m ∧ 2 ≤ f.n then 2 else 1) ∧
      emphStep ⟨B, ⟨c, m, n, i, o, true⟩ :: R, pre ++ ⟨i, textNode (List.replicate m c)⟩ :: post, bot, odd⟩ ⟨c, m, n, i, o, true⟩ R =
        ⟨B', leftDelim ⟨c, m, n, i, o, true⟩ u ++ R, pre' ++ (keepIf (m - u) i c ++ post), bot, false⟩ ∧
      Stack one full (if f.n = u then Halfway.put [if u = 2 then .strong (f.inner ++ above) else .emph (f.inner ++ above)] ⟨fs, st.base⟩
        else ⟨{ f with n := f.n - u, inner := [if u = 2 then .strong (f.inner ++ above) else .emph (f.inner ++ above)] } :: fs, st.base⟩)
        i B' pre' bot false := by
  rcases h.lay.take (cl := ⟨c, m, n, i, o, true⟩) with ⟨g1, g2⟩ | ⟨above, f, fs, o1, op, o2, p, inner, g1, g2, g3, g4, g5, g6, g7, g8, g9, g10, g11, g12, hodd, g14, g15, g16⟩
  · left
    refine ⟨g1, fun d hd hcd ho => ?_⟩
    exact g2 d (List.mem_filter.2 ⟨hd, emphOpener_iff.2 ⟨ho, by rw [hcd]; exact hc⟩⟩) hcd
  · right
    dsimp only at g1 g3 g4 g9 g14
    obtain ⟨N, B1, e1, e2, e3⟩ := List.filter_eq_append_iff.1 g2
    obtain ⟨N', B2, e4, e5, e6, e7⟩ := List.filter_eq_cons_iff.1 e3
    have hB : B = (N ++ N') ++ op :: B2 := by rw [e1, e4]; simp
    have hop : op ∈ B := by rw [hB]; simp
    have hord := h.order
    rw [hB] at hord
    have hord' := List.pairwise_append.1 hord
    have hreach := h.reach op hop e6
    rw [g4] at hreach
    have hN : ∀ d ∈ N ++ N', some d.node ≠ bot c ∧ ¬ (d.cc = c ∧ d.canOpen = true ∧ isOddMatch d ⟨c, m, n, i, o, true⟩ = false) := by
      intro d hd
      constructor
      · intro he
        have h1 := hreach _ he.symm
        have h2 := hord'.2.2 d hd op (by simp) e6
        omega
      · intro hcd
        have he : emphOpener d = true := emphOpener_iff.2 ⟨hcd.2.1, by rw [hcd.1]; exact hc⟩
        rcases List.mem_append.1 hd with hd | hd
        · have := g3 d (by rw [← e2]; exact List.mem_filter.2 ⟨hd, he⟩) hcd.1
          rw [hcd.2.2] at this; cases this
        · exact absurd he (e5 d hd)
    have hlt := (h.nodes op hop).2
    obtain ⟨u, hu⟩ : ∃ u, u = if 2 ≤ m ∧ 2 ≤ f.n then 2 else 1 := ⟨_, rfl⟩
    have hu1 : u = 1 ∨ u = 2 := by rw [hu]; split <;> simp
    have hul : 1 ≤ u ∧ u ≤ f.n := by
      rw [hu]; split
      · rename_i hh; exact ⟨by omega, hh.2⟩
      · exact ⟨by omega, g6⟩
    have hs := emphStep_match (N := N ++ N') (B := B2) (R := R) (pre := p) (inner := inner) (post := post) (bot := bot) (odd := odd)
      (op := op) (cl := ⟨c, m, n, i, o, true⟩) (u := u) hc g4 rfl (emphOpener_iff.1 e6).1 rfl hodd (fun he => by
        have := hreach _ he.symm; omega) hN (by dsimp only; omega) (by omega) (by have := h.pos; dsimp only; omega) (by
        intro it hit
        have hi : ∀ it ∈ p ++ ⟨op.node, textNode (List.replicate f.n c)⟩ :: inner, it.id < i := fun it hit => h.ids it (by rw [g9]; exact hit)
        dsimp only
        rcases List.mem_append.1 hit with hit | hit
        · have := g11 it hit; have := hi it (by simp [hit]); omega
        · rcases List.mem_append.1 hit with hit | hit
          · have := g12 it hit; have := hi it (by simp [hit]); omega
          · have := hpost it hit; have := h.pos; omega) (by rw [g5]; exact hu)
    dsimp only at hs
    rw [g5] at hs
    have hw : mkNode (if u = 1 then .emph else .strong) (inner.map (·.node)) =
        spanTree (if u = 2 then .strong (f.inner ++ above) else .emph (f.inner ++ above)) := by
      rw [g10]
      rcases hu1 with rfl | rfl <;> rfl
    rw [hw] at hs
    refine ⟨above, f, fs, u, leftDelim op u ++ B2, p ++ (keepIf (f.n - u) op.node c ++
      [⟨0, spanTree (if u = 2 then .strong (f.inner ++ above) else .emph (f.inner ++ above))⟩]), g1, hu, ?_, ?_⟩
    · rw [hB, g9]
      simp only [List.append_assoc, List.cons_append, List.nil_append] at hs ⊢
      exact hs
    · have hleft : ∀ d ∈ leftDelim op u, d.node = op.node ∧ d.cc = op.cc ∧ d.canOpen = op.canOpen ∧ d.canClose = op.canClose ∧ d.origdelims = op.origdelims := by
        intro d hd
        unfold leftDelim at hd
        split at hd
        · cases hd
        · rw [List.mem_singleton.1 hd]; exact ⟨rfl, rfl, rfl, rfl, rfl⟩
      have hsub : ∀ d ∈ B2, d ∈ B := fun d hd => by rw [hB]; simp [hd]
      have hfl : (leftDelim op u ++ B2).filter emphOpener = leftDelim op u ++ o2 := by
        rw [List.filter_append, e7, List.filter_eq_self.2]
        intro d hd
        have := hleft d hd
        rw [emphOpener_iff, this.2.1, this.2.2.1]
        exact emphOpener_iff.1 e6
      have hp2 := List.pairwise_cons.1 hord'.2.1
      generalize hx : (if u = 2 then Span.strong (f.inner ++ above) else .emph (f.inner ++ above)) = w
      constructor
      · exact h.pos
      · rw [hfl]
        by_cases hfu : f.n = u
        · have e8 : leftDelim op u = [] := by unfold leftDelim; rw [if_pos (by omega)]
          have e9 : keepIf (f.n - u) op.node c = [] := by unfold keepIf; rw [if_pos (by omega)]
          rw [if_pos hfu, e8, e9, List.nil_append, List.nil_append]
          exact g8.put (by simp [spanTrees]) (by simp)
        · have e8 : leftDelim op u = [{ op with numdelims := op.numdelims - u }] := by unfold leftDelim; rw [if_neg (by omega)]
          have e9 : keepIf (f.n - u) op.node c = [⟨op.node, textNode (List.replicate (f.n - u) c)⟩] := by unfold keepIf; rw [if_neg (by omega)]
          have ef : ({ f with n := f.n - u, inner := [w] } : Opener) = ⟨c, f.n - u, op.origdelims, op.canClose, [w]⟩ := by rw [g14, g15, g16]
          rw [if_neg hfu, e8, e9, ef]
          exact .opener (op := { op with numdelims := op.numdelims - u }) g8 (by simp [spanTrees]) g4 (by dsimp only; omega) (by omega) g7 g11 (by simp)
      · refine List.pairwise_append.2 ⟨?_, hp2.2, fun a ha b hb he => ?_⟩
        · unfold leftDelim; split <;> simp
        · rw [(hleft a ha).1]; exact hp2.1 b hb he
      · intro d hd
        rcases List.mem_append.1 hd with hd | hd
        · rw [(hleft d hd).1]; exact h.nodes op hop
        · exact h.nodes d (hsub d hd)
      · intro it hit
        rcases List.mem_append.1 hit with hit | hit
        · exact h.ids it (by rw [g9]; simp [hit])
        · rcases List.mem_append.1 hit with hit | hit
          · rw [keepIf_mem hit]; exact hlt
          · rw [List.mem_singleton.1 hit]; exact h.pos
      · exact h.bots
      · intro d hd he j hj
        rcases List.mem_append.1 hd with hd | hd
        · obtain ⟨q1, q2, _⟩ := hleft d hd
          rw [q2] at hj; rw [q1]
          exact h.reach op hop e6 j hj
        · exact h.reach d (hsub d hd) he j hj
      · intro d hd ho
        rcases List.mem_append.1 hd with hd | hd
        · left
          rw [(hleft d hd).2.1, g4]
          simpa using hc
        · refine (h.quotes d (hsub d hd) ho).imp_right fun q => ?_
          have hne : d.node ≠ op.node := by
            intro e
            have := q.2 ⟨op.node, textNode (List.replicate f.n c)⟩ (by rw [g9]; simp) e.symm
            rw [textNode_inj] at this
            have hh : (List.replicate f.n c).head? = some (openQuote d.cc) := by rw [this]; rfl
            obtain ⟨k, hk⟩ : ∃ k, f.n = k + 1 := ⟨f.n - 1, by omega⟩
            rw [hk, List.replicate_succ, List.head?_cons, Option.some.injEq] at hh
            revert hh
            unfold openQuote
            rcases hc with rfl | rfl <;> split <;> decide
          refine ⟨q.1, fun it hit e => ?_⟩
          rcases List.mem_append.1 hit with hit | hit
          · exact q.2 it (by rw [g9]; simp [hit]) e
          · rcases List.mem_append.1 hit with hit | hit
            · rw [keepIf_mem hit] at e; exact absurd e.symm hne
            · rw [List.mem_singleton.1 hit] at e
              have := (h.nodes d (hsub d hd)).1
              dsimp only at e; omega
      · intro d hd he
        rcases List.mem_append.1 hd with hd | hd
        · obtain ⟨q1, q2, q3, q4, q5⟩ := hleft d hd
          rw [q2, q4, q5]; exact h.runs op hop e6
        · exact h.runs d (hsub d hd) he
      · intro h1
        obtain ⟨l1, l2, l3⟩ := h.lowest h1
        refine ⟨l1, fun _ => rfl, fun d hd => ?_⟩
        cases B2 with
        | nil =>
          rw [List.append_nil] at hd
          have hm := hleft d (List.mem_of_getLast? hd)
          rw [emphOpener_iff, hm.2.1, hm.2.2.1]
          exact emphOpener_iff.1 e6
        | cons y B2 =>
          refine l3 d ?_
          have : (y :: B2).getLast?.isSome := by simp
          obtain ⟨z, hz⟩ := Option.isSome_iff_exists.1 this
          rw [List.getLast?_append, hz] at hd
          rw [hB, List.getLast?_append, List.getLast?_cons_cons, hz]
          exact hd

/-- A closer, as long as it finds openers. -/
theorem Stack.close {one : Bool} {full : List Chunk} {c : Char} {n : Nat} {o : Bool} (hc : c = '*' ∨ c = '_')
    {i : Nat} {post : List Item} (hpost : ∀ it ∈ post, it.id = 0 ∨ i < it.id) (R : List Delim) {bot : Char → Option Nat} :
    ∀ (k m : Nat), m ≤ k → ∀ {st : Halfway} {B : List Delim} {pre : List Item} {odd : Bool}, Stack one full st i B pre bot odd →
    ∃ B' pre' odd', EReach ⟨B, (if m = 0 then [] else [⟨c, m, n, i, o, true⟩]) ++ R, pre ++ (keepIf m i c ++ post), bot, odd⟩
        ⟨B', (if (closeRun c n o k m st).2 = 0 then [] else [⟨c, (closeRun c n o k m st).2, n, i, o, true⟩]) ++ R,
          pre' ++ (keepIf (closeRun c n o k m st).2 i c ++ post), bot, odd'⟩ ∧
      Stack one full (closeRun c n o k m st).1 i B' pre' bot odd' ∧
      ((closeRun c n o k m st).2 ≠ 0 → ∀ d ∈ B', d.cc = c → d.canOpen = true →
        isOddMatch d ⟨c, (closeRun c n o k m st).2, n, i, o, true⟩ = true)
  | 0, m, hm, st, B, pre, odd, h => ⟨B, pre, odd, .refl, h, fun hne => absurd (by simpa [closeRun] using hm) hne⟩
  | k + 1, m, hm, st, B, pre, odd, h => by
    by_cases hm0 : m = 0
    · subst hm0
      have e : closeRun c n o (k + 1) 0 st = (st, 0) := by simp [closeRun]
      rw [e]
      exact ⟨B, pre, odd, .refl, h, fun hne => absurd rfl hne⟩
    · rcases h.use (R := R) (n := n) (o := o) (m := m) hc (by omega) hpost with ⟨g1, g2⟩ | ⟨above, f, fs, u, B1, pre1, g1, g2, g3, g4⟩
      · have e : closeRun c n o (k + 1) m st = (st, m) := by simp [closeRun, hm0, g1]
        rw [e]
        exact ⟨B, pre, odd, .refl, h, fun _ => g2⟩
      · have hu : 1 ≤ u := by rw [g2]; split <;> omega
        have e : closeRun c n o (k + 1) m st = closeRun c n o k (m - u)
            (if f.n = u then Halfway.put [if u = 2 then .strong (f.inner ++ above) else .emph (f.inner ++ above)] ⟨fs, st.base⟩
              else ⟨{ f with n := f.n - u, inner := [if u = 2 then .strong (f.inner ++ above) else .emph (f.inner ++ above)] } :: fs, st.base⟩) := by
          rw [closeRun, if_neg hm0, g1]
          dsimp only
          by_cases h2 : 2 ≤ m ∧ 2 ≤ f.n
          · rw [if_pos h2] at g2 ⊢; subst g2; rfl
          · rw [if_neg h2] at g2 ⊢; subst g2; rfl
        obtain ⟨B', pre', odd', r1, r2, r3⟩ := Stack.close (n := n) (o := o) hc hpost R k (m - u) (by omega) (odd := false) g4
        rw [e]
        refine ⟨B', pre', odd', .step (cl := ⟨c, m, n, i, o, true⟩) (rest := R) (by simp [hm0]) ?_, r2, r3⟩
        have e1 : keepIf m i c = [⟨i, textNode (List.replicate m c)⟩] := by unfold keepIf; rw [if_neg hm0]
        have e2 : leftDelim ⟨c, m, n, i, o, true⟩ u = if m - u = 0 then [] else [⟨c, m - u, n, i, o, true⟩] := by unfold leftDelim; rfl
        rw [e1, if_neg hm0]
        simp only [List.singleton_append]
        rw [g3, e2]
        exact r1

theorem put_openers (ys : List Span) (st : Halfway) : (Halfway.put ys st) = Halfway.put ys ⟨st.openers, st.base⟩ := rfl

/-- What is left of a run. -/
theorem Stack.leave {one : Bool} {full : List Chunk} {c : Char} {n m : Nat} {o cl : Bool} (hc : c = '*' ∨ c = '_') (hr : .run c n o cl ∈ full)
    (h3 : Fair one full) {i : Nat}
    {R : List Delim} {bot : Char → Option Nat} {st : Halfway} {B : List Delim} {pre post : List Item} {odd : Bool} (h : Stack one full st i B pre bot odd)
    (hno : m ≠ 0 → cl = false ∨ ∀ d ∈ B, d.cc = c → d.canOpen = true → isOddMatch d ⟨c, m, n, i, o, cl⟩ = true) :
    ∃ B' pre' bot' odd', EReach ⟨B, (if m = 0 then [] else [⟨c, m, n, i, o, cl⟩]) ++ R, pre ++ (keepIf m i c ++ post), bot, odd⟩
        ⟨B', R, pre' ++ post, bot', odd'⟩ ∧ Stack one full (leaveRun c n m o cl st) (i + 1) B' pre' bot' odd' := by
  have hpos := h.pos
  by_cases hm : m = 0
  · subst hm
    refine ⟨B, pre, bot, odd, by simpa [keepIf] using .refl, ?_⟩
    exact ⟨by omega, h.lay, h.order, fun d hd => ⟨(h.nodes d hd).1, by have := (h.nodes d hd).2; omega⟩, fun it hit => by have := h.ids it hit; omega,
      fun c j hj => by have := h.bots c j hj; omega, h.reach, h.quotes, h.runs, h.lowest⟩
  · have e1 : keepIf m i c = [⟨i, textNode (List.replicate m c)⟩] := by unfold keepIf; rw [if_neg hm]
    obtain ⟨B', bot', odd', s1, s2, s4⟩ := emphStep_left (R := R) (its := pre ++ (keepIf m i c ++ post)) (bot := bot) (odd := odd) (B := B)
      (cl := ⟨c, m, n, i, o, cl⟩) hc (hno hm)
    dsimp only at s2 s4
    refine ⟨B', pre ++ keepIf m i c, bot', odd', .step (cl := ⟨c, m, n, i, o, cl⟩) (rest := R) (by simp [hm]) ?_, ?_⟩
    · rw [if_neg hm, List.singleton_append, s1, List.append_assoc]; exact .refl
    · have hids : ∀ it ∈ pre ++ keepIf m i c, it.id < i + 1 := by
        intro it hit
        rcases List.mem_append.1 hit with hit | hit
        · have := h.ids it hit; omega
        · rw [keepIf_mem hit]; omega
      have hbots : ∀ x j, bot' x = some j → j < i := by
        intro x j hj
        rcases s2 with ⟨_, rfl, _⟩ | ⟨_, _, _, rfl⟩
        · exact h.bots x j hj
        · dsimp only at hj
          split at hj
          · cases B with
            | nil => cases hj
            | cons d B =>
              have := h.nodes d (by simp)
              simp only [List.head?_cons, Option.map_some, Option.some.injEq] at hj; omega
          · exact h.bots x j hj
      -- with runs of one kind, a bound is only set if there is nothing below
      have hone : one = true → cl = true → odd' = false → B = [] := by
        intro h1 hcl ho
        obtain ⟨l1, l2, l3⟩ := h.lowest h1
        have := s4 hcl (l1 c)
        cases hl : B.getLast? with
        | none => exact List.getLast?_eq_none_iff.1 hl
        | some d =>
          rw [hl, ho] at this
          have hd := List.mem_of_getLast? hl
          have he := l3 d hl
          rw [Fair, if_pos h1] at h3
          have hcc := (h3 _ _ _ _ _ _ _ _ (h.runs d hd he) hr).1
          have := (hno hm).resolve_left (by simp [hcl]) d hd hcc (emphOpener_iff.1 he).1
          simp_all
      have hreach : ∀ d ∈ B, emphOpener d = true → ∀ j, bot' d.cc = some j → j < d.node := by
        intro d hd he j hj
        rcases s2 with ⟨_, rfl, _⟩ | ⟨hcl, ho, _, rfl⟩
        · exact h.reach d hd he j hj
        · dsimp only at hj
          split at hj
          · rename_i hx
            rw [beq_iff_eq] at hx
            cases hone' : one with
            | true => rw [hone hone' hcl ho] at hd; cases hd
            | false =>
              rw [hone', Fair] at h3
              have hrun := h.runs d hd he
              rw [hx] at hrun
              subst hcl
              have hthree := h3 c d.origdelims n d.canClose o hrun hr
              have hodd := (hno hm).resolve_left (by simp) d hd hx (emphOpener_iff.1 he).1
              simp only [isOddMatch, ne_eq, Bool.and_eq_true, Bool.or_eq_true, bne_iff_ne, beq_iff_eq] at hodd
              exact absurd (hthree hodd.1.1.symm hodd.2) hodd.1.2
          · exact h.reach d hd he j hj
      have hlow : one = true → (∀ c, bot' c = none) ∧ (B' = [] → odd' = false) ∧ ∀ d, B'.getLast? = some d → emphOpener d = true := by
        intro h1
        obtain ⟨l1, l2, l3⟩ := h.lowest h1
        have hk := h3
        rw [Fair, if_pos h1] at hk
        have hocl := (hk _ _ _ _ _ _ _ _ hr hr).2
        have hcons : ∀ d, (B = [] → o = true) → (⟨c, m, n, i, o, cl⟩ :: B).getLast? = some d → emphOpener d = true := by
          intro d ho hd
          cases B with
          | nil =>
            simp only [List.getLast?_singleton, Option.some.injEq] at hd
            rw [← hd, emphOpener_iff]
            exact ⟨ho rfl, hc⟩
          | cons y B => exact l3 d (by rw [← hd]; rfl)
        rcases s2 with ⟨rfl, rfl, hx⟩ | ⟨hcl, ho, hB, rfl⟩
        · refine ⟨l1, fun h => absurd h (by simp), fun d hd => hcons d (fun hB => ?_) hd⟩
          rcases hocl with h | hcl
          · exact h
          · have := s4 hcl (l1 c)
            rw [hB] at this
            rw [l2 hB] at this
            rcases hx with hx | hx
            · rw [hcl] at hx; cases hx
            · rw [hx] at this; cases this
        · have hB0 := hone h1 hcl ho
          refine ⟨fun x => ?_, fun _ => ho, ?_⟩
          · dsimp only
            split
            · rw [hB0]; rfl
            · exact l1 x
          · rcases hB with ⟨rfl, hoo⟩ | ⟨rfl, _⟩
            · exact fun d hd => hcons d (fun _ => hoo) hd
            · exact l3
      replace s2 : B' = ⟨c, m, n, i, o, cl⟩ :: B ∨ B' = B ∧ o = false := by
        rcases s2 with ⟨h, _⟩ | ⟨_, _, ⟨h, _⟩ | h, _⟩
        · exact .inl h
        · exact .inl h
        · exact .inr h
      have hquotes : ∀ d ∈ B, d.canOpen = true → d.cc ∈ ['*', '_'] ∨ QuoteDone (pre ++ keepIf m i c) d := by
        intro d hd ho
        refine (h.quotes d hd ho).imp_right fun q => quoteDone_mono q fun it hit e => ?_
        have := (h.nodes d hd).2
        rw [keepIf_mem hit] at e; omega
      have hnodes : ∀ d ∈ B, 1 ≤ d.node ∧ d.node < i + 1 := fun d hd => ⟨(h.nodes d hd).1, by have := (h.nodes d hd).2; omega⟩
      have hput : Lay (Halfway.put [.text (List.replicate m c)] st).openers (Halfway.put [.text (List.replicate m c)] st).base (B.filter emphOpener)
          (pre ++ keepIf m i c) := by
        refine h.lay.put (by rw [e1]; rfl) fun it hit => .inr fun d hd => ?_
        rw [keepIf_mem hit]
        exact (h.nodes d (List.mem_of_mem_filter hd)).2
      rcases s2 with rfl | ⟨rfl, ho⟩
      · refine ⟨by omega, ?_, .cons (fun b hb _ => ?_) h.order, ?_, hids, fun x j hj => by have := hbots x j hj; omega, ?_, ?_, ?_, hlow⟩
        · cases o with
          | true =>
            have : emphOpener ⟨c, m, n, i, true, cl⟩ = true := emphOpener_iff.2 ⟨rfl, hc⟩
            rw [List.filter_cons_of_pos this, leaveRun, if_neg hm, e1]
            exact .opener (op := ⟨c, m, n, i, true, cl⟩) h.lay rfl rfl rfl (by omega) hpos h.ids (by simp)
          | false =>
            have : ¬ emphOpener ⟨c, m, n, i, false, cl⟩ = true := by simp [emphOpener]
            rw [List.filter_cons_of_neg this, leaveRun, if_neg hm]
            exact hput
        · exact (h.nodes b hb).2
        · intro d hd
          rcases List.mem_cons.1 hd with rfl | hd
          · dsimp only; omega
          · exact hnodes d hd
        · intro d hd he j hj
          rcases List.mem_cons.1 hd with rfl | hd
          · exact hbots _ j hj
          · exact hreach d hd he j hj
        · intro d hd ho
          rcases List.mem_cons.1 hd with rfl | hd
          · left; simpa using hc
          · exact hquotes d hd ho
        · intro d hd he
          rcases List.mem_cons.1 hd with rfl | hd
          · have : o = true := (emphOpener_iff.1 he).1
            rw [this] at hr
            exact hr
          · exact h.runs d hd he
      · subst ho
        refine ⟨by omega, ?_, h.order, hnodes, hids, fun x j hj => by have := hbots x j hj; omega, hreach, hquotes, h.runs, hlow⟩
        rw [leaveRun, if_neg hm]
        exact hput

/-- A whole run. -/
theorem Stack.run {one : Bool} {full : List Chunk} {c : Char} {n : Nat} {o cl : Bool} (hc : c = '*' ∨ c = '_') (hn : 1 ≤ n) (hr : .run c n o cl ∈ full) (h3 : Fair one full)
    {i : Nat} {R : List Delim} {bot : Char → Option Nat} {st : Halfway} {B : List Delim} {pre post : List Item} {odd : Bool} (h : Stack one full st i B pre bot odd)
    (hpost : ∀ it ∈ post, it.id = 0 ∨ i < it.id) :
    ∃ B' pre' bot' odd', EReach ⟨B, ⟨c, n, n, i, o, cl⟩ :: R, pre ++ (⟨i, textNode (List.replicate n c)⟩ :: post), bot, odd⟩
        ⟨B', R, pre' ++ post, bot', odd'⟩ ∧ Stack one full (readChunk st (.run c n o cl)) (i + 1) B' pre' bot' odd' := by
  have hn0 : n ≠ 0 := by omega
  have e1 : keepIf n i c = [⟨i, textNode (List.replicate n c)⟩] := by unfold keepIf; rw [if_neg hn0]
  cases cl with
  | false =>
    have := h.leave (m := n) (R := R) (post := post) (odd := odd) hc hr h3 (fun _ => .inl rfl)
    rw [e1, if_neg hn0] at this
    exact this
  | true =>
    obtain ⟨B1, pre1, odd1, r1, r2, r3⟩ := Stack.close (n := n) (o := o) hc hpost R n n (Nat.le_refl _) (odd := odd) h
    rw [e1, if_neg hn0] at r1
    obtain ⟨B', pre', bot', odd', q1, q2⟩ := r2.leave (m := (closeRun c n o n n st).2) (R := R) (post := post) (odd := odd1) hc hr h3 (fun hm => .inr (r3 hm))
    exact ⟨B', pre', bot', odd', r1.trans q1, q2⟩

/-! ### The whole text -/

/-- The siblings and delimiters of a text, with ids from `lo` to `hi`. -/
inductive Segs (one : Bool) : Nat → Nat → List Chunk → List Item → List Delim → Prop
  | nil {lo : Nat} : Segs one lo lo [] [] []
  | run {lo hi n : Nat} {c : Char} {o cl : Bool} {ps : List Chunk} {its : List Item} {ds : List Delim} : c = '*' ∨ c = '_' → 1 ≤ n →
      Segs one (lo + 1) hi ps its ds → Segs one lo hi (.run c n o cl :: ps) (⟨lo, textNode (List.replicate n c)⟩ :: its) (⟨c, n, n, lo, o, cl⟩ :: ds)
  | stretch {lo mid hi : Nat} {xs : List Span} {ps : List Chunk} {a its : List Item} {es ds : List Delim} : one = false →
      Stretch ['*', '_'] lo mid a es (spanTrees xs) →
      Segs one mid hi ps its ds → Segs one lo hi (xs.map .span ++ ps) (a ++ its) (es ++ ds)
  | atoms {lo mid hi : Nat} {xs : List Span} {ps : List Chunk} {a its : List Item} {ds : List Delim} : lo ≤ mid →
      a.map (·.node) = spanTrees xs → (∀ it ∈ a, it.id = 0 ∨ lo ≤ it.id ∧ it.id < mid) →
      Segs one mid hi ps its ds → Segs one lo hi (xs.map .span ++ ps) (a ++ its) ds

theorem Segs.append {one : Bool} {lo mid hi : Nat} {ps qs : List Chunk} {a b : List Item} {ds es : List Delim} (h : Segs one lo mid ps a ds) (h' : Segs one mid hi qs b es) :
    Segs one lo hi (ps ++ qs) (a ++ b) (ds ++ es) := by
  induction h with
  | nil => exact h'
  | run h1 h2 _ ih => exact .run h1 h2 (ih h')
  | stretch h0 h1 _ ih =>
    rw [List.append_assoc, List.append_assoc, List.append_assoc]
    exact .stretch h0 h1 (ih h')
  | atoms h1 h2 h3 _ ih =>
    rw [List.append_assoc, List.append_assoc]
    exact .atoms h1 h2 h3 (ih h')

theorem Segs.le {one : Bool} {lo hi : Nat} {ps : List Chunk} {a : List Item} {ds : List Delim} (h : Segs one lo hi ps a ds) : lo ≤ hi := by
  induction h with
  | nil => exact Nat.le_refl _
  | run _ _ _ ih => omega
  | stretch _ h _ ih => have := h.le; omega
  | atoms h _ _ _ ih => omega

theorem Segs.ids {one : Bool} {lo hi : Nat} {ps : List Chunk} {a : List Item} {ds : List Delim} (h : Segs one lo hi ps a ds) :
    (∀ it ∈ a, it.id = 0 ∨ lo ≤ it.id ∧ it.id < hi) ∧ ∀ d ∈ ds, lo ≤ d.node ∧ d.node < hi := by
  induction h with
  | nil => simp
  | run _ _ h ih =>
    have := h.le
    constructor
    · intro it hit
      rcases List.mem_cons.1 hit with rfl | hit
      · dsimp only; omega
      · have := ih.1 it hit; omega
    · intro d hd
      rcases List.mem_cons.1 hd with rfl | hd
      · dsimp only; omega
      · have := ih.2 d hd; omega
  | atoms h1 _ h2 h ih =>
    have := h.le
    constructor
    · intro it hit
      rcases List.mem_append.1 hit with hit | hit
      · have := h2 it hit; omega
      · have := ih.1 it hit; omega
    · intro d hd
      have := ih.2 d hd; omega
  | stretch _ h1 h ih =>
    have := h.le
    have := h1.le
    constructor
    · intro it hit
      rcases List.mem_append.1 hit with hit | hit
      · have := h1.ids it hit; omega
      · have := ih.1 it hit; omega
    · intro d hd
      rcases List.mem_append.1 hd with hd | hd
      · have := h1.nodes d hd; omega
      · have := ih.2 d hd; omega

theorem foldl_spans : ∀ (xs : List Span) (st : Halfway), (xs.map Chunk.span).foldl readChunk st = st.put xs
  | [], ⟨[], base⟩ => by simp [Halfway.put]
  | [], ⟨f :: r, base⟩ => by simp [Halfway.put]
  | x :: xs, st => by
    rw [List.map_cons, List.foldl_cons, readChunk, foldl_spans xs]
    obtain ⟨_ | ⟨f, r⟩, base⟩ := st <;> simp [Halfway.put]

theorem Segs.reach {one : Bool} {full : List Chunk} (h3 : Fair one full) {lo hi : Nat} {ps : List Chunk} {its : List Item} {ds : List Delim}
    (h : Segs one lo hi ps its ds) : (∀ p ∈ ps, p ∈ full) → ∀ {st : Halfway} {B : List Delim} {pre : List Item} {bot : Char → Option Nat} {odd : Bool},
    Stack one full st lo B pre bot odd → ∃ B' pre' bot' odd', EReach ⟨B, ds, pre ++ its, bot, odd⟩ ⟨B', [], pre', bot', odd'⟩ ∧
      Stack one full (ps.foldl readChunk st) hi B' pre' bot' odd' := by
  induction h with
  | nil =>
    intro _ st B pre bot odd h
    exact ⟨B, pre, bot, odd, by rw [List.append_nil]; exact .refl, h⟩
  | @run lo hi n c o cl ps its ds hc hn hs ih =>
    intro hf st B pre bot odd h
    obtain ⟨B1, pre1, bot1, odd1, r1, r2⟩ := h.run (o := o) (cl := cl) (R := ds) (post := its) (odd := odd) hc hn (hf _ (by simp)) h3 (by
      intro it hit
      have := hs.ids.1 it hit
      omega)
    obtain ⟨B', pre', bot', odd', q1, q2⟩ := ih (fun p hp => hf p (by simp [hp])) (odd := odd1) r2
    exact ⟨B', pre', bot', odd', r1.trans q1, q2⟩
  | @atoms lo mid hi xs ps a its ds h1 h2 h3 hs ih =>
    intro hf st B pre bot odd h
    obtain ⟨B', pre', bot', odd', q1, q2⟩ := ih (fun p hp => hf p (by simp [hp])) (odd := odd) (h.atoms h2 h3 h1)
    rw [List.append_assoc] at q1
    refine ⟨B', pre', bot', odd', q1, ?_⟩
    rw [List.foldl_append, foldl_spans]
    exact q2
  | @stretch lo mid hi xs ps a its es ds h0 h1 hs ih =>
    intro hf st B pre bot odd h
    obtain ⟨B1, pre1, bot1, odd1, r1, r2⟩ := h.stretch (R := ds) (post := its) (odd := odd) h0 h1 (by
      intro it hit
      have := hs.ids.1 it hit
      omega)
    obtain ⟨B', pre', bot', odd', q1, q2⟩ := ih (fun p hp => hf p (by simp [hp])) (odd := odd1) r2
    refine ⟨B', pre', bot', odd', r1.trans q1, ?_⟩
    rw [List.foldl_append, foldl_spans]
    exact q2

theorem processEmphasis_segs {one : Bool} {lo hi : Nat} {ps : List Chunk} {its : List Item} {ds : List Delim} (h1 : 1 ≤ lo) (h : Segs one lo hi ps its ds)
    (h3 : Fair one ps) : ∃ its', processEmphasis ds its = .ok its' ∧ its'.map (·.node) = spanTrees (emphasised ps) := by
  have hs : Stack one ps ⟨[], []⟩ lo [] [] (fun _ => none) false := by
    refine ⟨h1, .base rfl, ?_, ?_, ?_, ?_, ?_, ?_, ?_, ?_⟩ <;> simp
  obtain ⟨B', pre', bot', odd', r1, r2⟩ := h.reach h3 (fun p hp => hp) (odd := false) hs
  exact ⟨pre', processEmphasis_reach r1 rfl, r2.lay.nodes⟩

/-! ### Links -/

def chunkLink : Chunk → Bool
  | .span x => hasLink x
  | .run .. => false

/-- There is a link in it. -/
def linkIn (ps : List Chunk) : Bool := ps.any chunkLink

theorem unopened_put (ys : List Span) : ∀ st : Halfway, unopened (st.put ys).openers (st.put ys).base = unopened st.openers st.base ++ ys
  | ⟨[], base⟩ => rfl
  | ⟨f :: r, base⟩ => by simp [Halfway.put, unopened]

theorem takeOpener_link (c : Char) (n : Nat) (o : Bool) (base : List Span) : ∀ {fs : List Opener} {above : List Span} {f : Opener} {r : List Opener},
    takeOpener c n o fs = some (above, f, r) → anyLink (unopened fs base) = (anyLink (unopened r base) || anyLink (f.inner ++ above))
  | [], _, _, _, h => by simp [takeOpener] at h
  | g :: fs, above, f, r, h => by
    rw [takeOpener] at h
    split at h
    · simp only [Option.some.injEq, Prod.mk.injEq] at h
      obtain ⟨rfl, rfl, rfl⟩ := h
      rw [unopened, anyLink_append, anyLink, List.append_nil]; simp [hasLink]
    · cases ht : takeOpener c n o fs with
      | none => rw [ht] at h; cases h
      | some q =>
        obtain ⟨a', f', r'⟩ := q
        rw [ht] at h
        simp only [Option.some.injEq, Prod.mk.injEq] at h
        obtain ⟨rfl, rfl, rfl⟩ := h
        rw [unopened, anyLink_append, takeOpener_link c n o base ht]
        simp only [anyLink_append, anyLink, hasLink, Bool.false_or, Bool.or_assoc]

theorem closeRun_link (c : Char) (n : Nat) (o : Bool) : ∀ (k m : Nat) (st : Halfway),
    anyLink (unopened (closeRun c n o k m st).1.openers (closeRun c n o k m st).1.base) = anyLink (unopened st.openers st.base)
  | 0, _, _ => rfl
  | k + 1, m, st => by
    rw [closeRun]
    split
    · rfl
    · cases ht : takeOpener c n o st.openers with
      | none => rfl
      | some q =>
        obtain ⟨above, f, r⟩ := q
        have h := takeOpener_link c n o st.base ht
        dsimp only
        split <;> rw [closeRun_link c n o k] <;> split
        · rw [unopened_put, anyLink_append, h]; simp [anyLink, hasLink]
        · rw [unopened, anyLink_append, h]; simp [anyLink, hasLink]
        · rw [unopened_put, anyLink_append, h]; simp [anyLink, hasLink]
        · rw [unopened, anyLink_append, h]; simp [anyLink, hasLink]

theorem leaveRun_link (c : Char) (n m : Nat) (o cl : Bool) (st : Halfway) :
    anyLink (unopened (leaveRun c n m o cl st).openers (leaveRun c n m o cl st).base) = anyLink (unopened st.openers st.base) := by
  unfold leaveRun
  split
  · rfl
  · split
    · rw [unopened, anyLink_append]; simp [anyLink, hasLink]
    · rw [unopened_put, anyLink_append]; simp [anyLink, hasLink]

theorem foldl_link : ∀ (ps : List Chunk) (st : Halfway),
    anyLink (unopened (ps.foldl readChunk st).openers (ps.foldl readChunk st).base) = (anyLink (unopened st.openers st.base) || linkIn ps)
  | [], st => by simp [linkIn]
  | p :: ps, st => by
    rw [List.foldl_cons, foldl_link ps]
    have : anyLink (unopened (readChunk st p).openers (readChunk st p).base) = (anyLink (unopened st.openers st.base) || chunkLink p) := by
      cases p with
      | span x => rw [readChunk, unopened_put, anyLink_append]; simp [anyLink, chunkLink]
      | run c n o cl =>
        rw [readChunk]
        split
        · rw [leaveRun_link, closeRun_link]; simp [chunkLink]
        · rw [leaveRun_link]; simp [chunkLink]
    rw [this]
    simp [linkIn, Bool.or_assoc]

theorem emphasised_link (ps : List Chunk) : anyLink (emphasised ps) = linkIn ps := by
  have := foldl_link ps ⟨[], []⟩
  simpa [unopened, anyLink, emphasised] using this

theorem closeLink_segs {one : Bool} {lo hi : Nat} {o : Bracket} {bs : List Bracket} {dest title : Str} {st : IState} {a its : List Item}
    {x : Item} {ds old : List Delim} {ps : List Chunk} (hx : x.id = o.node) (ha : ∀ it ∈ a, it.id ≠ o.node)
    (hc : st.children = a ++ x :: its) (hd : st.delims = ds.reverse ++ old) (hp : o.prevDelim = old.head?.map (·.node))
    (h1 : 1 ≤ lo) (h : Segs one lo hi ps its ds) (h3 : Fair one ps) (ho : ∀ d ∈ old, d.node < lo) :
    closeLink o bs dest title st = .ok { st with
      children := a ++ [⟨0, linkNode (if o.image then .image else .link) dest title (spanTrees (emphasised ps))⟩]
      delims := old
      brackets := if o.image then bs else deactivate bs } := by
  obtain ⟨its', h1, h2⟩ := processEmphasis_segs h1 h h3
  unfold closeLink
  rw [hc, splitAtId_mid hx ha, hd, hp, splitDelims_of (fun d hd => (h.ids.2 d hd).1) ho]
  simp only [h1, h2, bind, Except.bind, pure, Except.pure]

/-- From `st` to `st'` the parser has read `ps`. -/
def ReadsTo (one : Bool) (c : Ctx) (n : Nat) (ps : List Chunk) (st st' : IState) : Prop :=
  ∃ its ds, RunTo c st st' ∧ st'.pos = st.pos + n ∧ st'.children = st.children ++ its ∧ st'.delims = ds.reverse ++ st.delims ∧
    st'.brackets = (if anyLink (emphasised ps) then deactivate st.brackets else st.brackets) ∧ Segs one st.nextId st'.nextId ps its ds

theorem ReadsTo.ids {one : Bool} {c : Ctx} {n : Nat} {ps : List Chunk} {st st' : IState} (h : ReadsTo one c n ps st st') (hid : IdsOk st) : IdsOk st' := by
  obtain ⟨its, ds, -, -, a3, a4, -, a6⟩ := h
  have hle := a6.le
  have hp := hid.pos
  refine ⟨by omega, fun it hit => ?_, fun d hd => ?_⟩
  · rw [a3] at hit
    rcases List.mem_append.1 hit with hit | hit
    · have := hid.items it hit; omega
    · have := a6.ids.1 it hit; omega
  · rw [a4] at hd
    rcases List.mem_append.1 hd with hd | hd
    · have := a6.ids.2 d (by simpa using hd); omega
    · have := hid.delims d hd; omega

theorem opened_ids {st : IState} {p : Nat} {bs : List Bracket} {t : Str} (hid : IdsOk st) : IdsOk { st with
    pos := p
    children := st.children ++ [⟨st.nextId, textNode t⟩]
    brackets := bs
    nextId := st.nextId + 1 } := by
  refine ⟨by dsimp only; omega, ?_, ?_⟩
  · intro it hit
    rcases List.mem_append.1 hit with hit | hit
    · have := hid.items it hit; dsimp only; omega
    · obtain rfl := List.mem_singleton.1 hit; dsimp only; omega
  · intro d hd
    have := hid.delims d hd; dsimp only; omega

theorem chunks_run {one : Bool} {c : Ctx} {refs : Str → Option RefDef} (hr : ∀ l, c.refmap.get l = refs l) {b t k : Str} {ps : List Chunk}
    (h : Chunks c.smart one refs b t k ps) : ∀ {st : IState}, c.subject = b ++ (t ++ k) → st.pos = b.length → IdsOk st → NlOk st (t ++ k) →
    ∃ st', ReadsTo one c t.length ps st st' ∧ NlOk st' k := by
  induction h with
  | nil =>
    intro st hsub hpos hid hnl
    exact ⟨st, ⟨[], [], .refl, rfl, by simp, rfl, by rw [emphasised_link]; rfl, .nil⟩, hnl⟩
  | @atom b t k xs h =>
    intro st hsub hpos hid hnl
    obtain ⟨st', ha, hn⟩ := atom_adds h hsub hpos hnl
    refine ⟨st', ⟨xs.map fun x => ⟨0, spanTree x⟩, [], ha.run, ha.pos, ha.children, by rw [ha.delims]; rfl, ?_, ?_⟩, hn⟩
    · have : ∀ xs : List Span, linkIn (xs.map .span) = anyLink xs := by
        intro xs
        induction xs with
        | nil => rfl
        | cons x xs ih => rw [anyLink, ← ih]; rfl
      rw [emphasised_link, this, ha.plain, ha.brackets]; rfl
    · have : Segs one st.nextId st'.nextId (xs.map .span ++ []) ((xs.map fun x => ⟨0, spanTree x⟩) ++ []) [] :=
        .atoms (Nat.le_of_eq ha.nextId.symm) (by
          have hm : ∀ xs : List Span, spanTrees xs = xs.map spanTree := by
            intro xs
            induction xs with
            | nil => rfl
            | cons x xs ih => rw [spanTrees, ih]; rfl
          rw [List.map_map, hm]; rfl) (fun it hit => by
          obtain ⟨x, _, rfl⟩ := List.mem_map.1 hit
          exact .inl rfl) .nil
      simpa using this
  | phrase h0 h =>
    intro st hsub hpos hid hnl
    obtain ⟨st', ha, hn⟩ := phrase_run hr h (by decide) hsub hpos hid hnl
    obtain ⟨its, ds, a1, a2, a3, a4, a5, a6⟩ := ha
    refine ⟨st', ⟨its, ds, a1, a2, a3, a4, ?_, ?_⟩, hn⟩
    · rw [a5, emphasised_link]
      have : ∀ xs : List Span, linkIn (xs.map .span) = anyLink xs := by
        intro xs
        induction xs with
        | nil => rfl
        | cons x xs ih => rw [anyLink, ← ih]; rfl
      rw [this]
    · have := Segs.stretch h0 a6 (Segs.nil)
      simpa using this
  | @run b k n ch o cl hn hc hk h1 h2 =>
    intro st hsub hpos hid hnl
    obtain ⟨o', cl', hst, g1, g2⟩ := step_run hsub hpos hn hc hk
    have : o' = o := by rw [Bool.eq_iff_iff, g1, h1]
    subst this
    have : cl' = cl := by rw [Bool.eq_iff_iff, g2, h2]
    subst this
    obtain ⟨a, rfl⟩ : ∃ i, n = i + 1 := ⟨n - 1, by omega⟩
    have hne : List.replicate (a + 1) ch ≠ [] := by simp [List.replicate_succ]
    refine ⟨_, ⟨[⟨st.nextId, textNode (List.replicate (a + 1) ch)⟩], [⟨ch, a + 1, a + 1, st.nextId, o', cl'⟩],
      .step hst (by dsimp only; omega) (lt_of_subject hsub hpos hne) .refl, by simp, rfl, rfl, by rw [emphasised_link]; rfl, .run hc hn .nil⟩, ?_⟩
    refine nlOk_last (i := st.nextId) (n := textNode (List.replicate (a + 1) ch)) (by simp) fun _ => ?_
    refine ⟨_, ch, rfl, ?_, by rcases hc with rfl | rfl <;> decide⟩
    rw [List.replicate_succ', List.getLast?_concat]
  | @seq b t u k ps qs _ _ ih1 ih2 =>
    intro st hsub hpos hid hnl
    obtain ⟨st1, hr1, a7⟩ := ih1 (st := st) (by rw [hsub]; simp) hpos hid (by simpa using hnl)
    have hid1 := hr1.ids hid
    obtain ⟨its1, ds1, a1, a2, a3, a4, a5, a6⟩ := hr1
    obtain ⟨st2, ⟨its2, ds2, b1, b2, b3, b4, b5, b6⟩, b7⟩ := ih2 (st := st1) (by rw [hsub]; simp) (by rw [a2, hpos]; simp) hid1 a7
    refine ⟨st2, ⟨its1 ++ its2, ds1 ++ ds2, a1.trans b1, by rw [b2, a2]; simp; omega, by rw [b3, a3]; simp, by rw [b4, a4]; simp, ?_, a6.append b6⟩, b7⟩
    rw [b5, a5]
    simp only [emphasised_link, linkIn, List.any_append]
    cases ps.any chunkLink <;> cases qs.any chunkLink <;> simp [deactivate_twice]
  | @link b x w k dest title image ps _ h3 htg hni ih =>
    intro st hsub hpos hid hnl
    have hsub1 : c.subject = b ++ (opening image ++ (x ++ (']' :: (w ++ k)))) := by rw [hsub]; simp
    have hst := step_opening (rest_of_subject hsub1 hpos)
    have hol : 1 ≤ (opening image).length := by cases image <;> decide
    have hone : opening image ≠ [] := by cases image <;> decide
    obtain ⟨st2, ⟨its, ds, a1, a2, a3, a4, a5, a6⟩, n2⟩ := ih (st := { st with
        pos := st.pos + (opening image).length
        children := st.children ++ [⟨st.nextId, textNode (opening image)⟩]
        brackets := ⟨st.nextId, st.delims.head?.map (·.node), st.pos + (opening image).length - 1, image, true⟩ :: st.brackets
        nextId := st.nextId + 1 }) (by rw [hsub1]; simp) (by simp [hpos]) (opened_ids hid)
      (nlOk_last (i := st.nextId) (n := textNode (opening image)) (by simp) fun _ =>
        ⟨_, '[', rfl, opening_last image, by decide⟩)
    dsimp only at a2 a3 a4 a5 a6
    obtain ⟨o, bs, q1, q2, q3, q4, q5, q6, q7⟩ := brackets_top a5
    dsimp only at q2 q3 q4 q5 q6
    have hsub2 : c.subject = (b ++ opening image ++ x) ++ ([']'] ++ (w ++ k)) := by rw [hsub]; simp
    have hpos2 : st2.pos = (b ++ opening image ++ x).length := by rw [a2, hpos]; simp; omega
    have hrest2 := rest_of_subject hsub2 hpos2
    have hact : o.active = true := by
      rw [q6]
      cases image with
      | true => rfl
      | false => simp [hni rfl]
    have hslice : slice c.subject o.index (st2.pos + 1) = '[' :: (x ++ [']']) := by
      rw [slice, q4, hpos2, hsub1, hpos]
      cases image with
      | false =>
        have : b ++ (opening false ++ (x ++ ']' :: (w ++ k))) = (b ++ ('[' :: (x ++ [']']))) ++ (w ++ k) := by simp [opening]
        rw [this, List.take_left' (by simp [opening]; omega)]
        simp [opening]
      | true =>
        have : b ++ (opening true ++ (x ++ ']' :: (w ++ k))) = ((b ++ ['!']) ++ ('[' :: (x ++ [']']))) ++ (w ++ k) := by simp [opening]
        rw [this, List.take_left' (by simp [opening]; omega), List.drop_left' (by simp [opening])]
    have hcl : ∀ (dst : Str) (p : Nat) (ttl : Str), closeLink o bs dst ttl { st2 with pos := p } = .ok { st2 with
        pos := p
        children := st.children ++ [⟨0, linkNode (if o.image then .image else .link) dst ttl (spanTrees (emphasised ps))⟩]
        delims := st.delims
        brackets := if o.image then bs else deactivate bs } := by
      intro dst p ttl
      refine closeLink_segs (lo := st.nextId + 1) (hi := st2.nextId) (x := ⟨st.nextId, textNode (opening image)⟩) (its := its)
        (ds := ds) q2.symm ?_ (by rw [a3]; simp) (by rw [a4]) q3 (by omega) a6 h3 ?_
      · intro it hit
        have := hid.items it hit
        rw [q2]; omega
      · intro d hd
        have := hid.delims d hd; omega
    have key : parseCloseBracket c st2 = .ok { st2 with
        pos := st2.pos + 1 + w.length
        children := st.children ++ [⟨0, linkNode (if o.image then .image else .link) dest title (spanTrees (emphasised ps))⟩]
        delims := st.delims
        brackets := if o.image then bs else deactivate bs } := by
      have hrest3 := rest_succ (t := w ++ k) hrest2
      rcases target_of (i := 0) hr htg hrest3 hslice with ⟨tt, e1, e2⟩ | ⟨p, e1, e2⟩
      · unfold parseCloseBracket
        simp only [q1, hact, Bool.not_true, Bool.false_eq_true, if_false, e1, e2]
        exact hcl _ _ _
      · unfold parseCloseBracket
        simp only [q1, hact, Bool.not_true, Bool.false_eq_true, if_false, e1, e2]
        exact hcl _ _ _
    have hst2 := step_bracket hrest2 key
    have hle := a6.le
    refine ⟨_, ⟨[⟨0, linkNode (if o.image then .image else .link) dest title (spanTrees (emphasised ps))⟩], [],
      .step hst (by dsimp only; omega) (lt_of_subject hsub1 hpos hone)
        (a1.trans (.step hst2 (by dsimp only; omega) (lt_of_subject hsub2 hpos2 (by simp)) .refl)), ?_, rfl, rfl, ?_, ?_⟩, ?_⟩
    · simp [a2]; omega
    · dsimp only
      rw [q5, q7, emphasised_link [_]]
      cases image with
      | true => simp [linkIn, chunkLink, hasLink]
      | false => simp [linkIn, chunkLink, hasLink, hni rfl]
    · have h2 : Segs one st.nextId st2.nextId ([if image = true then Span.image dest title (emphasised ps) else .link dest title (emphasised ps)].map .span ++ [])
          ([⟨0, linkNode (if image then .image else .link) dest title (spanTrees (emphasised ps))⟩] ++ []) [] :=
        .atoms (by omega) (by cases image <;> rfl) (by simp) .nil
      rw [q5]
      simpa using h2
    · refine nlOk_other (i := 0) (n := linkNode (if o.image then .image else .link) dest title (spanTrees (emphasised ps))) (by simp) ?_
      rw [q5]
      cases image <;> simp [linkNode, Tree.data]
  | @brackets b x k image ps _ hno ih =>
    intro st hsub hpos hid hnl
    have hsub1 : c.subject = b ++ (opening image ++ (x ++ (']' :: k))) := by rw [hsub]; simp
    have hst := step_opening (rest_of_subject hsub1 hpos)
    have hol : 1 ≤ (opening image).length := by cases image <;> decide
    have hone : opening image ≠ [] := by cases image <;> decide
    obtain ⟨st2, ⟨its, ds, a1, a2, a3, a4, a5, a6⟩, n2⟩ := ih (st := { st with
        pos := st.pos + (opening image).length
        children := st.children ++ [⟨st.nextId, textNode (opening image)⟩]
        brackets := ⟨st.nextId, st.delims.head?.map (·.node), st.pos + (opening image).length - 1, image, true⟩ :: st.brackets
        nextId := st.nextId + 1 }) (by rw [hsub1]; simp) (by simp [hpos]) (opened_ids hid)
      (nlOk_last (i := st.nextId) (n := textNode (opening image)) (by simp) fun _ =>
        ⟨_, '[', rfl, opening_last image, by decide⟩)
    dsimp only at a2 a3 a4 a5 a6
    obtain ⟨o, bs, q1, q2, q3, q4, q5, q6, q7⟩ := brackets_top a5
    dsimp only at q2 q3 q4 q5 q6
    have hsub2 : c.subject = (b ++ opening image ++ x) ++ ([']'] ++ k) := by rw [hsub]; simp
    have hpos2 : st2.pos = (b ++ opening image ++ x).length := by rw [a2, hpos]; simp; omega
    have hrest2 := rest_of_subject hsub2 hpos2
    have hslice : slice c.subject o.index (st2.pos + 1) = '[' :: (x ++ [']']) := by
      rw [slice, q4, hpos2, hsub1, hpos]
      cases image with
      | false =>
        have : b ++ (opening false ++ (x ++ ']' :: k)) = (b ++ ('[' :: (x ++ [']']))) ++ k := by simp [opening]
        rw [this, List.take_left' (by simp [opening]; omega)]
        simp [opening]
      | true =>
        have : b ++ (opening true ++ (x ++ ']' :: k)) = ((b ++ ['!']) ++ ('[' :: (x ++ [']']))) ++ k := by simp [opening]
        rw [this, List.take_left' (by simp [opening]; omega), List.drop_left' (by simp [opening])]
    have key : parseCloseBracket c st2 = .ok { st2.add 1 (textNode [']']) with brackets := bs } := by
      have hrest3 := rest_succ (t := k) hrest2
      cases hact : o.active with
      | false =>
        unfold parseCloseBracket
        simp only [q1, hact, Bool.not_false, if_true]
        rfl
      | true =>
        rcases hno with ⟨rfl, hno⟩ | ⟨g1, g2, g3⟩
        · rw [q6, hno] at hact; cases hact
        · obtain ⟨e1, p, e2⟩ := noTarget hr g1 g2 g3 hrest3 hslice
          unfold parseCloseBracket
          simp only [q1, hact, Bool.not_true, Bool.false_eq_true, if_false, e1, e2]
          rfl
    have hst2 := step_bracket hrest2 key
    refine ⟨_, ⟨⟨st.nextId, textNode (opening image)⟩ :: (its ++ [⟨0, textNode [']']⟩]), ds,
      .step hst (by dsimp only; omega) (lt_of_subject hsub1 hpos hone)
        (a1.trans (.step hst2 (by simp) (lt_of_subject hsub2 hpos2 (by simp)) .refl)), ?_, ?_, ?_, ?_, ?_⟩, ?_⟩
    · simp [a2]; omega
    · simp [a3, IState.add, IState.push]
    · simp [a4, IState.add, IState.push]
    · simp [q7, emphasised_link, linkIn, chunkLink, hasLink]
    · have hle := a6.le
      have := Segs.atoms (xs := [.text (opening image)]) (a := [⟨st.nextId, textNode (opening image)⟩]) (lo := st.nextId) (Nat.le_succ _) rfl
        (by simp) (a6.append (Segs.atoms (xs := [.text [']']]) (a := [⟨0, textNode [']']⟩]) (Nat.le_refl st2.nextId) rfl (by simp) .nil))
      simpa [IState.add, IState.push] using this
    · refine nlOk_last (i := 0) (n := textNode [']']) (by simp [IState.add, IState.push]) fun _ => ⟨_, ']', rfl, rfl, by decide⟩

theorem parseInlines_chunks {smart one : Bool} {m : RefMap} {x t : Str} {ps : List Chunk} (hx : strip x = t) (h : Chunks smart one m.get [] t [] ps)
    (h3 : Fair one ps) : parseInlines smart m x = .ok (spanTrees (emphasised ps)) := by
  have hst : IdsOk ⟨0, [], [], [], 1⟩ := ⟨by decide, by simp, by simp⟩
  have hnl : NlOk ⟨0, [], [], [], 1⟩ (t ++ []) := by intro _ it hit; cases hit
  obtain ⟨st', ⟨its, ds, a1, a2, a3, a4, _, a5⟩, _⟩ := chunks_run (c := ⟨t, m, smart⟩) (fun _ => rfl) h (st := ⟨0, [], [], [], 1⟩) (by simp) rfl hst hnl
  obtain ⟨its', e1, e2⟩ := processEmphasis_segs (Nat.le_refl _) a5 h3
  have hstop : Run ⟨t, m, smart⟩ st' st' := Run.stop (by
    rw [a2]; simp [Ctx.rest])
  have hrun := a1.run hstop
  simp only [List.nil_append, List.append_nil] at a3 a4
  unfold parseInlines
  rw [hx]
  simp only
  rw [hrun _ (by simp)]
  simp only [bind, Except.bind, pure, Except.pure, a4, a3, List.reverse_reverse, e1, e2]

theorem chunksHtml_inline {smart : Bool} {o : HtmlOpts} (h1 : o.sourcepos = false) (m : RefMap) : InlineHtml (smart, m) o (ChunksHtml smart o m.get) := by
  rintro t h ⟨one, ps, hp, h3, rfl⟩ x hx
  exact ⟨_, parseInlines_chunks hx hp h3, fun p g b lo => render_spans h1 _ p g b lo⟩

/-! ### A line of ordinary characters and delimiters -/

theorem takeWhile_eq (c : Char) : ∀ r : Str, r.takeWhile (· = c) = List.replicate (r.takeWhile (· = c)).length c
  | [] => rfl
  | x :: r => by
    by_cases h : x = c
    · subst h
      simp only [List.takeWhile_cons, decide_true, if_true, List.length_cons, List.replicate_succ]
      rw [← takeWhile_eq x r]
    · simp [h]

theorem chunks_text {smart one : Bool} {refs : Str → Option RefDef} : ∀ (n : Nat) {t : Str}, t.length ≤ n → (∀ c ∈ t, Ordinary c ∨ c = '*' ∨ c = '_') →
    ∀ (b : Str), Chunks smart one refs b t [] (chunksOf smart n b.getLast? t)
  | 0, [], _, _, b => .nil
  | _ + 1, [], _, _, b => .nil
  | 0, _ :: _, h, _, _ => by simp at h
  | n + 1, c :: t, hn, h, b => by
    rw [chunksOf]
    by_cases hc : c = '*' ∨ c = '_'
    · rw [if_pos hc]
      have e : c :: t = List.replicate ((t.takeWhile (· = c)).length + 1) c ++ t.dropWhile (· = c) := by
        rw [List.replicate_succ, ← takeWhile_eq, List.cons_append, List.takeWhile_append_dropWhile]
      have hh : (t.dropWhile (· = c)).head? ≠ some c := by
        intro hx
        have := List.head?_dropWhile_not (fun x => decide (x = c)) t
        rw [hx] at this
        simp at this
      have hl : (t.dropWhile (· = c)).length ≤ n := by
        have := congrArg List.length e
        simp only [List.length_cons, List.length_append, List.length_replicate] at this hn
        omega
      have ih := chunks_text (smart := smart) (one := one) (refs := refs) n hl (fun x hx => h x (by rw [e]; simp [hx])) (b ++ List.replicate ((t.takeWhile (· = c)).length + 1) c)
      have eb : (b ++ List.replicate ((t.takeWhile (· = c)).length + 1) c).getLast? = some c := by
        rw [List.replicate_succ', ← List.append_assoc, List.getLast?_concat]
      rw [eb] at ih
      generalize hr : t.dropWhile (fun x => decide (x = c)) = r at *
      generalize hm : (t.takeWhile (fun x => decide (x = c))).length = m at *
      rw [e]
      exact .seq (ps := [_]) (.run (by omega) hc (by rw [List.append_nil]; exact hh) (by rw [decide_eq_true_iff, List.append_nil])
        (by rw [decide_eq_true_iff, List.append_nil])) ih
    · rw [if_neg hc]
      have ho : Ordinary c := (h c (by simp)).resolve_right hc
      have e : c :: t = (c :: t).takeWhile (fun x => decide (Ordinary x)) ++ (c :: t).dropWhile (fun x => decide (Ordinary x)) :=
        List.takeWhile_append_dropWhile.symm
      have hm : ∀ x ∈ (c :: t).takeWhile (fun x => decide (Ordinary x)), Ordinary x := fun x hx =>
        of_decide_eq_true (List.mem_takeWhile_imp (p := fun x => decide (Ordinary x)) hx)
      have hr : ∀ x, ((c :: t).dropWhile (fun x => decide (Ordinary x))).head? = some x → ¬ Ordinary x := by
        intro x hx
        have := List.head?_dropWhile_not (fun x => decide (Ordinary x)) (c :: t)
        rw [hx] at this
        simpa using this
      have hne : (c :: t).takeWhile (fun x => decide (Ordinary x)) ≠ [] := by simp [ho]
      generalize (c :: t).takeWhile (fun x => decide (Ordinary x)) = m at *
      generalize (c :: t).dropWhile (fun x => decide (Ordinary x)) = r at *
      rw [e] at hn h ⊢
      have hrl : r.length ≤ n := by
        have : 1 ≤ m.length := by cases m with | nil => exact absurd rfl hne | cons => simp
        simp only [List.length_append] at hn; omega
      have ih := chunks_text (smart := smart) (one := one) (refs := refs) n hrl (fun x hx => h x (by simp [hx])) (b ++ m)
      have eb : (b ++ m).getLast? = m.getLast? := by
        rw [List.getLast?_append]
        cases hl : m.getLast? with
        | none => exact absurd (List.getLast?_eq_none_iff.1 hl) hne
        | some => rfl
      rw [eb] at ih
      refine .seq (ps := [_]) (.atom (xs := [_]) (.plain hne hm fun x hx => ?_)) ih
      rw [List.append_nil] at hx
      refine ⟨hr x hx, ?_⟩
      rintro rfl
      rcases h '\n' (List.mem_append_right _ (List.mem_of_head? hx)) with h | h | h
      · exact absurd h (by unfold Ordinary; decide)
      · cases h
      · cases h

end CM
