import Verif.Spec.Size
import Verif.Proofs.LastPath
import Verif.Proofs.SourceRun
import Verif.Proofs.QuoteDoc
import Verif.Proofs.Nest
import Verif.Proofs.ColumnsRun
/-
The number of nodes of the document tree is at most the length of the text plus two.
-/
namespace CM
open Spec

/-! ### Inline nodes -/

theorem nodesL_append (a b : List Tree) : nodesL (a ++ b) = nodesL a + nodesL b := by
  induction a with
  | nil => simp [nodesL]
  | cons t a ih => simp only [List.cons_append, nodesL, ih]; omega

theorem nodesL_leaf (d : NodeData) : nodesL [.node d []] = 1 := rfl

theorem linkTail_le {strict : Bool} {refs : Str → Option RefDef} {S : Str} {i j k : Nat} {dest title : Str}
    (h : LinkTail strict refs S i j k dest title) : j + 1 ≤ k := by
  cases h <;> omega

theorem source_nodes {smart strict : Bool} {refs : Str → Option RefDef} {S : Str} {L : Bool} {ts : List Tree} {i j : Nat}
    (h : Source smart strict refs S L ts i j) : i + nodesL ts ≤ j := by
  induction h with
  | nil => exact Nat.le_refl _
  | append _ _ ih1 ih2 => rw [nodesL_append]; omega
  | plain _ _ hm _ _ => have := List.length_pos_iff.2 hm; rw [nodesL_leaf]; omega
  | smartPlain _ _ hm _ _ _ => have := List.length_pos_iff.2 hm; rw [nodesL_leaf]; omega
  | lineEnd _ _ _ _ _ ih => rw [nodesL_leaf] at ih; simp only [nodesL, nodesT]; omega
  | @ref L _ _ _ _ h1 h2 =>
    have := (source_pos (Source.ref (smart := smart) (strict := strict) (refs := refs) (L := L) h1 h2)).2.2 (by simp)
    rw [nodesL_leaf]; omega
  | @html L _ _ _ h1 h2 =>
    have := (source_pos (Source.html (smart := smart) (strict := strict) (refs := refs) (L := L) h1 h2)).2.2 (by simp)
    rw [nodesL_leaf]; omega
  | uri => simp only [nodesL, nodesT]; omega
  | email => simp only [nodesL, nodesT]; omega
  | emph _ _ _ ih => simp only [nodesL, nodesT]; omega
  | strong _ _ _ ih => simp only [nodesL, nodesT]; omega
  | link _ _ _ h ih => have := linkTail_le h; simp only [nodesL, nodesT]; omega
  | image _ _ _ _ h ih => have := linkTail_le h; simp only [nodesL, nodesT]; omega
  | delims => rw [nodesL_leaf]; omega
  | ticks => rw [nodesL_leaf]; omega
  | code => rw [nodesL_leaf]; omega
  | _ => simp only [nodesL, nodesT]; omega

theorem inlines_nodes {smart : Bool} {refmap : RefMap} {content : Str} {ts : List Tree} (e : parseInlines smart refmap content = .ok ts) :
    nodesL ts ≤ (strip content).length := by
  have := source_nodes (parseInlines_source (strict := false) (by simp) e)
  omega

/-! ### The weight of a block

A paragraph or heading is counted with the characters that can still become inline nodes. -/

/-- The length without a line ending at the end. -/
def inkLen (c : Str) : Nat := c.length - if c.getLast? = some '\n' then 1 else 0

def weight (d : NodeData) : Nat :=
  match d.t with
  | .paragraph => 1 + inkLen (d.stringContent.getD [])
  | .heading => 1 + (d.stringContent.getD []).length
  | _ => 1

mutual
def weightT : Tree → Nat
  | .node d cs => weightL cs + weight d
def weightL : List Tree → Nat
  | [] => 0
  | t :: ts => weightT t + weightL ts
end

def weightS : List OpenBlk → Nat
  | [] => 0
  | b :: r => weight b.data + weightL b.children + weightS r

def PState.weight (p : PState) : Nat := weightS p.spine

theorem weightL_append (a b : List Tree) : weightL (a ++ b) = weightL a + weightL b := by
  induction a with
  | nil => simp [weightL]
  | cons t a ih => simp only [List.cons_append, weightL, ih]; omega

theorem weight_pos (d : NodeData) : 1 ≤ weight d := by
  unfold weight; split <;> omega

theorem weight_congr {d d' : NodeData} (h1 : d.t = d'.t) (h2 : d.stringContent = d'.stringContent) : weight d = weight d' := by
  unfold weight; rw [h1, h2]

theorem inkLen_strip (c : Str) : (strip c).length ≤ inkLen c := by
  obtain ⟨a, b, e, _, _, _, h⟩ := (strip_iff c (strip c)).1 rfl
  have hl := congrArg List.length e
  simp only [List.length_append] at hl
  unfold inkLen
  split
  · rename_i hn
    rcases List.eq_nil_or_concat b with rfl | ⟨b', x, rfl⟩
    · by_cases hs : strip c = []
      · rw [hs]; simp
      · rw [List.append_nil] at e
        rw [e, List.getLast?_append_of_ne_nil _ hs] at hn
        exact absurd (show isPySpace '\n' = true by decide) (h _ hn)
    · simp at hl; omega
  · omega

theorem inkLen_drop (c : Str) (n : Nat) : inkLen (c.drop n) ≤ inkLen c := by
  unfold inkLen
  rw [List.length_drop, List.getLast?_drop]
  by_cases h : c.length ≤ n
  · rw [if_pos h]; simp; omega
  · rw [if_neg h]; omega

theorem inkLen_add (c x : Str) : inkLen (c ++ (x ++ ['\n'])) ≤ inkLen c + x.length + 1 ∧ inkLen (x ++ ['\n']) = x.length := by
  have h1 : (c ++ (x ++ ['\n'])).getLast? = some '\n' := by simp
  have h2 : (x ++ ['\n']).getLast? = some '\n' := by simp
  unfold inkLen
  rw [h1, h2]
  simp only [if_pos, List.length_append, List.length_singleton]
  split <;> omega

theorem inkLen_le (c : Str) : c.length ≤ inkLen c + 1 := by unfold inkLen; split <;> omega

/-! ### Closing and opening blocks -/

/-- A property of the result, if there is one. -/
def OkP {α : Type} (Q : α → Prop) (x : Except PyErr α) : Prop := ∀ a, x = .ok a → Q a

theorem OkP.ok {α : Type} {Q : α → Prop} {a : α} (h : Q a) : OkP Q (.ok a) := by
  intro b e; cases e; exact h

theorem OkP.err {α : Type} {Q : α → Prop} {e : PyErr} : OkP Q (.error e) := by
  intro b e; cases e

theorem OkP.mono {α : Type} {Q R : α → Prop} {x : Except PyErr α} (h : OkP Q x) (hR : ∀ a, Q a → R a) : OkP R x :=
  fun a e => hR a (h a e)

theorem OkP.bind {α β : Type} {Q : α → Prop} {R : β → Prop} {x : Except PyErr α} {f : α → Except PyErr β} (h : OkP Q x)
    (hf : ∀ a, Q a → OkP R (f a)) : OkP R (x >>= f) := by
  cases x with
  | error e => exact .err
  | ok a => exact hf a (h a rfl)

mutual
theorem weightT_norm : ∀ t : Tree, weightT (normTree t) = weightT t
  | .node d cs => by simp only [normTree, weightT, weightL_norm cs]; rw [weight_congr (d := normData d) (d' := d) rfl rfl]
theorem weightL_norm : ∀ ts : List Tree, weightL (normList ts) = weightL ts
  | [] => rfl
  | t :: ts => by simp only [normList, weightL, weightT_norm t, weightL_norm ts]
end

theorem refLoop_drop : ∀ (fuel : Nat) (x : Str) (m : RefMap) (h : Bool) (r : Str × RefMap × Bool), refLoop fuel x m h = .ok r → ∃ n, r.1 = x.drop n := by
  intro fuel
  induction fuel with
  | zero => intro x m h r e; cases e
  | succ fuel ih =>
    intro x m h r e
    simp only [refLoop] at e
    split at e
    · split at e
      · cases e; exact ⟨0, rfl⟩
      · obtain ⟨n, hn⟩ := ih _ _ _ _ e
        exact ⟨_, by rw [hn, List.drop_drop]⟩
    · cases e; exact ⟨0, rfl⟩

theorem finalizeBlock_weight (d : NodeData) (cs : List Tree) (m : RefMap) :
    OkP (fun r => weightL r.1.toList ≤ weight d + weightL cs) (finalizeBlock d cs m) := by
  unfold finalizeBlock
  split
  · refine .ok ?_
    have h := congrArg weightT (norm_finalizeList d cs)
    rw [weightT_norm] at h
    simp only [weightT, weightL_norm] at h
    rw [weight_congr (d := normData d) (d' := d) rfl rfl] at h
    simp only [Option.toList_some, weightL]
    omega
  · rename_i ht
    refine OkP.bind (Q := fun e => e.t = d.t) ?_ fun e he => .ok ?_
    · unfold finalizeCode
      split
      · exact .err
      · split
        · split
          · exact .err
          · exact .ok rfl
        · exact .ok rfl
    · simp only [Option.toList_some, weightL, weightT]
      have : weight e = 1 := by unfold weight; rw [he, ht]
      have := weight_pos d
      omega
  · rename_i ht
    refine OkP.bind (Q := fun e => e.t = d.t) ?_ fun e he => .ok ?_
    · unfold finalizeHtml
      split
      · exact .err
      · exact .ok rfl
    · simp only [Option.toList_some, weightL, weightT]
      have : weight e = 1 := by unfold weight; rw [he, ht]
      have := weight_pos d
      omega
  · rename_i ht
    refine OkP.bind (Q := fun r => ∀ e, r.1 = some e → weight e ≤ weight d) ?_ fun r hr => .ok ?_
    · unfold finalizeParagraph
      split
      · exact .err
      · rename_i content hc
        refine OkP.bind (Q := fun r => ∃ n, r.1 = content.drop n) (fun r e => refLoop_drop _ _ _ _ _ e) fun r hr => ?_
        obtain ⟨c', m', has⟩ := r
        dsimp only
        split
        · exact .ok (by intro e he; cases he)
        · refine .ok ?_
          intro e he
          cases he
          obtain ⟨n, hn⟩ := hr
          have hn : c' = content.drop n := hn
          subst hn
          simp only [weight, ht, hc, Option.getD_some]
          have := inkLen_drop content n
          omega
    · obtain ⟨r1, r2⟩ := r
      cases r1 with
      | none => simp [weightL]
      | some e =>
        have := hr e rfl
        simp only [Option.map_some, Option.toList_some, weightL, weightT]
        omega
  · refine .ok ?_
    simp only [Option.toList_some, weightL, weightT]
    omega

/-- Nothing but the open blocks has changed, and their weight has not grown by more than `n`. -/
structure Grows (n : Nat) (p p' : PState) : Prop where
  le : p'.weight ≤ p.weight + n
  cur : p'.cur = p.cur
  line : p'.currentLine = p.currentLine

theorem Grows.refl (p : PState) : Grows 0 p p := ⟨Nat.le_refl _, rfl, rfl⟩

theorem Grows.trans {n m : Nat} {p q r : PState} (h : Grows n p q) (h' : Grows m q r) : Grows (n + m) p r :=
  ⟨by have := h.le; have := h'.le; omega, h'.cur.trans h.cur, h'.line.trans h.line⟩

theorem finalizeTip_weight (l : Nat) (p : PState) :
    OkP (fun p' => Grows 0 p p' ∧ p'.allClosed = p.allClosed ∧ (p'.spine = [] → weightL p'.doc.toList ≤ p.weight)) (finalizeTip l p) := by
  unfold finalizeTip
  split
  · exact .err
  · rename_i b rest hs
    refine OkP.bind (finalizeBlock_weight _ _ _) fun r hr => ?_
    obtain ⟨t, m⟩ := r
    have hr : weightL t.toList ≤ weight b.data + weightL b.children := hr
    dsimp only
    split
    · refine .ok ⟨⟨?_, rfl, rfl⟩, rfl, fun _ => ?_⟩
      · simp [PState.weight, weightS]
      · simp only [PState.weight, hs, weightS]; exact hr
    · rename_i par up
      refine .ok ⟨⟨?_, rfl, rfl⟩, rfl, fun h => by simp at h⟩
      simp only [PState.weight, hs, weightS, weightL_append]
      omega

theorem closeLoop_weight : ∀ (n : Nat) (p : PState), OkP (Grows 0 p) (closeLoop n p)
  | 0, p => .err
  | n + 1, p => by
    unfold closeLoop
    split
    · exact .ok (.refl p)
    · refine OkP.bind (finalizeTip_weight _ p) fun q hq => ?_
      exact (closeLoop_weight n _).mono fun r hr => hq.1.trans ⟨hr.le, hr.cur, hr.line⟩

theorem closeUnmatched_weight (p : PState) : OkP (fun p' => Grows 0 p p' ∧ p'.allClosed = true) (closeUnmatched p) := by
  unfold closeUnmatched
  split
  · rename_i h; exact .ok ⟨.refl p, h⟩
  · exact OkP.bind (closeLoop_weight _ p) fun q hq => .ok ⟨⟨hq.le, hq.cur, hq.line⟩, rfl⟩

theorem addChildLoop_weight (tag : Kind) : ∀ (n : Nat) (p : PState), OkP (fun p' => Grows 0 p p' ∧ p'.allClosed = p.allClosed) (addChildLoop tag n p)
  | 0, p => .err
  | n + 1, p => by
    unfold addChildLoop
    split
    · exact .err
    · split
      · exact .ok ⟨.refl p, rfl⟩
      · refine OkP.bind (finalizeTip_weight _ p) fun q hq => ?_
        exact (addChildLoop_weight tag n _).mono fun r hr => ⟨hq.1.trans hr.1, hr.2.trans hq.2.1⟩

theorem addChild_weight (tag : Kind) (off : Nat) (f : NodeData → NodeData) (p : PState) {n : Nat}
    (hf : ∀ d, d.t = tag → d.stringContent = some [] → weight (f d) ≤ n) :
    OkP (fun p' => Grows n p p' ∧ p'.allClosed = p.allClosed ∧ ∃ d r, p'.spine = ⟨f d, []⟩ :: r ∧ d.t = tag ∧ d.stringContent = some [] ∧
      weightS r ≤ p.weight) (addChild tag off f p) := by
  unfold addChild
  refine OkP.bind (addChildLoop_weight tag _ p) fun q hq => .ok ⟨⟨?_, hq.1.cur, hq.1.line⟩, hq.2, _, _, rfl, rfl, rfl, hq.1.le⟩
  have h1 := hf { t := tag, sourcepos := some ((q.lineNumber, off + 1), (0, 0)) } rfl rfl
  have h2 : weightS q.spine ≤ weightS p.spine + 0 := hq.1.le
  simp only [PState.weight, weightS, weightL]
  omega

/-! ### The starts of blocks -/

/-- The characters that are left on the line. -/
def PState.left (p : PState) : Nat := p.currentLine.length - p.offset
/-- The characters that are left on the line from the next one that is not white space. -/
def PState.ahead (p : PState) : Nat := p.currentLine.length - p.nextNonspace

/-- Before the next block start: the blocks and what is left of the line are worth at most `B`; or one more, after a list
marker of one character. -/
def Room (B : Nat) (p : PState) : Prop :=
  p.weight + p.left ≤ B ∨
    p.weight + p.left ≤ B + 1 ∧ p.allClosed = true ∧ tipKind p ≠ some .paragraph ∧
      ((peekAt p.currentLine p.offset).isNone || isSpTabOpt (peekAt p.currentLine p.offset)) = true

/-- Before the rest of the line is added. -/
def RoomText (B : Nat) (p : PState) : Prop :=
  p.partiallyConsumedTab = false ∧ p.offset = p.nextNonspace ∧ p.weight + p.left ≤ B ∨
    p.weight ≤ B + 1 ∧ p.allClosed = true ∧ ∃ k, tipKind p = some k ∧ k ≠ .paragraph ∧ (acceptsLines k = true ∨ p.currentLine.length ≤ p.offset ∨ p.blank = true)

/-- What a block start does. -/
def StartRoom (B : Nat) (x : Start × PState) : Prop :=
  match x.1 with
  | .none => CurN x.2 ∧ x.2.weight + x.2.ahead ≤ B
  | .container => Cur x.2 ∧ Room B x.2
  | .leaf => RoomText B x.2

variable {B : Nat} {p : PState}

theorem Grows.ahead {n : Nat} {p q : PState} (h : Grows n p q) : q.ahead = p.ahead ∧ q.left = p.left ∧ q.nextNonspace = p.nextNonspace ∧ q.offset = p.offset := by
  have h1 := h.cur
  simp only [PState.cur, Prod.mk.injEq] at h1
  obtain ⟨h1, _, h2, _⟩ := h1
  refine ⟨?_, ?_, h2, h1⟩
  · unfold PState.ahead; rw [h.line, h2]
  · unfold PState.left; rw [h.line, h1]

theorem Grows.curN {n : Nat} {p q : PState} (h : Grows n p q) (hn : CurN p) : CurN q := by
  have h1 := h.cur
  simp only [PState.cur, Prod.mk.injEq] at h1
  obtain ⟨h1, h2, h3, h4, h5, h6, h7, h8⟩ := h1
  have hl := h.line
  refine ⟨?_, ?_, ?_, ?_, ?_, ?_, fun n hle => by
    rw [h5] at hle
    have := hn.adv n hle
    simp only [advanceOffset] at this ⊢
    rw [hl, h1, h2, h3, h8]; exact this, by rw [h1, h3, hl]; exact hn.white⟩
  · have := hn.cur; unfold Cur at *; rw [h1, hl]; exact this
  · rw [h1, h3]; exact hn.ge
  · rw [h3, hl]; exact hn.le
  · rw [h3, hl]; exact hn.nospace
  · rw [h6, h5]; exact hn.indented
  · rw [h7, h3, hl]; exact hn.blank

theorem Grows.curs {n : Nat} {p q : PState} (h : Grows n p q) (hn : Cur p) : Cur q := by
  unfold Cur at *
  rw [h.ahead.2.2.2, h.line]; exact hn

theorem weight_one {d : NodeData} (h : d.t ≠ .heading) (h' : d.stringContent = some []) : weight d = 1 := by
  unfold weight
  split
  · rw [h']; rfl
  · contradiction
  · rfl

theorem startBlockQuote_room (hn : CurN p) (h : p.weight + p.ahead ≤ B) : OkP (StartRoom B) (startBlockQuote p) := by
  unfold startBlockQuote
  split
  · rename_i hc
    simp only [Bool.and_eq_true, beq_iff_eq] at hc
    have hlt : p.nextNonspace < p.currentLine.length := (List.getElem?_eq_some_iff.1 hc.2).1
    have hoff : p.nextNonspace + 1 ≤ (eatQuoteMarker p).offset := by
      have e : (advanceOffset 1 false (advanceNextNonspace p)).offset = p.nextNonspace + 1 :=
        offset_chars (p := advanceNextNonspace p) hlt
      simp only [eatQuoteMarker]
      split
      · have := offset_adv (cur_adv (cur_advN hn) 1 false) 1 true
        rw [e] at this
        exact this
      · rw [e]
    have hw : (eatQuoteMarker p).weight = p.weight := congrArg (weightS ∘ Core.spine) (core_eat p)
    have hl : (eatQuoteMarker p).currentLine = p.currentLine := congrArg Core.text (core_eat p)
    have hcur := cur_eat hn
    generalize eatQuoteMarker p = q at *
    refine OkP.bind (closeUnmatched_weight q) fun q1 h1 => ?_
    refine OkP.bind (addChild_weight .blockQuote _ id q1 (n := 1) fun d h1 h2 => Nat.le_of_eq (weight_one (by rw [id, h1]; simp) h2)) fun q2 h2 => .ok ⟨?_, .inl ?_⟩
    · exact (h1.1.trans h2.1).curs hcur
    · have h3 := (h1.1.trans h2.1).le
      have h4 := (h1.1.trans h2.1).ahead.2.1
      show q2.weight + q2.left ≤ B
      rw [h4]
      unfold PState.left
      rw [hl]
      unfold PState.ahead at h
      omega
  · exact .ok ⟨hn, h⟩

theorem sub_le (r : Re) (n : Nat) : ∀ (fuel : Nat) (s : Str), (r.subLoop (fun _ => []) n fuel s).length ≤ s.length := by
  intro fuel
  induction fuel with
  | zero => intro s; simp [Re.subLoop]
  | succ fuel ih =>
    intro s
    cases s with
    | nil => simp [Re.subLoop]
    | cons c cs =>
      rw [Re.subLoop]
      split
      · split
        · rename_i t _ ht
          have := ih t
          simp only [List.nil_append, List.length_cons] at *
          omega
        · have := ih cs; simp only [List.length_cons]; omega
      · have := ih cs; simp only [List.length_cons]; omega

theorem atxContent_le (s : Str) : (atxContent s).length ≤ s.length :=
  Nat.le_trans (sub_le _ _ _ _) (sub_le _ _ _ _)

/-- A leaf without text. -/
theorem room_leaf {p : PState} {d : NodeData} {r : List OpenBlk} (hs : p.spine = ⟨d, []⟩ :: r) (hw : p.weight ≤ B + 1) (hc : p.allClosed = true)
    (hk : d.t ≠ .paragraph) (h : acceptsLines d.t = true ∨ p.currentLine.length ≤ p.offset) : RoomText B p :=
  .inr ⟨hw, hc, d.t, by simp [tipKind, hs], hk, h.imp id .inl⟩

theorem toEnd_off {p : PState} (h : Cur p) : (advanceToEnd p).currentLine.length ≤ (advanceToEnd p).offset := by
  rw [offset_end h]; exact Nat.le_refl _

theorem startAtx_room (hn : CurN p) (h : p.weight + p.ahead ≤ B) : OkP (StartRoom B) (startAtx p) := by
  unfold startAtx
  split
  · exact .ok ⟨hn, h⟩
  · split
    · exact .ok ⟨hn, h⟩
    · rename_i m hm
      have hm1 : 1 ≤ m.length := Re.matchPrefix_minLen hm
      have hm2 := Re.matchPrefix_length hm
      rw [List.length_drop] at hm2
      have hlt := drop_lt hm hm1
      have hoff : (advanceOffset m.length false (advanceNextNonspace p)).offset = p.nextNonspace + m.length :=
        offset_chars (p := advanceNextNonspace p) (by show p.nextNonspace + m.length ≤ p.currentLine.length; omega)
      have hcur : Cur (advanceOffset m.length false (advanceNextNonspace p)) := cur_adv (cur_advN hn) _ _
      have hw : (advanceOffset m.length false (advanceNextNonspace p)).weight = p.weight := rfl
      have hl : (advanceOffset m.length false (advanceNextNonspace p)).currentLine = p.currentLine := rfl
      dsimp only
      generalize advanceOffset m.length false (advanceNextNonspace p) = q at *
      refine OkP.bind (closeUnmatched_weight q) fun q1 h1 => ?_
      have hlen : (atxContent (q1.currentLine.drop q1.offset)).length + 1 ≤ p.ahead := by
        have := atxContent_le (q1.currentLine.drop q1.offset)
        rw [List.length_drop, h1.1.line, h1.1.ahead.2.2.2, hoff, hl] at this
        unfold PState.ahead
        rw [h1.1.line, h1.1.ahead.2.2.2, hoff, hl]
        omega
      refine OkP.bind (addChild_weight .heading _ _ q1 (n := p.ahead) fun d h1 h2 => ?_) fun q2 h2 => .ok ?_
      · simp only [weight, h1, Option.getD_some]; omega
      · obtain ⟨d, r, e1, e2, e3, e4⟩ := h2.2.2
        have hg := h1.1.trans h2.1
        have hc2 := hg.curs hcur
        refine room_leaf (p := advanceToEnd q2) e1 ?_ (h2.2.1.trans h1.2) ?_ (.inr (toEnd_off hc2))
        · show q2.weight ≤ _
          have := hg.le
          omega
        · show d.t ≠ _
          rw [e2]; simp

theorem startFenced_room (hn : CurN p) (h : p.weight + p.ahead ≤ B) : OkP (StartRoom B) (startFenced p) := by
  unfold startFenced
  split
  · exact .ok ⟨hn, h⟩
  · split
    · exact .ok ⟨hn, h⟩
    · rename_i m hm
      refine OkP.bind (closeUnmatched_weight p) fun q1 h1 => ?_
      refine OkP.bind (addChild_weight .codeBlock _ _ q1 (n := 1) fun d h1 h2 => Nat.le_of_eq (weight_one (by simp [h1]) h2)) fun q2 h2 => .ok ?_
      obtain ⟨d, r, e1, e2, e3, e4⟩ := h2.2.2
      have hg := h1.1.trans h2.1
      refine room_leaf (p := advanceOffset m.length false (advanceNextNonspace q2)) e1 ?_ (h2.2.1.trans h1.2) ?_ (.inl ?_)
      · show q2.weight ≤ _
        have := hg.le
        omega
      · show d.t ≠ _
        rw [e2]; simp
      · show acceptsLines d.t = true
        rw [e2]; rfl

theorem startHtml_room (k : Kind) (hn : CurN p) (h : p.weight + p.ahead ≤ B) : OkP (StartRoom B) (startHtml k p) := by
  unfold startHtml
  split
  · split
    · refine OkP.bind (closeUnmatched_weight p) fun q1 h1 => ?_
      refine OkP.bind (addChild_weight .htmlBlock _ _ q1 (n := 1) fun d h1 h2 => Nat.le_of_eq (weight_one (by simp [h1]) h2)) fun q2 h2 => .ok ?_
      obtain ⟨d, r, e1, e2, e3, e4⟩ := h2.2.2
      have hg := h1.1.trans h2.1
      refine room_leaf (p := q2) e1 ?_ (h2.2.1.trans h1.2) ?_ (.inl ?_)
      · have := hg.le
        omega
      · show d.t ≠ _
        rw [e2]; simp
      · show acceptsLines d.t = true
        rw [e2]; rfl
    · exact .ok ⟨hn, h⟩
  · exact .ok ⟨hn, h⟩

theorem startThematic_room (hn : CurN p) (h : p.weight + p.ahead ≤ B) : OkP (StartRoom B) (startThematic p) := by
  unfold startThematic
  split
  · refine OkP.bind (closeUnmatched_weight p) fun q1 h1 => ?_
    refine OkP.bind (addChild_weight .thematicBreak _ id q1 (n := 1) fun d h1 h2 => Nat.le_of_eq (weight_one (by rw [id, h1]; simp) h2)) fun q2 h2 => .ok ?_
    obtain ⟨d, r, e1, e2, e3, e4⟩ := h2.2.2
    have hg := h1.1.trans h2.1
    refine room_leaf (p := advanceToEnd q2) e1 ?_ (h2.2.1.trans h1.2) ?_ (.inr (toEnd_off (hg.curs hn.cur)))
    · show q2.weight ≤ _
      have := hg.le
      omega
    · show d.t ≠ _
      rw [e2]; simp
  · exact .ok ⟨hn, h⟩

theorem startIndented_room (hn : CurN p) (h : p.weight + p.ahead ≤ B) : OkP (StartRoom B) (startIndented p) := by
  unfold startIndented
  split
  · dsimp only
    have hw : (advanceOffset 4 true p).weight = p.weight := rfl
    generalize advanceOffset 4 true p = q at *
    refine OkP.bind (closeUnmatched_weight q) fun q1 h1 => ?_
    refine OkP.bind (addChild_weight .codeBlock _ id q1 (n := 1) fun d h1 h2 => Nat.le_of_eq (weight_one (by rw [id, h1]; simp) h2)) fun q2 h2 => .ok ?_
    obtain ⟨d, r, e1, e2, e3, e4⟩ := h2.2.2
    have hg := h1.1.trans h2.1
    refine room_leaf (p := q2) e1 ?_ (h2.2.1.trans h1.2) ?_ (.inl ?_)
    · have := hg.le
      omega
    · show d.t ≠ _
      rw [e2]; simp
    · show acceptsLines d.t = true
      rw [e2]; rfl
  · exact .ok ⟨hn, h⟩

theorem weight_drop {b d : NodeData} {content : Str} (hc : b.stringContent = some content) {n : Nat} (ht : d.t = b.t)
    (hd : d.stringContent = some (content.drop n)) : weight d ≤ weight b := by
  have := inkLen_drop content n
  unfold weight
  rw [hd, hc, ht, Option.getD_some, Option.getD_some]
  split
  · omega
  · simp only [List.length_drop]; omega
  · exact Nat.le_refl _

theorem startSetext_room {c : NodeData} (hsp : SP c p) (hn : CurN p) (h : p.weight + p.ahead ≤ B) : OkP (StartRoom B) (startSetext c.t p) := by
  unfold startSetext
  split
  · rename_i hcond
    simp only [Bool.and_eq_true, beq_iff_eq] at hcond
    split
    · exact .ok ⟨hn, h⟩
    · rename_i m hm
      have hm1 : 1 ≤ m.length := Re.matchPrefix_minLen hm
      have hlt := drop_lt hm hm1
      have ha : 1 ≤ p.ahead := by unfold PState.ahead; omega
      have hclose : OkP (fun q => (Grows 0 p q ∧ q.allClosed = true) ∧ ∀ b r, q.spine = b :: r → b.data.t = .paragraph) (closeUnmatched p) := by
        intro q hq
        refine ⟨closeUnmatched_weight p q hq, ?_⟩
        obtain ⟨sp, m, o, e1, _, e3⟩ := closeUnmatched_ok hsp
        rw [hq] at e1
        cases e1
        intro b r hs
        obtain ⟨d, r', e4, e5, _⟩ := e3.tip rfl
        have e6 : sp = b :: r := hs
        have e4 : sp.map (·.data) = d :: r' := e4
        rw [e6] at e4
        simp only [List.map_cons, List.cons.injEq] at e4
        rw [e4.1, e5, hcond.2]
      refine OkP.bind hclose fun q h1 => ?_
      split
      · exact .err
      · rename_i b rest hs
        split
        · exact .err
        · rename_i content hc
          refine OkP.bind (Q := fun r => ∃ n, r.1 = content.drop n) (fun r e => refLoop_drop _ _ _ _ _ e) fun r hr => ?_
          obtain ⟨c', m', has⟩ := r
          obtain ⟨n, hn'⟩ := hr
          have hn' : c' = content.drop n := hn'
          subst hn'
          have hw := h1.1.1.le
          have hb : b.data.t = .paragraph := h1.2 b rest hs
          have hqw : q.weight = weight b.data + weightL b.children + weightS rest := by
            unfold PState.weight; rw [hs]; rfl
          dsimp only
          split
          · have g : Grows 0 q { q with refmap := m', spine := { b with data := { b.data with stringContent := some (content.drop n) } } :: rest } := by
              refine ⟨?_, rfl, rfl⟩
              have h7 := weight_drop (b := b.data) (d := { b.data with stringContent := some (content.drop n) }) (n := n) hc rfl rfl
              have h8 : weightS ({ b with data := { b.data with stringContent := some (content.drop n) } } :: rest) ≤ weightS (b :: rest) := by
                simp only [weightS]
                exact Nat.add_le_add_right (Nat.add_le_add_right h7 _) _
              show weightS _ ≤ weightS q.spine + 0
              rw [hs]; exact h8
            refine .ok ⟨g.curN (h1.1.1.curN hn), ?_⟩
            have h3 := (h1.1.1.trans g).ahead.1
            have h4 := (h1.1.1.trans g).le
            show PState.weight _ + PState.ahead _ ≤ B
            rw [h3]
            exact Nat.le_trans (Nat.add_le_add_right h4 _) h
          · refine .ok ?_
            refine room_leaf (p := advanceToEnd _) (r := rest) rfl ?_ h1.1.2 (by simp) (.inr (toEnd_off ?_))
            · have h4 := inkLen_le content
              have h5 : weight b.data = 1 + inkLen content := by
                unfold weight; rw [hb, hc]; rfl
              have h6 : weight { t := .heading, sourcepos := b.data.sourcepos, level := some (if m.head? == some '=' then 1 else 2), stringContent := some (content.drop n) } ≤
                  1 + content.length := by
                simp only [weight, Option.getD_some, List.length_drop]; omega
              have h7 : weightS (⟨{ t := .heading, sourcepos := b.data.sourcepos, level := some (if m.head? == some '=' then 1 else 2), stringContent := some (content.drop n) }, []⟩ :: rest) ≤
                  B + 1 := by
                refine Nat.le_trans (Nat.add_le_add_right (Nat.add_le_add_right h6 0) (weightS rest)) ?_
                omega
              exact h7
            · exact h1.1.1.curs hn.cur
  · exact .ok ⟨hn, h⟩

theorem markerSpaces_off (col : Nat) : ∀ (fuel : Nat) (p : PState), Cur p →
    OkP (fun q => p.offset ≤ q.offset ∧ Cur q ∧ q.core = p.core ∧ q.books = p.books) (markerSpaces col fuel p)
  | 0, p, _ => .err
  | fuel + 1, p, h => by
    unfold markerSpaces
    dsimp only
    have h1 := offset_adv h 1 true
    have h2 := cur_adv h 1 true
    split
    · refine (markerSpaces_off col fuel (advanceOffset 1 true p) h2).mono fun q hq => ⟨by omega, hq.2.1, hq.2.2.1, hq.2.2.2⟩
    · exact .ok ⟨h1, h2, rfl, rfl⟩

theorem parseListMarker_off (k : Kind) (hn : CurN p) :
    OkP (fun x => (x.1 = none → x.2 = p) ∧ (x.1.isSome → Cur x.2 ∧ x.2.core = p.core ∧ x.2.books = p.books ∧ p.nextNonspace < p.currentLine.length ∧
      (p.nextNonspace + 2 ≤ x.2.offset ∨ x.2.offset = p.nextNonspace + 1 ∧
        ((peekAt p.currentLine x.2.offset).isNone || isSpTabOpt (peekAt p.currentLine x.2.offset)) = true))) (parseListMarker k p) := by
  unfold parseListMarker
  split
  · exact .ok ⟨fun _ => rfl, fun h => by cases h⟩
  · split
    · exact .ok ⟨fun _ => rfl, fun h => by cases h⟩
    · rename_i m ty bullet start delim hm
      dsimp only
      split
      · exact .ok ⟨fun _ => rfl, fun h => by cases h⟩
      · rename_i hnext
        rw [Bool.not_eq_true, Bool.not_eq_false'] at hnext
        split
        · exact .ok ⟨fun _ => rfl, fun h => by cases h⟩
        · obtain ⟨⟨t, ht⟩, htab⟩ := listMarker_text hm
          have hpos := (listMarker_pos hm).1
          have hoff : (advanceOffset m.length true (advanceNextNonspace p)).offset = p.nextNonspace + m.length := by
            show (advanceLoop p.currentLine true m.length m.length p.nextNonspace _ _).1 = _
            rw [advanceLoop_plain m t _ _ _ ht htab]
          have hlen := congrArg List.length ht
          simp only [List.length_drop, List.length_append] at hlen
          have hcur : Cur (advanceOffset m.length true (advanceNextNonspace p)) := cur_adv (cur_advN hn) _ _
          have hcore : (advanceOffset m.length true (advanceNextNonspace p)).core = p.core := rfl
          have hbooks : (advanceOffset m.length true (advanceNextNonspace p)).books = p.books := rfl
          generalize advanceOffset m.length true (advanceNextNonspace p) = q at *
          have key : ∀ q' : PState, q.offset ≤ q'.offset → Cur q' → q'.core = p.core → q'.books = p.books → ∀ l : ListData,
              OkP (fun x : Option ListData × PState => (x.1 = none → x.2 = p) ∧ (x.1.isSome → Cur x.2 ∧ x.2.core = p.core ∧ x.2.books = p.books ∧
                p.nextNonspace < p.currentLine.length ∧ (p.nextNonspace + 2 ≤ x.2.offset ∨ x.2.offset = p.nextNonspace + 1 ∧
                  ((peekAt p.currentLine x.2.offset).isNone || isSpTabOpt (peekAt p.currentLine x.2.offset)) = true))) (.ok (some l, q')) := by
            intro q' h1 h2 h3 h4 l
            refine .ok ⟨fun h => by simp at h, fun _ => ⟨h2, h3, h4, by omega, ?_⟩⟩
            by_cases h5 : p.nextNonspace + 2 ≤ q'.offset
            · exact .inl h5
            · have h6 : q'.offset = p.nextNonspace + 1 := by omega
              refine .inr ⟨h6, ?_⟩
              have h7 : m.length = 1 := by omega
              rw [h7] at hnext
              rw [h6]; exact hnext
          refine OkP.bind (markerSpaces_off _ _ q hcur) fun q1 h1 => ?_
          have hline : q1.currentLine = q.currentLine := congrArg Core.text h1.2.2.1
          split
          · rename_i hh
            split
            · exact key _ (offset_adv (p := { q1 with column := q.column, offset := q.offset }) (by unfold Cur at *; show q.offset ≤ q1.currentLine.length; rw [hline]; exact hcur) 1 true)
                (cur_adv (p := { q1 with column := q.column, offset := q.offset }) (by unfold Cur at *; show q.offset ≤ q1.currentLine.length; rw [hline]; exact hcur) 1 true)
                (h1.2.2.1.trans hcore) (h1.2.2.2.trans hbooks) _
            · exact key { q1 with column := q.column, offset := q.offset } (Nat.le_refl _) (by unfold Cur at *; show q.offset ≤ q1.currentLine.length; rw [hline]; exact hcur)
                (h1.2.2.1.trans hcore) (h1.2.2.2.trans hbooks) _
          · exact key q1 h1.1 h1.2.1 (h1.2.2.1.trans hcore) (h1.2.2.2.trans hbooks) _

theorem startListItem_room (c : NodeData) (hn : CurN p) (h : p.weight + p.ahead ≤ B) : OkP (StartRoom B) (startListItem c p) := by
  unfold startListItem
  split
  · refine OkP.bind (parseListMarker_off c.t hn) fun x hx => ?_
    obtain ⟨x, q⟩ := x
    dsimp only at hx ⊢
    cases x with
    | none =>
      have := hx.1 rfl
      subst this
      exact .ok ⟨hn, h⟩
    | some l =>
      obtain ⟨h1, h2, h3, h4, h5⟩ := hx.2 rfl
      dsimp only
      refine OkP.bind (closeUnmatched_weight q) fun q1 g1 => ?_
      have hl : q.currentLine = p.currentLine := congrArg Core.text h2
      have hw : q.weight = p.weight := congrArg (weightS ∘ Core.spine) h2
      have main : ∀ q2, Grows 1 q1 q2 ∧ q2.allClosed = true → OkP (StartRoom B)
          (addChild .item q2.nextNonspace (fun d => { d with listData := some l }) q2 >>= fun p => pure (.container, p)) := by
        intro q2 g2
        refine OkP.bind (addChild_weight .item _ _ q2 (n := 1) fun d h1 h2 => Nat.le_of_eq (weight_one (by simp [h1]) h2)) fun q3 g3 => .ok ?_
        obtain ⟨d, r, e1, e2, e3, e4⟩ := g3.2.2
        have hg := (g1.1.trans g2.1).trans g3.1
        refine ⟨hg.curs h1, ?_⟩
        have h6 := hg.le
        have h7 := hg.ahead
        have h1' : q.offset ≤ p.currentLine.length := hl ▸ h1
        unfold PState.ahead at h
        have h8 : q3.left = p.currentLine.length - q.offset := by rw [h7.2.1]; unfold PState.left; rw [hl]
        rcases h5 with h5 | ⟨h5, h5'⟩
        · left
          show q3.weight + q3.left ≤ B
          omega
        · right
          refine ⟨?_, g3.2.1.trans g2.2, ?_, ?_⟩
          · show q3.weight + q3.left ≤ B + 1
            omega
          · show tipKind q3 ≠ _
            simp [tipKind, e1, e2]
          · show ((peekAt q3.currentLine q3.offset).isNone || isSpTabOpt (peekAt q3.currentLine q3.offset)) = true
            rw [hg.line, h7.2.2.2, hl]; exact h5'
      split
      · refine OkP.bind (addChild_weight .list _ _ q1 (n := 1) fun d h1 h2 => Nat.le_of_eq (weight_one (by simp [h1]) h2)) fun q2 g2 => ?_
        exact main q2 ⟨g2.1, g2.2.1.trans g1.2⟩
      · exact main q1 ⟨⟨by omega, rfl, rfl⟩, g1.2⟩
  · exact .ok ⟨hn, h⟩

theorem tryStarts_room {c : NodeData} (fs : List (PState → Except PyErr (Start × PState)))
    (hf : ∀ f ∈ fs, ∀ p, SP c p → CurN p → ∃ r p', f p = .ok (r, p') ∧ StartPost c p r p')
    (hr : ∀ f ∈ fs, ∀ p, SP c p → CurN p → p.weight + p.ahead ≤ B → OkP (StartRoom B) (f p)) :
    ∀ p, SP c p → CurN p → p.weight + p.ahead ≤ B → OkP (StartRoom B) (tryStarts fs p) := by
  induction fs with
  | nil => intro p _ hn h; exact .ok ⟨hn, h⟩
  | cons f fs ih =>
    intro p hsp hn h
    obtain ⟨r, p', e1, e2⟩ := hf f (by simp) p hsp hn
    have h1 := hr f (by simp) p hsp hn h _ e1
    simp only [tryStarts]
    rw [e1]
    simp only [bind, Except.bind]
    cases r with
    | none => exact ih (fun f hf' => hf f (List.mem_cons_of_mem _ hf')) (fun f hf' => hr f (List.mem_cons_of_mem _ hf')) p' e2.2.1 h1.1 h1.2
    | leaf => exact .ok h1
    | container => exact .ok h1

theorem blockStarts_room {c : NodeData} (hsp : SP c p) (hn : CurN p) (h : p.weight + p.ahead ≤ B) : OkP (StartRoom B) (tryStarts (blockStarts c) p) := by
  refine tryStarts_room _ ?_ ?_ p hsp hn h
  · intro f hf p h hn
    simp only [blockStarts, List.mem_cons, List.not_mem_nil, or_false] at hf
    rcases hf with rfl | rfl | rfl | rfl | rfl | rfl | rfl | rfl
    · exact startBlockQuote_ok h hn
    · exact startAtx_ok h hn
    · exact startFenced_ok h hn
    · exact startHtml_ok h hn
    · exact startSetext_ok h hn
    · exact startThematic_ok h hn
    · exact startListItem_ok h hn
    · exact startIndented_ok h hn
  · intro f hf p hsp hn h
    simp only [blockStarts, List.mem_cons, List.not_mem_nil, or_false] at hf
    rcases hf with rfl | rfl | rfl | rfl | rfl | rfl | rfl | rfl
    · exact startBlockQuote_room hn h
    · exact startAtx_room hn h
    · exact startFenced_room hn h
    · exact startHtml_room _ hn h
    · exact startSetext_room hsp hn h
    · exact startThematic_room hn h
    · exact startListItem_room _ hn h
    · exact startIndented_room hn h

/-- Looking for the next character. -/
theorem room_find (hc : Cur p) (h : Room B p) :
    (findNextNonspace p).weight + (findNextNonspace p).ahead ≤ B ∨
      p.weight ≤ B + 1 ∧ p.allClosed = true ∧ tipKind p ≠ some .paragraph ∧ peekAt p.currentLine p.offset = none := by
  have hn := curN_find hc
  have hge := hn.ge
  have hle := hn.le
  have e1 : (findNextNonspace p).weight = p.weight := rfl
  have e2 : (findNextNonspace p).offset = p.offset := rfl
  have e3 : (findNextNonspace p).currentLine = p.currentLine := rfl
  rw [e3] at hle
  unfold PState.ahead
  rw [e1, e3]
  rw [e2] at hge
  unfold Room PState.left at h
  rcases h with h | ⟨h, h1, h2, h3⟩
  · left; omega
  · cases hp : peekAt p.currentLine p.offset with
    | none => right; exact ⟨by omega, h1, h2, rfl⟩
    | some ch =>
      left
      rw [hp] at h3
      have hlt : p.offset < p.currentLine.length := (List.getElem?_eq_some_iff.1 hp).1
      have hne : (findNextNonspace p).nextNonspace ≠ p.offset := by
        intro e
        have h4 := hn.nospace
        rw [e, e3] at h4
        have hp : p.currentLine[p.offset]? = some ch := hp
        rw [hp] at h4
        simp only [Option.isNone_some, Bool.false_or, isSpTabOpt, isSpTab, Bool.or_eq_true, beq_iff_eq] at h3
        rcases h3 with rfl | rfl
        · exact h4.2 rfl
        · exact h4.1 rfl
      omega

theorem startsLoop_room : ∀ (fuel : Nat) (c : NodeData) (p : PState), SP c p → Cur p → Room B p → OkP (RoomText B) (startsLoop fuel c p)
  | 0, c, p, _, _, _ => .err
  | fuel + 1, c, p, hsp, hc, h => by
    unfold startsLoop
    have hsp' : SP c (findNextNonspace p) := hsp.frame rfl rfl
    have hn := curN_find hc
    have h1 := room_find hc h
    rcases h1 with h1 | ⟨h1, h2, h3, h4⟩
    · dsimp only
      generalize findNextNonspace p = q at *
      have hend : ∀ q : PState, q.weight + q.ahead ≤ B → RoomText B (advanceNextNonspace q) := by
        intro q h1
        exact .inl ⟨rfl, rfl, h1⟩
      generalize (!q.indented && !_) = cond
      split
      · exact .ok (hend q h1)
      · intro p2 h2
        obtain ⟨r, q', e1, e2⟩ := blockStarts_ok hsp' hn
        have h3 := blockStarts_room hsp' hn h1 _ e1
        rw [e1] at h2
        simp only [bind, Except.bind] at h2
        cases r with
        | none =>
          cases h2
          exact hend q' h3.2
        | leaf => cases h2; exact h3
        | container =>
          obtain ⟨_, _, _, b, r, h6, h7⟩ := e2
          simp only [h6] at h2
          exact startsLoop_room fuel b.data q' h7 h3.1 h3.2 p2 h2
    · have e0 : p.currentLine.drop p.offset = [] := by
        rw [List.drop_eq_nil_iff]
        simpa [peekAt] using h4
      have e1 : (findNextNonspace p).nextNonspace = p.offset := by simp [findNextNonspace, e0, skipWs]
      have e2 : (findNextNonspace p).indented = false := by simp [findNextNonspace, e0, skipWs]
      have e3 : (findNextNonspace p).blank = true := by simp [findNextNonspace, e0, skipWs]
      dsimp only
      rw [e1, e2, show peekAt (findNextNonspace p).currentLine p.offset = none from h4]
      rw [if_pos (by simp)]
      refine .ok (.inr ⟨h1, h2, ?_⟩)
      show ∃ k, tipKind p = some k ∧ _
      cases hk : tipKind p with
      | none =>
        exfalso
        obtain ⟨d, r, e, _⟩ := hsp.tip h2
        simp only [tipKind, Option.map_eq_none_iff, List.head?_eq_none_iff] at hk
        simp [PState.ds, hk] at e
      | some k =>
        refine ⟨k, rfl, fun e => h3 (by rw [hk, e]), .inr (.inl ?_)⟩
        show p.currentLine.length ≤ (findNextNonspace p).nextNonspace
        rw [e1]
        simpa [peekAt] using h4

/-! ### The rest of the line -/

theorem appendContent_weight {x : Str} {b : OpenBlk} {r : List OpenBlk} {n : Nat} (hs : p.spine = b :: r)
    (h : ∀ c, b.data.stringContent = some c → weight { b.data with stringContent := some (c ++ x) } ≤ weight b.data + n) :
    OkP (fun q => q.weight ≤ p.weight + n) (appendContent x p) := by
  unfold appendContent
  rw [hs]
  dsimp only
  split
  · exact .err
  · rename_i c hc
    refine .ok ?_
    have := h c hc
    unfold PState.weight
    rw [hs]
    show weight _ + _ + _ ≤ weight _ + _ + _ + _
    have h2 : weight { b.data with stringContent := some (c ++ x) } + weightL b.children + weightS r ≤ weight b.data + n + weightL b.children + weightS r :=
      Nat.add_le_add_right (Nat.add_le_add_right this _) _
    refine Nat.le_trans h2 ?_
    omega

/-- Adding a line to a block that is not a paragraph or heading. -/
theorem addLine_other {b : OpenBlk} {r : List OpenBlk} (hs : p.spine = b :: r) (h1 : b.data.t ≠ .paragraph) (h2 : b.data.t ≠ .heading) :
    OkP (fun q => q.weight ≤ p.weight) (addLine p) := by
  have hw : ∀ d : NodeData, d.t = b.data.t → weight d = 1 := by
    intro d hd
    unfold weight
    rw [hd]
    split <;> first | contradiction | rfl
  unfold addLine
  split
  · exact (appendContent_weight (p := { p with offset := p.offset + 1 }) (n := 0) hs fun c _ => Nat.le_trans (Nat.le_of_eq (hw _ rfl)) (weight_pos _)).mono fun q h => h
  · exact (appendContent_weight (n := 0) hs fun c _ => Nat.le_trans (Nat.le_of_eq (hw _ rfl)) (weight_pos _)).mono fun q h => h

/-- Adding a line to a paragraph. -/
theorem addLine_para {b : OpenBlk} {r : List OpenBlk} (hs : p.spine = b :: r) (h1 : b.data.t = .paragraph) (h2 : p.partiallyConsumedTab = false) :
    OkP (fun q => q.weight ≤ p.weight + p.left + 1) (addLine p) := by
  unfold addLine
  rw [if_neg (by rw [h2]; simp)]
  refine (appendContent_weight (n := p.left + 1) hs fun c hc => ?_).mono fun q h => by omega
  have h3 := (inkLen_add c (p.currentLine.drop p.offset)).1
  have h4 : weight b.data = 1 + inkLen c := by unfold weight; rw [h1, hc]; rfl
  have h5 : weight { b.data with stringContent := some (c ++ (p.currentLine.drop p.offset ++ ['\n'])) } =
      1 + inkLen (c ++ (p.currentLine.drop p.offset ++ ['\n'])) := by unfold weight; rw [h1]; rfl
  rw [h4, h5]
  rw [List.length_drop] at h3
  unfold PState.left
  omega

/-- The first line of a paragraph. -/
theorem addLine_new {b : OpenBlk} {r : List OpenBlk} (hs : p.spine = b :: r) (h1 : b.data.t = .paragraph) (hc : b.data.stringContent = some [])
    (h2 : p.partiallyConsumedTab = false) : OkP (fun q => q.weight ≤ p.weight + p.left) (addLine p) := by
  unfold addLine
  rw [if_neg (by rw [h2]; simp)]
  refine (appendContent_weight (n := p.left) hs fun c hc' => ?_).mono fun q h => by omega
  rw [hc] at hc'
  cases hc'
  have h3 := (inkLen_add [] (p.currentLine.drop p.offset)).2
  have h4 : weight b.data = 1 + inkLen [] := by unfold weight; rw [h1, hc]; rfl
  have h5 : weight { b.data with stringContent := some ([] ++ (p.currentLine.drop p.offset ++ ['\n'])) } =
      1 + inkLen (p.currentLine.drop p.offset ++ ['\n']) := by unfold weight; rw [h1]; rfl
  rw [h4, h5, h3, List.length_drop]
  unfold PState.left
  omega

theorem weightL_mark : ∀ ts : List Tree, weightL (markLastChild ts) = weightL ts
  | [] => rfl
  | [.node d cs] => rfl
  | t :: u :: r => by
    have := weightL_mark (u :: r)
    rw [markLastChild]
    simp only [weightL] at this ⊢
    omega

theorem weightS_flag (flag : Bool) : ∀ sp : List OpenBlk, weightS (sp.map fun x => { x with data := { x.data with lastLineBlank := flag } }) = weightS sp
  | [] => rfl
  | b :: r => by
    have := weightS_flag flag r
    simp only [List.map_cons, weightS, this]
    rfl

theorem addText_room (h : RoomText B p) : OkP (fun q => q.weight ≤ B + 1) (addText p) := by
  unfold addText
  split
  · rename_i hc
    simp only [Bool.and_eq_true, Bool.not_eq_true', beq_iff_eq] at hc
    rcases h with ⟨h1, h2, h3⟩ | ⟨_, h2, _⟩
    · obtain ⟨b, r, hs⟩ : ∃ b r, p.spine = b :: r := by
        cases hs : p.spine with
        | nil => simp [tipKind, hs] at hc
        | cons b r => exact ⟨b, r, rfl⟩
      have hb : b.data.t = .paragraph := by simpa [tipKind, hs] using hc.2
      exact (addLine_para hs hb h1).mono fun q hq => by omega
    · rw [h2] at hc; simp at hc
  · have hclose : OkP (fun q => Grows 0 p q ∧ RoomText B q) (closeUnmatched p) := by
      rcases h with ⟨h1, h2, h3⟩ | ⟨h1, h2, h3⟩
      · refine (closeUnmatched_weight p).mono fun q hq => ⟨hq.1, .inl ⟨?_, ?_, ?_⟩⟩
        · have := hq.1.cur
          simp only [PState.cur, Prod.mk.injEq] at this
          rw [this.2.2.2.2.2.2.2, h1]
        · rw [hq.1.ahead.2.2.1, hq.1.ahead.2.2.2, h2]
        · rw [hq.1.ahead.2.1]; have := hq.1.le; omega
      · unfold closeUnmatched
        rw [if_pos h2]
        exact .ok ⟨.refl p, .inr ⟨h1, h2, h3⟩⟩
    refine OkP.bind hclose fun q hq => ?_
    obtain ⟨_, hq⟩ := hq
    split
    · exact .err
    · rename_i b rest hs
      dsimp only
      generalize hb : (if q.blank then { b with children := markLastChild b.children } else b) = b1
      have hd : b1.data = b.data := by rw [← hb]; split <;> rfl
      have hwc : weightL b1.children = weightL b.children := by
        rw [← hb]
        split
        · exact weightL_mark _
        · rfl
      generalize lineBlankFlag b1 q = flag
      have hk : tipKind q = some b.data.t := by simp [tipKind, hs]
      have key : ∀ Q : PState, Q.spine = { b1 with data := { b1.data with lastLineBlank := flag } } :: rest.map (fun x => { x with data := { x.data with lastLineBlank := flag } }) →
          Q.weight = q.weight → Q.left = q.left → Q.partiallyConsumedTab = q.partiallyConsumedTab → Q.offset = q.offset → Q.nextNonspace = q.nextNonspace →
          Q.currentLine = q.currentLine → Q.blank = q.blank → OkP (fun q => q.weight ≤ B + 1) (if acceptsLines b1.data.t then do
              let p ← addLine Q
              if b1.data.t == .htmlBlock && decide (b1.data.htmlBlockType ≥ 1) &&
                  decide (b1.data.htmlBlockType ≤ 5) &&
                  (reHtmlBlockClose b1.data.htmlBlockType).found (p.currentLine.drop p.offset) then
                finalizeTip p.lineNumber p
              else return p
            else if Q.offset < Q.currentLine.length && !Q.blank then do
              let p ← addChild .paragraph Q.offset id Q
              addLine (advanceNextNonspace p)
            else return Q) := by
       intro Q hQs hQw hQl hQp hQo hQn hQt hQb
       rw [hd]
       split
       · rename_i hacc
         have hline : OkP (fun q => q.weight ≤ B + 1) (addLine Q) := by
           by_cases hp : b.data.t = .paragraph
           · rcases hq with ⟨h1, h2, h3⟩ | ⟨h1, h2, k, h3, h4, h5⟩
             · exact (addLine_para hQs (by rw [← hp, ← hd]) (hQp.trans h1)).mono fun q' hq' => by omega
             · rw [hk, hp] at h3
               cases h3
               exact absurd rfl h4
           · have hh : b.data.t ≠ .heading := by intro e; rw [e] at hacc; cases hacc
             refine (addLine_other hQs (by rw [← hd] at hp; exact hp) (by rw [← hd] at hh; exact hh)).mono fun q' hq' => ?_
             rcases hq with ⟨h1, h2, h3⟩ | ⟨h1, h2, k, h3, h4, h5⟩ <;> omega
         refine OkP.bind hline fun q2 h2 => ?_
         split
         · exact (finalizeTip_weight _ q2).mono fun q3 h3 => by have := h3.1.le; omega
         · exact .ok h2
       · rename_i hacc
         split
         · rename_i hlt
           simp only [Bool.and_eq_true, decide_eq_true_eq, Bool.not_eq_true'] at hlt
           rw [hQo, hQt, hQb] at hlt
           rcases hq with ⟨h1, h2, h3⟩ | ⟨h1, h2, k, h3, h4, h5⟩
           · refine OkP.bind (addChild_weight .paragraph _ id Q (n := 1) fun d h1 h2 => Nat.le_of_eq (weight_one (by rw [id, h1]; simp) h2)) fun q2 g2 => ?_
             obtain ⟨d, r, e1, e2, e3, e4⟩ := g2.2.2
             refine (addLine_new (p := advanceNextNonspace q2) (b := ⟨id d, []⟩) e1 e2 e3 rfl).mono fun q3 g3 => ?_
             have g4 : q3.weight ≤ q2.weight + q2.ahead := g3
             have g5 := g2.1.le
             have g6 := g2.1.ahead.1
             have g7 : Q.ahead = q.left := by unfold PState.ahead PState.left; rw [hQn, hQt, h2]
             omega
           · exfalso
             rw [hk] at h3
             cases h3
             rcases h5 with h5 | h5 | h5
             · exact hacc h5
             · omega
             · rw [h5] at hlt; cases hlt.2
         · refine .ok ?_
           rcases hq with ⟨h1, h2, h3⟩ | ⟨h1, h2, k, h3, h4, h5⟩ <;> omega
      refine key _ rfl ?_ rfl rfl rfl rfl rfl rfl
      have hw := weightS_flag flag (b1 :: rest)
      unfold PState.weight
      rw [hs]
      refine hw.trans ?_
      simp only [weightS, hwc, hd]

/-! ### One line -/

theorem contLoop_weight : ∀ (bs : List OpenBlk) (d : Nat) (p : PState), Cur p →
    OkP (fun x => match x with | .inl q => q.weight ≤ p.weight | .inr (_, q) => q.core = p.core ∧ q.books = p.books ∧ Cur q) (contLoop bs d p)
  | [], d, p, h => .ok ⟨rfl, rfl, h⟩
  | b :: bs, d, p, h => by
    unfold contLoop
    dsimp only
    have hn := curN_find h
    obtain ⟨s1, s2, s3, s4⟩ := continueBlock_spec b.data (!b.children.isEmpty || !bs.isEmpty) hn
    have t1 : (findNextNonspace p).core = p.core := rfl
    have t2 : (findNextNonspace p).books = p.books := rfl
    generalize continueBlock b.data (!b.children.isEmpty || !bs.isEmpty) (findNextNonspace p) = x at *
    obtain ⟨r, q⟩ := x
    simp only at s1 s2 s3 s4
    have hw : q.weight = p.weight := congrArg (weightS ∘ Core.spine) (s1.trans t1)
    cases r with
    | matched =>
      refine (contLoop_weight bs (d + 1) q s3).mono fun x hx => ?_
      cases x with
      | inl q' => have hx : q'.weight ≤ q.weight := hx; show q'.weight ≤ p.weight; omega
      | inr y => exact ⟨hx.1.trans (s1.trans t1), hx.2.1.trans (s2.trans t2), hx.2.2⟩
    | failed => exact .ok ⟨s1.trans t1, s2.trans t2, s3⟩
    | done =>
      refine OkP.bind (finalizeTip_weight _ q) fun q' hq' => .ok ?_
      show q'.weight ≤ p.weight
      have := hq'.1.le
      omega

/-- The container that the block starts are tried in. -/
theorem sp_start {q2 : PState} {l : Str} {depth : Nat} {c : NodeData} (h : Ready p) (f1 : 1 ≤ depth) (f2 : depth ≤ p.spine.length)
    (f3 : q2.core = (atStart p l).core) (f4 : q2.books = (atStart p l).books)
    (hc : blockAt { q2 with allClosed := depth == q2.oldtip, lastMatched := depth } depth = some c) :
    SP c { q2 with allClosed := depth == q2.oldtip, lastMatched := depth } := by
  have hs2 : q2.spine = p.spine := congrArg Core.spine f3
  have hds2 : q2.ds = p.ds := by simp only [PState.ds]; rw [hs2]
  have ho2 : q2.oldtip = p.spine.length := congrArg Books.oldtip f4
  have hl2 : q2.lineNumber = p.lineNumber + 1 := congrArg Core.line f3
  have hdsl : p.ds.length = p.spine.length := by simp [PState.ds]
  have hle : ∀ d ∈ p.ds, startLine d ≤ p.lineNumber + 1 := by
    intro d hd
    rcases h.le d hd with h | h <;> omega
  have hold : ∀ d ∈ p.ds, d.t ≠ .document → startLine d < p.lineNumber + 1 := by
    intro d hd hnd
    rcases h.le d hd with h | h
    · omega
    · exact absurd h.1 hnd
  refine ⟨?_, ?_, ?_, ?_⟩
  · show GoodChain q2.ds; rw [hds2]; exact h.good
  · show ∀ d ∈ q2.ds, startLine d ≤ q2.lineNumber; rw [hds2, hl2]; exact hle
  · show 1 ≤ q2.lineNumber; omega
  · by_cases heq : depth = q2.oldtip
    · left
      refine ⟨by simp [heq], ?_⟩
      rw [blockAt_ds] at hc
      have hc : q2.ds.reverse[depth - 1]? = some c := hc
      rw [hds2, List.getElem?_reverse (by omega), show p.ds.length - 1 - (depth - 1) = 0 by omega] at hc
      show ∃ d r, q2.ds = d :: r ∧ _
      rw [hds2]
      cases hd : p.ds with
      | nil => rw [hd] at hc; simp at hc
      | cons d r =>
        rw [hd] at hc
        simp only [List.getElem?_cons_zero, Option.some.injEq] at hc
        subst hc
        refine ⟨d, r, rfl, rfl, rfl, ?_⟩
        show _ ∨ startLine d < q2.lineNumber
        rw [hl2]
        by_cases hdd : d.t = .document
        · exact Or.inl (Or.inl hdd)
        · exact Or.inr (hold d (by rw [hd]; simp) hdd)
    · right
      refine ⟨by simpa using heq, ?_, f1, ?_, ?_, hc⟩
      · show q2.oldtip = q2.spine.length
        rw [ho2, hs2]
      · show depth < q2.oldtip
        omega
      · show ∀ d ∈ q2.ds, d.t ≠ .document → startLine d < q2.lineNumber
        rw [hds2, hl2]; exact hold

theorem line_weight (h : Ready p) (ln : Str) : OkP (fun q => q.weight ≤ p.weight + ln.length + 1) (incorporateLine p ln) := by
  rw [incorporateLine_eq]
  generalize hl : replaceChar (Char.ofNat 0) (Char.ofNat 0xFFFD) ln = l
  have hlen : l.length = ln.length := by rw [← hl]; simp [replaceChar]
  have hspos : 1 ≤ p.spine.length := by
    have := h.good.chain.ne_nil
    cases hs : p.spine with
    | nil => simp [PState.ds, hs] at this
    | cons a b => simp
  have hle : ∀ d ∈ (atStart p l).ds, startLine d ≤ (atStart p l).lineNumber := by
    show ∀ d ∈ p.ds, startLine d ≤ p.lineNumber + 1
    intro d hd
    rcases h.le d hd with h | h <;> omega
  obtain ⟨r, e1, e2⟩ := contLoop_ok ((atStart p l).spine.reverse.drop 1) 1 (atStart p l) (Nat.zero_le _) h.good hle (Nat.le_refl _) rfl
    (by show 1 + (p.spine.reverse.drop 1).length = p.spine.length; simp; omega)
  have e3 := contLoop_weight _ _ (atStart p l) (Nat.zero_le _) _ e1
  rw [e1]
  show OkP _ (afterCont l r)
  cases r with
  | inl q =>
    have e3 : q.weight ≤ p.weight := e3
    exact .ok (by omega)
  | inr x =>
    obtain ⟨depth, q⟩ := x
    obtain ⟨f1, f2, f3, f4, f5⟩ := e2
    simp only [afterCont]
    split
    · exact .err
    · rename_i c hc
      have hsp := sp_start h f1 f2 f3 f4 hc
      have hw : q.weight = p.weight := congrArg (weightS ∘ Core.spine) f3
      have ht : q.currentLine = l := congrArg Core.text f3
      have hcur : Cur { q with allClosed := depth == q.oldtip, lastMatched := depth } := f5
      have hw' : ({ q with allClosed := depth == q.oldtip, lastMatched := depth } : PState).weight = p.weight := hw
      have hl' : ({ q with allClosed := depth == q.oldtip, lastMatched := depth } : PState).currentLine = l := ht
      generalize ({ q with allClosed := depth == q.oldtip, lastMatched := depth } : PState) = q2 at *
      have last : ∀ x : Except PyErr PState, OkP (RoomText (p.weight + ln.length)) x → OkP (fun q => q.weight ≤ p.weight + ln.length + 1) (do
          let p ← x
          let p ← addText p
          pure { p with lastLineLength := l.length }) := by
        intro x hx
        refine OkP.bind hx fun q3 h3 => OkP.bind (addText_room h3) fun q4 h4 => ?_
        exact .ok h4
      split
      · rename_i hm
        simp only [Bool.and_eq_true, bne_iff_ne, ne_eq] at hm
        have hac : q2.allClosed = true := by
          rcases hsp.state with ⟨h1, _⟩ | ⟨_, h2, h3, h4, _, h6⟩
          · exact h1
          · exfalso
            rw [blockAt_ds, List.getElem?_reverse (by simp only [PState.ds, List.length_map]; omega)] at h6
            have := hsp.good.chain.leaf_tip _ h6 (by
              intro t
              cases hk : c.t <;> simp [hk, acceptsLines] at hm <;> rfl)
            simp only [PState.ds, List.length_map] at this
            omega
        refine last _ (.ok (.inr ⟨by omega, hac, c.t, ?_, hm.1, .inl hm.2⟩))
        obtain ⟨d, r, g1, g2, _⟩ := hsp.tip hac
        have g3 := congrArg (fun x => x.head?.map (·.t)) g1
        simp only [PState.ds, List.head?_map, Option.map_map, List.head?_cons, Option.map_some, g2] at g3
        exact g3
      · refine last _ (startsLoop_room _ c q2 hsp hcur (.inl ?_))
        unfold PState.left
        rw [hl']
        omega

theorem lines_weight : ∀ (ls done : List Str) (p : PState), Ready p → Reaches done p.core →
    OkP (fun q => q.weight ≤ p.weight + (ls.map fun l => l.length + 1).sum) (ls.foldlM incorporateLine p)
  | [], _, p, _, _ => .ok (Nat.le_refl _)
  | l :: ls, done, p, h, hr => by
    obtain ⟨p1, c, e1, e2, e3, e4⟩ := incorporateLine_ok h l
    have hr' : Reaches (done ++ [l]) p1.core := by rw [e3]; exact .line hr e2
    have h1 := line_weight h l p1 e1
    rw [List.foldlM_cons, e1]
    refine (lines_weight ls _ p1 e4 hr').mono fun q hq => ?_
    simp only [List.map_cons, List.sum_cons]
    omega

theorem textLines_sum {s : Str} {ls : List Str} (h : TextLines s ls) : (ls.map fun l => l.length + 1).sum ≤ s.length + 1 := by
  induction h with
  | _ => simp at *; try omega

theorem finalizeAll_weight (len : Nat) : ∀ (n : Nat) (p : PState), p.spine ≠ [] → OkP (fun q => weightL q.doc.toList ≤ p.weight) (finalizeAll len n p)
  | 0, p, _ => .err
  | n + 1, p, h => by
    rw [finalizeAll_cons h]
    refine OkP.bind (finalizeTip_weight _ p) fun q hq => ?_
    by_cases hs : q.spine = []
    · cases n with
      | zero => exact .err
      | succ n => rw [finalizeAll_nil hs]; exact .ok (hq.2.2 hs)
    · exact (finalizeAll_weight len n q hs).mono fun r hr => by have := hq.1.le; omega

mutual
theorem processInlines_nodes {smart : Bool} {m : RefMap} : ∀ (t : Tree), OkP (fun t' => nodesT t' ≤ weightT t) (processInlines smart m t)
  | .node d cs => by
    unfold processInlines
    refine OkP.bind (processInlinesList_nodes cs) fun cs' h => ?_
    split
    · rename_i hd
      split
      · exact .err
      · rename_i content hc
        refine OkP.bind (Q := fun ts => nodesL ts ≤ (strip content).length) (fun ts e => inlines_nodes e) fun ts hts => .ok ?_
        simp only [nodesT, nodesL_append, weightT]
        have h1 := inkLen_strip content
        have h2 : inkLen content ≤ content.length := by unfold inkLen; omega
        have h3 : 1 + inkLen content ≤ weight d := by
          simp only [Bool.or_eq_true, beq_iff_eq] at hd
          rcases hd with hd | hd
          · unfold weight; rw [hd, hc]; exact Nat.le_refl _
          · unfold weight; rw [hd, hc]; show _ ≤ 1 + content.length; omega
        omega
    · refine .ok ?_
      simp only [nodesT, weightT]
      have := weight_pos d
      omega
theorem processInlinesList_nodes {smart : Bool} {m : RefMap} : ∀ (ts : List Tree), OkP (fun ts' => nodesL ts' ≤ weightL ts) (processInlinesList smart m ts)
  | [] => .ok (Nat.le_refl _)
  | t :: ts => by
    unfold processInlinesList
    refine OkP.bind (processInlines_nodes t) fun t' h => OkP.bind (processInlinesList_nodes ts) fun ts' h' => .ok ?_
    simp only [nodesL, weightL]
    omega
end

/-- **The number of nodes.** -/
theorem parse_nodes {smart : Bool} {s : Str} {t : Tree} (h : parse smart s = .ok t) : nodesT t ≤ s.length + 2 := by
  have hr := ready_reset PState.init
  obtain ⟨p, e1, e2, _⟩ := lines_ok (inputLines s) [] _ hr.1 hr.2
  have h1 := lines_weight (inputLines s) [] _ hr.1 hr.2 p e1
  have h2 := textLines_sum ((textLines_iff s _).2 rfl)
  have h0 : PState.init.reset.weight = 1 := rfl
  have hne : p.spine ≠ [] := by
    intro hs
    have := e2.good.chain.ne_nil
    simp [PState.ds, hs] at this
  obtain ⟨q, hq⟩ : ∃ q, blockPhase PState.init s = .ok q := by
    obtain ⟨q, _, _, _, hq, _⟩ := blockPhase_ok PState.init s
    exact ⟨q, hq⟩
  have hq' : finalizeAll (inputLines s).length (p.spine.length + 1) p = .ok q := by
    unfold blockPhase at hq
    simp only [e1, bind, Except.bind] at hq
    exact hq
  have h3 := finalizeAll_weight _ _ p hne q hq'
  cases hd : q.doc with
  | none =>
    unfold parse parseWith at h
    simp only [hq, bind, Except.bind, hd] at h
    cases h
  | some doc =>
    rw [parse_blocks hq hd] at h
    have h4 := processInlines_nodes doc t h
    simp only [hd, Option.toList_some, weightL] at h3
    omega

end CM
