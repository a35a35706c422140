import Verif.Proofs.Shows
import Verif.Proofs.ParaText
/-
Lines that start a block wherever they are (C57).
-/
namespace CM
open Spec

/-! ### The blocks that are closed stay closed -/

theorem closed_finalize {l : Nat} {p p' : PState} (h : finalizeTip l p = .ok p') : p'.allClosed = p.allClosed := by
  unfold finalizeTip at h
  cases hs : p.spine with
  | nil => rw [hs] at h; cases h
  | cons b rest =>
    rw [hs] at h
    simp only at h
    cases hf : finalizeBlock { b.data with isOpen := false, sourcepos := b.data.sourcepos.map fun sp => (sp.1, (l, p.lastLineLength)) } b.children p.refmap with
    | error e => rw [hf] at h; cases h
    | ok x =>
      rw [hf] at h
      cases rest <;> cases h <;> rfl

theorem closed_close {p p' : PState} (h : closeUnmatched p = .ok p') : p'.allClosed = true := by
  unfold closeUnmatched at h
  by_cases hc : p.allClosed = true
  · rw [if_pos hc] at h; cases h; exact hc
  · rw [if_neg hc] at h
    cases hl : closeLoop (p.oldtip + 1) p with
    | error => rw [hl] at h; cases h
    | ok q => rw [hl] at h; cases h; rfl

theorem closed_addChildLoop {tag : Kind} : ∀ {n : Nat} {p p' : PState}, addChildLoop tag n p = .ok p' → p'.allClosed = p.allClosed := by
  intro n
  induction n with
  | zero => intro p p' h; cases h
  | succ n ih =>
    intro p p' h
    unfold addChildLoop at h
    split at h
    · cases h
    · split at h
      · cases h; rfl
      · cases hf : finalizeTip (p.lineNumber - 1) p with
        | error => rw [hf] at h; cases h
        | ok q => rw [hf] at h; exact (ih h).trans (closed_finalize hf)

theorem closed_addChild {tag : Kind} {off : Nat} {f : NodeData → NodeData} {p p' : PState} (h : addChild tag off f p = .ok p') : p'.allClosed = p.allClosed := by
  unfold addChild at h
  cases hl : addChildLoop tag (p.spine.length + 1) p with
  | error => rw [hl] at h; cases h
  | ok q =>
    rw [hl] at h
    have hq := closed_addChildLoop hl
    cases h
    exact hq

/-- After closing the unmatched blocks and adding one. -/
theorem closed_open {p p' : PState} {s s' : Start} {tag : PState → Kind} {off : PState → Nat} {f : PState → NodeData → NodeData} {g : PState → PState}
    (hg : ∀ x, (g x).allClosed = x.allClosed)
    (h : (do let p ← closeUnmatched p; let p ← addChild (tag p) (off p) (f p) p; return (s, g p)) = Except.ok (s', p')) : p'.allClosed = true := by
  cases hc : closeUnmatched p with
  | error => rw [hc] at h; cases h
  | ok q =>
    rw [hc] at h
    simp only [Except.bind, bind] at h
    cases ha : addChild (tag q) (off q) (f q) q with
    | error => rw [ha] at h; cases h
    | ok r =>
      rw [ha] at h
      cases h
      rw [hg, closed_addChild ha]
      exact closed_close hc

theorem closed_start {c : NodeData} {p p' : PState} {s : Start} {f : PState → Except PyErr (Start × PState)} (hf : f ∈ blockStarts c)
    (hp : p.allClosed = true) (h : f p = .ok (s, p')) : p'.allClosed = true := by
  simp only [blockStarts, List.mem_cons, List.not_mem_nil, or_false] at hf
  rcases hf with rfl | rfl | rfl | rfl | rfl | rfl | rfl | rfl
  · unfold startBlockQuote at h
    split at h
    · exact closed_open (tag := fun _ => .blockQuote) (off := fun p => p.nextNonspace) (f := fun _ => id) (g := id) (fun _ => rfl) h
    · cases h; exact hp
  · unfold startAtx at h
    split at h
    · cases h; exact hp
    · split at h
      · cases h; exact hp
      · exact closed_open (tag := fun _ => .heading) (off := fun p => p.nextNonspace) (f := fun p d => { d with level := _, stringContent := _ }) (g := advanceToEnd) (fun _ => rfl) h
  · unfold startFenced at h
    split at h
    · cases h; exact hp
    · split at h
      · cases h; exact hp
      · exact closed_open (tag := fun _ => .codeBlock) (off := fun p => p.nextNonspace)
          (f := fun p d => { d with isFenced := true, fenceLength := _, fenceChar := _, fenceOffset := p.indent })
          (g := fun p => advanceOffset _ false (advanceNextNonspace p)) (fun _ => rfl) h
  · unfold startHtml at h
    split at h
    · split at h
      · exact closed_open (tag := fun _ => .htmlBlock) (off := fun p => p.offset) (f := fun _ d => { d with htmlBlockType := _ }) (g := id) (fun _ => rfl) h
      · cases h; exact hp
    · cases h; exact hp
  · unfold startSetext at h
    split at h
    · split at h
      · cases h; exact hp
      · cases hc : closeUnmatched p with
        | error => rw [hc] at h; cases h
        | ok q =>
          rw [hc] at h
          have hq := closed_close hc
          simp only [Except.bind, bind] at h
          split at h
          · cases h
          · split at h
            · cases h
            · rename_i content _
              cases hl : refLoop (content.length + 1) content q.refmap false with
              | error => rw [hl] at h; cases h
              | ok x =>
                rw [hl] at h
                simp only at h
                split at h <;> cases h <;> exact hq
    · cases h; exact hp
  · unfold startThematic at h
    split at h
    · exact closed_open (tag := fun _ => .thematicBreak) (off := fun p => p.nextNonspace) (f := fun _ => id) (g := advanceToEnd) (fun _ => rfl) h
    · cases h; exact hp
  · unfold startListItem at h
    split at h
    · cases hm : parseListMarker c.t p with
      | error => rw [hm] at h; cases h
      | ok x =>
        obtain ⟨x, q⟩ := x
        rw [hm] at h
        have hq : q.allClosed = p.allClosed := (congrArg Books.allClosed (parseListMarker_core hm).2.1 :)
        simp only [Except.bind, bind] at h
        cases x with
        | none => cases h; rw [hq]; exact hp
        | some l =>
          simp only at h
          cases hc : closeUnmatched q with
          | error => rw [hc] at h; cases h
          | ok q1 =>
            rw [hc] at h
            have hq1 := closed_close hc
            simp only at h
            split at h
            · cases ha : addChild .list q1.nextNonspace (fun d => { d with listData := some l }) q1 with
              | error => rw [ha] at h; cases h
              | ok q2 =>
                rw [ha] at h
                simp only at h
                cases hb : addChild .item q2.nextNonspace (fun d => { d with listData := some l }) q2 with
                | error => rw [hb] at h; cases h
                | ok q3 =>
                  rw [hb] at h; cases h
                  rw [closed_addChild hb, closed_addChild ha]; exact hq1
            · simp only [pure, Except.pure] at h
              cases hb : addChild .item q1.nextNonspace (fun d => { d with listData := some l }) q1 with
              | error => rw [hb] at h; cases h
              | ok q3 =>
                rw [hb] at h; cases h
                rw [closed_addChild hb]; exact hq1
    · cases h; exact hp
  · unfold startIndented at h
    split at h
    · exact closed_open (tag := fun _ => .codeBlock) (off := fun p => p.offset) (f := fun _ => id) (g := id) (fun _ => rfl) h
    · cases h; exact hp

theorem closed_tryStarts {c : NodeData} : ∀ (fs : List (PState → Except PyErr (Start × PState))) {p p' : PState} {s : Start}, (∀ f ∈ fs, f ∈ blockStarts c) →
    p.allClosed = true → tryStarts fs p = .ok (s, p') → p'.allClosed = true
  | [], p, p', s, _, hp, h => by cases h; exact hp
  | f :: fs, p, p', s, hf, hp, h => by
    unfold tryStarts at h
    cases he : f p with
    | error => rw [he] at h; cases h
    | ok x =>
      obtain ⟨r, q⟩ := x
      rw [he] at h
      have hq := closed_start (hf f (by simp)) hp he
      simp only [Except.bind, bind] at h
      cases r with
      | none => exact closed_tryStarts fs (fun f h => hf f (by simp [h])) hq h
      | container => cases h; exact hq
      | leaf => cases h; exact hq

theorem closed_starts : ∀ {n : Nat} {c : NodeData} {p p' : PState}, p.allClosed = true → startsLoop n c p = .ok p' → p'.allClosed = true := by
  intro n
  induction n with
  | zero => intro c p p' _ h; cases h
  | succ n ih =>
    intro c p p' hp h
    simp only [startsLoop] at h
    generalize (!(findNextNonspace p).indented && !_) = b at h
    cases b with
    | true => simp only [if_true] at h; cases h; exact hp
    | false =>
      simp only [Bool.false_eq_true, if_false] at h
      cases ht : tryStarts (blockStarts c) (findNextNonspace p) with
      | error => rw [ht] at h; cases h
      | ok x =>
        obtain ⟨r, q⟩ := x
        have hq : q.allClosed = true := closed_tryStarts _ (fun _ h => h) (show (findNextNonspace p).allClosed = true from hp) ht
        rw [ht] at h
        simp only [Except.bind, bind] at h
        cases r with
        | none => cases h; exact hq
        | leaf => cases h; exact hq
        | container =>
          simp only at h
          split at h
          · cases h
          · exact ih hq h

/-! ### Lines that interrupt a paragraph -/

/-- A block that is added is not "no block". -/
theorem open_none {p p' : PState} {s : Start} {tag : PState → Kind} {off : PState → Nat} {f : PState → NodeData → NodeData} {g : PState → PState} (hs : s ≠ .none) :
    (do let p ← closeUnmatched p; let p ← addChild (tag p) (off p) (f p) p; return (s, g p)) ≠ Except.ok (Start.none, p') := by
  intro h
  cases hc : closeUnmatched p with
  | error => rw [hc] at h; cases h
  | ok q =>
    rw [hc] at h
    exact bind_ne_none hs _ h

theorem none_same {d : NodeData} {f z : PState} {s : PState → Except PyErr (Start × PState)} (hd : d.t = .document) (hs : s ∈ blockStarts d)
    (h : s f = .ok (.none, z)) : z = f := by
  simp only [blockStarts, List.mem_cons, List.not_mem_nil, or_false] at hs
  rcases hs with rfl | rfl | rfl | rfl | rfl | rfl | rfl | rfl
  · unfold startBlockQuote at h
    split at h
    · exact absurd h (open_none (tag := fun _ => .blockQuote) (off := fun p => p.nextNonspace) (f := fun _ => id) (g := id) (by decide))
    · cases h; rfl
  · unfold startAtx at h
    split at h
    · cases h; rfl
    · split at h
      · cases h; rfl
      · exact absurd h (open_none (tag := fun _ => .heading) (off := fun p => p.nextNonspace) (f := fun p d => { d with level := _, stringContent := _ }) (g := advanceToEnd) (by decide))
  · unfold startFenced at h
    split at h
    · cases h; rfl
    · split at h
      · cases h; rfl
      · exact absurd h (open_none (tag := fun _ => .codeBlock) (off := fun p => p.nextNonspace)
          (f := fun p d => { d with isFenced := true, fenceLength := _, fenceChar := _, fenceOffset := p.indent })
          (g := fun p => advanceOffset _ false (advanceNextNonspace p)) (by decide))
  · unfold startHtml at h
    split at h
    · split at h
      · exact absurd h (open_none (tag := fun _ => .htmlBlock) (off := fun p => p.offset) (f := fun _ d => { d with htmlBlockType := _ }) (g := id) (by decide))
      · cases h; rfl
    · cases h; rfl
  · unfold startSetext at h
    rw [if_neg (by rw [hd]; simp)] at h
    cases h; rfl
  · unfold startThematic at h
    split at h
    · exact absurd h (open_none (tag := fun _ => .thematicBreak) (off := fun p => p.nextNonspace) (f := fun _ => id) (g := advanceToEnd) (by decide))
    · cases h; rfl
  · unfold startListItem at h
    split at h
    · cases hm : parseListMarker d.t f with
      | error => rw [hm] at h; cases h
      | ok x =>
        obtain ⟨x, q⟩ := x
        rw [hm] at h
        simp only [Except.bind, bind] at h
        cases x with
        | none => cases h; exact (parseListMarker_core hm).2.2 rfl
        | some l =>
          simp only at h
          cases hc : closeUnmatched q with
          | error => rw [hc] at h; cases h
          | ok q1 =>
            rw [hc] at h
            simp only at h
            split at h
            · cases ha : addChild .list q1.nextNonspace (fun d => { d with listData := some l }) q1 with
              | error => rw [ha] at h; cases h
              | ok q2 => rw [ha] at h; exact absurd h (bind_ne_none (g := id) (r := .container) (by decide) _)
            · exact absurd h (bind_ne_none (g := id) (r := .container) (by decide) _)
    · cases h; rfl
  · unfold startIndented at h
    split at h
    · exact absurd h (open_none (tag := fun _ => .codeBlock) (off := fun p => p.offset) (f := fun _ => id) (g := id) (by decide))
    · cases h; rfl

theorem none_each {d : NodeData} (hd : d.t = .document) {f z : PState} : ∀ (fs : List (PState → Except PyErr (Start × PState))), (∀ s ∈ fs, s ∈ blockStarts d) →
    tryStarts fs f = .ok (.none, z) → ∀ s ∈ fs, s f = .ok (.none, f)
  | [], _, _ => by simp
  | s :: fs, hs, h => by
    unfold tryStarts at h
    cases he : s f with
    | error => rw [he] at h; cases h
    | ok x =>
      obtain ⟨r, q⟩ := x
      rw [he] at h
      simp only [Except.bind, bind] at h
      cases r with
      | none =>
        obtain rfl := none_same hd (hs s (by simp)) he
        intro s' hs'
        rcases List.mem_cons.1 hs' with rfl | hs'
        · exact he
        · exact none_each hd fs (fun s h => hs s (by simp [h])) h s' hs'
      | container => cases h
      | leaf => cases h

theorem one_marker {d : Char} (h1 : d = '.' ∨ d = ')') (r : Str) (κ : Kind) :
    listMarker κ ('1' :: d :: r) = some (['1', d], .ordered, none, some 1, some d) := by
  by_cases hk : κ = .paragraph
  · subst hk
    have h := listMarker_ok (ListMark.ordered (ds := ['1']) (n := 1) (d := d) (by decide) (by decide) (by decide) h1) (k := .document) (by decide) r
    have h : listMarker .document ('1' :: d :: r) = some (['1', d], .ordered, none, some 1, some d) := h
    unfold listMarker at h ⊢
    have hb : isBulletChar '1' = false := by decide
    simp only [hb, Bool.false_eq_true, if_false] at h ⊢
    cases hm : reOrderedListMarker.matchPrefix ('1' :: d :: r) with
    | none => rw [hm] at h; cases h
    | some m =>
      rw [hm] at h
      have hk : (Kind.document != Kind.paragraph) = true := by decide
      simp only [hk, Bool.true_or, if_true] at h
      obtain rfl : m = ['1', d] := by
        simp only [Option.some.injEq, Prod.mk.injEq] at h
        exact h.1
      rw [← h]
      rfl
  · exact listMarker_ok (ListMark.ordered (ds := ['1']) (n := 1) (d := d) (by decide) (by decide) (by decide) h1) hk r

/-- The bullet or number at the beginning of a line that interrupts a paragraph. -/
theorem interrupts_marker {l : Str} (h : Interrupts l) (hone : OneLine l) {p : PState} (hl : p.currentLine.drop p.nextNonspace = l) :
    parseListMarker .paragraph p = parseListMarker .document p := by
  have hdrop : ∀ m, p.currentLine.drop (p.nextNonspace + m) = l.drop m := by
    intro m; rw [← hl, List.drop_drop]
  -- no marker
  have nomark : ∀ c r, l = c :: r → isBulletChar c = false → isPyDigit c = false → ∀ k, listMarker k l = none := by
    intro c r hc h1 h2 k
    rw [hc]
    unfold listMarker
    simp only [h1, Bool.false_eq_true, if_false]
    cases hm : reOrderedListMarker.matchPrefix (c :: r) with
    | none => rfl
    | some m =>
      obtain ⟨ds, e, rfl, g1, _, g3, _⟩ := ordered_marker hm
      obtain ⟨t, ht, _⟩ := Re.matchPrefix_den hm
      cases ds with
      | nil => simp at g1
      | cons x xs =>
        simp only [List.cons_append, List.cons.injEq] at ht
        have := g3 x (by simp)
        rw [← ht.1, h2] at this
        cases this
  have same_none : (∀ k, listMarker k l = none) → parseListMarker .paragraph p = parseListMarker .document p := by
    intro h
    unfold parseListMarker
    rw [hl, h, h]
  -- a marker, and more text
  have same_some : ∀ m : Nat, (∀ k, (listMarker k l).map (fun x => x.1.length) = some m) → listMarker .paragraph l = listMarker .document l →
      (l.drop m).any isNonSpace = true → parseListMarker .paragraph p = parseListMarker .document p := by
    intro m h1 h2 h3
    unfold parseListMarker
    rw [hl, h2]
    cases hm : listMarker .document l with
    | none => rfl
    | some x =>
      obtain ⟨x, ty, bu, st, de⟩ := x
      have hx : x.length = m := by
        have := h1 .document
        rw [hm] at this
        simpa using this
      have hc : ∀ k : Kind, (k == .paragraph && !((p.currentLine.drop (p.nextNonspace + x.length)).any isNonSpace)) = false := by
        intro k
        rw [hdrop, hx, h3]; simp
      simp only [hc]
  have bullet : ∀ c r, l = c :: r → isBulletChar c = true → r.any isNonSpace = true → parseListMarker .paragraph p = parseListMarker .document p := by
    intro c r hc h1 h2
    refine same_some 1 ?_ ?_ ?_
    · intro k; rw [hc]; simp [listMarker, h1]
    · rw [hc]; simp [listMarker, h1]
    · rw [hc]; exact h2
  have nonspace : ∀ {x : Char}, ¬ SpaceChar x → x ≠ '\n' → x ≠ '\r' → isNonSpace x = true := by
    intro x h h1 h2
    simp only [SpaceChar, not_or] at h
    obtain ⟨a1, a2, a3, a4⟩ := h
    have b : ∀ n, x.toNat = n → x = Char.ofNat n := by
      intro n hn; rw [← hn, Char.ofNat_toNat]
    simp only [isNonSpace, Bool.not_eq_true', Bool.or_eq_false_iff, beq_eq_false_iff_ne, Bool.and_eq_false_iff, decide_eq_false_iff_not]
    refine ⟨a1, ?_⟩
    rcases Nat.lt_or_ge x.toNat 9 with hx | hx
    · left; omega
    · right
      intro hx'
      have : x.toNat = 9 ∨ x.toNat = 10 ∨ x.toNat = 11 ∨ x.toNat = 12 ∨ x.toNat = 13 := by omega
      rcases this with e | e | e | e | e
      · exact a2 (b 9 e)
      · exact h1 (b 10 e)
      · exact a3 e
      · exact a4 e
      · exact h2 (b 13 e)
  cases h with
  | @atx n _ h =>
    obtain ⟨h1, _, r, hr, _⟩ := h
    obtain ⟨n, rfl⟩ : ∃ k, n = k + 1 := ⟨n - 1, by omega⟩
    exact same_none (nomark '#' _ (by rw [hr]; rfl) (by decide) (by decide +kernel))
  | @fence c n info _ h =>
    obtain ⟨h1, hr, _, h2⟩ := h
    obtain ⟨n, rfl⟩ : ∃ k, n = k + 1 := ⟨n - 1, by omega⟩
    refine same_none (nomark c _ (by rw [hr]; rfl) ?_ ?_)
    · rcases h2 with ⟨rfl, _⟩ | rfl <;> decide
    · rcases h2 with ⟨rfl, _⟩ | rfl <;> decide +kernel
  | html h _ =>
    have := htmlOpen_head h
    cases l with
    | nil => cases this
    | cons c r =>
      simp only [List.head?_cons, Option.some.injEq] at this
      subst this
      exact same_none (nomark '<' r rfl (by decide) (by decide +kernel))
  | rule h =>
    obtain ⟨c, h1, h2, h3, h4⟩ := h
    obtain ⟨r, hr⟩ : ∃ r, l = c :: r := by
      cases l with
      | nil => cases h2
      | cons a r => cases h2; exact ⟨r, rfl⟩
    by_cases hb : isBulletChar c = true
    · refine bullet c r hr hb ?_
      have : c ∈ r := by
        rw [hr, List.count_cons_self] at h4
        exact List.count_pos_iff.1 (by omega)
      rw [List.any_eq_true]
      refine ⟨c, this, ?_⟩
      rcases h1 with rfl | rfl | rfl <;> decide
    · refine same_none (nomark c r hr (by simpa using hb) ?_)
      rcases h1 with rfl | rfl | rfl <;> decide +kernel
  | @quote r => exact same_none (nomark '>' r rfl (by decide) (by decide +kernel))
  | @bullet c x k r h1 h2 h3 =>
    have hx := hone x (by simp)
    refine bullet c _ rfl ?_ ?_
    · rcases h1 with rfl | rfl | rfl <;> rfl
    · rw [List.any_eq_true]
      exact ⟨x, by simp, nonspace h3 hx.1 hx.2⟩
  | @one d x k r h1 h2 h3 =>
    have hx := hone x (by simp)
    have hlm := one_marker h1 (List.replicate k ' ' ++ x :: r)
    refine same_some 2 (fun κ => by rw [hlm]; rfl) (by rw [hlm, hlm]) ?_
    rw [List.any_eq_true]
    exact ⟨x, by simp, nonspace h3 hx.1 hx.2⟩

theorem interrupts_head {l : Str} (h : Interrupts l) : ∃ c r, l = c :: r ∧ isMaybeSpecial c = true ∧ c ≠ ' ' ∧ c ≠ '\t' := by
  cases h with
  | @atx n _ h =>
    obtain ⟨h1, _, r, hr, _⟩ := h
    obtain ⟨n, rfl⟩ : ∃ k, n = k + 1 := ⟨n - 1, by omega⟩
    exact ⟨'#', _, by rw [hr]; rfl, by decide⟩
  | @fence c n info _ h =>
    obtain ⟨h1, hr, _, h2⟩ := h
    obtain ⟨n, rfl⟩ : ∃ k, n = k + 1 := ⟨n - 1, by omega⟩
    refine ⟨c, _, by rw [hr]; rfl, ?_⟩
    rcases h2 with ⟨rfl, _⟩ | rfl <;> decide
  | html h _ =>
    have := htmlOpen_head h
    cases l with
    | nil => cases this
    | cons c r =>
      simp only [List.head?_cons, Option.some.injEq] at this
      subst this
      exact ⟨'<', r, rfl, by decide⟩
  | rule h =>
    obtain ⟨c, h1, h2, h3, h4⟩ := h
    obtain ⟨r, hr⟩ : ∃ r, l = c :: r := by
      cases l with
      | nil => cases h2
      | cons a r => cases h2; exact ⟨r, rfl⟩
    refine ⟨c, r, hr, ?_⟩
    rcases h1 with rfl | rfl | rfl <;> decide
  | @quote r => exact ⟨'>', r, rfl, by decide⟩
  | @bullet c x k r h1 h2 h3 =>
    refine ⟨c, _, rfl, ?_⟩
    rcases h1 with rfl | rfl | rfl <;> decide
  | @one d x k r h1 h2 h3 => exact ⟨'1', _, rfl, by decide⟩

/-- A line that interrupts a paragraph starts there the HTML block that it starts elsewhere. -/
theorem interrupts_html {l : Str} (h : Interrupts l) (hone : OneLine l) : htmlBlockType .paragraph l = htmlBlockType .document l := by
  have hnl : '\n' ∉ l := fun hm => (hone _ hm).1 rfl
  have other : l.head? ≠ some '<' → htmlBlockType .paragraph l = htmlBlockType .document l := by
    intro hh
    have e : ∀ k, htmlBlockType k l = none := fun k => (htmlBlockType_none hnl).2 fun i hi => absurd (htmlOpen_head hi) hh
    rw [e, e]
  cases h with
  | @atx n _ h =>
    obtain ⟨h1, _, r, hr, _⟩ := h
    obtain ⟨n, rfl⟩ : ∃ k, n = k + 1 := ⟨n - 1, by omega⟩
    exact other (by rw [hr]; simp [List.replicate_succ])
  | @fence c n info _ h =>
    obtain ⟨h1, hr, _, h2⟩ := h
    obtain ⟨n, rfl⟩ : ∃ k, n = k + 1 := ⟨n - 1, by omega⟩
    refine other ?_
    rw [hr]
    rcases h2 with ⟨rfl, _⟩ | rfl <;> simp [List.replicate_succ]
  | @html i _ h h7 =>
    cases hm : htmlBlockType .document l with
    | none => exact absurd ((htmlBlockType_none hnl).1 hm _ h).1 h7
    | some j =>
      rw [htmlBlockType_iff hnl] at hm ⊢
      refine ⟨hm.1, ?_⟩
      rintro rfl
      have hr := htmlOpen_range h
      exact absurd h (hm.1.2 i (by omega))
  | rule h =>
    obtain ⟨c, h1, h2, h3, h4⟩ := h
    refine other ?_
    rw [h2]
    rcases h1 with rfl | rfl | rfl <;> simp
  | quote => exact other (by simp)
  | bullet h1 =>
    refine other ?_
    rcases h1 with rfl | rfl | rfl <;> simp
  | one => exact other (by simp)

theorem peekAt_drop {l : Str} {n : Nat} {c : Char} {r : Str} (h : l.drop n = c :: r) : peekAt l n = some c := by
  have : (l.drop n)[0]? = some c := by rw [h]; rfl
  rw [List.getElem?_drop] at this
  simpa [peekAt] using this

theorem head?_peek (l : Str) (n : Nat) : (l.drop n).head? = peekAt l n := by
  rw [List.head?_eq_getElem?, List.getElem?_drop]; rfl

theorem marker_some {p : PState} {m : Str} {ty : ListType} {b : Option Char} {st : Option Nat} {dl : Option Char}
    (hm : listMarker .document (p.currentLine.drop p.nextNonspace) = some (m, ty, b, st, dl)) (hi : p.indent < 4)
    (hs : peekAt p.currentLine (p.nextNonspace + m.length) = some ' ') (z : PState) : parseListMarker .document p ≠ .ok (none, z) := by
  intro h
  unfold parseListMarker at h
  rw [if_neg (by omega), hm] at h
  simp only [hs] at h
  rw [if_neg (by decide), if_neg (by simp)] at h
  cases ha : markerSpaces (advanceOffset m.length true (advanceNextNonspace p)).column 6 (advanceOffset m.length true (advanceNextNonspace p)) with
  | error => rw [ha] at h; cases h
  | ok q =>
    rw [ha] at h
    simp only [Except.bind, bind, pure, Except.pure, Except.ok.injEq, Prod.mk.injEq] at h
    exact absurd h.1 (by simp)

theorem interrupts_fire {l : Str} (h : Interrupts l) (hone : OneLine l) {d : NodeData} (hd : d.t = .document) {f : PState}
    (hl : f.currentLine.drop f.nextNonspace = l) (hi : f.indented = false) (hi' : f.indent < 4) : ¬ NoStart d f := by
  have hnl : '\n' ∉ l := fun hm => (hone _ hm).1 rfl
  rintro (⟨_, hs⟩ | ⟨z, hz⟩)
  · obtain ⟨c, r, hc, h1, _⟩ := interrupts_head h
    rw [hc] at hl
    rw [hs c (peekAt_drop hl)] at h1
    cases h1
  · have each := none_each hd _ (fun _ h => h) hz
    have mark : ∀ m ty b st dl, listMarker .document l = some (m, ty, b, st, dl) → (l.drop m.length).head? = some ' ' → False := by
      intro m ty b st dl h1 h2
      have h := each (startListItem d) (by simp [blockStarts])
      unfold startListItem at h
      rw [if_pos (by simp [hi])] at h
      have hp := marker_some (p := f) (by rw [hl]; exact h1) hi' (by rw [← hl, List.drop_drop] at h2; rw [← head?_peek]; exact h2)
      rw [hd] at h
      cases hm : parseListMarker .document f with
      | error => rw [hm] at h; cases h
      | ok x =>
        obtain ⟨x, q⟩ := x
        cases x with
        | none => exact hp q hm
        | some l =>
          rw [hm] at h
          simp only [Except.bind, bind] at h
          cases hc : closeUnmatched q with
          | error => rw [hc] at h; cases h
          | ok q1 =>
            rw [hc] at h
            simp only at h
            split at h
            · cases ha : addChild .list q1.nextNonspace (fun d => { d with listData := some l }) q1 with
              | error => rw [ha] at h; cases h
              | ok q2 => rw [ha] at h; exact absurd h (bind_ne_none (g := id) (r := .container) (by decide) _)
            · exact absurd h (bind_ne_none (g := id) (r := .container) (by decide) _)
    cases h with
    | @atx n _ h =>
      have h1 := each startAtx (by simp [blockStarts])
      unfold startAtx at h1
      rw [if_neg (by rw [hi]; simp), hl] at h1
      obtain ⟨m, hm⟩ := Option.isSome_iff_exists.1 ((atx_iff hnl).2 ⟨n, h⟩)
      rw [hm] at h1
      exact absurd h1 (open_none (tag := fun _ => .heading) (off := fun p => p.nextNonspace) (f := fun p d => { d with level := _, stringContent := _ }) (g := advanceToEnd) (by decide))
    | @fence c n info _ h =>
      have h1 := each startFenced (by simp [blockStarts])
      unfold startFenced at h1
      rw [if_neg (by rw [hi]; simp), hl] at h1
      obtain ⟨m, hm⟩ := Option.isSome_iff_exists.1 ((fence_iff hnl).2 ⟨c, n, info, h⟩)
      rw [hm] at h1
      exact absurd h1 (open_none (tag := fun _ => .codeBlock) (off := fun p => p.nextNonspace)
          (f := fun p d => { d with isFenced := true, fenceLength := _, fenceChar := _, fenceOffset := p.indent })
          (g := fun p => advanceOffset _ false (advanceNextNonspace p)) (by decide))
    | html h h7 =>
      have h1 := each (startHtml d.t) (by simp [blockStarts])
      unfold startHtml at h1
      rw [if_pos (by rw [hi, ← head?_peek, hl, htmlOpen_head h]; rfl), hl, hd] at h1
      cases hm : htmlBlockType .document l with
      | none => exact h7 ((htmlBlockType_none hnl).1 hm _ h).1
      | some j =>
        rw [hm] at h1
        exact absurd h1 (open_none (tag := fun _ => .htmlBlock) (off := fun p => p.offset) (f := fun _ d => { d with htmlBlockType := _ }) (g := id) (by decide))
    | rule h =>
      have h1 := each startThematic (by simp [blockStarts])
      unfold startThematic at h1
      rw [hl, (thematic_iff hnl).2 h, if_pos (by simp [hi])] at h1
      exact absurd h1 (open_none (tag := fun _ => .thematicBreak) (off := fun p => p.nextNonspace) (f := fun _ => id) (g := advanceToEnd) (by decide))
    | @quote r =>
      have h1 := each startBlockQuote (by simp [blockStarts])
      unfold startBlockQuote at h1
      rw [if_pos (by rw [hi, peekAt_drop hl]; rfl)] at h1
      exact absurd h1 (open_none (tag := fun _ => .blockQuote) (off := fun p => p.nextNonspace) (f := fun _ => id) (g := id) (by decide))
    | @bullet c x k r h1 h2 h3 =>
      refine mark [c] .bullet (some c) none none ?_ ?_
      · have : isBulletChar c = true := by rcases h1 with rfl | rfl | rfl <;> rfl
        simp [listMarker, this]
      · obtain ⟨k, rfl⟩ : ∃ j, k = j + 1 := ⟨k - 1, by omega⟩
        rfl
    | @one e x k r h1 h2 h3 =>
      refine mark ['1', e] .ordered none (some 1) (some e) (one_marker h1 _ _) ?_
      obtain ⟨k, rfl⟩ : ∃ j, k = j + 1 := ⟨k - 1, by omega⟩
      rfl

end CM
