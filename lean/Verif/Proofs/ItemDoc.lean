import Verif.Proofs.ItemOpen
/-
List items add structure only (C56): whole documents.
-/
namespace CM
open Spec

/-! ### The flags of the tightness check -/

theorem plainL_eq (cs : List Tree) : plainL cs = cs.map plainT := by
  induction cs with
  | nil => rfl
  | cons t ts ih => simp [plainL, ih]

theorem plainL_append (as bs : List Tree) : plainL (as ++ bs) = plainL as ++ plainL bs := by
  simp [plainL_eq]

mutual
theorem ends_plain : ∀ t : Tree, plainT (endsWithBlankLine t).2 = plainT t
  | .node d cs => by
    have ih := ends_plainL cs
    simp only [endsWithBlankLine]
    by_cases h1 : d.lastLineBlank = true
    · rw [if_pos h1]
    · rw [if_neg h1]
      by_cases h2 : (!d.lastLineChecked && (d.t == .list || d.t == .item)) = true
      · rw [if_pos h2]
        simp only [plainT, ih]
        rfl
      · rw [if_neg h2]
        simp only [plainT]
        rfl
theorem ends_plainL : ∀ cs : List Tree, plainL (endsWithBlankLast cs).2 = plainL cs
  | [] => by simp [endsWithBlankLast]
  | [t] => by simp only [endsWithBlankLast, plainL, ends_plain t]
  | t :: u :: r => by
    have ih := ends_plainL (u :: r)
    simp only [endsWithBlankLast, plainL] at ih ⊢
    rw [ih]
end

theorem subitems_plain (b : Bool) (cs : List Tree) : plainL (checkSubitems b cs).2 = plainL cs := by
  induction cs with
  | nil => simp [checkSubitems]
  | cons t ts ih =>
    simp only [checkSubitems]
    by_cases h : ((endsWithBlankLine t).1 && (b || !ts.isEmpty)) = true
    · rw [if_pos h]; simp [plainL, ends_plain]
    · rw [if_neg h]; simp [plainL, ends_plain, ih]

mutual
theorem plainT_er : ∀ t : Tree, plainT (erT dropCols t) = plainT t
  | .node d cs => by
    rw [erT, plainT, plainT, plainL_er cs]
    congr 1
    simp only [plain, noCols, er]
    cases d.sourcepos <;> rfl
theorem plainL_er : ∀ cs : List Tree, plainL (erL dropCols cs) = plainL cs
  | [] => rfl
  | t :: ts => by rw [erL, plainL, plainL, plainT_er t, plainL_er ts]
end

theorem source_plain {smart strict : Bool} {refs : Str → Option RefDef} {S : Str} {L : Bool} {ts : List Tree} {i j : Nat}
    (h : Source smart strict refs S L ts i j) : plainL ts = ts := by
  induction h <;> first | rfl | simp_all [plainL_append, plainL, plainT, plain, noCols]

theorem parseInlines_plain {sm : Bool} {m : RefMap} {c : Str} {ts : List Tree} (h : parseInlines sm m c = .ok ts) : plainL ts = ts :=
  source_plain (parseInlines_source (strict := false) (by intro h; cases h) h)

mutual
/-- Inline parsing does not look at the flags. -/
theorem inlines_plain (sm : Bool) (m : RefMap) : ∀ t : Tree, processInlines sm m (plainT t) = (processInlines sm m t).map plainT
  | .node d cs => by
    have ih := inlines_plainL sm m cs
    rw [plainT]
    unfold processInlines
    rw [ih]
    cases h1 : processInlinesList sm m cs with
    | error e => rfl
    | ok x =>
      simp only [Except.bind, bind, Except.map]
      have ht : (plain d).t = d.t := rfl
      have hc : (plain d).stringContent = d.stringContent := rfl
      rw [ht, hc]
      by_cases hp : (d.t == .paragraph || d.t == .heading) = true
      · rw [if_pos hp, if_pos hp]
        cases d.stringContent with
        | none => rfl
        | some c =>
          cases hi : parseInlines sm m c with
          | error => simp only [hi]
          | ok inl =>
            simp only [hi, pure, Except.pure, plainT, plainL_append, parseInlines_plain hi]
      · rw [if_neg hp, if_neg hp]
        simp only [pure, Except.pure, plainT]
theorem inlines_plainL (sm : Bool) (m : RefMap) : ∀ cs : List Tree,
    processInlinesList sm m (plainL cs) = (processInlinesList sm m cs).map plainL
  | [] => rfl
  | t :: ts => by
    have h1 := inlines_plain sm m t
    have h2 := inlines_plainL sm m ts
    rw [plainL]
    unfold processInlinesList
    rw [h1, h2]
    cases processInlines sm m t with
    | error => rfl
    | ok => cases processInlinesList sm m ts <;> rfl
end

mutual
theorem bareT_plain : ∀ t : Tree, bareT (plainT t) = bareT t
  | .node d cs => by rw [plainT, bareT, bareT, bareL_plain cs]; rfl
theorem bareL_plain : ∀ cs : List Tree, bareL (plainL cs) = bareL cs
  | [] => rfl
  | t :: ts => by rw [plainL, bareL, bareL, bareT_plain t, bareL_plain ts]
end

/-- The list of one item. -/
theorem finalize_one {d i : NodeData} {cs : List Tree} {l : ListData} (hl : l.tight = true) (hd : d.listData = some l)
    (hi : i.listData = some l) (ht : i.t = .item) : ∃ d' i' cs' tight, finalizeList d [.node i cs] = .node d' [.node i' cs'] ∧ d'.t = d.t ∧
      d'.listData = some { l with tight := tight } ∧ i'.t = .item ∧ i'.listData = d'.listData ∧
      plainL cs' = plainL cs ∧ (cs.length ≤ 1 → tight = true) := by
  have ends : ∃ j c, (endsWithBlankLine (.node i cs)).2 = .node j c ∧ j.t = .item ∧ j.listData = some l ∧ plainL c = plainL cs := by
    cases he : (endsWithBlankLine (.node i cs)).2 with
    | node j c =>
      have h1 := ends_plain (.node i cs)
      rw [he] at h1
      simp only [plainT, Tree.node.injEq] at h1
      exact ⟨j, c, rfl, ht ▸ (congrArg NodeData.t h1.1 :), hi ▸ (congrArg NodeData.listData h1.1 :), h1.2⟩
  obtain ⟨j, c, e1, e2, e3, e4⟩ := ends
  simp only [finalizeList, checkItems, List.isEmpty_nil, Bool.not_true, Bool.and_false, Bool.false_eq_true, if_false, e1,
    Bool.or_false]
  by_cases h : (checkSubitems false c).1 = true
  · rw [if_pos h]
    refine ⟨_, _, _, false, rfl, rfl, ?_, ?_, ?_, ?_, ?_⟩
    · simp [loosen, hd]
    · exact e2
    · simp [loosen, hd, e3]
    · rw [subitems_plain, e4]
    · intro h1
      have hc : c.length ≤ 1 := by
        have := congrArg List.length e4
        rw [plainL_eq, plainL_eq, List.length_map, List.length_map] at this
        omega
      cases c with
      | nil => simp [checkSubitems] at h
      | cons t ts =>
        cases ts with
        | nil => simp [checkSubitems] at h
        | cons => simp at hc
  · rw [if_neg h]
    refine ⟨_, _, _, true, rfl, rfl, ?_, e2, by rw [e3, hd], ?_, fun _ => rfl⟩
    · rw [hd, ← hl]
    · rw [subitems_plain, e4]

/-! ### The lines -/

/-- The item is the only one of a list in the document. -/
def itemSim (l : ListData) (col : Nat) : Sim :=
  ⟨opened .item l 1 col, [⟨opened .list l 1 col, []⟩, ⟨docNode, []⟩], [], 0, dropCols, dropCols, Eq, True, 0, id⟩

theorem itemSim_ok (l : ListData) (col w : Nat) (hw : l.markerOffset + l.padding = w) : ItemSim (itemSim l col) w where
  doc := .inr (.inr rfl)
  new := fun l c c' _ => rfl
  close := by
    intro x y l c c' _ h
    simp only [itemSim, dropCols, Prod.mk.injEq, and_true] at h ⊢
    exact ⟨h.1, rfl⟩
  start := by
    intro x y l _ h
    simp only [itemSim, dropCols, Prod.mk.injEq, and_true] at h
    have := h.1
    show _ ↔ _ = _ + 0
    omega
  mark := .inl trivial
  flag := fun _ _ _ h => (h (.inr ⟨rfl, trivial⟩)).symm
  ref := refKeeps_id
  item := rfl
  width := ⟨l, rfl, hw⟩
  outer := ⟨_, _, rfl, rfl⟩
  before := rfl

theorem mark_nul {m : Str} (h : ∀ x ∈ m, x ≠ Char.ofNat 0) : replaceChar (Char.ofNat 0) (Char.ofNat 0xFFFD) m = m := by
  induction m with
  | nil => rfl
  | cons x xs ih =>
    simp only [replaceChar, List.map_cons] at ih ⊢
    rw [ih fun y hy => h y (by simp [hy]), if_neg (by simpa using h x (by simp))]

theorem nul_append (a b : Str) : replaceChar (Char.ofNat 0) (Char.ofNat 0xFFFD) (a ++ b) =
    replaceChar (Char.ofNat 0) (Char.ofNat 0xFFFD) a ++ replaceChar (Char.ofNat 0) (Char.ofNat 0xFFFD) b := by
  simp [replaceChar]

theorem thematic_nul {s : Str} (h : ThematicBreak (replaceChar (Char.ofNat 0) (Char.ofNat 0xFFFD) s)) : ThematicBreak s := by
  have : ∀ x ∈ s, x ≠ Char.ofNat 0 := by
    rintro x hx rfl
    obtain ⟨c, hc, _, h, _⟩ := h
    have := h (Char.ofNat 0xFFFD) (by simp only [replaceChar, List.mem_map]; exact ⟨_, hx, by simp⟩)
    rcases this with rfl | h | h
    · revert hc; decide
    · revert h; decide
    · revert h; decide
  rwa [mark_nul this] at h

/-- The first line of the item. -/
theorem item_first {p q : PState} (hp : NewParse p) (hq : NewParse q) {m : Str} {ty : ListType} {b : Option Char} {st : Option Nat}
    {dl : Option Char} (hm : ListMark m ty b st dl) {n k : Nat} {c : Char} {r : Str} (hn : n ≤ 3) (hk : 1 ≤ k) (hk4 : k ≤ 4)
    (hc1 : c ≠ ' ') (hc2 : c ≠ '\t') (hnl : '\n' ∉ c :: r) (ht : '\t' ∉ c :: r ∨ (n + m.length + k) % 4 = 0)
    (hth : ¬ ThematicBreak (m ++ List.replicate k ' ' ++ c :: r))
    (hkeep : ∀ p', incorporateLine p (c :: r) = .ok p' → Kid p'.spine) :
    ERel (Sp (itemSim (markData ty b st dl (m.length + k) n) (n + 1)))
      (incorporateLine p (c :: r)) (incorporateLine q (List.replicate n ' ' ++ m ++ List.replicate k ' ' ++ c :: r)) := by
  have hch := mark_chars hm
  rw [incorporateLine_eq] at hkeep ⊢
  rw [incorporateLine_eq]
  have hrepl : replaceChar (Char.ofNat 0) (Char.ofNat 0xFFFD) (List.replicate n ' ' ++ m ++ List.replicate k ' ' ++ c :: r) =
      List.replicate n ' ' ++ (m ++ List.replicate k ' ' ++ replaceChar (Char.ofNat 0) (Char.ofNat 0xFFFD) (c :: r)) := by
    have := mark_nul fun x hx => (hch x hx).2.2
    rw [nul_append, nul_append, nul_append, this]
    simp [replaceChar]
  rw [hrepl]
  have ht := ht.imp_left noTab_nul
  have hnl := nul_not_mem hnl (by decide)
  have hth : ¬ ThematicBreak (m ++ List.replicate k ' ' ++ replaceChar (Char.ofNat 0) (Char.ofNat 0xFFFD) (c :: r)) := by
    intro h
    apply hth
    apply thematic_nul
    have e1 := mark_nul fun x hx => (hch x hx).2.2
    have e2 : replaceChar (Char.ofNat 0) (Char.ofNat 0xFFFD) (List.replicate k ' ') = List.replicate k ' ' := by simp [replaceChar]
    rw [nul_append, nul_append, e1, e2]
    exact h
  obtain ⟨c', r', hcr, hc1', hc2'⟩ : ∃ c' r', replaceChar (Char.ofNat 0) (Char.ofNat 0xFFFD) (c :: r) = c' :: r' ∧ c' ≠ ' ' ∧ c' ≠ '\t' := by
    refine ⟨_, _, rfl, ?_⟩
    simp only
    split
    · decide
    · exact ⟨hc1, hc2⟩
  rw [hcr] at hth hnl ht hkeep ⊢
  clear hrepl hcr hc1 hc2
  generalize hpre : List.replicate n ' ' ++ (m ++ List.replicate k ' ' ++ c' :: r') = pre
  have hprel : pre.length = n + m.length + k + (c' :: r').length := by rw [← hpre]; simp; omega
  generalize hl : c' :: r' = l at *
  have e1 : (atStart p l).spine.reverse.drop 1 = [] := by
    show p.spine.reverse.drop 1 = _
    rw [hp.spine]; rfl
  have e2 : (atStart q pre).spine.reverse.drop 1 = [] := by
    show q.spine.reverse.drop 1 = _
    rw [hq.spine]; rfl
  rw [e1] at hkeep ⊢
  rw [e2]
  simp only [contLoop, Except.bind, bind, afterCont] at hkeep ⊢
  have b1 : ∀ (r : PState) (x : Str), r.spine = [⟨docNode, []⟩] →
      blockAt { atStart r x with allClosed := 1 == (atStart r x).oldtip, lastMatched := 1 } 1 = some docNode := by
    intro r x hr
    show (r.spine.reverse[0]?).map _ = _
    rw [hr]; rfl
  have o1 : ∀ (r : PState) (x : Str), r.spine = [⟨docNode, []⟩] → (1 == (atStart r x).oldtip) = true := by
    intro r x hr
    show (1 == r.spine.length) = true
    rw [hr]; rfl
  have bp := b1 p l hp.spine
  have bq := b1 q pre hq.spine
  have op := o1 p l hp.spine
  have oq := o1 q pre hq.spine
  rw [op] at bp hkeep ⊢
  rw [oq] at bq ⊢
  simp only [bp] at hkeep
  simp only [bp, bq]
  generalize hq1 : ({ atStart q pre with allClosed := true, lastMatched := 1 } : PState) = q1
  generalize hp1 : ({ atStart p l with allClosed := true, lastMatched := 1 } : PState) = p1 at hkeep
  have hcl : q1.currentLine = pre := by rw [← hq1]; rfl
  obtain ⟨q', g1, g2, g3, g4, g5, g6, g7⟩ := item_open (q := q1) pre.length hm hn hk hk4 hc1' hc2' (hl ▸ hnl) (hl ▸ hth)
    (by rw [hcl, ← hpre, ← hl])
    (by rw [← hq1]; rfl) (by rw [← hq1]; rfl) (by rw [← hq1]; exact hq.spine) (by rw [← hq1])
  have hline : q1.lineNumber = 1 := by
    rw [← hq1]; show q.lineNumber + 1 = 1; rw [hq.line]
  have hspine : q1.spine = [⟨docNode, []⟩] := by rw [← hq1]; exact hq.spine
  have hrefs : q1.refmap = [] := by rw [← hq1]; exact hq.refmap
  rw [hline] at g1 g3
  rw [if_neg (by decide)] at hkeep ⊢
  rw [if_neg (by decide), g3]
  have hsp : Sp (itemSim (markData ty b st dl (m.length + k) n) (n + 1)) p1 q' := by
    refine ⟨?_, ?_, ?_, ?_, ?_, ?_, Nat.zero_le _⟩
    · have : q'.spine = _ := congrArg Core.spine g1
      rw [this, ← hp1]
      show SpineRel _ p.spine (_ :: _ :: q1.spine)
      rw [hp.spine, hspine]
      refine .base (cs := []) rfl rfl rfl rfl rfl ?_
      intro x hx
      simp only [List.mem_cons, List.not_mem_nil, or_false] at hx
      rcases hx with rfl | rfl | rfl <;> rfl
    · have : q'.refmap = q1.refmap := (congrArg Core.refmap g1 :)
      rw [this, hrefs, ← hp1]
      exact hp.refmap.symm
    · have : q'.lineNumber = q1.lineNumber := (congrArg Core.line g1 :)
      rw [this, hline, ← hp1]
      show 1 = p.lineNumber + 1 + 0
      rw [hp.line]
    · intro h; rw [← hp1] at h; cases h
    · intro h; rw [← hp1] at h; cases h
    · rw [g2, ← hp1]
  have hcu : Cu (n + m.length + k) p1.curs q'.curs := by
    rw [← hp1]
    refine ⟨⟨List.replicate n ' ' ++ m ++ List.replicate k ' ', by simp [Nat.add_assoc], ?_⟩, g4, g5, g6, ?_⟩
    · show q'.currentLine = _ ++ l
      rw [g7, hcl, ← hpre]; simp
    · rcases ht with ht | ht
      · exact .inr ⟨ht, rfl⟩
      · exact .inl ht
  have hr : ReadyFor docNode p1 := by
    have : p1.spine = [⟨docNode, []⟩] := by rw [← hp1]; exact hp.spine
    exact ready_of_closed (by rw [← hp1]) this
  have hlen : l.length + 1 ≤ pre.length := by omega
  have hX := (itemSim_ok (markData ty b st dl (m.length + k) n) (n + 1) _ rfl).toOk
  have hpos : 1 ≤ p1.lineNumber := by rw [← hp1]; show 1 ≤ p.lineNumber + 1; omega
  refine ERel.bind (startsLoop_rel hX _ _ hlen (.inr ⟨rfl, .inr (.inr rfl)⟩) hsp hcu hpos hr).run ?_
  rintro p1 q1 ⟨⟨f1, e, f2⟩, f3⟩
  refine ERel.bind (addText_rel hX f1.weak (.inr f1.toSp) (keeps_of_kid fun p' hp' => ?_) f2) ?_
  · rw [f3] at hkeep
    simp only [hp'] at hkeep
    exact hkeep { p' with lastLineLength := l.length } rfl
  intro p2 q2 f
  exact .ok ⟨f.spine, f.refmap, f.line, f.oldtip, f.lastMatched, f.allClosed, f.low⟩

/-- All further lines of the item. -/
theorem item_lines {X : Sim} {w : Nat} (hX : ItemSim X w) (hw : 1 ≤ w) {ls qs : List Str}
    (hq : Indented w ls qs) (hn : ∀ l ∈ ls, OneLine l) : ∀ {p q : PState}, Sp X p q → Kid p.spine → Ready p →
      ERel (fun p q => Sp X p q ∧ Kid p.spine) (ls.foldlM incorporateLine p) (qs.foldlM incorporateLine q) := by
  induction hq with
  | nil => intro p q h hk _; exact .ok ⟨h, hk⟩
  | @text l ls qs hb ht _ ih =>
    intro p q h hk hr
    rw [List.foldlM_cons, List.foldlM_cons]
    have h1 := hn l (by simp)
    have := item_text hX hw h (keeps_of_kid fun p' hp' => (kid_line hk hr hp').1) hb (fun hh => (h1 _ hh).1 rfl) (fun hh => (h1 _ hh).2 rfl) ht
    refine ERel.bind (this.mono (S := fun a b => Sp X a b ∧ Kid a.spine ∧ Ready a) fun a b ha hab => ⟨hab, kid_line hk hr ha⟩) ?_
    rintro a b ⟨f1, f2, f3⟩
    exact ih (fun l hl => hn l (by simp [hl])) f1 f2 f3
  | @blank k ls qs _ ih =>
    intro p q h hk hr
    rw [List.foldlM_cons, List.foldlM_cons]
    refine ERel.bind ((item_blank hX h hk hr).mono (S := fun a b => Sp X a b ∧ Kid a.spine ∧ Ready a) fun a b ha hab => ⟨hab, kid_line hk hr ha⟩) ?_
    rintro a b ⟨f1, f2, f3⟩
    exact ih (fun l hl => hn l (by simp [hl])) f1 f2 f3

/-- What the block phase leaves. -/
structure ItemEnds (l : ListData) (p q : PState) : Prop where
  refmap : q.refmap = p.refmap
  doc : ∃ d d' e i cs cs' tight, p.doc = some (.node d cs) ∧ q.doc = some (.node d' [.node e [.node i cs']]) ∧ d.t = .document ∧
    d'.t = .document ∧ e.t = .list ∧ e.listData = some { l with tight := tight } ∧ i.t = .item ∧ i.listData = e.listData ∧
    cs ≠ [] ∧ plainL cs' = plainL cs ∧ (cs.length ≤ 1 → tight = true)

theorem kid_finalizeTip {len : Nat} {p p' : PState} (h2 : 2 ≤ p.spine.length) (h : Kid p.spine) (hf : finalizeTip len p = .ok p') : Kid p'.spine := by
  cases hs : p.spine with
  | nil => rw [hs] at h2; simp at h2
  | cons b r =>
    cases r with
    | nil => rw [hs] at h2; simp at h2
    | cons par up =>
      rw [hs] at h
      obtain ⟨t, m, h1, rfl⟩ := finalizeTip_inv hs hf
      exact h.close h1

theorem finalizeAll_item {l : ListData} {col : Nat} (hl : l.tight = true) (len : Nat) :
    ∀ (n m : Nat) {p q : PState}, n + 2 ≤ m → Sp (itemSim l col) p q → Kid p.spine → ERel (ItemEnds l) (finalizeAll len n p) (finalizeAll len m q) := by
  intro n
  induction n with
  | zero => intro m p q _ _ _; exact ERel.error
  | succ n ih =>
    intro m p q hm h hk
    obtain ⟨m, rfl⟩ : ∃ m', m = m' + 1 := ⟨m - 1, by omega⟩
    by_cases h2 : 2 ≤ p.spine.length
    · have hp : p.spine ≠ [] := by intro e; rw [e] at h2; simp at h2
      have hq : q.spine ≠ [] := by intro e; have := h.spine.length; rw [e] at this; simp at this; omega
      have key : ∀ (k : Nat) (r : PState), r.spine ≠ [] → finalizeAll len (k + 1) r = finalizeTip len r >>= finalizeAll len k := by
        intro k r hr
        conv => lhs; unfold finalizeAll
        cases hs : r.spine with
        | nil => exact absurd hs hr
        | cons => rfl
      rw [key n p hp, key m q hq]
      refine ERel.bind ((finalizeTip_sp (itemSim_ok l col _ rfl).toOk len (l' := len) rfl (Nat.zero_le _) h h2).mono
        (S := fun a b => Sp (itemSim l col) a b ∧ Kid a.spine) fun a b ha hab => ⟨hab.1, kid_finalizeTip h2 hk ha⟩) ?_
      intro p' q' h'
      exact ih m (by omega) h'.1 h'.2
    · have hspine := h.spine
      generalize hps : p.spine = sp at hspine h2 hk
      generalize hqs : q.spine = sq at hspine
      cases hspine with
      | cons _ hr => have := hr.pos; rw [List.length_cons] at h2; omega
      | @base b b' O cs g1 g2 gA g3 g4 _ =>
        obtain ⟨x, y, rfl, hx, hy⟩ : ∃ x y, O = [x, y] ∧ unflag x = ⟨opened .list l 1 col, []⟩ ∧ unflag y = ⟨docNode, []⟩ := by
          have : O.length = 2 := by rw [← List.length_map (f := unflag), g4]; rfl
          cases O with
          | nil => simp at this
          | cons x O =>
            cases O with
            | nil => simp at this
            | cons y O =>
              cases O with
              | nil =>
                simp only [itemSim, List.map_cons, List.map_nil, List.cons.injEq, and_true] at g4
                exact ⟨x, y, rfl, g4.1, g4.2⟩
              | cons => simp at this
        have x1 : x.data.t = .list := (congrArg (fun b : OpenBlk => b.data.t) hx :)
        have x2 : x.children = [] := (congrArg OpenBlk.children hx :)
        have x3 : x.data.listData = some l := (congrArg (fun b : OpenBlk => b.data.listData) hx :)
        have y1 : y.data.t = .document := (congrArg (fun b : OpenBlk => b.data.t) hy :)
        have y2 : y.children = [] := (congrArg OpenBlk.children hy :)
        have b1 : b'.data.t = .item := (congrArg NodeData.t g3 :)
        have b2 : b'.data.listData = some l := (congrArg NodeData.listData g3 :)
        have hbc : b.children ≠ [] := by
          cases hk with
          | done _ hh => exact hh
        obtain ⟨m, rfl⟩ : ∃ m', m = m' + 1 := ⟨m - 1, by omega⟩
        obtain ⟨m, rfl⟩ : ∃ m', m = m' + 1 := ⟨m - 1, by omega⟩
        cases n with
        | zero =>
          simp only [finalizeAll, hps]
          have : ∀ z : Except PyErr PState, ERel (ItemEnds l) (z >>= fun _ => .error .hang) (finalizeAll len (m + 1 + 1 + 1) q) := by
            intro z; cases z <;> exact ERel.error
          exact this _
        | succ n =>
          obtain ⟨m, rfl⟩ : ∃ m', m = m' + 1 := ⟨m - 1, by omega⟩
          have gA : b'.children = cs := gA
          simp only [finalizeAll, hps, hqs, finalizeTip, finalizeBlock, g1, b1, x1, x2, y1, y2, Except.bind, bind, pure, Except.pure,
            Option.toList, List.nil_append]
          obtain ⟨d', i', cs', tight, f1, f2, f3, f4, f5, f6, f7⟩ := finalize_one
            (d := { x.data with t := .list, isOpen := false, sourcepos := x.data.sourcepos.map fun sp => (sp.1, (len, q.lastLineLength)) })
            (i := { b'.data with t := .item, isOpen := false, sourcepos := b'.data.sourcepos.map fun sp => (sp.1, (len, q.lastLineLength)) })
            (cs := b'.children) hl x3 b2 rfl
          simp only [f1]
          refine .ok ⟨h.refmap, _, _, _, _, _, _, tight, rfl, rfl, rfl, rfl, f2, f3, f4, f5, hbc, ?_, ?_⟩
          · rw [f6, gA, ← plainL_er, ← plainL_er b.children]
            rw [show erL dropCols cs = erL dropCols b.children from g2.symm]
          · intro h1
            apply f7
            have := congrArg List.length g2
            rw [noColsL_eq, noColsL_eq, List.length_map, List.length_map] at this
            rw [gA]; omega

/-! ### The parse -/

theorem textLines_one {s : Str} {ls : List Str} (h : TextLines s ls) : ∀ l ∈ ls, OneLine l := by
  induction h with
  | last h => intro l hl; obtain rfl : l = _ := by simpa using hl
              exact h
  | lastLf h => intro l hl; obtain rfl : l = _ := by simpa using hl
                exact h
  | lastCrLf h => intro l hl; obtain rfl : l = _ := by simpa using hl
                  exact h
  | lf h _ _ ih => intro l hl; rcases List.mem_cons.1 hl with rfl | hl; exacts [h, ih l hl]
  | crlf h _ _ ih => intro l hl; rcases List.mem_cons.1 hl with rfl | hl; exacts [h, ih l hl]
  | cr h _ _ ih => intro l hl; rcases List.mem_cons.1 hl with rfl | hl; exacts [h, ih l hl]

theorem indented_length {w : Nat} {ls qs : List Str} (h : Indented w ls qs) : ls.length = qs.length := by
  induction h <;> simp_all

/-- The block phase. -/
theorem item_blocks {s s' : Str} {ls qs : List Str} (hs : inputLines s = ls) (hs' : inputLines s' = qs) (h1 : ∀ l ∈ ls, OneLine l)
    {m : Str} {ty : ListType} {b : Option Char} {st : Option Nat} {dl : Option Char} (hm : ListMark m ty b st dl) (hq : ItemOf m ls qs)
    (p q : PState) : ∃ pad off, ERel (ItemEnds (markData ty b st dl pad off)) (blockPhase p s) (blockPhase q s') := by
  unfold blockPhase
  simp only [hs, hs']
  cases hq with
  | @mk n k c r ls qs hn hk hk4 hc1 hc2 hc3 ht hth hi =>
    refine ⟨m.length + k, n, ?_⟩
    have hl := h1 (c :: r) (by simp)
    have hf := item_first (newParse_reset p) (newParse_reset q) hm hn hk hk4 hc1 hc2 (fun h => (hl _ h).1 rfl) ht hth
      fun p' hp' => kid_first (newParse_reset p) rfl hc1 hc2 hc3 (hl c (by simp)).1 (hl c (by simp)).2 hp'
    have hlen : ((c :: r) :: ls).length = ((List.replicate n ' ' ++ m ++ List.replicate k ' ' ++ c :: r) :: qs).length := by
      simp [indented_length hi]
    rw [← hlen, List.foldlM_cons, List.foldlM_cons]
    have hf := hf.mono (S := fun a b' => Sp (itemSim (markData ty b st dl (m.length + k) n) (n + 1)) a b' ∧ Kid a.spine ∧ Ready a) fun a b' ha hab => by
      refine ⟨hab, kid_first (newParse_reset p) rfl hc1 hc2 hc3 (hl c (by simp)).1 (hl c (by simp)).2 ha, ?_⟩
      obtain ⟨p1, c, e1, e2, e3, e4⟩ := incorporateLine_ok (ready_reset p).1 (c :: r)
      rw [ha] at e1
      cases e1
      exact e4
    refine ERel.bind (ERel.bind hf fun a b' hab => item_lines (itemSim_ok _ _ (n + m.length + k) ?_) (by omega) hi
      (fun l hl => h1 l (by simp [hl])) hab.1 hab.2.1 hab.2.2) ?_
    · show n + (m.length + k) = _; omega
    · intro a b' hab
      refine finalizeAll_item rfl _ _ _ ?_ hab.1 hab.2
      rw [hab.1.spine.length]
      simp [itemSim]

theorem inlines_length {sm : Bool} {m : RefMap} : ∀ {cs x : List Tree}, processInlinesList sm m cs = .ok x → x.length = cs.length
  | [], _, h => by cases h; rfl
  | t :: ts, _, h => by
    unfold processInlinesList at h
    cases e3 : processInlines sm m t with
    | error => rw [e3] at h; cases h
    | ok =>
      cases e4 : processInlinesList sm m ts with
      | error => rw [e3, e4] at h; cases h
      | ok y =>
        rw [e3, e4] at h
        cases h
        simp [inlines_length e4]

/-- Both parses, from the block phases. -/
theorem item_parse {smart : Bool} {s s' : Str} {ls qs : List Str} (hs : TextLines s ls) (hs' : TextLines s' qs)
    {m : Str} {ty : ListType} {b : Option Char} {st : Option Nat} {dl : Option Char} (hm : ListMark m ty b st dl) (hq : ItemOf m ls qs) :
    (∃ e, parse smart s = .error e ∧ parse smart s' = .error e) ∨
      ∃ d d' e i cs cs' tight pad off, parse smart s = .ok (.node d cs) ∧ parse smart s' = .ok (.node d' [.node e [.node i cs']]) ∧ d.t = .document ∧
        d'.t = .document ∧ e.t = .list ∧ e.listData = some ⟨ty, tight, b, st, dl, pad, off⟩ ∧ i.t = .item ∧ i.listData = e.listData ∧
        cs ≠ [] ∧ plainL cs' = plainL cs ∧ (cs.length ≤ 1 → tight = true) := by
  obtain ⟨pad, off, hb⟩ := item_blocks (inputLines_of hs) (inputLines_of hs') (textLines_one hs) hm hq PState.init PState.init
  obtain ⟨p, _, _, _, hp, _⟩ := blockPhase_ok PState.init s
  obtain ⟨q, hq', hE⟩ := hb p hp
  obtain ⟨d, d', e, i, cs, cs', tight, h1, h2, h3, h4, h5, h6, h7, h8, h9, h10, h11⟩ := hE.doc
  have hi : (processInlinesList smart p.refmap cs').map plainL = (processInlinesList smart p.refmap cs).map plainL := by
    rw [← inlines_plainL, h10, inlines_plainL]
  rw [parse_blocks hp h1, parse_blocks hq' h2, hE.refmap]
  simp only [processInlines, processInlinesList, h3, h4, h5, h7, Except.bind, bind]
  cases e1 : processInlinesList smart p.refmap cs with
  | error x =>
    rw [e1] at hi
    cases e2 : processInlinesList smart p.refmap cs' with
    | error y => rw [e2] at hi; cases hi; exact .inl ⟨x, rfl, rfl⟩
    | ok => rw [e2] at hi; cases hi
  | ok x =>
    rw [e1] at hi
    cases e2 : processInlinesList smart p.refmap cs' with
    | error y => rw [e2] at hi; cases hi
    | ok y =>
      rw [e2] at hi
      simp only [Except.map, Except.ok.injEq] at hi
      refine .inr ⟨d, d', e, i, x, y, tight, pad, off, rfl, rfl, h3, h4, h5, h6, h7, h8, ?_, hi, ?_⟩
      · rintro rfl
        exact h9 (List.length_eq_zero_iff.1 (inlines_length e1).symm)
      · rw [inlines_length e1]; exact h11

/-! ### HTML -/

/-- Only paragraphs look at their grandparent. -/
theorem htmlEvent_gp {o : HtmlOpts} {st : HState} {en : Bool} {d : NodeData} {p g g' f : Option NodeData} (hd : d.t ≠ .paragraph) :
    htmlEvent o st ⟨en, d, p, g, f⟩ = htmlEvent o st ⟨en, d, p, g', f⟩ := by
  unfold htmlEvent
  simp only
  cases h : d.t <;> first | rfl | exact absurd h hd

theorem runEvents_gp {o : HtmlOpts} {p g g' : Option NodeData} : ∀ {cs : List Tree} {st : HState}, (∀ c ∈ cs, c.kind ≠ .paragraph) →
    runEvents o st (eventsList p g cs) = runEvents o st (eventsList p g' cs)
  | [], _, _ => rfl
  | .node d cs :: ts, st, h => by
    have hd : d.t ≠ .paragraph := h (.node d cs) (by simp)
    have h1 : runEvents o st (events p g (.node d cs)) = runEvents o st (events p g' (.node d cs)) := by
      unfold events
      simp only
      split
      · rw [runEvents_cons, runEvents_cons, htmlEvent_gp (g' := g') hd]
        congr 1
        funext st
        rw [runEvents_append, runEvents_append]
        congr 1
        funext st
        rw [runEvents_cons, runEvents_cons, htmlEvent_gp (g' := g') hd]
      · rw [runEvents_cons, runEvents_cons, htmlEvent_gp (g' := g') hd]
    unfold eventsList
    rw [runEvents_append, runEvents_append, h1]
    congr 1
    funext st
    exact runEvents_gp fun c hc => h c (by simp [hc])

/-- A block begins on a new line. -/
theorem htmlEvent_cr {o : HtmlOpts} {st : HState} {d : NodeData} {p f : Option NodeData} (hd : d.t ∈ topLevelKinds) :
    htmlEvent o st ⟨true, d, p, none, f⟩ = htmlEvent o st.cr ⟨true, d, p, none, f⟩ := by
  have hcr : st.cr.cr = st.cr := by
    have := cr_lastOut st
    generalize st.cr = x at this
    unfold HState.cr
    rw [if_neg (by rw [this]; simp)]
  simp only [topLevelKinds, List.mem_cons, List.not_mem_nil, or_false] at hd
  unfold htmlEvent
  rcases hd with hk | hk | hk | hk | hk | hk | hk | hk <;> simp only [hk]
  · cases p <;> simp [htmlParagraph, hcr, bind, Except.bind]
  · simp [htmlHeading, hcr]
  · simp [htmlCodeBlock, hcr]
  · simp [hcr]
  · simp [hcr]
  · simp [hcr]
  · simp [htmlList, hcr]
  · simp [hcr]

theorem runEvents_cr {o : HtmlOpts} {st : HState} {d : NodeData} {c : Tree} {cs : List Tree} (hd : c.kind ∈ topLevelKinds) :
    runEvents o st (eventsList (some d) none (c :: cs)) = runEvents o st.cr (eventsList (some d) none (c :: cs)) := by
  cases c with
  | node dc x =>
    have hd : dc.t ∈ topLevelKinds := hd
    unfold eventsList
    rw [runEvents_append, runEvents_append]
    congr 1
    unfold events
    simp only
    split
    · rw [runEvents_cons, runEvents_cons, htmlEvent_cr hd]
    · rw [runEvents_cons, runEvents_cons, htmlEvent_cr hd]

theorem bareL_kinds : ∀ {cs cs' : List Tree}, bareL cs' = bareL cs → cs'.map Tree.kind = cs.map Tree.kind
  | [], [], _ => rfl
  | [], _ :: _, h => by rw [bareL, bareL] at h; cases h
  | _ :: _, [], h => by rw [bareL, bareL] at h; cases h
  | .node d c :: ts, .node d' c' :: ts', h => by
    rw [bareL, bareL, List.cons.injEq, bareT, bareT, Tree.node.injEq] at h
    have : d'.t = d.t := (congrArg NodeData.t h.1.1 :)
    simp only [List.map_cons, Tree.kind, Tree.data, bareL_kinds h.2, this]

/-- The events of the list and the item around the children. -/
theorem list_events {o : HtmlOpts} (ho : o.sourcepos = false) {d' e i : NodeData} {cs' : List Tree} {ty : ListType} {tight : Bool} {b : Option Char}
    {st : Option Nat} {dl : Option Char} {pad off : Nat} (h2 : d'.t = .document) (h3 : e.t = .list) (h4 : e.listData = some ⟨ty, tight, b, st, dl, pad, off⟩)
    (h5 : i.t = .item) (hst : ty = .bullet → st = none) :
    renderHtml o (.node d' [.node e [.node i cs']]) =
      (runEvents o ⟨listTag ty st ++ "\n<li>".toList, ['>'], 0⟩ (eventsList (some i) (some e) cs')).map fun x =>
        (((x.tag "/li".toList).cr.tag ('/' :: (if ty == .bullet then "ul".toList else "ol".toList))).cr).buf := by
  unfold renderHtml
  rw [renderWith_document o d' _ h2]
  have a1 : htmlAttrs o e = [] := by simp [htmlAttrs, ho]
  have a2 : htmlAttrs o i = [] := by simp [htmlAttrs, ho]
  have e1 : ∀ f, htmlEvent o ⟨[], ['\n'], 0⟩ ⟨true, e, some d', none, f⟩ = .ok ⟨listTag ty st ++ ['\n'], ['\n'], 0⟩ := by
    intro f
    simp only [htmlEvent, h3, htmlList, h4, if_true, a1]
    cases ty with
    | bullet =>
      rw [hst rfl]
      rfl
    | ordered =>
      cases st with
      | none => rfl
      | some n =>
        by_cases hn : n = 1
        · subst hn; rfl
        · have : (n != 1) = true := by simpa using hn
          simp only [this, if_true, listTag, if_neg hn]
          simp [HState.cr, HState.tag, HState.tagText, HState.lit, natToStr, lit]
  have e2 : ∀ b p g f, htmlEvent o ⟨b, ['\n'], 0⟩ ⟨true, i, p, g, f⟩ = .ok ⟨b ++ "<li>".toList, ['>'], 0⟩ := by
    intro b p g f
    simp only [htmlEvent, h5, if_true, a2]
    rfl
  have e3 : ∀ x p g f, htmlEvent o x ⟨false, i, p, g, f⟩ = .ok (x.tag (lit "/li")).cr := by
    intro x p g f
    simp only [htmlEvent, h5, Bool.false_eq_true, if_false]
  have e4 : ∀ x f, htmlEvent o x ⟨false, e, some d', none, f⟩ = .ok (x.cr.tag ('/' :: (if ty == .bullet then "ul".toList else "ol".toList))).cr := by
    intro x f
    simp only [htmlEvent, h3, htmlList, h4, Bool.false_eq_true, if_false]
  simp only [eventsList, List.append_nil, events, h3, h5, isContainer, if_true]
  rw [runEvents_cons, e1]
  simp only [Except.bind, List.cons_append]
  rw [runEvents_cons, e2]
  simp only [Except.bind, List.append_assoc]
  rw [runEvents_append]
  rw [show ['\n'] ++ "<li>".toList = "\n<li>".toList by decide]
  cases runEvents o ⟨listTag ty st ++ "\n<li>".toList, ['>'], 0⟩ (eventsList (some i) (some e) cs') with
  | error => rfl
  | ok x =>
    simp only [Except.bind, Except.map, bind]
    rw [List.singleton_append, runEvents_cons, e3]
    simp only [Except.bind]
    rw [runEvents_cons, e4]
    have hcr : ∀ y : HState, y.cr.cr = y.cr := by
      intro y
      have := cr_lastOut y
      generalize y.cr = x at this
      unfold HState.cr
      rw [if_neg (by rw [this]; simp)]
    simp only [Except.bind, runEvents_nil, hcr, pure, Except.pure]

/-- The HTML of a list with one item, if its paragraphs are rendered as paragraphs. -/
theorem item_render {o : HtmlOpts} (ho : o.sourcepos = false) {d d' e i : NodeData} {cs cs' : List Tree} {ty : ListType} {tight : Bool} {b : Option Char}
    {st : Option Nat} {dl : Option Char} {pad off : Nat} (h1 : d.t = .document)
    (h2 : d'.t = .document) (h3 : e.t = .list) (h4 : e.listData = some ⟨ty, tight, b, st, dl, pad, off⟩)
    (h5 : i.t = .item) (hst : ty = .bullet → st = none) (hc : bareL cs' = bareL cs) (hk : ∀ c ∈ cs, c.kind ∈ topLevelKinds) (hne : cs ≠ [])
    (ht : tight = false ∨ ∀ c ∈ cs, c.kind ≠ .paragraph) :
    renderHtml o (.node d' [.node e [.node i cs']]) = (renderHtml o (.node d cs)).map fun h =>
      listTag ty st ++ "\n<li>\n".toList ++ h ++ "</li>\n".toList ++ listEnd ty ++ "\n".toList := by
  rw [list_events ho h2 h3 h4 h5 hst]
  have t1 : tightOf (some i) = .ok false := by simp [tightOf, h5]
  have t2 : tightOf (some d) = .ok false := by simp [tightOf, h1]
  have hg : ∀ x, runEvents o x (eventsList (some i) (some e) cs') = runEvents o x (eventsList (some d) none cs) := by
    intro x
    have key : runEvents o x (eventsList (some i) none cs') = runEvents o x (eventsList (some d) none cs) :=
      runEvents_same ho (eventsList_same (p := some i) (p' := some d) (g := none) (g' := none) rfl (t1.trans t2.symm) rfl hc) x
    rw [← key]
    rcases ht with rfl | ht
    · have t3 : tightOf (some e) = .ok false := by simp [tightOf, h3, h4]
      exact runEvents_same ho (eventsList_same (p := some i) (p' := some i) (g := some e) (g' := none) rfl rfl (t3.trans rfl) rfl) x
    · refine runEvents_gp ?_
      intro c hcc hp
      have := bareL_kinds hc
      have hm : Kind.paragraph ∈ cs.map Tree.kind := by
        rw [← this]
        exact List.mem_map.2 ⟨c, hcc, hp⟩
      obtain ⟨c', h1, h2⟩ := List.mem_map.1 hm
      exact ht c' h1 h2
  rw [hg]
  unfold renderHtml
  rw [renderWith_document o d _ h1]
  cases cs with
  | nil => exact absurd rfl hne
  | cons c cs =>
    rw [runEvents_cr (hk c (by simp)), show (HState.cr ⟨listTag ty st ++ "\n<li>".toList, ['>'], 0⟩) =
      ⟨listTag ty st ++ "\n<li>".toList ++ ['\n'], ['\n'], 0⟩ from rfl, runEvents_blocks _ hk, runEvents_blocks _ hk]
    generalize (List.mapM (m := Except PyErr) _ (c :: cs)) = ys
    cases ys with
    | error => rfl
    | ok y =>
      simp only [Except.map, bind, Except.bind, pure, Except.pure, Except.ok.injEq]
      cases ty <;> simp [HState.cr, HState.tag, HState.tagText, HState.lit, listEnd]

theorem one_paragraph {cs : List Tree} (h : cs.map Tree.kind = [.paragraph]) : ∃ dp inl, cs = [.node dp inl] ∧ dp.t = .paragraph := by
  cases cs with
  | nil => cases h
  | cons t ts =>
    cases t with
    | node dp inl =>
      simp only [List.map_cons, List.cons.injEq, List.map_eq_nil_iff] at h
      obtain ⟨h1, rfl⟩ := h
      exact ⟨dp, inl, rfl, h1⟩

/-- The HTML of a tight list with one item that is a paragraph. -/
theorem item_render_tight {o : HtmlOpts} (ho : o.sourcepos = false) {d d' e i : NodeData} {cs cs' : List Tree} {ty : ListType} {b : Option Char}
    {st : Option Nat} {dl : Option Char} {pad off : Nat} (h1 : d.t = .document)
    (h2 : d'.t = .document) (h3 : e.t = .list) (h4 : e.listData = some ⟨ty, true, b, st, dl, pad, off⟩)
    (h5 : i.t = .item) (hst : ty = .bullet → st = none) (hc : bareL cs' = bareL cs) (hk : cs.map Tree.kind = [.paragraph]) :
    (∃ er, renderHtml o (.node d cs) = .error er ∧ renderHtml o (.node d' [.node e [.node i cs']]) = .error er) ∨
    ∃ x, renderHtml o (.node d cs) = .ok ("<p>".toList ++ x ++ "</p>\n".toList) ∧ renderHtml o (.node d' [.node e [.node i cs']]) = .ok
      (listTag ty st ++ "\n<li>".toList ++ x ++ "</li>\n".toList ++ listEnd ty ++ "\n".toList) := by
  rw [list_events ho h2 h3 h4 h5 hst]
  have hk' := bareL_kinds hc
  rw [hk] at hk'
  obtain ⟨dp, inl, rfl, hdp⟩ : ∃ dp inl, cs = [.node dp inl] ∧ dp.t = .paragraph := by
    exact one_paragraph hk
  obtain ⟨dp', inl', rfl, hdp'⟩ : ∃ dp inl, cs' = [.node dp inl] ∧ dp.t = .paragraph := by
    exact one_paragraph hk'
  have hi : bareL inl' = bareL inl := by
    simp only [bareL, bareT, List.cons.injEq, Tree.node.injEq] at hc
    exact hc.1.2
  have t1 : tightOf (some i) = .ok false := by simp [tightOf, h5]
  have t2 : tightOf (some d) = .ok false := by simp [tightOf, h1]
  have t3 : tightOf (some dp) = .ok false := by simp [tightOf, hdp]
  have t4 : tightOf (some dp') = .ok false := by simp [tightOf, hdp']
  have hs := eventsList_same (p := some dp') (p' := some dp) (g := some i) (g' := some d) rfl (t4.trans t3.symm) (t1.trans t2.symm) hi
  have p1 : ∀ x en f, htmlEvent o x ⟨en, dp', some i, some e, f⟩ = .ok x := by
    intro x en f
    simp [htmlEvent, hdp', htmlParagraph, h3, h4, bind, Except.bind, pure, Except.pure]
  have p2 : ∀ f, htmlEvent o ⟨[], ['\n'], 0⟩ ⟨true, dp, some d, none, f⟩ = .ok ⟨"<p>".toList, ['>'], 0⟩ := by
    intro f
    have a : htmlAttrs o dp = [] := by simp [htmlAttrs, ho]
    simp only [htmlEvent, hdp, htmlParagraph, a]
    rfl
  have p3 : ∀ x f, htmlEvent o x ⟨false, dp, some d, none, f⟩ = .ok (x.tag (lit "/p")).cr := by
    intro x f
    simp only [htmlEvent, hdp, htmlParagraph]
    rfl
  unfold renderHtml
  rw [renderWith_document o d _ h1]
  simp only [eventsList, List.append_nil, events, hdp, hdp', isContainer, if_true]
  rw [runEvents_cons, runEvents_cons, p1, p2]
  simp only [Except.bind]
  rw [runEvents_append, runEvents_append, runEvents_same ho hs, runEvents_from _ _ (listTag ty st ++ "\n<li>".toList), runEvents_from _ _ "<p>".toList]
  cases hx : runEvents o ⟨[], ['>'], 0⟩ (eventsList (some dp) (some d) inl) with
  | error er => exact .inl ⟨er, rfl, rfl⟩
  | ok x =>
    have hdis := runEvents_disable _ hx
    rw [eventsList_delta] at hdis
    obtain ⟨bx, lo, k⟩ := x
    have hdis : k = 0 := hdis
    subst hdis
    refine .inr ⟨bx, ?_, ?_⟩
    · simp only [Except.map, Except.bind, HState.prepend, runEvents_cons, p3, runEvents_nil]
      simp [HState.cr, HState.tag, HState.tagText, HState.lit, lit, bind, Except.bind, pure, Except.pure]
    · simp only [Except.map, Except.bind, HState.prepend, runEvents_cons, p1, runEvents_nil, Except.ok.injEq]
      cases ty <;> simp [HState.cr, HState.tag, HState.tagText, HState.lit, listEnd]

end CM
