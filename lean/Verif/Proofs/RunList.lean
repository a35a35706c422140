import Verif.Proofs.ItemNext
/-
Runs over the lines of a list (C57).
-/
namespace CM
open Spec

/-- An item with its flags and its blocks. -/
structure ItemIs (sm : Reading) (o : HtmlOpts) (t : Tree) (x : (Bool × Bool) × List Blk) : Prop where
  marks : ItemMarks t x.1
  shows : Shows sm o t.children x.2
  some : x.2 ≠ []

/-- An item of a list in which the items `ts` come before. -/
structure ListSim (X : Sim) (w : Nat) (ld : ListData) (ts : List Tree) : Prop extends ItemSim X w where
  around : ∃ Y D, X.o = [Y, D] ∧ Y.data.t = .list ∧ Y.data.listData = .some ld ∧ Y.data.lastLineChecked = false ∧ Y.children = ts ∧
    D.data.t = .document ∧ D.children = []
  eq : X.flag = Eq
  noRef : X.ref [] = []

theorem listAt_of {sm : Reading} {o : HtmlOpts} (ho : o.sourcepos = false) {X : Sim} {w : Nat} {ld : ListData} {ts : List Tree} (hX : ListSim X w ld ts) {p q : PState}
    (h : Sp X p q) {bs : List Blk} {g f : Bool} (ha : At sm o p bs g f) :
    ∃ Q i y d ics, ListAt q f ld w Q i y d ics ∧ y.children = ts ∧ ItemIs sm o (itemTree q i ics) ((f, g), bs) ∧ (f = true → tipKind q ≠ some .paragraph) := by
  obtain ⟨P, b, cs, fs, ha⟩ := ha
  obtain ⟨Q, i, O, ics, hfo⟩ := follow_of hX.toOk h ha.toCloses hX.noRef
  obtain ⟨Y, D, o1, o2, o3, o4, o5, o6, o7⟩ := hX.around
  obtain ⟨y, d, rfl, hy, hd⟩ : ∃ y d, O = [y, d] ∧ unflag y = Y ∧ unflag d = D := by
    have e := hfo.outer
    rw [o1] at e
    cases O with
    | nil => cases e
    | cons y O =>
      cases O with
      | nil => cases e
      | cons d O =>
        cases O with
        | nil => simp only [List.map_cons, List.map_nil, List.cons.injEq, and_true] at e; exact ⟨y, d, rfl, e.1, e.2⟩
        | cons => cases e
  subst hy hd
  have hd1 := hfo.data
  have hit : i.data.t = .item := by
    have := hX.item
    rw [← hd1] at this; exact this
  have hwd : ∃ li, i.data.listData = some li ∧ li.markerOffset + li.padding = w := by
    have := hX.width
    rw [← hd1] at this; exact this
  have hbf : b.data.lastLineBlank = f := ha.flags b (by rw [ha.spine]; simp)
  have hfl : ∀ x ∈ q.spine, x.data.lastLineBlank = f := by
    intro x hx
    rw [hfo.spine] at hx
    rcases List.mem_append.1 hx with hx | hx
    · exact flags_er hfo.same (fun y hy => ha.flags y (by rw [ha.spine]; simp [hy])) x hx
    · have := hfo.flag x hx
      rw [hX.eq] at this
      rw [← this]; exact hbf
  have hcl := hfo.close
  rw [hX.before] at hcl
  refine ⟨Q, i, y, d, ics, ⟨hfo.spine, hit, hwd, o2, o3, o4, o6, o7, hfo.refmap, hfl, hcl⟩, o5, ⟨⟨hit, ?_, fs, marks_er hfo.blocks ha.marks, ha.last, ha.gap⟩, ?_, ?_⟩, ?_⟩
  · exact hfl i (by rw [hfo.spine]; simp)
  · exact shows_bare ho (bareL_rel hfo.blocks) ha.shows
  · obtain ⟨x, hx, _⟩ := ha.shape
    intro e
    have e : bs = [] := e
    rw [e] at hx; cases hx
  · intro hf
    exact tip_er hfo.same ha.spine hfo.spine (by rw [hit]; decide) (ha.tip hf)

theorem item_blanks {w : Nat} {ls qs : List Str} (h : Indented w ls qs) (n : Nat) : Indented w (ls ++ List.replicate n []) (qs ++ List.replicate n []) := by
  induction h with
  | nil =>
    simp only [List.nil_append]
    induction n with
    | zero => exact .nil
    | succ n ih => rw [List.replicate_succ]; exact .blank (k := 0) ih
  | text h1 h2 _ ih => exact .text h1 h2 ih
  | blank _ ih => exact .blank ih

theorem item_pos {it : Spec.Item} {ty : ListType} {b dl : Option Char} (hok : it.Ok ty b dl) : 1 ≤ it.width := by
  have := hok.spaces.1
  unfold Spec.Item.width; omega

theorem item_length {it : Spec.Item} {ty : ListType} {b dl : Option Char} (hok : it.Ok ty b dl) : it.lines.length = it.text.length := by
  obtain ⟨c, r, ls, qs, e1, e2, _, _, _, _, h⟩ := hok.lines
  rw [e1, e2]
  simp [indented_length h]

/-- The lines of an item and the blank lines after it. -/
theorem item_run {sm : Reading} {o : HtmlOpts} (ho : o.sourcepos = false) {it : Spec.Item} {ty : ListType} {b dl : Option Char} (hok : it.Ok ty b dl)
    (hr : Runs sm o it.text it.blocks it.gap) {X : Sim} {ld : ListData} {ts : List Tree} (hX : ListSim X it.width ld ts) {q p0 : PState}
    (hfirst : ∀ l0 l, it.text.head? = some l0 → it.lines.head? = some l → ERel (Sp X) (incorporateLine p0.reset l0) (incorporateLine q l)) (n : Nat) :
    ∃ q', (it.lines ++ List.replicate n []).foldlM incorporateLine q = .ok q' ∧ q'.lineNumber = it.lines.length + n + X.N ∧
      ∃ Q i y d ics, ListAt q' (decide (0 < n)) ld it.width Q i y d ics ∧ y.children = ts ∧
        ItemIs sm o (itemTree q' i ics) ((decide (0 < n), it.gap), it.blocks) ∧ (decide (0 < n) = true → tipKind q' ≠ some .paragraph) := by
  have hlen := item_length hok
  have hpos := item_pos hok
  obtain ⟨c, r, ls, qs, e1, e2, _, _, _, _, hind⟩ := hok.lines
  obtain ⟨p, h1, h2, h3⟩ := hr.run p0 n
  obtain ⟨l0, rest, e3, hkid⟩ := hr.first
  have hone := hr.one
  rw [e1] at h1 e3 hone
  cases e3
  rw [hlen]
  rw [e1] at h2 ⊢
  have hf := hfirst _ _ (by rw [e1]; rfl) (by rw [e2]; rfl)
  rw [e2]
  have hrel : ERel (Sp X) (((c :: r) :: ls ++ List.replicate n []).foldlM incorporateLine p0.reset)
      (((List.replicate it.indent ' ' ++ it.marker ++ List.replicate it.spaces ' ' ++ c :: r) :: qs ++ List.replicate n []).foldlM incorporateLine q) := by
    rw [List.cons_append, List.cons_append, List.foldlM_cons, List.foldlM_cons]
    refine ERel.bind hf.run fun a b hab => ?_
    have hready : Ready a := by
      obtain ⟨p1, _, f1, _, _, f4⟩ := incorporateLine_ok (ready_reset p0).1 (c :: r)
      rw [hab.2] at f1; cases f1; exact f4
    have hl := item_lines hX.toItemSim hpos (item_blanks hind n) (by
      intro l hl
      rcases List.mem_append.1 hl with hl | hl
      · exact hone l (by simp [hl])
      · rw [List.eq_of_mem_replicate hl]; intro c hc; cases hc) hab.1 (hkid p0 a hab.2) hready
    exact hl.mono fun _ _ _ hz => hz.1
  obtain ⟨q', g1, g2⟩ := hrel p h1
  refine ⟨q', g1, by rw [g2.line, h2], listAt_of ho hX g2 h3⟩

/-- The first item. -/
theorem listSim_first (l : ListData) (col w : Nat) (hw : l.markerOffset + l.padding = w) : ListSim (itemSim l col) w l [] where
  toItemSim := itemSim_ok l col w hw
  around := ⟨_, _, rfl, rfl, rfl, rfl, rfl, rfl, rfl⟩
  eq := rfl
  noRef := rfl

/-- A further item. -/
theorem listSim_next {q : PState} {f : Bool} {ld : ListData} {w' : Nat} {Q : List OpenBlk} {i y d : OpenBlk} {ics : List Tree} (h : ListAt q f ld w' Q i y d ics)
    (l : ListData) (col w : Nat) (hw : l.markerOffset + l.padding = w) :
    ListSim (nextSim l q.lineNumber col ⟨y.data, y.children ++ [itemTree q i ics]⟩ d) w ld (y.children ++ [itemTree q i ics]) where
  toItemSim := nextSim_ok hw h.list
  around := ⟨_, _, rfl, h.list, h.data, h.unchecked, rfl, h.doc, h.only⟩
  eq := rfl
  noRef := rfl

/-- The blank lines before the next item, or after the list. -/
def gapAfter (k : Nat) : List Spec.Item → Nat
  | [] => k
  | b :: _ => b.blank

/-- The lines from the next item on. -/
def restLines (k : Nat) : List Spec.Item → List Str
  | [] => []
  | b :: r => b.lines ++ List.replicate (gapAfter k r) [] ++ restLines k r

theorem restLines_eq (k : Nat) : ∀ more : List Spec.Item, moreLines more ++ List.replicate k [] = List.replicate (gapAfter k more) [] ++ restLines k more
  | [] => by simp [moreLines, gapAfter, restLines]
  | b :: r => by
    have ih := restLines_eq k r
    simp only [moreLines, List.flatMap_cons, gapAfter, restLines, List.append_assoc] at ih ⊢
    rw [ih]

/-- The flags and the blocks of the items. -/
def itemsOf (k : Nat) : List Spec.Item → List ((Bool × Bool) × List Blk)
  | [] => []
  | a :: r => ((decide (0 < gapAfter k r), a.gap), a.blocks) :: itemsOf k r

theorem items_run {sm : Reading} {o : HtmlOpts} (ho : o.sourcepos = false) {ty : ListType} {b dl : Option Char} {ld : ListData} (h1 : ld.type = ty) (h2 : ld.bulletChar = b)
    (h3 : ld.delimiter = dl) (k : Nat) : ∀ (more : List Spec.Item), (∀ it ∈ more, it.Ok ty b dl) → (∀ it ∈ more, Runs sm o it.text it.blocks it.gap) →
    ∀ {a : Spec.Item}, MarkersLeft a more → 1 ≤ a.width → ∀ {q : PState} {Q : List OpenBlk} {i y d : OpenBlk} {ics : List Tree} {xs : List ((Bool × Bool) × List Blk)},
      ListAt q (decide (0 < gapAfter k more)) ld a.width Q i y d ics → List.Forall₂ (ItemIs sm o) (y.children ++ [itemTree q i ics]) xs →
      (decide (0 < gapAfter k more) = true → tipKind q ≠ some .paragraph) →
      ∃ q' w Q i y d ics, (restLines k more).foldlM incorporateLine q = .ok q' ∧ q'.lineNumber = q.lineNumber + (restLines k more).length ∧ 1 ≤ w ∧
        ListAt q' (decide (0 < k)) ld w Q i y d ics ∧ List.Forall₂ (ItemIs sm o) (y.children ++ [itemTree q' i ics]) (xs ++ itemsOf k more) ∧
        (decide (0 < k) = true → tipKind q' ≠ some .paragraph)
  | [], _, _, a, _, hw, q, Q, i, y, d, ics, xs, hq, hxs, ht => ⟨q, a.width, Q, i, y, d, ics, rfl, rfl, hw, hq, by simpa [itemsOf] using hxs, ht⟩
  | it :: more, hok, hrun, a, hleft, hw, q, Q, i, y, d, ics, xs, hq, hxs, ht => by
    have hi := hok it (by simp)
    have hr := hrun it (by simp)
    obtain ⟨hl1, hl2⟩ := hleft
    obtain ⟨l0, rest, e3, hkid⟩ := hr.first
    have hX := listSim_next hq (markData ty b it.start dl (it.marker.length + it.spaces) it.indent) (it.indent + 1) it.width (by
      show it.indent + (it.marker.length + it.spaces) = _
      unfold Spec.Item.width; omega)
    obtain ⟨q1, r1, r2, Q1, i1, y1, d1, ics1, r3, r4, r5, r6⟩ := item_run (p0 := q) (q := q) ho hi hr hX (by
      intro l l' hl hl'
      obtain ⟨c, r, ls, qs, e1, e2, c1, c2, c3, c4, _⟩ := hi.lines
      rw [e1] at hl
      rw [e2] at hl'
      cases hl; cases hl'
      rw [e1] at e3
      cases e3
      have hone := hr.one (c :: r) (by rw [e1]; simp)
      exact item_next (newParse_reset q) hq hi.marker h1 h2 h3 hi.indent hl1 hi.spaces.1 hi.spaces.2 c1 c2 (fun hh => (hone _ hh).1 rfl) (by exact c3) c4 (hkid q)) (gapAfter k more)
    have r4' : List.Forall₂ (ItemIs sm o) (y1.children ++ [itemTree q1 i1 ics1]) (xs ++ [((decide (0 < gapAfter k more), it.gap), it.blocks)]) := by
      rw [r4]
      exact List.rel_append hxs (.cons r5 .nil)
    obtain ⟨q2, w, Q2, i2, y2, d2, ics2, s1, s2, s3, s4, s5, s6⟩ := items_run ho h1 h2 h3 k more (fun z hz => hok z (by simp [hz])) (fun z hz => hrun z (by simp [hz])) hl2
      (item_pos hi) r3 r4' r6
    refine ⟨q2, w, Q2, i2, y2, d2, ics2, ?_, ?_, s3, s4, ?_, s6⟩
    · rw [restLines, List.foldlM_append, r1]
      exact s1
    · rw [s2, r2, restLines]
      simp only [List.length_append, List.length_replicate]
      show _ + _ + q.lineNumber + _ = _
      omega
    · simpa [itemsOf] using s5

/-! ### The end of the list -/

theorem bareL_of_plain {cs cs' : List Tree} (h : plainL cs = plainL cs') : bareL cs = bareL cs' := by
  rw [← bareL_plain, h, bareL_plain]

/-- The tightness check changes only flags. -/
theorem items_same : ∀ ts : List Tree, List.Forall₂ (fun t t' => t'.data.t = t.data.t ∧ bareL t.children = bareL t'.children) ts (checkItems ts).2
  | [] => .nil
  | t :: ts => by
    have ih := items_same ts
    have hd := ends_plain t
    have hsame : ∀ t' : Tree, plainT t' = plainT t → t'.data.t = t.data.t ∧ bareL t.children = bareL t'.children := by
      rintro ⟨d', c'⟩ h
      obtain ⟨d, c⟩ := t
      rw [plainT, plainT, Tree.node.injEq] at h
      exact ⟨(congrArg NodeData.t h.1 :), bareL_of_plain h.2.symm⟩
    simp only [checkItems]
    split
    · refine .cons (hsame _ hd) ?_
      rw [List.forall₂_same]
      exact fun _ _ => ⟨rfl, rfl⟩
    · generalize (endsWithBlankLine t).2 = t' at hd
      obtain ⟨d', c'⟩ := t'
      refine .cons ?_ ih
      obtain ⟨e1, e2⟩ := hsame _ hd
      exact ⟨e1, e2.trans (bareL_of_plain (subitems_plain _ c').symm)⟩

/-- Items and their blocks. -/
def ItemShows (sm : Reading) (o : HtmlOpts) (t : Tree) (bs : List Blk) : Prop := t.data.t = .item ∧ Shows sm o t.children bs ∧ bs ≠ []

theorem shows_items {sm : Reading} {o : HtmlOpts} : ∀ {ts : List Tree} {bss : List (List Blk)}, List.Forall₂ (ItemShows sm o) ts bss →
    ∃ ys, processInlinesList sm.1 sm.2 ts = .ok ys ∧ List.Forall₂ (RendItem o) ys bss
  | _, _, .nil => ⟨[], rfl, .nil⟩
  | _, _, .cons (a := t) h1 h2 => by
    obtain ⟨ys, e1, e2⟩ := shows_items h2
    obtain ⟨d, cs⟩ := t
    obtain ⟨hd, ⟨zs, h3, h4⟩, hne⟩ := h1
    have hd : d.t = .item := hd
    have h3 : processInlinesList sm.1 sm.2 cs = .ok zs := h3
    refine ⟨.node d zs :: ys, ?_, .cons ⟨hne, d, zs, rfl, hd, h4⟩ e2⟩
    have hk : (Kind.item == Kind.paragraph || Kind.item == Kind.heading) = false := by decide
    simp only [processInlinesList, processInlines, h3, e1, hd, hk, bind, Except.bind, pure, Except.pure, Bool.false_eq_true, if_false]

/-- The list and its items. -/
theorem finalizeList_parts {d : NodeData} {ld : ListData} (ts : List Tree) (hl : d.listData = some ld) (ht : ld.tight = true) :
    ∃ d' ts', finalizeList d ts = .node d' ts' ∧ d'.t = d.t ∧ d'.listData = some { ld with tight := !(checkItems ts).1 } ∧ d'.lastLineBlank = d.lastLineBlank ∧
      List.Forall₂ (fun t t' => t'.data.t = t.data.t ∧ bareL t.children = bareL t'.children) ts ts' ∧ rawEndsLast ts' = rawEndsLast ts := by
  have hs := items_same ts
  have hr := items_raw (ts := ts)
  unfold finalizeList
  simp only
  cases hb : (checkItems ts).1 with
  | false =>
    rw [if_neg (by simp)]
    refine ⟨_, _, rfl, rfl, ?_, rfl, hs, hr⟩
    obtain ⟨ty, ti, b, st, dl, pad, off⟩ := ld
    have ht : ti = true := ht
    rw [hl, ht]; rfl
  | true =>
    rw [if_pos rfl]
    refine ⟨_, _, rfl, rfl, ?_, rfl, ?_, ?_⟩
    · simp [loosen, hl]
    · cases hc : (checkItems ts).2 with
      | nil => rw [hc] at hs; exact hs
      | cons t us =>
        rw [hc] at hs
        obtain ⟨di, ci⟩ := t
        cases hs with
        | cons a1 a2 => exact .cons a1 a2
    · rw [← hr]
      cases hc : (checkItems ts).2 with
      | nil => rfl
      | cons t us =>
        obtain ⟨di, ci⟩ := t
        cases us with
        | nil => simp only [rawEndsLast, rawEnds]; rfl
        | cons => simp only [rawEndsLast]

theorem raw_last {sm : Reading} {o : HtmlOpts} : ∀ {ts : List Tree} {t : Tree} {x : (Bool × Bool) × List Blk}, ItemIs sm o t x → rawEndsLast (ts ++ [t]) = x.1.1
  | [], _, _, h => by simp only [List.nil_append, rawEndsLast]; exact (itemMarks_ends h.marks).raw
  | [_], t, x, h => by
    have := raw_last (ts := []) h
    simp only [List.nil_append, List.cons_append, rawEndsLast] at this ⊢; exact this
  | _ :: u :: r, t, x, h => by
    have := raw_last (ts := u :: r) h
    simp only [List.cons_append, rawEndsLast] at this ⊢; exact this

theorem loose_items {k : Nat} : ∀ (more : List Spec.Item) (a : Spec.Item), looseOf ((itemsOf k (a :: more)).map (·.1)) = loose a more
  | [], a => by simp [itemsOf, looseOf, loose]
  | b :: r, a => by
    have ih := loose_items (k := k) r b
    simp only [itemsOf, List.map_cons, looseOf, gapAfter] at ih ⊢
    rw [ih]
    simp only [loose, List.any_cons]
    cases a.gap <;> cases b.gap <;> cases (List.any r fun x => x.gap) <;> simp <;> rfl

theorem items_html {k : Nat} {t : Bool} : ∀ items : List Spec.Item, ((itemsOf k items).map (·.2)).flatMap (itemHtml t) = items.flatMap fun it => itemHtml t it.blocks
  | [] => rfl
  | a :: r => by
    have ih := items_html (k := k) (t := t) r
    simp only [itemsOf, List.map_cons, List.flatMap_cons, ih]

theorem itemShows_of {sm : Reading} {o : HtmlOpts} (ho : o.sourcepos = false) {ts ts' : List Tree} (h : List.Forall₂ (fun t t' => t'.data.t = t.data.t ∧ bareL t.children = bareL t'.children) ts ts') :
    ∀ {xs : List ((Bool × Bool) × List Blk)}, List.Forall₂ (ItemIs sm o) ts xs → List.Forall₂ (ItemShows sm o) ts' (xs.map (·.2)) := by
  induction h with
  | nil => intro xs hx; cases hx; exact .nil
  | cons h1 _ ih =>
    intro xs hx
    cases hx with
    | cons x1 x2 => exact .cons ⟨h1.1.trans x1.marks.1, shows_bare ho h1.2 x1.shows, x1.some⟩ (ih x2)

theorem marks_of {sm : Reading} {o : HtmlOpts} {ts : List Tree} {xs : List ((Bool × Bool) × List Blk)} (h : List.Forall₂ (ItemIs sm o) ts xs) :
    List.Forall₂ ItemMarks ts (xs.map (·.1)) := by
  induction h with
  | nil => exact .nil
  | cons h1 _ ih => exact .cons h1.marks ih

/-- The list when it is closed. -/
theorem list_shows {sm : Reading} {o : HtmlOpts} (ho : o.sourcepos = false) {d : NodeData} {ld : ListData} {ts : List Tree} {a : Spec.Item} {more : List Spec.Item} {k : Nat}
    {b dl : Option Char} (hd : d.t = .list) (hl : d.listData = some ld) (ht : ld.tight = true) (hst : ld.type = .bullet → ld.start = none) (hs : ld.start = a.start)
    (h : List.Forall₂ (ItemIs sm o) ts (itemsOf k (a :: more))) : Shows sm o [finalizeList d ts] [⟨.list ld.type b dl, listHtml ld.type a more⟩] := by
  obtain ⟨d', ts', e1, e2, e3, e4, e5, e6⟩ := finalizeList_parts ts hl ht
  obtain ⟨ys, f1, f2⟩ := shows_items (itemShows_of ho e5 h)
  have hloose : (checkItems ts).1 = loose a more := (items_loose (marks_of h)).trans (loose_items more a)
  rw [hloose] at e3
  refine ⟨[.node d' ys], ?_, .cons ?_ .nil⟩
  · have hk : (Kind.list == Kind.paragraph || Kind.list == Kind.heading) = false := by decide
    rw [e1]
    simp only [processInlinesList, processInlines, f1, e2, hd, hk, bind, Except.bind, pure, Except.pure, Bool.false_eq_true, if_false]
  · have := rend_list (b := b) (dl := dl) ho (e2.trans hd) e3 hst f2
    rw [items_html] at this
    unfold listHtml
    rw [← hs]
    exact this

theorem list_mark {sm : Reading} {o : HtmlOpts} {d : NodeData} {ld : ListData} {ts : List Tree} {t : Tree} {x : (Bool × Bool) × List Blk}
    (hl : d.listData = some ld) (ht : ld.tight = true) (hf : d.lastLineBlank = x.1.1) (h : ItemIs sm o t x) : EndsIn (finalizeList d (ts ++ [t])) x.1.1 := by
  obtain ⟨d', ts', e1, e2, e3, e4, e5, e6⟩ := finalizeList_parts (ts ++ [t]) hl ht
  rw [e1]
  cases hx : x.1.1 with
  | true => exact ends_flag (by show d'.lastLineBlank = true; rw [e4, hf, hx])
  | false =>
    apply ends_false
    rw [rawEnds, e4, hf, hx, e6, raw_last h, hx]
    simp

/-! ### The whole list -/

theorem mark_one {m : Str} {ty : ListType} {b : Option Char} {st : Option Nat} {dl : Option Char} (h : ListMark m ty b st dl) : OneLine m := by
  cases h with
  | @bullet c hc =>
    intro x hx
    obtain rfl : x = c := by simpa using hx
    rcases hc with rfl | rfl | rfl <;> decide
  | @ordered ds n d h1 h2 h3 h4 =>
    intro x hx
    rcases List.mem_append.1 hx with hx | hx
    · obtain ⟨a1, a2⟩ := ascii_of_numeral h3 x hx
      rw [char_le_iff] at a1 a2
      refine ⟨?_, ?_⟩ <;> (rintro rfl; revert a1 a2; decide)
    · obtain rfl : x = d := by simpa using hx
      rcases h4 with rfl | rfl <;> decide

theorem spaces_one (n : Nat) : OneLine (List.replicate n ' ') := by
  intro c hc
  rw [List.eq_of_mem_replicate hc]
  decide

theorem append_one {a b : Str} (ha : OneLine a) (hb : OneLine b) : OneLine (a ++ b) := by
  intro c hc
  rcases List.mem_append.1 hc with hc | hc
  · exact ha c hc
  · exact hb c hc

theorem indented_one {w : Nat} {ls qs : List Str} (h : Indented w ls qs) (hone : ∀ l ∈ ls, OneLine l) : ∀ l ∈ qs, OneLine l := by
  induction h with
  | nil => intro l hl; cases hl
  | text _ _ _ ih =>
    intro x hx
    rcases List.mem_cons.1 hx with rfl | hx
    · exact append_one (spaces_one w) (hone _ (by simp))
    · exact ih (fun l hl => hone l (by simp [hl])) x hx
  | @blank k _ _ _ ih =>
    intro x hx
    rcases List.mem_cons.1 hx with rfl | hx
    · exact spaces_one k
    · exact ih (fun l hl => hone l (by simp [hl])) x hx

theorem item_one {it : Spec.Item} {ty : ListType} {b dl : Option Char} (hok : it.Ok ty b dl) (hone : ∀ l ∈ it.text, OneLine l) : ∀ l ∈ it.lines, OneLine l := by
  obtain ⟨c, r, ls, qs, e1, e2, _, _, _, _, hind⟩ := hok.lines
  rw [e1] at hone
  rw [e2]
  intro x hx
  rcases List.mem_cons.1 hx with rfl | hx
  · exact append_one (append_one (append_one (spaces_one _) (mark_one hok.marker)) (spaces_one _)) (hone _ (by simp))
  · exact indented_one hind (fun l hl => hone l (by simp [hl])) x hx

theorem kid_list {l : ListData} {col : Nat} {p q : PState} (hp : p.spine ≠ []) (h : Sp (itemSim l col) p q) : Kid q.spine := by
  have hsp := h.spine
  rw [← List.dropLast_append_getLast hp] at hsp
  obtain ⟨P', b', O, cs, e1, _, _, _, e5, e6, _⟩ := hsp.parts
  obtain ⟨y, d, rfl, hy, hd⟩ : ∃ y d, O = [y, d] ∧ y.data.t = .list ∧ d.data.t = .document := by
    cases O with
    | nil => simp [itemSim] at e6
    | cons y O =>
      cases O with
      | nil => simp [itemSim] at e6
      | cons d O =>
        cases O with
        | nil =>
          simp only [itemSim, List.map_cons, List.map_nil, List.cons.injEq, and_true] at e6
          exact ⟨y, d, rfl, (congrArg (fun b : OpenBlk => b.data.t) e6.1 :), (congrArg (fun b : OpenBlk => b.data.t) e6.2 :)⟩
        | cons => simp [itemSim] at e6
  rw [e1]
  exact kid_above (.cons (.more hd (.inr fun h => by rw [hy] at h; cases h))) P'

theorem mark_start {m : Str} {ty : ListType} {b : Option Char} {st : Option Nat} {dl : Option Char} (h : ListMark m ty b st dl) : ty = .bullet → st = none := by
  cases h with
  | bullet => intro _; rfl
  | ordered => intro h; cases h

/-- The lines of a list. -/
theorem runs_list {sm : Reading} {o : HtmlOpts} (ho : o.sourcepos = false) {ty : ListType} {b dl : Option Char} {first : Spec.Item} {more : List Spec.Item}
    (hrun : ∀ it ∈ first :: more, Runs sm o it.text it.blocks it.gap) (hok : ∀ it ∈ first :: more, it.Ok ty b dl) (hleft : MarkersLeft first more) :
    Runs sm o (first.lines ++ moreLines more) [⟨.list ty b dl, listHtml ty first more⟩] false := by
  have hi := hok first (by simp)
  have hr := hrun first (by simp)
  have hfirst : ∀ p0 : PState, ∀ l0 l, first.text.head? = some l0 → first.lines.head? = some l →
      ERel (Sp (itemSim (markData ty b first.start dl (first.marker.length + first.spaces) first.indent) (first.indent + 1))) (incorporateLine p0.reset l0) (incorporateLine p0.reset l) := by
    intro p0 l l' hl hl'
    obtain ⟨c, r, ls, qs, e1, e2, c1, c2, c3, c4, _⟩ := hi.lines
    obtain ⟨l0, rest, e3, hkid⟩ := hr.first
    rw [e1] at hl
    rw [e2] at hl'
    cases hl; cases hl'
    rw [e1] at e3
    cases e3
    have hone := hr.one (c :: r) (by rw [e1]; simp)
    exact item_first (newParse_reset p0) (newParse_reset p0) hi.marker hi.indent hi.spaces.1 hi.spaces.2 c1 c2 (fun hh => (hone _ hh).1 rfl) (by exact c3) c4 (hkid p0)
  obtain ⟨c, r, ls, qs, e1, e2, -⟩ := hi.lines
  refine ⟨?_, ⟨_, qs ++ moreLines more, by rw [e2]; rfl, ?_⟩, ?_⟩
  · intro l hl
    rcases List.mem_append.1 hl with hl | hl
    · exact item_one hi hr.one l hl
    · simp only [moreLines, List.mem_flatMap, List.mem_append, List.mem_replicate] at hl
      obtain ⟨it, h1, h2 | h2⟩ := hl
      · rw [h2.2]; intro c hc; cases hc
      · exact item_one (hok it (by simp [h1])) (hrun it (by simp [h1])).one l h2
  · intro p0 p1 hp1
    have hf := hfirst p0 _ _ (by rw [e1]; rfl) (by rw [e2]; rfl)
    obtain ⟨p, _, g1, _⟩ := incorporateLine_ok (ready_reset p0).1 (c :: r)
    obtain ⟨q, g2, g3⟩ := hf p g1
    rw [hp1] at g2
    cases g2
    exact kid_list (by intro e; have := g3.spine.pos; rw [e] at this; simp at this) g3
  · intro p0 n
    have hX := listSim_first (markData ty b first.start dl (first.marker.length + first.spaces) first.indent) (first.indent + 1) first.width (by
      show first.indent + (first.marker.length + first.spaces) = _
      unfold Spec.Item.width; omega)
    obtain ⟨q1, r1, r2, Q1, i1, y1, d1, ics1, r3, r4, r5, r6⟩ := item_run (p0 := p0) (q := p0.reset) ho hi hr hX (hfirst p0) (gapAfter n more)
    have r4' : List.Forall₂ (ItemIs sm o) (y1.children ++ [itemTree q1 i1 ics1]) [((decide (0 < gapAfter n more), first.gap), first.blocks)] := by
      rw [r4]
      exact .cons r5 .nil
    obtain ⟨q, w, Q, i, y, d, ics, s1, s2, s3, s4, s5, s6⟩ := items_run ho rfl rfl rfl n more (fun z hz => hok z (by simp [hz])) (fun z hz => hrun z (by simp [hz])) hleft
      (item_pos hi) r3 r4' r6
    have s5 : List.Forall₂ (ItemIs sm o) (y.children ++ [itemTree q i ics]) (itemsOf n (first :: more)) := s5
    have hlast : ∃ x, ItemIs sm o (itemTree q i ics) x ∧ x.1.1 = decide (0 < n) := by
      have : ∀ (items : List Spec.Item) (ts : List Tree) (t : Tree), List.Forall₂ (ItemIs sm o) (ts ++ [t]) (itemsOf n items) → ∃ x, ItemIs sm o t x ∧ x.1.1 = decide (0 < n) := by
        intro items
        induction items with
        | nil => intro ts t h; have := List.Forall₂.length_eq h; simp [itemsOf] at this
        | cons a r ih =>
          intro ts t h
          rw [itemsOf] at h
          cases ts with
          | nil =>
            cases h with
            | cons h1 h2 =>
              cases r with
              | nil => exact ⟨_, h1, rfl⟩
              | cons => rw [itemsOf] at h2; cases h2
          | cons t' ts =>
            cases h with
            | cons h1 h2 => exact ih ts t h2
      exact this _ _ _ s5
    obtain ⟨x, hx, hxf⟩ := hlast
    have hyf : y.data.lastLineBlank = decide (0 < n) := s4.flags y (by rw [s4.spine]; simp)
    refine ⟨q, ?_, ?_, Q ++ [i, y], d, [finalizeList (closeData q.lineNumber q.lastLineLength y.data) (y.children ++ [itemTree q i ics])], [decide (0 < n)],
      ⟨?_, s4.doc, s4.refmap, ?_⟩, s4.flags, ?_, ?_, rfl, rfl, ?_, s6⟩
    · rw [List.append_assoc, restLines_eq, ← List.append_assoc, List.foldlM_append, r1]
      exact s1
    · rw [s2, r2]
      have := congrArg List.length (restLines_eq n more)
      simp only [List.length_append, List.length_replicate] at this ⊢
      show _ + _ + 0 + _ = _
      omega
    · rw [s4.spine]; simp
    · rw [show (Q ++ [i, y]).length = (Q.length + 1) + 1 by simp, closeN_add, s4.closeItem rfl s4.refmap rfl]
      simp only [Except.bind, closeN]
      rw [finalizeTip_run (b := ⟨y.data, y.children ++ [itemTree q i ics]⟩) (par := d) (up := [])
        (t := some (finalizeList (closeData q.lineNumber q.lastLineLength y.data) (y.children ++ [itemTree q i ics]))) (m := q.refmap) rfl]
      · simp [s4.only]
      · unfold finalizeBlock
        have : (closeData q.lineNumber q.lastLineLength y.data).t = .list := s4.list
        simp only [this]
    · have := list_shows (b := b) (dl := dl) ho (d := closeData q.lineNumber q.lastLineLength y.data) s4.list s4.data rfl (mark_start hi.marker) rfl s5
      exact this
    · refine .cons ?_ .nil
      rw [← hxf]
      exact list_mark (d := closeData q.lineNumber q.lastLineLength y.data) s4.data rfl (hyf.trans hxf.symm) hx
    · obtain ⟨li, w1, w2⟩ := s4.width
      exact ⟨_, rfl, Q, i, y, _, li, rfl, s4.item, w1, by omega, s4.list, s4.data, rfl, rfl, rfl, s4.unchecked⟩

end CM
