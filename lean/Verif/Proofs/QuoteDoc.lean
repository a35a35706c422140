import Verif.Proofs.Quote
import Verif.Proofs.Alike
/-
Block quotes add structure only (C50): whole documents.
-/
namespace CM
open Spec

/-- A parser that has seen nothing of the text yet. -/
structure NewParse (p : PState) : Prop where
  spine : p.spine = [⟨docNode, []⟩]
  refmap : p.refmap = []
  line : p.lineNumber = 0

theorem newParse_reset (p : PState) : NewParse p.reset := ⟨rfl, rfl, rfl⟩

/-- Source positions without columns. -/
def dropCols (sp : Pos) : Pos := ((sp.1.1, 0), (sp.2.1, 0))

mutual
theorem erT_dropCols : ∀ t : Tree, erT dropCols t = noColsT t
  | .node d cs => by rw [erT, noColsT, erL_dropCols cs]; rfl
theorem erL_dropCols : ∀ cs : List Tree, erL dropCols cs = noColsL cs
  | [] => rfl
  | t :: ts => by rw [erL, noColsL, erT_dropCols t, erL_dropCols ts]
end

/-- The quote is a block with the data `β` in the document. -/
def quoteSim (β : NodeData) : Sim := ⟨β, [⟨docNode, []⟩], [], 0, dropCols, dropCols, fun a b => a = false → b = false, False, 0, id⟩

theorem quoteSim_ok {β : NodeData} (h : β.t = .blockQuote) : (quoteSim β).Ok where
  doc := .inr (.inl h)
  new := fun l c c' _ => rfl
  close := by
    intro x y l c c' _ h
    simp only [quoteSim, dropCols, Prod.mk.injEq, and_true] at h ⊢
    exact ⟨h.1, rfl⟩
  start := by
    intro x y l _ h
    simp only [quoteSim, dropCols, Prod.mk.injEq, and_true] at h
    have := h.1
    show _ ↔ _ = _ + 0
    omega
  mark := .inr rfl
  flag := fun _ _ h _ => h
  ref := refKeeps_id

/-- The line that opens the quote. -/
theorem quote_open {q : PState} (n : Nat) {pre l : Str} (hm : QuoteMarker pre l)
    (hl : q.currentLine = pre ++ l) (ho : q.offset = 0) (hc : q.column = 0) (hs : q.spine = [⟨docNode, []⟩])
    (ha : q.allClosed = true) (c : NodeData) :
    ∃ col q', q'.core = { q.core with spine := ⟨{ t := .blockQuote, sourcepos := some ((q.lineNumber, col), (0, 0)) }, []⟩ :: q.spine } ∧
      q'.allClosed = true ∧ startsLoop (n + 1) c q =
        startsLoop n { t := .blockQuote, sourcepos := some ((q.lineNumber, col), (0, 0)) } q' ∧
      q'.offset = pre.length ∧ q'.column = pre.length ∧ q'.partiallyConsumedTab = false ∧ q'.currentLine = pre ++ l := by
  obtain ⟨m1, m2, m3, m4, m5, m6⟩ := eat_marker hm hl ho hc
  have k1 := core_eat (findNextNonspace q)
  have k2 := books_eat (findNextNonspace q)
  generalize hq1 : eatQuoteMarker (findNextNonspace q) = q1 at m3 m4 m5 m6 k1 k2
  have a1 : q1.allClosed = true := (congrArg Books.allClosed k2).trans ha
  have s1 : q1.spine = [⟨docNode, []⟩] := (congrArg Core.spine k1).trans hs
  have l1 : q1.lineNumber = q.lineNumber := (congrArg Core.line k1 :)
  refine ⟨q1.nextNonspace + 1, { q1 with spine := ⟨{ t := .blockQuote, sourcepos := some ((q.lineNumber, q1.nextNonspace + 1), (0, 0)) }, []⟩ :: q1.spine },
    ?_, a1, ?_, m3, m4, m5, m6⟩
  · have : q1.core = q.core := k1
    rw [← this, ← l1, s1, hs]
    rfl
  · have hst : startBlockQuote (findNextNonspace q) = .ok (.container,
        { q1 with spine := ⟨{ t := .blockQuote, sourcepos := some ((q.lineNumber, q1.nextNonspace + 1), (0, 0)) }, []⟩ :: q1.spine }) := by
      unfold startBlockQuote
      rw [m1, m2, if_pos (by rfl)]
      simp only [hq1, closeUnmatched, a1, if_true]
      simp only [addChild, addChildLoop, s1, Except.bind, bind]
      rw [if_pos (by rfl)]
      simp only [pure, Except.pure, id, l1, s1, a1]
    conv => lhs; unfold startsLoop
    simp only [m1, m2]
    rw [if_neg (by decide)]
    have hb : tryStarts (blockStarts c) (findNextNonspace q) = .ok (.container,
        { q1 with spine := ⟨{ t := .blockQuote, sourcepos := some ((q.lineNumber, q1.nextNonspace + 1), (0, 0)) }, []⟩ :: q1.spine }) := by
      unfold blockStarts
      simp only [tryStarts, hst, Except.bind, bind]
      rfl
    simp only [hb, Except.bind, bind]

/-- The first line of the quote. -/
theorem quote_first {p q : PState} {pre l : Str} (hp : NewParse p) (hq : NewParse q) (hm : QuoteMarker pre l)
    (ht : '\t' ∉ l ∨ pre.length = 4) :
    ∃ col, ERel (Sp (quoteSim { t := .blockQuote, sourcepos := some ((1, col), (0, 0)) }))
      (incorporateLine p l) (incorporateLine q (pre ++ l)) := by
  rw [incorporateLine_eq, incorporateLine_eq, (marker_nul hm).2]
  have hm := (marker_nul hm).1
  have ht := ht.imp_left noTab_nul
  generalize replaceChar (Char.ofNat 0) (Char.ofNat 0xFFFD) l = l at hm ht
  have e1 : (atStart p l).spine.reverse.drop 1 = [] := by
    show p.spine.reverse.drop 1 = _
    rw [hp.spine]; rfl
  have e2 : (atStart q (pre ++ l)).spine.reverse.drop 1 = [] := by
    show q.spine.reverse.drop 1 = _
    rw [hq.spine]; rfl
  rw [e1, e2]
  simp only [contLoop, Except.bind, bind, afterCont]
  have b1 : ∀ (r : PState) (x : Str), r.spine = [⟨docNode, []⟩] →
      blockAt { atStart r x with allClosed := 1 == (atStart r x).oldtip, lastMatched := 1 } 1 = some docNode := by
    intro r x hr
    show (r.spine.reverse[0]?).map _ = _
    rw [hr]; rfl
  have o1 : ∀ (r : PState) (x : Str), r.spine = [⟨docNode, []⟩] → (1 == (atStart r x).oldtip) = true := by
    intro r x hr
    show (1 == r.spine.length) = true
    rw [hr]; rfl
  have bp := b1 p l hp.spine
  have bq := b1 q (pre ++ l) hq.spine
  have op := o1 p l hp.spine
  have oq := o1 q (pre ++ l) hq.spine
  rw [op] at bp ⊢
  rw [oq] at bq ⊢
  simp only [bp, bq]
  generalize hq1 : ({ atStart q (pre ++ l) with allClosed := true, lastMatched := 1 } : PState) = q1
  generalize hp1 : ({ atStart p l with allClosed := true, lastMatched := 1 } : PState) = p1
  obtain ⟨col, q', g1, g2, g3, g4, g5, g6, g7⟩ := quote_open (q := q1) ((pre ++ l).length) hm (by rw [← hq1]; rfl)
    (by rw [← hq1]; rfl) (by rw [← hq1]; rfl) (by rw [← hq1]; exact hq.spine) (by rw [← hq1]) docNode
  have hline : q1.lineNumber = 1 := by
    rw [← hq1]; show q.lineNumber + 1 = 1; rw [hq.line]
  have hspine : q1.spine = [⟨docNode, []⟩] := by rw [← hq1]; exact hq.spine
  have hrefs : q1.refmap = [] := by rw [← hq1]; exact hq.refmap
  rw [hline] at g1 g3
  refine ⟨col, ?_⟩
  rw [if_neg (by decide), if_neg (by decide), g3]
  have hsp : Sp (quoteSim { t := .blockQuote, sourcepos := some ((1, col), (0, 0)) }) p1 q' := by
    refine ⟨?_, ?_, ?_, ?_, ?_, ?_, Nat.zero_le _⟩
    · have : q'.spine = _ := congrArg Core.spine g1
      rw [this, ← hp1]
      show SpineRel _ p.spine (_ :: q1.spine)
      rw [hp.spine, hspine]
      refine .base (cs := []) rfl rfl rfl rfl rfl ?_
      intro x hx _
      simp only [List.mem_cons, List.not_mem_nil, or_false] at hx
      rcases hx with rfl | rfl <;> rfl
    · have : q'.refmap = q1.refmap := (congrArg Core.refmap g1 :)
      rw [this, hrefs, ← hp1]
      exact hp.refmap.symm
    · have : q'.lineNumber = q1.lineNumber := (congrArg Core.line g1 :)
      rw [this, hline, ← hp1]
      show 1 = p.lineNumber + 1 + 0
      rw [hp.line]
    · intro h; rw [← hp1] at h; cases h
    · intro h; rw [← hp1] at h; cases h
    · rw [g2, ← hp1]
  have hcu : Cu pre.length p1.curs q'.curs := by
    rw [← hp1]
    refine ⟨⟨pre, rfl, g7⟩, g4, g5, g6, ?_⟩
    rcases ht with ht | ht
    · exact .inr ⟨ht, rfl⟩
    · exact .inl (by omega)
  have hr : ReadyFor docNode p1 := by
    have : p1.spine = [⟨docNode, []⟩] := by rw [← hp1]; exact hp.spine
    exact ready_of_closed (by rw [← hp1]) this
  have hlen : l.length + 1 ≤ (pre ++ l).length := by
    obtain ⟨n, _, rfl | ⟨rfl, _⟩⟩ := hm <;> simp <;> omega
  have hX := quoteSim_ok (β := { t := .blockQuote, sourcepos := some ((1, col), (0, 0)) }) rfl
  have hpos : 1 ≤ p1.lineNumber := by rw [← hp1]; show 1 ≤ p.lineNumber + 1; omega
  refine ERel.bind (startsLoop_rel hX _ _ hlen (.inr ⟨rfl, .inr (.inl rfl)⟩) hsp hcu hpos hr) ?_
  rintro p1 q1 ⟨f1, e, f2⟩
  refine ERel.bind (addText_rel hX f1.weak (.inr f1.toSp) (fun h => h.elim) f2) ?_
  intro p2 q2 f
  exact .ok ⟨f.spine, f.refmap, f.line, f.oldtip, f.lastMatched, f.allClosed, f.low⟩

/-- All lines of the quote. -/
theorem quote_lines {X : Sim} (hX : X.Ok) (hβ : X.β.t = .blockQuote) (ho : X.o.length = 1) (hk : ¬ X.kid) {ls qs : List Str}
    (hq : Quoted ls qs) : ∀ {p q : PState}, Sp X p q → ERel (Sp X) (ls.foldlM incorporateLine p) (qs.foldlM incorporateLine q) := by
  induction hq with
  | nil => intro p q h; exact .ok h
  | cons hm ht _ ih =>
    intro p q h
    rw [List.foldlM_cons, List.foldlM_cons]
    exact ERel.bind (quote_line hX hβ ho hk h hm ht) fun a b hab => ih hab

/-- What the block phase leaves. -/
structure Ends (p q : PState) : Prop where
  refmap : q.refmap = p.refmap
  doc : ∃ d d' e cs cs', p.doc = some (.node d cs) ∧ q.doc = some (.node d' [.node e cs']) ∧ d.t = .document ∧
    d'.t = .document ∧ e.t = .blockQuote ∧ noColsL cs = noColsL cs'

theorem finalizeAll_rel {β : NodeData} (hβ : β.t = .blockQuote) (len : Nat) :
    ∀ (n m : Nat) {p q : PState}, n + 1 ≤ m → Sp (quoteSim β) p q → ERel Ends (finalizeAll len n p) (finalizeAll len m q) := by
  intro n
  induction n with
  | zero => intro m p q _ _; exact ERel.error
  | succ n ih =>
    intro m p q hm h
    obtain ⟨m, rfl⟩ : ∃ m', m = m' + 1 := ⟨m - 1, by omega⟩
    by_cases h2 : 2 ≤ p.spine.length
    · have hp : p.spine ≠ [] := by intro e; rw [e] at h2; simp at h2
      have hq : q.spine ≠ [] := by intro e; have := h.spine.length; rw [e] at this; simp at this; omega
      have key : ∀ (k : Nat) (r : PState), r.spine ≠ [] → finalizeAll len (k + 1) r = finalizeTip len r >>= finalizeAll len k := by
        intro k r hr
        conv => lhs; unfold finalizeAll
        cases hs : r.spine with
        | nil => exact absurd hs hr
        | cons => rfl
      rw [key n p hp, key m q hq]
      refine ERel.bind (finalizeTip_sp (quoteSim_ok hβ) len (l' := len) rfl (Nat.zero_le _) h h2) ?_
      intro p' q' h'
      exact ih m (by omega) h'.1
    · obtain ⟨d, refs, hd⟩ : ∃ d refs, d = p.spine ∧ refs = p.refmap := ⟨_, _, rfl, rfl⟩
      have hspine := h.spine
      generalize hps : p.spine = sp at hspine h2
      generalize hqs : q.spine = sq at hspine
      cases hspine with
      | cons _ hr => have := hr.pos; rw [List.length_cons] at h2; omega
      | @base b b' O cs g1 g2 gA g3 g4 _ =>
        have hO : ∃ y, O = [y] ∧ unflag y = ⟨docNode, []⟩ := by
          cases O with
          | nil => simp [quoteSim] at g4
          | cons y O =>
            cases O with
            | nil => exact ⟨y, rfl, by simpa [quoteSim] using g4⟩
            | cons => simp [quoteSim] at g4
        obtain ⟨y, rfl, hy⟩ := hO
        have y1 : y.data.t = .document := (congrArg (fun b : OpenBlk => b.data.t) hy :)
        have y2 : y.children = [] := (congrArg OpenBlk.children hy :)
        have hb' : b'.data.t = .blockQuote := by rw [show β = (quoteSim β).β from rfl, ← g3] at hβ; exact hβ
        obtain ⟨m, rfl⟩ : ∃ m', m = m' + 1 := ⟨m - 1, by omega⟩
        cases n with
        | zero =>
          simp only [finalizeAll, hps]
          have : ∀ z : Except PyErr PState, ERel Ends (z >>= fun _ => .error .hang) (finalizeAll len (m + 1 + 1) q) := by
            intro z; cases z <;> exact ERel.error
          exact this _
        | succ n =>
          obtain ⟨m, rfl⟩ : ∃ m', m = m' + 1 := ⟨m - 1, by omega⟩
          simp only [finalizeAll, hps, hqs, finalizeTip, finalizeBlock, g1, hb', y1, y2, Except.bind, bind, pure, Except.pure]
          have gA : b'.children = cs := gA
          refine .ok ⟨h.refmap, _, _, _, _, _, rfl, rfl, rfl, rfl, rfl, ?_⟩
          rw [gA, ← erL_dropCols, ← erL_dropCols]
          exact g2

/-- The block phase. -/
theorem quote_blocks {s s' : Str} {ls qs : List Str} (hs : inputLines s = ls) (hs' : inputLines s' = qs) (hq : Quoted ls qs)
    (hne : ls ≠ []) (p q : PState) : ERel Ends (blockPhase p s) (blockPhase q s') := by
  unfold blockPhase
  simp only [hs, hs']
  have hlen : ls.length = qs.length := by
    clear hs hs' hne
    induction hq with
    | nil => rfl
    | cons _ _ _ ih => simp [ih]
  cases hq with
  | nil => exact absurd rfl hne
  | @cons pre l ls qs hm ht hr =>
    obtain ⟨col, hf⟩ := quote_first (newParse_reset p) (newParse_reset q) hm ht
    rw [List.foldlM_cons, List.foldlM_cons]
    refine ERel.bind (ERel.bind hf fun a b hab => quote_lines (quoteSim_ok rfl) rfl rfl id hr hab) ?_
    intro a b hab
    rw [hlen]
    refine finalizeAll_rel rfl _ _ _ ?_ hab
    rw [hab.spine.length]
    simp [quoteSim]

/-! ### The parse -/

theorem parse_blocks {smart : Bool} {s : Str} {p : PState} {t : Tree} (h : blockPhase PState.init s = .ok p) (hd : p.doc = some t) :
    parse smart s = processInlines smart p.refmap t := by
  unfold parse parseWith
  simp only [h, Except.bind, bind, hd]
  cases processInlines smart p.refmap t <;> rfl

/-- Both parses, from the block phases. -/
theorem quote_parse {smart : Bool} {s s' : Str} {ls qs : List Str} (hs : inputLines s = ls) (hs' : inputLines s' = qs) (hq : Quoted ls qs)
    (hne : ls ≠ []) : (∃ e, parse smart s = .error e ∧ parse smart s' = .error e) ∨
      ∃ d d' e cs cs', parse smart s = .ok (.node d cs) ∧ parse smart s' = .ok (.node d' [.node e cs']) ∧ d.t = .document ∧
        d'.t = .document ∧ e.t = .blockQuote ∧ noColsL cs' = noColsL cs := by
  have hb := quote_blocks hs hs' hq hne PState.init PState.init
  obtain ⟨p, _, _, _, hp, _⟩ := blockPhase_ok PState.init s
  obtain ⟨q, hq', hE⟩ := hb p hp
  obtain ⟨d, d', e, cs, cs', h1, h2, h3, h4, h5, h6⟩ := hE.doc
  rw [← erL_dropCols, ← erL_dropCols] at h6
  have hi := inlines_rel smart p.refmap h6
  rw [parse_blocks hp h1, parse_blocks hq' h2, hE.refmap]
  simp only [processInlines, processInlinesList, h3, h4, h5, Except.bind, bind]
  cases e1 : processInlinesList smart p.refmap cs with
  | error x =>
    rw [e1] at hi
    cases e2 : processInlinesList smart p.refmap cs' with
    | error y => rw [e2] at hi; cases hi; exact .inl ⟨x, rfl, rfl⟩
    | ok => rw [e2] at hi; cases hi
  | ok x =>
    rw [e1] at hi
    cases e2 : processInlinesList smart p.refmap cs' with
    | error y => rw [e2] at hi; cases hi
    | ok y =>
      rw [e2] at hi
      simp only [Except.map, Except.ok.injEq] at hi
      rw [erL_dropCols, erL_dropCols] at hi
      exact .inr ⟨d, d', e, x, y, rfl, rfl, h3, h4, h5, hi⟩

/-! ### HTML -/

theorem noCols_bare {cs cs' : List Tree} (h : noColsL cs' = noColsL cs) : bareL cs' = bareL cs :=
  bareL_rel (φ := dropCols) (ψ := dropCols) (by rw [erL_dropCols, erL_dropCols, h])

theorem top_kinds {smart : Bool} {s : Str} {d : NodeData} {cs : List Tree} (h : parse smart s = .ok (.node d cs)) :
    ∀ c ∈ cs, c.kind ∈ topLevelKinds := by
  obtain ⟨h1, _, _, h2⟩ := parse_doc h
  have h1 : d.t = .document := h1
  intro c hc
  have h3 := (everyNode_iff.1 h2).1
  have hk : c.data ∈ cs.map Tree.data := List.mem_map.2 ⟨c, hc, rfl⟩
  cases h3 with
  | block hb =>
    rcases hb.fits c.data hk with ⟨_, hf⟩ | ⟨hl, _⟩
    · have : ∀ k ∈ flowKinds, k ∈ topLevelKinds := by decide
      exact this _ hf
    · rw [h1] at hl; cases hl
  | leaf hb hp => rw [h1] at hp; simp at hp
  | inline hi => exfalso; generalize cs.map Tree.data = ks at hi; cases hi <;> cases h1

/-- The HTML of a quote around the blocks of a document. -/
theorem quote_render {o : HtmlOpts} (ho : o.sourcepos = false) {d d' e : NodeData} {cs cs' : List Tree} (h1 : d.t = .document)
    (h2 : d'.t = .document) (h3 : e.t = .blockQuote) (hc : bareL cs' = bareL cs) (hk : ∀ c ∈ cs, c.kind ∈ topLevelKinds) :
    renderHtml o (.node d' [.node e cs']) = (renderHtml o (.node d cs)).map fun h =>
      "<blockquote>\n".toList ++ h ++ "</blockquote>\n".toList := by
  have hd : htmlAttrs o e = [] := by simp [htmlAttrs, ho]
  have t1 : tightOf (some e) = .ok false := by simp [tightOf, h3]
  have t2 : tightOf (some d) = .ok false := by simp [tightOf, h1]
  have t3 : tightOf (some d') = .ok false := by simp [tightOf, h2]
  have hs := eventsList_same (p := some e) (p' := some d) (g := some d') (g' := none) rfl (t1.trans t2.symm) (t3.trans rfl) hc
  unfold renderHtml
  rw [renderWith_document o d _ h1, renderWith_document o d' _ h2]
  have e1 : ∀ f, htmlEvent o ⟨[], ['\n'], 0⟩ ⟨true, e, some d', none, f⟩ = .ok ⟨"<blockquote>\n".toList, ['\n'], 0⟩ := by
    intro f
    simp only [htmlEvent, h3, if_true, hd]
    rfl
  have e2 : ∀ f b, htmlEvent o ⟨b, ['\n'], 0⟩ ⟨false, e, some d', none, f⟩ = .ok ⟨b ++ "</blockquote>\n".toList, ['\n'], 0⟩ := by
    intro f b
    simp only [htmlEvent, h3, Bool.false_eq_true, if_false]
    simp [HState.cr, HState.tag, HState.tagText, HState.lit]
    decide
  simp only [eventsList, List.append_nil, events, h3, isContainer, if_true]
  rw [runEvents_cons, e1]
  simp only [Except.bind]
  rw [runEvents_append, runEvents_same ho hs, runEvents_blocks cs hk, runEvents_blocks cs hk]
  generalize (List.mapM (m := Except PyErr) _ cs) = ys
  cases ys with
  | error => rfl
  | ok y =>
    simp only [Except.map, Except.bind, runEvents_cons, e2, runEvents_nil]
    rfl

end CM
