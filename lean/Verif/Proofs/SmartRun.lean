import Verif.Proofs.SmartSim
import Verif.Proofs.ParseOk
/-
C60: whole blocks and documents with and without the option `smart`.
-/
namespace CM
open Spec

theorem Both.ite {α β : Type} {R : α → β → Prop} {P : Prop} [Decidable P] {a c : Except PyErr α} {b d : Except PyErr β}
    (h1 : P → Both R a b) (h2 : ¬ P → Both R c d) : Both R (if P then a else c) (if P then b else d) := by
  by_cases h : P
  · rw [if_pos h, if_pos h]; exact h1 h
  · rw [if_neg h, if_neg h]; exact h2 h

section
variable {ρ : Nat → Nat} {κ : Nat → Option Char} {D : Char → Nat → Bool → Bool → Prop}

/-- Related states for some naming. -/
def Agree (D : Char → Nat → Bool → Bool → Prop) (S N : IState) : Prop := ∃ ρ κ, OSim ρ κ D S N

theorem OSim.agree {S N : IState} (h : OSim ρ κ D S N) : Agree D S N := ⟨ρ, κ, h⟩

/-! ### Functions that do not read the option -/

theorem backtickLoop_smart (x : Str) (m : RefMap) (ticks : Str) : ∀ (f p : Nat),
    backtickLoop ⟨x, m, true⟩ ticks f p = backtickLoop ⟨x, m, false⟩ ticks f p
  | 0, _ => rfl
  | f + 1, p => by
    unfold backtickLoop
    show (match Ctx.search_ ⟨x, m, false⟩ reTicks p with | none => _ | some (u, q) => _) = _
    cases Ctx.search_ ⟨x, m, false⟩ reTicks p with
    | none => rfl
    | some v =>
      obtain ⟨u, q⟩ := v
      dsimp only
      rw [backtickLoop_smart x m ticks f q]

theorem parseBackticks_sim {x : Str} {m : RefMap} {S N : IState} (h : OSim ρ κ D S N) :
    Both (fun a b => a.1 = b.1 ∧ OSim ρ κ D a.2 b.2) (parseBackticks ⟨x, m, true⟩ S) (parseBackticks ⟨x, m, false⟩ N) := by
  unfold parseBackticks
  rw [h.pos]
  have e : ∀ p, Ctx.match_ ⟨x, m, true⟩ reTicks p = Ctx.match_ ⟨x, m, false⟩ reTicks p := fun _ => rfl
  rw [e]
  cases Ctx.match_ ⟨x, m, false⟩ reTicks S.pos with
  | none => exact Both.ok ⟨rfl, h⟩
  | some v =>
    obtain ⟨ticks, p⟩ := v
    dsimp only
    rw [backtickLoop_smart]
    cases backtickLoop ⟨x, m, false⟩ ticks (x.length + 1) p with
    | error e => exact Or.inr ⟨e, rfl, rfl⟩
    | ok r =>
      cases r with
      | some q => exact Both.ok ⟨rfl, (h.setPos q).push_same _⟩
      | none => exact Both.ok ⟨rfl, (h.setPos p).push_same _⟩

theorem parseBackslash_sim {x : Str} {m : RefMap} {S N : IState} (h : OSim ρ κ D S N) :
    OSim ρ κ D (parseBackslash ⟨x, m, true⟩ S) (parseBackslash ⟨x, m, false⟩ N) := by
  unfold parseBackslash
  rw [h.pos]
  have e : ∀ p, Ctx.peek ⟨x, m, true⟩ p = Ctx.peek ⟨x, m, false⟩ p := fun _ => rfl
  dsimp only
  rw [e]
  cases Ctx.peek ⟨x, m, false⟩ (S.pos + 1) with
  | none => exact (h.setPos _).push_same _
  | some ch =>
    dsimp only
    split
    · exact (h.setPos _).push_same _
    · split
      · exact (h.setPos _).push_same _
      · exact (h.setPos _).push_same _

theorem parseAutolink_sim {x : Str} {m : RefMap} {S N : IState} (h : OSim ρ κ D S N) :
    (parseAutolink ⟨x, m, true⟩ S).1 = (parseAutolink ⟨x, m, false⟩ N).1 ∧
    OSim ρ κ D (parseAutolink ⟨x, m, true⟩ S).2 (parseAutolink ⟨x, m, false⟩ N).2 := by
  unfold parseAutolink
  rw [h.pos]
  have e : ∀ r p, Ctx.match_ ⟨x, m, true⟩ r p = Ctx.match_ ⟨x, m, false⟩ r p := fun _ _ => rfl
  rw [e, e]
  cases Ctx.match_ ⟨x, m, false⟩ reEmailAutolink S.pos with
  | some v => exact ⟨rfl, (h.setPos _).push_same _⟩
  | none =>
    cases Ctx.match_ ⟨x, m, false⟩ reAutolink S.pos with
    | some v => exact ⟨rfl, (h.setPos _).push_same _⟩
    | none => exact ⟨rfl, h⟩

theorem parseHtmlTag_sim {x : Str} {m : RefMap} {S N : IState} (h : OSim ρ κ D S N) :
    (parseHtmlTag ⟨x, m, true⟩ S).1 = (parseHtmlTag ⟨x, m, false⟩ N).1 ∧
    OSim ρ κ D (parseHtmlTag ⟨x, m, true⟩ S).2 (parseHtmlTag ⟨x, m, false⟩ N).2 := by
  unfold parseHtmlTag
  rw [h.pos]
  have e : ∀ r p, Ctx.match_ ⟨x, m, true⟩ r p = Ctx.match_ ⟨x, m, false⟩ r p := fun _ _ => rfl
  rw [e]
  cases Ctx.match_ ⟨x, m, false⟩ reHtmlTag S.pos with
  | some v => exact ⟨rfl, (h.setPos _).push_same _⟩
  | none => exact ⟨rfl, h⟩

theorem parseEntity_sim {x : Str} {m : RefMap} {S N : IState} (h : OSim ρ κ D S N) :
    (parseEntity ⟨x, m, true⟩ S).1 = (parseEntity ⟨x, m, false⟩ N).1 ∧
    OSim ρ κ D (parseEntity ⟨x, m, true⟩ S).2 (parseEntity ⟨x, m, false⟩ N).2 := by
  unfold parseEntity
  rw [h.pos]
  have e : ∀ r p, Ctx.match_ ⟨x, m, true⟩ r p = Ctx.match_ ⟨x, m, false⟩ r p := fun _ _ => rfl
  rw [e]
  cases Ctx.match_ ⟨x, m, false⟩ reENTITY S.pos with
  | some v => exact ⟨rfl, (h.setPos _).push_same _⟩
  | none => exact ⟨rfl, h⟩

theorem fallback_sim {a b : Bool × IState} (ch : Char) (h1 : a.1 = b.1) (h : OSim ρ κ D a.2 b.2) :
    OSim ρ κ D (fallback ch a) (fallback ch b) := by
  unfold fallback
  rw [h1]
  split
  · exact h
  · rw [h.pos]; exact (h.setPos _).push_same _

/-! ### The others -/

theorem reMain_chars {s m : Str} (h : reMain.matchPrefix s = some m) : ∀ c ∈ m, isMain c = true :=
  Re.matchPrefix_within (P := fun c => isMain c = true) (r := reMain) ⟨fun _ h => h, fun _ h => h⟩ h

theorem parseString_sim {x : Str} {m : RefMap} {S N : IState} (h : OSim ρ κ D S N) :
    (parseString ⟨x, m, true⟩ S).1 = (parseString ⟨x, m, false⟩ N).1 ∧
    OSim ρ κ D (parseString ⟨x, m, true⟩ S).2 (parseString ⟨x, m, false⟩ N).2 := by
  unfold parseString
  rw [h.pos]
  have e : ∀ r p, Ctx.match_ ⟨x, m, true⟩ r p = Ctx.match_ ⟨x, m, false⟩ r p := fun _ _ => rfl
  rw [e]
  cases hm : Ctx.match_ ⟨x, m, false⟩ reMain S.pos with
  | none => exact ⟨rfl, h⟩
  | some v =>
    obtain ⟨u, p⟩ := v
    refine ⟨rfl, ?_⟩
    have hu : ∀ c ∈ u, isMain c = true := by
      simp only [Ctx.match_, Option.map_eq_some_iff, Prod.mk.injEq] at hm
      obtain ⟨_, hm, rfl, _⟩ := hm
      exact reMain_chars hm
    exact (h.setPos p).push (SmartTree.text (smartString hu))

theorem forall₂_snoc {α β : Type} {R : α → β → Prop} {xs : List α} {a : α} : ∀ {zs : List β}, List.Forall₂ R (xs ++ [a]) zs →
    ∃ ys b, zs = ys ++ [b] ∧ List.Forall₂ R xs ys ∧ R a b := by
  induction xs with
  | nil =>
    intro zs h
    cases h with
    | cons h1 h2 => cases h2; exact ⟨[], _, rfl, .nil, h1⟩
  | cons x xs ih =>
    intro zs h
    cases h with
    | cons h1 h2 =>
      obtain ⟨ys, b, rfl, h3, h4⟩ := ih h2
      exact ⟨_ :: ys, b, rfl, .cons h1 h3, h4⟩

theorem parseNewline_sim {x : Str} {m : RefMap} {S N : IState} (h : OSim ρ κ D S N) :
    Both (OSim ρ κ D) (parseNewline ⟨x, m, true⟩ S) (parseNewline ⟨x, m, false⟩ N) := by
  unfold parseNewline
  rw [h.pos]
  have e : ∀ p, Ctx.gobble ⟨x, m, true⟩ p = Ctx.gobble ⟨x, m, false⟩ p := fun _ => rfl
  rw [e]
  dsimp only
  generalize Ctx.gobble ⟨x, m, false⟩ (S.pos + 1) = p
  have hsoft : Both (OSim ρ κ D) (.ok ({ S with pos := p }.push (mkNode .softbreak [])))
      (.ok ({ N with pos := p }.push (mkNode .softbreak []))) := Both.ok ((h.setPos p).push_same _)
  rcases List.eq_nil_or_concat S.children with hS | ⟨xs, a, hS⟩
  · have hi := h.items
    rw [hS] at hi
    have hN : N.children = [] := by cases hi' : N.children with | nil => rfl | cons => rw [hi'] at hi; cases hi
    have g1 : S.children.getLast? = none := by rw [hS]; rfl
    have g2 : N.children.getLast? = none := by rw [hN]; rfl
    rw [g1, g2]; exact hsoft
  · rw [List.concat_eq_append] at hS
    have hi := h.items
    rw [hS] at hi
    obtain ⟨ys, b, hN, hxy, hab⟩ := forall₂_snoc hi
    have g1 : S.children.getLast? = some a := by rw [hS, List.getLast?_concat]
    have g2 : N.children.getLast? = some b := by rw [hN, List.getLast?_concat]
    rw [g1, g2]
    obtain ⟨ia, ⟨da, csa⟩⟩ := a
    obtain ⟨ib, ⟨db, csb⟩⟩ := b
    have ht := hab.tree
    simp only at ht
    cases ht with
    | node hd hcs =>
      dsimp only
      rcases hd with rfl | ⟨htext, u, v, hl, huv, rfl⟩
      · -- the same data
        split
        · cases hl : da.literal with
          | none => exact Or.inr ⟨_, rfl, rfl⟩
          | some l =>
            dsimp only
            cases hlast : l.getLast? with
            | none => exact Or.inr ⟨_, rfl, rfl⟩
            | some ch =>
              dsimp only
              split
              · rename_i htx hch
                have hch : ch = ' ' := by simpa using hch
                refine Both.ok (OSim.push_same ?_ _)
                rw [hS, hN, setLastLiteral_snoc, setLastLiteral_snoc]
                have := (h.setPos p)
                refine ⟨h.maps, rfl, ?_, ?_, h.free, h.small, h.first, h.delims, h.ok, h.dsmall, h.pair, h.brackets⟩
                · refine List.rel_append hxy (.cons ⟨hab.id, .node (Or.inl rfl) hcs, ?_, ?_⟩ .nil)
                  · intro hne
                    have := hab.same hne
                    simp only [Tree.node.injEq] at this
                    simp [this.2]
                  · intro q hq
                    obtain ⟨h1, y, h2⟩ := hab.quote q hq
                    simp only [textNode, Tree.node.injEq] at h1
                    have h3 : da.literal = some [q] := by rw [h1.1]
                    rw [hl] at h3
                    injection h3 with h3
                    rw [h3] at hlast
                    simp only [List.getLast?_singleton, Option.some.injEq] at hlast
                    have := (h.maps.quote _ _ hq).2.2
                    rw [hlast, hch] at this
                    exact absurd this (by decide)
                · intro z hz
                  simp only [List.mem_append, List.mem_singleton] at hz
                  rcases hz with hz | rfl
                  · exact h.ids z (by rw [hS]; simp [hz])
                  · exact h.ids ⟨ia, .node da csa⟩ (by rw [hS]; simp)
              · exact hsoft
        · exact hsoft
      · -- smart punctuation
        simp only [htext, beq_self_eq_true, if_true, hl]
        obtain ⟨x0, y0, k, rfl, rfl, h0, hx0, hy0⟩ := huv.spaces
        have hstrip : ∀ z : Str, z.getLast? ≠ some ' ' → stripFinalSpace (z ++ List.replicate k ' ') = z := by
          intro z hz
          refine rstripBy_append ?_ ?_
          · intro c hc; rw [List.mem_replicate] at hc; simp [hc.2]
          · intro c hc; cases hh : (c == ' ') with
            | false => rfl
            | true => rw [beq_iff_eq] at hh; rw [hh] at hc; exact absurd hc hz
        cases k with
        | zero =>
          simp only [List.replicate_zero, List.append_nil] at *
          have hnil := h0.nil_iff
          cases e1 : x0.getLast? with
          | none =>
            have : x0 = [] := List.getLast?_eq_none_iff.1 e1
            rw [hnil.1 this]
            exact Or.inr ⟨_, rfl, rfl⟩
          | some c1 =>
            cases e2 : y0.getLast? with
            | none =>
              have : y0 = [] := List.getLast?_eq_none_iff.1 e2
              rw [hnil.2 this] at e1; cases e1
            | some c2 =>
              have n1 : c1 ≠ ' ' := by rintro rfl; exact hx0 e1
              have n2 : c2 ≠ ' ' := by rintro rfl; exact hy0 e2
              simp only [beq_iff_eq, n1, n2, if_false]
              exact hsoft
        | succ k =>
          have hl1 : ∀ z : Str, (z ++ List.replicate (k + 1) ' ').getLast? = some ' ' := by
            intro z; rw [List.replicate_succ', ← List.append_assoc, List.getLast?_concat]
          have hhard : ∀ z : Str, z.getLast? ≠ some ' ' →
              (decide ((z ++ List.replicate (k + 1) ' ').length ≥ 2) &&
                (z ++ List.replicate (k + 1) ' ')[(z ++ List.replicate (k + 1) ' ').length - 2]? == some ' ') = decide (1 ≤ k) := by
            intro z hz
            cases k with
            | zero =>
              rcases List.eq_nil_or_concat z with rfl | ⟨w, c, rfl⟩
              · decide
              · rw [List.concat_eq_append] at hz ⊢
                rw [List.getLast?_concat] at hz
                have : ((w ++ [c]) ++ List.replicate (0 + 1) ' ')[((w ++ [c]) ++ List.replicate (0 + 1) ' ').length - 2]? = some c := by
                  simp
                rw [this]
                have : c ≠ ' ' := by rintro rfl; exact hz rfl
                simp [this]
            | succ k =>
              have hlen : (z ++ List.replicate (k + 1 + 1) ' ').length = z.length + k + 2 := by simp; omega
              have : (z ++ List.replicate (k + 1 + 1) ' ')[(z ++ List.replicate (k + 1 + 1) ' ').length - 2]? = some ' ' := by
                rw [hlen, List.getElem?_append_right (by omega), List.getElem?_replicate, if_pos (by omega)]
              rw [this, hlen]
              simp
          simp only [hl1, beq_self_eq_true, if_true, hhard _ hx0, hhard _ hy0, hstrip _ hx0, hstrip _ hy0]
          refine Both.ok (OSim.push_same ?_ _)
          rw [hS, hN, setLastLiteral_snoc, setLastLiteral_snoc]
          refine ⟨h.maps, rfl, ?_, ?_, h.free, h.small, h.first, h.delims, h.ok, h.dsmall, h.pair, h.brackets⟩
          · refine List.rel_append hxy (.cons ⟨hab.id, .node (Or.inr ⟨htext, x0, y0, rfl, h0, rfl⟩) hcs, ?_, ?_⟩ .nil)
            · intro hne
              have hsm := hab.same hne
              simp only [Tree.node.injEq] at hsm
              have h3 := congrArg NodeData.literal hsm.1
              simp only [hl, Option.some.injEq] at h3
              have h4 : x0 = y0 := List.append_cancel_right h3
              simp [h4, hsm.2]
            · intro q hq
              obtain ⟨h1, y, h2⟩ := hab.quote q hq
              simp only [textNode, Tree.node.injEq] at h1
              have h3 : db.literal = some [q] := by rw [h1.1]
              rw [hl] at h3
              injection h3 with h3
              have h4 := hl1 x0
              rw [h3] at h4
              simp only [List.getLast?_singleton, Option.some.injEq] at h4
              have := (h.maps.quote _ _ hq).2.2
              rw [h4] at this
              exact absurd this (by decide)
          · intro z hz
            simp only [List.mem_append, List.mem_singleton] at hz
            rcases hz with hz | rfl
            · exact h.ids z (by rw [hS]; simp [hz])
            · have := h.ids _ (show _ ∈ S.children by rw [hS]; exact List.mem_append_right _ (List.mem_singleton.2 rfl))
              exact this

theorem parseCloseBracket_sim (hE : EmphSim D) {x : Str} {m : RefMap} {S N : IState} (h : OSim ρ κ D S N) :
    Both (OSim ρ κ D) (parseCloseBracket ⟨x, m, true⟩ S) (parseCloseBracket ⟨x, m, false⟩ N) := by
  unfold parseCloseBracket
  rw [h.pos]
  dsimp only
  have hb := h.brackets
  cases hS : S.brackets with
  | nil =>
    rw [hS] at hb
    have hN : N.brackets = [] := by
      cases hN : N.brackets with
      | nil => rfl
      | cons => rw [hN] at hb; cases hb
    rw [hN]
    have := (h.setPos (S.pos + 1)).push_same (textNode (lit "]"))
    rw [hS, hN] at this
    exact Both.ok this
  | cons b bs =>
    rw [hS] at hb
    cases hN : N.brackets with
    | nil => rw [hN] at hb; cases hb
    | cons b' bs' =>
      rw [hN] at hb
      have hdrop : ∀ p, OSim ρ κ D { S with pos := p, brackets := bs } { N with pos := p, brackets := bs' } := by
        intro p
        refine ⟨h.maps, rfl, h.items, h.ids, h.free, h.small, h.first, h.delims, h.ok, h.dsmall, h.pair, ?_⟩
        dsimp only
        cases hb with
        | @cons _ a1 below1 _ _ _ _ e h1 h2 h3 h4 h5 h6 h7 h8 =>
          rw [e]
          cases h8 with
          | nil => exact .nil
          | @cons _ a2 below2 _ _ _ _ e' g1 g2 g3 g4 g5 g6 g7 g8 =>
            subst e'
            exact .cons (a := a1 ++ a2) (by simp) g1 g2 g3 g4 g5 g6 g7 g8
      have hact : b'.active = b.active ∧ b'.index = b.index := by
        cases hb with
        | cons e h1 h2 h3 h4 h5 => exact ⟨h5, h3⟩
      dsimp only
      rw [hact.1]
      split
      · exact Both.ok ((hdrop _).push_same _)
      · have e1 : ∀ p, inlineLink ⟨x, m, true⟩ p = inlineLink ⟨x, m, false⟩ p := fun _ => rfl
        have e2 : ∀ p q, referenceLink ⟨x, m, true⟩ b p q = referenceLink ⟨x, m, false⟩ b' p q := by
          intro p q
          unfold referenceLink
          rw [hact.2]
          rfl
        rw [e1]
        have hclose : ∀ dest title p, Both (OSim ρ κ D) (closeLink b bs dest title { S with pos := p })
            (closeLink b' bs' dest title { N with pos := p }) := by
          intro dest title p
          obtain ⟨S', N', g1, g2, g3⟩ := (h.setPos p).closeLink hE (b := b) (bs := bs) (b' := b') (bs' := bs') hS hN dest title
          exact Or.inl ⟨S', N', g1, g2, g3⟩
        cases hil : inlineLink ⟨x, m, false⟩ (S.pos + 1) with
        | mk r q =>
          cases r with
          | some v =>
            obtain ⟨dest, title⟩ := v
            dsimp only
            have := hclose dest (title.getD []) q
            rw [hS, hN] at *
            exact this
          | none =>
            dsimp only
            rw [e2]
            cases hrl : referenceLink ⟨x, m, false⟩ b' (S.pos + 1) q with
            | mk r q2 =>
              cases r with
              | some v =>
                obtain ⟨dest, title⟩ := v
                dsimp only
                have := hclose dest title q2
                rw [hS, hN] at *
                exact this
              | none =>
                dsimp only
                exact Both.ok ((hdrop _).push_same _)

theorem handleDelim_sim {x : Str} {m : RefMap} {S N : IState} (h : OSim ρ κ D S N) {cc : Char} (hc : cc = '*' ∨ cc = '_')
    (hD : ∀ info, scanDelims ⟨x, m, false⟩ cc S.pos = some info → D cc info.numdelims info.canOpen info.canClose) :
    Agree D (fallback cc (handleDelim ⟨x, m, true⟩ cc S)) (fallback cc (handleDelim ⟨x, m, false⟩ cc N)) := by
  unfold handleDelim
  rw [h.pos]
  have e : ∀ p, scanDelims ⟨x, m, true⟩ cc p = scanDelims ⟨x, m, false⟩ cc p := fun _ => rfl
  rw [e]
  cases hs : scanDelims ⟨x, m, false⟩ cc S.pos with
  | none => exact (fallback_sim (a := (false, S)) (b := (false, N)) cc rfl h).agree
  | some info =>
    have := h.markDelim hc (hD info hs) (S.pos + info.numdelims)
      (textNode (if cc == '\'' then [rsquo] else if cc == '"' then [ldquo] else slice x S.pos (S.pos + info.numdelims)))
    exact this.agree

theorem handleQuote_sim {x : Str} {m : RefMap} {S N : IState} (h : OSim ρ κ D S N) {cc : Char} (hc : cc = '\'' ∨ cc = '"')
    (hD : ∀ info, scanDelims ⟨x, m, false⟩ cc S.pos = some info → D cc info.numdelims info.canOpen info.canClose) :
    Agree D (fallback cc (handleDelim ⟨x, m, true⟩ cc S)) (fallback cc (false, N)) := by
  have hn : ∀ p, countDelims ⟨x, m, false⟩ cc p = 1 := by
    intro p; unfold countDelims; rcases hc with rfl | rfl <;> rfl
  unfold handleDelim
  have e : ∀ p, scanDelims ⟨x, m, true⟩ cc p = scanDelims ⟨x, m, false⟩ cc p := fun _ => rfl
  rw [e]
  cases hs : scanDelims ⟨x, m, false⟩ cc S.pos with
  | none =>
    unfold scanDelims at hs
    rw [hn] at hs
    cases hs
  | some info =>
    have h1 : info.numdelims = 1 := by
      unfold scanDelims at hs
      rw [hn] at hs
      simp only [Nat.reduceBEq, Bool.false_eq_true, if_false, Option.some.injEq] at hs
      rw [← hs]
    have hy : SmartPiece [cc] [if cc == '\'' then rsquo else ldquo] := by
      rcases hc with rfl | rfl
      · exact .single _ (Or.inr (by decide))
      · exact .double _ (Or.inl (by decide))
    have := h.quoteDelim hc (hD info hs) (S.pos + info.numdelims) hy
    refine ⟨ρ, quoted κ S.nextId cc, ?_⟩
    rw [h1] at this
    have e3 : fallback cc (false, N) = { N with pos := N.pos + 1, children := N.children ++ [⟨0, textNode [cc]⟩] } := rfl
    rw [e3, h.pos]
    show OSim ρ _ D { S with pos := S.pos + info.numdelims, children := S.children ++ [⟨S.nextId, textNode
        (if cc == '\'' then [rsquo] else if cc == '"' then [ldquo] else slice x S.pos (S.pos + info.numdelims))⟩], delims := ⟨cc, info.numdelims, info.numdelims, S.nextId, info.canOpen, info.canClose⟩ :: S.delims, nextId := S.nextId + 1 } _
    have hcont : (if cc == '\'' then [rsquo] else if cc == '"' then [ldquo] else slice x S.pos (S.pos + info.numdelims)) =
        [if cc == '\'' then rsquo else ldquo] := by
      rcases hc with rfl | rfl <;> rfl
    rw [hcont, h1]
    exact this

/-- Options of related states. -/
def AgreeO (D : Char → Nat → Bool → Bool → Prop) : Option IState → Option IState → Prop
  | some S, some N => Agree D S N
  | none, none => True
  | _, _ => False

theorem parseInline_sim (hE : EmphSim D) {x : Str} {m : RefMap} {S N : IState} (h : Agree D S N)
    (hD : ∀ cc info, x[S.pos]? = some cc → (cc = '*' ∨ cc = '_' ∨ cc = '\'' ∨ cc = '"') →
      scanDelims ⟨x, m, false⟩ cc S.pos = some info → D cc info.numdelims info.canOpen info.canClose) :
    Both (AgreeO D) (parseInline ⟨x, m, true⟩ S) (parseInline ⟨x, m, false⟩ N) := by
  obtain ⟨ρ, κ, h⟩ := h
  unfold parseInline
  rw [h.pos]
  have e : ∀ p, Ctx.peek ⟨x, m, true⟩ p = Ctx.peek ⟨x, m, false⟩ p := fun _ => rfl
  rw [e]
  cases hp : Ctx.peek ⟨x, m, false⟩ S.pos with
  | none => exact Both.ok trivial
  | some ch =>
    have hp' : x[S.pos]? = some ch := hp
    dsimp only
    refine Both.ite (fun _ => ?_) fun _ => ?_
    · exact Both.bind (parseNewline_sim h) fun a b hab => Both.ok hab.agree
    refine Both.ite (fun _ => ?_) fun _ => ?_
    · exact Both.ok (parseBackslash_sim h).agree
    refine Both.ite (fun _ => ?_) fun _ => ?_
    · exact Both.bind (parseBackticks_sim h) fun a b hab => Both.ok (fallback_sim ch hab.1 hab.2).agree
    refine Both.ite (fun hc => ?_) fun _ => ?_
    · have hc : ch = '*' ∨ ch = '_' := by simpa using hc
      exact Both.ok (handleDelim_sim h hc fun info hs => hD ch info hp' (by rcases hc with h | h <;> simp [h]) hs)
    refine Both.ite (fun hc => ?_) fun _ => ?_
    · have hc : ch = '\'' ∨ ch = '"' := by simpa using hc
      exact Both.ok (handleQuote_sim h hc fun info hs => hD ch info hp' (by rcases hc with h | h <;> simp [h]) hs)
    refine Both.ite (fun _ => ?_) fun _ => ?_
    · refine Both.ok ?_
      unfold parseOpenBracket
      rw [h.pos]
      exact ((h.setPos _).addBracket _ _ _).agree
    refine Both.ite (fun _ => ?_) fun _ => ?_
    · refine Both.ok ?_
      unfold parseBang
      rw [h.pos, e]
      by_cases hb : (Ctx.peek ⟨x, m, false⟩ (S.pos + 1) == some '[') = true
      · rw [if_pos hb, if_pos hb]; exact ((h.setPos _).addBracket _ _ _).agree
      · rw [if_neg hb, if_neg hb]; exact ((h.setPos _).push_same _).agree
    refine Both.ite (fun _ => ?_) fun _ => ?_
    · exact Both.bind (parseCloseBracket_sim hE h) fun a b hab => Both.ok hab.agree
    refine Both.ite (fun _ => ?_) fun _ => ?_
    · refine Both.ok ?_
      obtain ⟨h1, h2⟩ := parseAutolink_sim (x := x) (m := m) h
      cases ha : parseAutolink ⟨x, m, true⟩ S with
      | mk a1 a2 =>
        cases hb : parseAutolink ⟨x, m, false⟩ N with
        | mk b1 b2 =>
          rw [ha, hb] at h1 h2
          dsimp only at h1 h2
          subst h1
          cases a1 with
          | true => exact (fallback_sim (a := (true, a2)) (b := (true, b2)) ch rfl h2).agree
          | false =>
            obtain ⟨h3, h4⟩ := parseHtmlTag_sim (x := x) (m := m) h2
            exact (fallback_sim ch h3 h4).agree
    refine Both.ite (fun _ => ?_) fun _ => ?_
    · obtain ⟨h1, h2⟩ := parseEntity_sim (x := x) (m := m) h
      exact Both.ok (fallback_sim ch h1 h2).agree
    · obtain ⟨h1, h2⟩ := parseString_sim (x := x) (m := m) h
      exact Both.ok (fallback_sim ch h1 h2).agree

/-- What is needed of a text: an invariant of the positions at which the inline parser stops, and the
kinds of the delimiter runs there. -/
structure Calm (D : Char → Nat → Bool → Bool → Prop) (x : Str) (m : RefMap) (A : Nat → Prop) : Prop where
  zero : A 0
  step : ∀ st st', A st.pos → parseInline ⟨x, m, false⟩ st = .ok (some st') → A st'.pos
  sort : ∀ p cc info, A p → x[p]? = some cc → (cc = '*' ∨ cc = '_' ∨ cc = '\'' ∨ cc = '"') →
      scanDelims ⟨x, m, false⟩ cc p = some info → D cc info.numdelims info.canOpen info.canClose

theorem inlineLoop_sim (hE : EmphSim D) {x : Str} {m : RefMap} {A : Nat → Prop} (hA : Calm D x m A) : ∀ (f : Nat) {S N : IState},
    Agree D S N → A N.pos → Both (Agree D) (inlineLoop ⟨x, m, true⟩ f S) (inlineLoop ⟨x, m, false⟩ f N)
  | 0, S, N, _, _ => Or.inr ⟨_, rfl, rfl⟩
  | f + 1, S, N, h, hp => by
    have hpos : N.pos = S.pos := by obtain ⟨_, _, h⟩ := h; exact h.pos
    have hs := parseInline_sim hE (x := x) (m := m) h fun cc info h1 h2 h3 => hA.sort S.pos cc info (hpos ▸ hp) h1 h2 h3
    unfold inlineLoop
    rcases hs with ⟨a, b, e1, e2, hab⟩ | ⟨e, e1, e2⟩
    · rw [e1, e2]
      cases a with
      | none =>
        cases b with
        | none => exact Both.ok h
        | some b => exact hab.elim
      | some a =>
        cases b with
        | none => exact hab.elim
        | some b => exact inlineLoop_sim hE hA f hab (hA.step _ _ hp e2)
    · rw [e1, e2]; exact Or.inr ⟨e, rfl, rfl⟩

theorem parseInlines_sim (hE : EmphSim D) {m : RefMap} {content : Str} {A : Nat → Prop} (hA : Calm D (strip content) m A) :
    Both (fun us vs => SmartTrees vs us) (parseInlines true m content) (parseInlines false m content) := by
  unfold parseInlines
  have h0 : OSim (fun _ => 0) (fun _ => none) D ⟨0, [], [], [], 1⟩ ⟨0, [], [], [], 1⟩ := by
    refine ⟨⟨rfl, fun i j h => absurd rfl h, fun i q h => by cases h⟩, rfl, .nil, by simp, fun i _ => ⟨rfl, rfl⟩, fun i => by simp,
      Nat.le_refl 1, rfl, by simp, by simp, .nil, .nil⟩
  refine Both.bind (inlineLoop_sim hE hA _ h0.agree hA.zero) fun S N hSN => ?_
  obtain ⟨ρ, κ, h⟩ := hSN
  obtain ⟨us, vs, e1, e2, e3⟩ := hE ρ κ S.delims.reverse S.children N.children h.maps
    (fun d hd => h.ok d (by simpa using hd))
    (by rw [List.pairwise_reverse]; exact h.pair.imp fun h => Ne.symm h) h.items
  rw [plainOf_reverse, ← h.delims] at e2
  rw [e1, e2]
  exact Both.ok (nodes_rel e3)

end

end CM
