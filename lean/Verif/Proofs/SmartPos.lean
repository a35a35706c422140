import Verif.Proofs.SmartRun

/-! Where the inline parser can stand.  It never stops inside a run of `*` or `_`, except right after an
escaped one. -/

namespace CM
open Spec

/-- Every match of the pattern ends with a character satisfying `p`. -/
def _root_.CM.Re.LastIn (p : Char → Prop) : Re → Prop
  | .chr q => ∀ c, q c = true → p c
  | .seq _ b => b.LastIn p
  | .alt a b => a.LastIn p ∧ b.LastIn p
  | _ => False

theorem Re.LastIn.den {p : Char → Prop} {n : Nat} : ∀ {r : Re} {m t : Str}, r.LastIn p → Den n r m t →
    ∃ k, m.getLast? = some k ∧ p k
  | .chr q, m, t, h, hd => by
    obtain ⟨c, hc, rfl⟩ := hd
    exact ⟨c, rfl, h c hc⟩
  | .seq a b, m, t, h, hd => by
    obtain ⟨m1, m2, rfl, -, h2⟩ := hd
    obtain ⟨k, hk, hp⟩ := Re.LastIn.den (r := b) h h2
    exact ⟨k, by rw [List.getLast?_append, hk]; rfl, hp⟩
  | .alt a b, m, t, h, hd => hd.elim (Re.LastIn.den (r := a) h.1) (Re.LastIn.den (r := b) h.2)
  | .eps, _, _, h, _ | .star _, _, _, h, _ | .lazyStar _, _, _, h, _ | .upTo _ _, _, _, h, _
  | .bos, _, _, h, _ | .eos, _, _, h, _ | .look _, _, _, h, _ | .nlook _, _, _, h, _ => h.elim

def Mark (c : Char) : Prop := c = '*' ∨ c = '_'

instance (c : Char) : Decidable (Mark c) := inferInstanceAs (Decidable (c = '*' ∨ c = '_'))

/-- The position `p` of `x` is not inside a run of `*` or `_`. -/
def AtRun (x : Str) (p : Nat) : Prop :=
  ∀ c, Mark c → 1 ≤ p → x[p - 1]? = some c → x[p]? = some c → 2 ≤ p ∧ x[p - 2]? = some '\\'

theorem AtRun.of_prev {x : Str} {p : Nat} {k : Char} (h : x[p - 1]? = some k) (hk : ¬ Mark k) : AtRun x p := by
  intro c hc _ h1 _
  rw [h] at h1
  cases h1
  exact absurd hc hk

theorem AtRun.succ {x : Str} {p : Nat} {k : Char} (h : x[p]? = some k) (hk : ¬ Mark k) : AtRun x (p + 1) :=
  AtRun.of_prev (p := p + 1) h hk

theorem get_of_match {x : Str} {pos : Nat} {m : Str} {k : Char} (hm : m <+: x.drop pos) (hk : m.getLast? = some k) :
    x[pos + m.length - 1]? = some k := by
  obtain ⟨t, ht⟩ := hm
  have hne : m ≠ [] := by rintro rfl; cases hk
  have hl : 0 < m.length := List.length_pos_iff.2 hne
  have h1 : (x.drop pos)[m.length - 1]? = some k := by
    rw [← ht, List.getElem?_append_left (by omega), ← hk, List.getLast?_eq_getElem?]
  rw [List.getElem?_drop] at h1
  rw [← h1]
  congr 1
  omega

theorem AtRun.match_ {x : Str} {m : RefMap} {r : Re} {pos p : Nat} {w : Str}
    (h : (Ctx.mk x m false).match_ r pos = some (w, p)) (hr : r.LastIn (fun k => ¬ Mark k)) : AtRun x p := by
  obtain ⟨h1, rfl, -, h3⟩ := match_spec h
  obtain ⟨t, -, hd⟩ := Re.matchPrefix_den h1
  obtain ⟨k, hk, hp⟩ := hr.den hd
  exact AtRun.of_prev (get_of_match h3 hk) hp

theorem AtRun.within {x : Str} {m : RefMap} {r : Re} {pos p : Nat} {w : Str}
    (h : (Ctx.mk x m false).match_ r pos = some (w, p)) (hne : 0 < r.minLen) (hr : ∀ k ∈ w, ¬ Mark k) : AtRun x p := by
  obtain ⟨h1, rfl, h2, h3⟩ := match_spec h
  have hw : w ≠ [] := by rintro rfl; simp at h2; omega
  have hk := List.getLast?_eq_some_getLast hw
  exact AtRun.of_prev (get_of_match h3 hk) (hr _ (List.getLast_mem hw))

theorem gt_last : ∀ c, (c == '>') = true → ¬ Mark c := by
  intro c h
  have : c = '>' := by simpa using h
  subst this; decide

theorem reHtmlTag_last : reHtmlTag.LastIn (fun k => ¬ Mark k) :=
  ⟨gt_last, gt_last, ⟨gt_last, gt_last⟩, gt_last, gt_last, gt_last⟩

theorem reEmail_last : reEmailAutolink.LastIn (fun k => ¬ Mark k) := gt_last

theorem reAutolink_last : reAutolink.LastIn (fun k => ¬ Mark k) := gt_last

theorem reLinkLabel_last : reLinkLabel.LastIn (fun k => ¬ Mark k) := by
  intro c h
  have : c = ']' := by simpa using h
  subst this; decide

theorem reENTITY_lastIn : reENTITY.LastIn (fun k => ¬ Mark k) := by
  have h : ∀ c, (c == ';') = true → ¬ Mark c := by
    intro c h
    have : c = ';' := by simpa using h
    subst this; decide
  first | exact h | exact ⟨h, h⟩ | exact ⟨h, h, h⟩

theorem slice_last {s : Str} {a b : Nat} {k : Char} (h : (slice s a b).getLast? = some k) (hb : b ≤ s.length) :
    s[b - 1]? = some k := by
  unfold slice at h
  rw [List.getLast?_drop] at h
  split at h
  · cases h
  · rename_i hl
    rw [List.getLast?_eq_getElem?, List.length_take, Nat.min_eq_left hb, List.getElem?_take] at h
    split at h
    · exact h
    · cases h

theorem reTicks_all {w s : Str} (h : reTicks.matchPrefix s = some w) : ∀ k ∈ w, k = '`' := by
  have hc : ∀ c : Char, (c == '`') = true → c = '`' := fun c h => by simpa using h
  exact Re.matchPrefix_within (P := fun c => c = '`') (r := reTicks) ⟨hc, hc⟩ h

theorem slice_pos {s : Str} {a b : Nat} {k : Char} (h : (slice s a b).getLast? = some k) : b ≠ 0 := by
  rintro rfl
  simp [slice] at h

theorem backtickLoop_at {x : Str} {m : RefMap} {ticks : Str} (hk : ticks.getLast? = some '`') : ∀ {f pos p : Nat},
    backtickLoop ⟨x, m, false⟩ ticks f pos = .ok (some p) → AtRun x p
  | 0, _, _, h => by cases h
  | f + 1, pos, p, h => by
    unfold backtickLoop at h
    cases hs : (Ctx.mk x m false).search_ reTicks pos with
    | none => rw [hs] at h; cases h
    | some v =>
      obtain ⟨w, q⟩ := v
      rw [hs] at h
      simp only at h
      split at h
      · rename_i hw
        cases h
        have hw : w = ticks := by simpa using hw
        subst hw
        unfold Ctx.search_ at hs
        simp only [Option.map_eq_some_iff, Prod.mk.injEq] at hs
        obtain ⟨⟨pre, post⟩, -, h1, h2⟩ := hs
        simp only at h1 h2
        rw [← h1] at hk
        have hq := slice_last hk (by omega)
        unfold Ctx.rest at hq h2
        simp only [List.getElem?_drop] at hq
        subst h2
        refine AtRun.of_prev (k := '`') ?_ (by decide)
        rw [← hq]
        have hpos := slice_pos hk
        unfold Ctx.rest at hpos
        simp only at hpos ⊢
        congr 1
        omega
      · exact backtickLoop_at hk h

theorem parseBackticks_at {x : Str} {m : RefMap} {st st' : IState} (h : parseBackticks ⟨x, m, false⟩ st = .ok (true, st')) :
    AtRun x st'.pos := by
  unfold parseBackticks at h
  cases hs : (Ctx.mk x m false).match_ reTicks st.pos with
  | none => rw [hs] at h; cases h
  | some v =>
    obtain ⟨w, q⟩ := v
    rw [hs] at h
    simp only at h
    obtain ⟨h1, -, h2, -⟩ := match_spec hs
    have hall := reTicks_all h1
    have hw : w ≠ [] := by rintro rfl; exact absurd h2 (by decide)
    have hlast : w.getLast? = some '`' := by
      rw [List.getLast?_eq_some_getLast hw, hall _ (List.getLast_mem hw)]
    cases hb : backtickLoop ⟨x, m, false⟩ w (x.length + 1) q with
    | error e => simp only [hb] at h; cases h
    | ok o =>
      simp only [hb] at h
      cases o with
      | some p => cases h; exact backtickLoop_at hlast hb
      | none =>
        cases h
        refine AtRun.within hs (by decide) ?_
        intro k hk
        rw [hall k hk]
        decide

theorem fallback_at {x : Str} {ch : Char} {r : Bool × IState} (hch : x[r.2.pos]? = some ch) (hk : ¬ Mark ch)
    (h : r.1 = true → AtRun x r.2.pos) : AtRun x (fallback ch r).pos := by
  unfold fallback
  split
  · exact h ‹_›
  · exact AtRun.succ hch hk

theorem takeWhile_end (p : Char → Bool) (s : Str) {c : Char} (h : s[(s.takeWhile p).length]? = some c) : p c = false := by
  induction s with
  | nil => simp at h
  | cons a s ih =>
    simp only [List.takeWhile_cons] at h
    split at h
    · exact ih (by simpa using h)
    · simp at h
      subst h
      simpa using ‹¬ p a = true›

theorem gobble_at {x : Str} {m : RefMap} {pos : Nat} (h : x[pos]? = some '\n') :
    AtRun x ((Ctx.mk x m false).gobble (pos + 1)) := by
  unfold Ctx.gobble
  split
  · rename_i w p hs
    obtain ⟨h1, rfl, -, h3⟩ := match_spec hs
    by_cases hw : w = []
    · subst hw; exact AtRun.succ h (by decide)
    · have hall := Re.matchPrefix_within (P := fun c => c = ' ') (r := reInitialSpace) (fun c h => by simpa using h) h1
      have hk := List.getLast?_eq_some_getLast hw
      rw [hall _ (List.getLast_mem hw)] at hk
      exact AtRun.of_prev (get_of_match h3 hk) (by decide)
  · exact AtRun.succ h (by decide)

theorem handleDelim_at {x : Str} {m : RefMap} {ch : Char} {st : IState} (hc : Mark ch) (hch : x[st.pos]? = some ch) :
    AtRun x (fallback ch (handleDelim ⟨x, m, false⟩ ch st)).pos := by
  have hq : (ch == '\'' || ch == '"') = false := by rcases hc with rfl | rfl <;> rfl
  have hn : countDelims ⟨x, m, false⟩ ch st.pos = ((x.drop st.pos).takeWhile (· == ch)).length := by
    unfold countDelims
    rw [hq]; rfl
  have hlt : st.pos < x.length := (List.getElem?_eq_some_iff.1 hch).1
  have hd : x.drop st.pos = ch :: x.drop (st.pos + 1) := by
    rw [List.drop_eq_getElem_cons hlt]
    congr 1
    exact (List.getElem?_eq_some_iff.1 hch).2
  have hpos : countDelims ⟨x, m, false⟩ ch st.pos ≠ 0 := by
    rw [hn, hd, List.takeWhile_cons]
    simp
  unfold fallback handleDelim scanDelims
  simp only [beq_iff_eq, if_neg hpos, ↓reduceIte]
  intro c hc' h1 h2 h3
  have hend : x[st.pos + countDelims ⟨x, m, false⟩ ch st.pos]? ≠ some ch := by
    intro h
    rw [hn, ← List.getElem?_drop] at h
    have := takeWhile_end _ _ h
    simp at this
  have hlast : x[st.pos + countDelims ⟨x, m, false⟩ ch st.pos - 1]? = some ch := by
    have hp : ((x.drop st.pos).takeWhile (· == ch)) <+: x.drop st.pos := List.takeWhile_prefix _
    have hne : (x.drop st.pos).takeWhile (· == ch) ≠ [] := by
      intro h0; rw [hn, h0] at hpos; exact hpos rfl
    have hk := List.getLast?_eq_some_getLast hne
    have hm := List.mem_takeWhile_imp (List.getLast_mem hne)
    rw [show ((x.drop st.pos).takeWhile (· == ch)).getLast hne = ch from by simpa using hm] at hk
    rw [hn]
    exact get_of_match hp hk
  rw [hlast] at h2
  cases h2
  exact absurd h3 hend

theorem link_end {x : Str} {m : RefMap} {q p : Nat} {u v : Str × Option Str}
    (h : (if (Ctx.mk x m false).peek q == some ')' then (some u, q + 1) else (none, q)) = (some v, p)) : AtRun x p := by
  split at h
  · rename_i hp
    cases h
    exact AtRun.succ (k := ')') (by simpa [Ctx.peek] using hp) (by decide)
  · cases h

theorem inlineLink_at {x : Str} {m : RefMap} {pos p : Nat} {v : Str × Option Str}
    (h : inlineLink ⟨x, m, false⟩ pos = (some v, p)) : AtRun x p := by
  unfold inlineLink at h
  split at h
  · simp only at h
    split at h
    · cases h
    · split at h <;> exact link_end h
  · cases h

theorem referenceLink_at {x : Str} {m : RefMap} {o : Bracket} {s b p : Nat} {v : Str × Str} (hs : AtRun x s)
    (h : referenceLink ⟨x, m, false⟩ o s b = (some v, p)) : AtRun x p := by
  have key : AtRun x (if (parseLinkLabel ⟨x, m, false⟩ b).1 == 0 then s else (parseLinkLabel ⟨x, m, false⟩ b).2) := by
    unfold parseLinkLabel
    split
    · exact hs
    · rename_i w q hm
      split
      · exact hs
      · split
        · exact hs
        · exact AtRun.match_ hm reLinkLabel_last
  unfold referenceLink at h
  simp only at h
  generalize (if (parseLinkLabel ⟨x, m, false⟩ b).1 > 2 then _ else _ : Str) = l at h
  split at h
  · cases h
  · split at h
    · cases h; exact key
    · cases h

theorem closeLink_pos {o : Bracket} {bs : List Bracket} {d t : Str} {st st' : IState} (h : closeLink o bs d t st = .ok st') :
    st'.pos = st.pos := by
  unfold closeLink at h
  simp only [bind, Except.bind] at h
  split at h
  · cases h
  · cases h; rfl

theorem parseCloseBracket_at {x : Str} {m : RefMap} {st st' : IState} (hch : x[st.pos]? = some ']')
    (h : parseCloseBracket ⟨x, m, false⟩ st = .ok st') : AtRun x st'.pos := by
  have h0 : AtRun x (st.pos + 1) := AtRun.succ hch (by decide)
  unfold parseCloseBracket at h
  simp only at h
  split at h
  · cases h; exact h0
  · split at h
    · cases h; exact h0
    · split at h
      · rename_i hi
        rw [closeLink_pos h]
        exact inlineLink_at hi
      · split at h
        · rename_i hr
          rw [closeLink_pos h]
          exact referenceLink_at h0 hr
        · cases h; exact h0

theorem parseNewline_at {x : Str} {m : RefMap} {st st' : IState} (hch : x[st.pos]? = some '\n')
    (h : parseNewline ⟨x, m, false⟩ st = .ok st') : AtRun x st'.pos := by
  have h0 := gobble_at (m := m) hch
  unfold parseNewline at h
  simp only at h
  split at h
  · split at h
    · split at h
      · cases h
      · split at h
        · cases h
        · split at h
          · cases h; exact h0
          · cases h; exact h0
    · cases h; exact h0
  · cases h; exact h0

theorem parseBackslash_at {x : Str} {m : RefMap} {st : IState} (hch : x[st.pos]? = some '\\') :
    AtRun x (parseBackslash ⟨x, m, false⟩ st).pos := by
  have h0 : AtRun x (st.pos + 1) := AtRun.succ hch (by decide)
  have h1 : AtRun x (st.pos + 1 + 1) := by
    intro c _ _ _ _
    exact ⟨by omega, hch⟩
  unfold parseBackslash
  simp only
  split
  · split
    · exact h1
    · split
      · exact h1
      · exact h0
  · exact h0

theorem parseInline_at {x : Str} {m : RefMap} {st st' : IState} (h : parseInline ⟨x, m, false⟩ st = .ok (some st')) :
    AtRun x st'.pos := by
  unfold parseInline at h
  cases hch : (Ctx.mk x m false).peek st.pos with
  | none => rw [hch] at h; cases h
  | some ch =>
    rw [hch] at h
    replace hch : x[st.pos]? = some ch := hch
    simp only [Bool.false_eq_true, ↓reduceIte] at h
    by_cases c1 : (ch == '\n') = true
    · rw [if_pos c1] at h
      have hc : ch = '\n' := by simpa using c1
      subst hc
      cases hn : parseNewline ⟨x, m, false⟩ st with
      | error e => rw [hn] at h; cases h
      | ok s => rw [hn] at h; cases h; exact parseNewline_at hch hn
    rw [if_neg c1] at h
    by_cases c2 : (ch == '\\') = true
    · rw [if_pos c2] at h
      have hc : ch = '\\' := by simpa using c2
      subst hc
      cases h; exact parseBackslash_at hch
    rw [if_neg c2] at h
    by_cases c3 : (ch == '`') = true
    · rw [if_pos c3] at h
      have hc : ch = '`' := by simpa using c3
      subst hc
      cases hn : parseBackticks ⟨x, m, false⟩ st with
      | error e => rw [hn] at h; cases h
      | ok s =>
        rw [hn] at h; cases h
        obtain ⟨b, s⟩ := s
        cases b with
        | true => exact parseBackticks_at hn
        | false =>
          have : s = st := by
            unfold parseBackticks at hn
            split at hn
            · cases hn; rfl
            · simp only [bind, Except.bind] at hn
              split at hn
              · cases hn
              · split at hn <;> cases hn
          subst this
          exact AtRun.succ hch (by decide)
    rw [if_neg c3] at h
    by_cases c4 : (ch == '*' || ch == '_') = true
    · rw [if_pos c4] at h
      cases h
      exact handleDelim_at (by simpa [Mark] using c4) hch
    rw [if_neg c4] at h
    have hk : ¬ Mark ch := by simpa [Mark] using c4
    by_cases c5 : (ch == '\'' || ch == '"') = true
    · rw [if_pos c5] at h
      cases h
      exact AtRun.succ hch hk
    rw [if_neg c5] at h
    by_cases c6 : (ch == '[') = true
    · rw [if_pos c6] at h
      cases h
      exact AtRun.succ hch hk
    rw [if_neg c6] at h
    by_cases c7 : (ch == '!') = true
    · rw [if_pos c7] at h
      cases h
      unfold parseBang
      split
      · rename_i hp
        exact AtRun.succ (p := st.pos + 1) (k := '[') (by simpa [Ctx.peek] using hp) (by decide)
      · exact AtRun.succ hch hk
    rw [if_neg c7] at h
    by_cases c8 : (ch == ']') = true
    · rw [if_pos c8] at h
      have hc : ch = ']' := by simpa using c8
      subst hc
      cases hn : parseCloseBracket ⟨x, m, false⟩ st with
      | error e => rw [hn] at h; cases h
      | ok s => rw [hn] at h; cases h; exact parseCloseBracket_at hch hn
    rw [if_neg c8] at h
    by_cases c9 : (ch == '<') = true
    · rw [if_pos c9] at h
      cases h
      unfold parseAutolink
      split
      · rename_i he
        split at he
        · cases he; exact AtRun.match_ ‹_› reEmail_last
        · split at he
          · cases he; exact AtRun.match_ ‹_› reAutolink_last
          · cases he
      · rename_i he
        split at he
        · cases he
        · split at he
          · cases he
          · cases he
            unfold parseHtmlTag
            split
            · exact AtRun.succ hch hk
            · exact AtRun.match_ ‹_› reHtmlTag_last
    rw [if_neg c9] at h
    by_cases c10 : (ch == '&') = true
    · rw [if_pos c10] at h
      cases h
      unfold parseEntity
      split
      · exact AtRun.match_ ‹_› reENTITY_lastIn
      · exact AtRun.succ hch hk
    rw [if_neg c10] at h
    cases h
    unfold parseString
    split
    · rename_i hs
      refine AtRun.within hs (by decide) ?_
      intro k hk' hM
      have := reMain_chars (match_spec hs).1 k hk'
      rcases hM with rfl | rfl <;> revert this <;> decide
    · exact AtRun.succ hch hk

end CM
