import Verif.Proofs.Every
/-
What holds of every block when it is closed holds of all blocks of the document.
-/
namespace CM
open Spec

/-- A block is closed with the number of its last line and the length of that line, or, if it ends there, with the
length of the line before.  `W` says how long which line is. -/
def ClosedLen (W : Nat → Nat → Prop) (l len : Nat) (d : NodeData) : Prop :=
  W l len ∨ ∃ k, l = k + 1 ∧ W k len ∧ EndsHere d

/-- `P` holds of every block that is closed, and does not look at the blank-line flags and tightness. -/
structure WhenClosed (P : NodeData → Prop) (W : Nat → Nat → Prop) : Prop where
  flags : ∀ d, P (normData d) ↔ P d
  close : ∀ l len (d : NodeData) cs m t m', ClosedLen W l len d →
    finalizeBlock (closeData l len d) cs m = .ok (some t, m') → P t.data

section
variable {P : NodeData → Prop} {W : Nat → Nat → Prop}

def ClosedIn (P : NodeData → Prop) (c : Core) : Prop := ∀ b ∈ c.spine, ∀ t ∈ b.children, All P t

theorem WhenClosed.norm (hP : WhenClosed P W) {cs cs' : List Tree} (h : normList cs = normList cs')
    (ha : ∀ t ∈ cs, All P t) : ∀ t ∈ cs', All P t := by
  rw [← everyNodeList_iff] at ha ⊢
  rw [← everyNodeList_norm (fun d _ => hP.flags d)] at ha ⊢
  rw [← h]; exact ha

theorem closed_in (hP : WhenClosed P W) {b par : OpenBlk} {up : List OpenBlk} {l len : Nat} {m m' : RefMap}
    {t : Option Tree} (hw : ClosedLen W l len b.data) (hb : ∀ x ∈ b :: par :: up, ∀ t ∈ x.children, All P t)
    (h : finalizeBlock (closeData l len b.data) b.children m = .ok (t, m')) :
    ∀ x ∈ ({ par with children := par.children ++ t.toList } : OpenBlk) :: up, ∀ t ∈ x.children, All P t := by
  intro x hx
  rcases List.mem_cons.1 hx with rfl | hx
  · intro u hu
    rcases List.mem_append.1 hu with hu | hu
    · exact hb par (by simp) u hu
    · cases t with
      | none => simp at hu
      | some v =>
        simp only [Option.toList_some, List.mem_singleton] at hu
        subst hu
        obtain ⟨h1, h2⟩ := finalize_sig h
        have h3 := hP.close _ _ _ _ _ _ _ hw h
        obtain ⟨e, ks⟩ := u
        exact everyNode_iff.2 ⟨h3, hP.norm h2.symm (hb b (by simp))⟩
  · exact hb x (by simp [hx])

theorem step_closed (hP : WhenClosed P W) {c c' : Core} (hw : ∀ l, l + 1 = c.line → W l c.prevLen) (h : ClosedIn P c) (hs : Step c c') : ClosedIn P c' := by
  have new : ∀ (d : NodeData) (r : List OpenBlk), (∀ b ∈ r, ∀ t ∈ b.children, All P t) →
      ∀ b ∈ (⟨d, []⟩ : OpenBlk) :: r, ∀ t ∈ b.children, All P t := by
    intro d r hr b hb
    rcases List.mem_cons.1 hb with rfl | hb
    · simp
    · exact hr b hb
  unfold ClosedIn at h ⊢
  cases hs with
  | @close l b par up t m e1 e2 e3 e4 =>
    rw [e1] at h
    exact closed_in hP (Or.inl (hw l e3)) h e4
  | @push b r d e1 e2 e3 => exact new _ _ h
  | @paragraph b r ch off e1 e2 e3 e4 e5 => exact new _ _ h
  | @pushItem b r col l e1 e2 e3 e4 => exact new _ _ h
  | @pushList b r col l e1 e2 e3 => exact new _ _ (new _ _ h)
  | @addLine b r x k off e1 e2 e3 =>
    rw [e1] at h
    intro y hy
    rcases List.mem_cons.1 hy with rfl | hy
    · exact h b (by simp)
    · exact h y (by simp [hy])
  | @flags b r blank flag e1 =>
    rw [e1] at h
    intro y hy
    simp only [flagSpine] at hy
    obtain ⟨z, hz, rfl⟩ := List.mem_map.1 hy
    rcases List.mem_cons.1 hz with rfl | hz
    · cases blank with
      | false => exact h b (by simp)
      | true => exact hP.norm (norm_markLast b.children).symm (h b (by simp))
    · exact h z (by simp [hz])
  | @refs b r x m has e1 e2 e3 e4 =>
    rw [e1] at h
    intro y hy
    rcases List.mem_cons.1 hy with rfl | hy
    · exact h b (by simp)
    · exact h y (by simp [hy])
  | @setext b r x x' m has lvl e1 e2 e3 e4 e5 e6 e7 e8 =>
    rw [e1] at h
    exact new _ _ fun y hy => h y (by simp [hy])

theorem steps_closed (hP : WhenClosed P W) {c c' : Core} (hw : ∀ l, l + 1 = c.line → W l c.prevLen) (h : ClosedIn P c) (hs : Steps c c') : ClosedIn P c' := by
  induction hs with
  | refl => exact h
  | tail hs hstep ih =>
    obtain ⟨e1, _, e2⟩ := steps_core_line hs
    exact step_closed hP (by rw [e1, e2]; exact hw) ih hstep

theorem reaches_len {ls : List Str} {c : Core} (h : Reaches ls c) (h0 : W 0 0)
    (hw : ∀ i ln, ls[i]? = some ln → W (i + 1) ln.length) : W c.line c.prevLen := by
  cases h with
  | nil => exact h0
  | @line ls c c' ln hr hs =>
    obtain ⟨e1, _, _⟩ := lineSteps_core_line hs
    show W c'.line ln.length
    rw [e1]
    show W (c.line + 1) ln.length
    rw [hr.line_eq]
    exact hw _ _ (by simp)

theorem reaches_closed (hP : WhenClosed P W) (h0 : W 0 0) {ls : List Str} {c : Core} (h : Reaches ls c)
    (hw : ∀ i ln, ls[i]? = some ln → W (i + 1) ln.length) : ClosedIn P c := by
  induction h with
  | nil =>
    intro b hb
    simp only [startCore, List.mem_singleton] at hb
    subst hb
    simp
  | @line ls c c' ln hr hs ih =>
    have hw' : ∀ i l, ls[i]? = some l → W (i + 1) l.length := fun i l hl => hw i l (by
      rw [List.getElem?_append_left (List.getElem?_eq_some_iff.1 hl).1]; exact hl)
    have h1 : ClosedIn P (nextLine c ln) := ih hw'
    have hlen := reaches_len hr h0 hw'
    have hl : ∀ l, l + 1 = (nextLine c ln).line → W l (nextLine c ln).prevLen := by
      intro l hl
      have : l = c.line := by simpa [nextLine] using hl
      rw [this]; exact hlen
    have : ClosedIn P c' := by
      cases hs with
      | steps hs => exact steps_closed hP hl h1 hs
      | final hs hf =>
        obtain ⟨e1, _, e2⟩ := steps_core_line hs
        have h1 := steps_closed hP hl h1 hs
        cases hf with
        | close f1 f2 f3 f4 =>
          unfold ClosedIn at h1
          rw [f1] at h1
          exact closed_in hP (Or.inr ⟨c.line, e1, by rw [e2]; exact hlen, f3⟩) h1 f4
    exact this

theorem blockPhase_closed (hP : WhenClosed P W) (h0 : W 0 0) (p : PState) (s : Str)
    (hd : ∀ len d, d.t = .document → W (inputLines s).length len → P (closeData (inputLines s).length len d))
    (hw : ∀ i ln, (inputLines s)[i]? = some ln → W (i + 1) ln.length) :
    ∃ p' t, blockPhase p s = .ok p' ∧ p'.doc = some t ∧ All P t := by
  obtain ⟨p', c, c2, b, h1, h2, h3, h4, h5, h6, h7, h8, h9⟩ := blockPhase_ok p s
  refine ⟨p', _, h1, h8, ?_⟩
  have hc0 := reaches_closed hP h0 h2 hw
  have hlen := reaches_len h2 h0 hw
  have hc : ClosedIn P ({ c with line := c.line + 1 } : Core) := hc0
  have h3 := Relation.ReflTransGen.mono (fun _ _ h => Closing.step h) _ _ h3
  obtain ⟨e1, _, e2⟩ := steps_core_line h3
  have := steps_closed hP (by
    intro l hl
    have : l = c.line := by simpa using hl
    rw [this]; exact hlen) hc h3
  refine everyNode_iff.2 ⟨hd _ _ h5 ?_, this b (by rw [h4]; simp)⟩
  rw [e2, ← h2.line_eq]; exact hlen

end

theorem parse_closed {P : NodeData → Prop} {W : Nat → Nat → Prop} (hP : WhenClosed P W) (h0 : W 0 0)
    {smart : Bool} {s : Str} {t : Tree}
    (hd : ∀ len d, d.t = .document → W (inputLines s).length len → P (closeData (inputLines s).length len d))
    (hi : ∀ d, d.t ∈ inlineKinds → P d) (hw : ∀ i ln, (inputLines s)[i]? = some ln → W (i + 1) ln.length)
    (h : parse smart s = .ok t) : All P t := by
  obtain ⟨p1, t1, h1, h2, h3⟩ := blockPhase_closed hP h0 PState.init s hd hw
  obtain ⟨p1', d, cs, g1, g2, g3, g4, g5, g6, g7, g8⟩ := blockPhase_tree (T := fun _ => True) (G := fun _ => True)
    charsOk_true (fun _ _ _ _ => trivial) (fun _ _ _ => trivial) trivial PState.init s (fun _ _ => trivial)
  rw [h1] at g1
  simp only [Except.ok.injEq] at g1
  subst g1
  rw [parse_eq] at h
  simp only [parseWith, h1, bind, Except.bind, h2] at h
  cases hp : processInlines smart p1.refmap t1 with
  | error e => rw [hp] at h; cases h
  | ok t' =>
    rw [hp] at h
    simp only [pure, Except.pure, Except.map, Except.ok.injEq] at h
    subst h
    exact processInlines_all hi smart g8 _ _ h3 hp

end CM
