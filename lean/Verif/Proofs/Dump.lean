import Verif.Spec.Dump
import Verif.Model.Dump
import Verif.Props.JsonRead
/-
`dumpAST` line by line.
-/
namespace CM
open Spec

/-! ### Lines with labels -/

/-- The two labels are different at some place. -/
def differ : Str → Str → Bool
  | a :: p, b :: q => a != b || differ p q
  | _, _ => false

theorem differ_symm : ∀ {p q : Str}, differ p q = true → differ q p = true
  | [], _, h => by simp [differ] at h
  | _ :: _, [], h => by simp [differ] at h
  | a :: p, b :: q, h => by
    simp only [differ, Bool.or_eq_true, bne_iff_ne] at h ⊢
    exact h.imp Ne.symm differ_symm

theorem differ_ne : ∀ {p q : Str}, differ p q = true → ∀ x y : Str, p ++ x ≠ q ++ y
  | [], _, h, _, _ => by simp [differ] at h
  | _ :: _, [], h, _, _ => by simp [differ] at h
  | a :: p, b :: q, h, x, y => by
    simp only [differ, Bool.or_eq_true, bne_iff_ne] at h
    intro e
    rw [List.cons_append, List.cons_append, List.cons.injEq] at e
    exact h.elim (fun h => h e.1) fun h => differ_ne h x y e.2

/-- The values of the lines with this label. -/
def valuesOf (p : Str) (ls : List Str) : List Str := ls.filterMap fun l => if p.isPrefixOf l then some (l.drop p.length) else none

theorem valuesOf_append (p : Str) (a b : List Str) : valuesOf p (a ++ b) = valuesOf p a ++ valuesOf p b := List.filterMap_append

theorem valuesOf_same (p : Str) : ∀ vs : List Str, valuesOf p (vs.map (p ++ ·)) = vs
  | [] => rfl
  | v :: vs => by
    have h : p.isPrefixOf (p ++ v) = true := by rw [List.isPrefixOf_iff_prefix]; exact List.prefix_append _ _
    have := valuesOf_same p vs
    unfold valuesOf at this ⊢
    rw [List.map_cons, List.filterMap_cons]
    simp only [h, if_true, List.drop_left, this]

theorem valuesOf_other {p q : Str} (h : differ p q = true) : ∀ vs : List Str, valuesOf p (vs.map (q ++ ·)) = []
  | [] => rfl
  | v :: vs => by
    have h' : p.isPrefixOf (q ++ v) = false := by
      rw [Bool.eq_false_iff]
      intro hp
      rw [List.isPrefixOf_iff_prefix] at hp
      obtain ⟨x, hx⟩ := hp
      exact differ_ne h x v hx
    have := valuesOf_other h vs
    unfold valuesOf at this ⊢
    rw [List.map_cons, List.filterMap_cons]
    simp only [h', Bool.false_eq_true, if_false, this]

/-- Labels and their values. -/
def labelled (gs : List (Str × List Str)) : List Str := gs.flatMap fun g => g.2.map (g.1 ++ ·)

theorem valuesOf_labelled {p : Str} : ∀ {gs : List (Str × List Str)}, (∀ g ∈ gs, g.1 = p ∨ differ p g.1 = true) →
    valuesOf p (labelled gs) = (gs.filter (·.1 == p)).flatMap (·.2)
  | [], _ => rfl
  | g :: gs, h => by
    have ih := valuesOf_labelled (p := p) (gs := gs) fun g hg => h g (by simp [hg])
    unfold labelled at ih ⊢
    rw [List.flatMap_cons, valuesOf_append, ih]
    rcases h g (by simp) with hp | hp
    · rw [hp, valuesOf_same, List.filter_cons_of_pos (by simp [hp]), List.flatMap_cons]
    · have hne : g.1 ≠ p := by rintro e; exact differ_ne hp [] [] (by rw [e])
      rw [valuesOf_other hp, List.filter_cons_of_neg (by simpa using hne), List.nil_append]

/-! ### One node -/

def indent (ind : Nat) : Str := if ind == 0 then [] else List.replicate ind '\t' ++ lit "-> "
def label (ind : Nat) (s : String) : Str := '\t' :: (indent ind ++ lit s)
def label2 (ind : Nat) (s : String) : Str := '\t' :: '\t' :: (indent ind ++ lit s)

/-- The values printed for an optional text. -/
def optValues (x : Option Str) : List Str := if x == some [] then [] else [x.getD []]

theorem optValues_inj {x y : Option Str} (h : optValues x = optValues y) : x = y := by
  rcases x with _ | _ | ⟨a, x⟩ <;> rcases y with _ | _ | ⟨b, y⟩ <;> simp_all [optValues]

def natValues (n : Nat) : List Str := if n == 0 then [] else [natToStr n]

theorem natToStr_inj {n m : Nat} (h : natToStr n = natToStr m) : n = m := by
  have h1 := C62_values (.num n)
  have h2 := C62_values (.num m)
  simp only [Json.dump] at h1 h2
  rw [h, h2] at h1
  simpa using h1.symm

theorem natValues_inj {n m : Nat} (h : natValues n = natValues m) : n = m := by
  unfold natValues at h
  by_cases hn : n = 0 <;> by_cases hm : m = 0 <;> simp [hn, hm] at h ⊢
  exact natToStr_inj h

/-- The fields of a node: label and values. -/
def fieldsOf (ind : Nat) (d : NodeData) : List (Str × List Str) :=
  [(indent ind ++ ['['], [d.t.name ++ [']']]),
   (label ind "Title: ", optValues d.title),
   (label ind "Info: ", optValues d.info),
   (label ind "Destination: ", optValues d.destination),
   (label ind "Open: ", if d.isOpen then [lit "True"] else []),
   (label ind "Last line blank: ", if d.lastLineBlank then [lit "True"] else []),
   (label ind "Sourcepos: ", (d.sourcepos.map sourceposRepr).toList),
   (label ind "String content: ", optValues d.stringContent),
   (label ind "Info: ", optValues d.info),
   (label ind "Literal: ", optValues d.literal),
   (label ind "List Data: ", if d.listData.isSome then [[]] else []),
   (label2 ind "[type] = ", (d.listData.map fun l => if l.type == .bullet then lit "bullet" else lit "ordered").toList),
   (label2 ind "[bullet_char] = ", (d.listData.bind fun l => l.bulletChar.map fun c => [c]).toList),
   (label2 ind "[start] = ", natValues ((d.listData.map fun l => l.start.getD 0).getD 0)),
   (label2 ind "[delimiter] = ", (d.listData.bind fun l => l.delimiter.map fun c => [c]).toList),
   (label2 ind "[padding] = ", natValues ((d.listData.map (·.padding)).getD 0)),
   (label2 ind "[marker_offset] = ", natValues ((d.listData.map (·.markerOffset)).getD 0))]

theorem dumpOpt_eq (p : Str) (x : Option Str) : dumpOpt p x = (optValues x).map (p ++ ·) := by
  unfold dumpOpt optValues
  split <;> rfl

theorem dumpNode_eq (ind : Nat) (d : NodeData) : dumpNode ind d = labelled (fieldsOf ind d) ++ [label ind "Children:"] := by
  have hopen : (if d.isOpen = true then [label ind "Open: True"] else []) = (if d.isOpen = true then [lit "True"] else []).map (label ind "Open: " ++ ·) := by
    split
    · simp [label, lit]
    · rfl
  have hblank : (if d.lastLineBlank = true then [label ind "Last line blank: True"] else []) =
      (if d.lastLineBlank = true then [lit "True"] else []).map (label ind "Last line blank: " ++ ·) := by
    split
    · simp [label, lit]
    · rfl
  have hpos : (match d.sourcepos with
     | some p => [label ind "Sourcepos: " ++ sourceposRepr p]
     | none => []) = ((d.sourcepos.map sourceposRepr).toList).map (label ind "Sourcepos: " ++ ·) := by
    cases d.sourcepos <;> rfl
  unfold dumpNode labelled fieldsOf
  simp only [List.flatMap_cons, List.flatMap_nil, List.append_nil, dumpOpt_eq, List.map_cons, List.map_nil]
  change _ ++ _ ++ _ ++ _ ++ (if d.isOpen = true then [label ind "Open: True"] else []) ++ (if d.lastLineBlank = true then [label ind "Last line blank: True"] else []) ++
    (match d.sourcepos with
     | some p => [label ind "Sourcepos: " ++ sourceposRepr p]
     | none => []) ++ _ ++ _ ++ _ ++ _ ++ _ = _
  rw [hopen, hblank, hpos]
  have e0 : indent ind ++ ('[' :: (d.t.name ++ [']'])) = indent ind ++ ['['] ++ (d.t.name ++ [']']) := by simp
  simp only [List.append_assoc]
  refine congrArg₂ (· ++ ·) (by rw [← List.append_assoc]; exact congrArg (fun x => [x]) e0) ?_
  refine congrArg₂ (· ++ ·) rfl ?_
  refine congrArg₂ (· ++ ·) rfl ?_
  refine congrArg₂ (· ++ ·) rfl ?_
  refine congrArg₂ (· ++ ·) rfl ?_
  refine congrArg₂ (· ++ ·) rfl ?_
  refine congrArg₂ (· ++ ·) rfl ?_
  refine congrArg₂ (· ++ ·) rfl ?_
  refine congrArg₂ (· ++ ·) rfl ?_
  refine congrArg₂ (· ++ ·) rfl ?_
  cases d.listData with
  | none => rfl
  | some l =>
    obtain ⟨ty, ti, b, s, de, pa, mo⟩ := l
    rcases b with _ | b <;> rcases s with _ | _ | s <;> rcases de with _ | de <;> rcases pa with _ | pa <;> rcases mo with _ | mo <;>
      simp [natValues, label, label2, indent]

theorem keys_differ {ind : Nat} (h : ind = 0 ∨ ind = 2) (d d' : NodeData) : ∀ g ∈ fieldsOf ind d, ∀ g' ∈ fieldsOf ind d', g'.1 = g.1 ∨ differ g.1 g'.1 = true := by
  have key : ∀ p ∈ (fieldsOf ind ⟨.text, none, false, false, true, none, none, none, none, none, none, false, none, 0, 0, none, 0, none, none⟩).map (·.1),
      ∀ q ∈ (fieldsOf ind ⟨.text, none, false, false, true, none, none, none, none, none, none, false, none, 0, 0, none, 0, none, none⟩).map (·.1),
      q = p ∨ differ p q = true := by
    rcases h with rfl | rfl <;> decide +kernel
  intro g hg g' hg'
  exact key g.1 (List.mem_map_of_mem (f := (·.1)) hg) g'.1 (List.mem_map_of_mem (f := (·.1)) hg')

theorem children_differ {ind : Nat} (h : ind = 0 ∨ ind = 2) (d : NodeData) : ∀ g ∈ fieldsOf ind d, differ g.1 (label ind "Children:") = true := by
  have key : ∀ p ∈ (fieldsOf ind ⟨.text, none, false, false, true, none, none, none, none, none, none, false, none, 0, 0, none, 0, none, none⟩).map (·.1),
      differ p (label ind "Children:") = true := by
    rcases h with rfl | rfl <;> decide +kernel
  intro g hg
  exact key g.1 (List.mem_map_of_mem (f := (·.1)) hg)

theorem labelled_lines {gs : List (Str × List Str)} {l : Str} (h : l ∈ labelled gs) : ∃ g ∈ gs, ∃ v, l = g.1 ++ v := by
  obtain ⟨g, hg, hl⟩ := List.mem_flatMap.1 h
  obtain ⟨v, -, rfl⟩ := List.mem_map.1 hl
  exact ⟨g, hg, v, rfl⟩

theorem append_stop {α : Type} {x : α} : ∀ {a a' L L' : List α}, x ∉ a → x ∉ a' → a ++ x :: L = a' ++ x :: L' → a = a' ∧ L = L'
  | [], [], _, _, _, _, h => ⟨rfl, (List.cons.inj h).2⟩
  | [], y :: a', _, _, _, h2, h => absurd (List.cons.inj h).1 (by rintro rfl; simp at h2)
  | y :: a, [], _, _, h1, _, h => absurd (List.cons.inj h).1 (by rintro rfl; simp at h1)
  | y :: a, z :: a', _, _, h1, h2, h => by
    simp only [List.mem_cons, not_or] at h1 h2
    obtain ⟨e1, e2⟩ := List.cons.inj h
    obtain ⟨e3, e4⟩ := append_stop h1.2 h2.2 e2
    exact ⟨by rw [e1, e3], e4⟩

/-- The lines of a node end where its line for the children comes. -/
theorem dumpNode_split {ind : Nat} (h : ind = 0 ∨ ind = 2) {d d' : NodeData} {L L' : List Str} (e : dumpNode ind d ++ L = dumpNode ind d' ++ L') :
    labelled (fieldsOf ind d) = labelled (fieldsOf ind d') ∧ L = L' := by
  rw [dumpNode_eq, dumpNode_eq, List.append_assoc, List.append_assoc] at e
  have hn : ∀ d : NodeData, label ind "Children:" ∉ labelled (fieldsOf ind d) := by
    intro d hm
    obtain ⟨g, hg, v, hv⟩ := labelled_lines hm
    exact differ_ne (children_differ h d g hg) v [] (by rw [List.append_nil]; exact hv.symm)
  exact append_stop (hn d) (hn d') e

theorem name_inj {k k' : Kind} (h : k.name = k'.name) : k = k' := by
  revert h
  cases k <;> cases k' <;> decide

theorem sourceposRepr_inj {p q : (Nat × Nat) × (Nat × Nat)} (h : sourceposRepr p = sourceposRepr q) : p = q := by
  have hd : ∀ n : Nat, ∀ c ∈ natToStr n, c ≠ ',' ∧ c ≠ ']' := by
    intro n c hc
    exact (by decide : ∀ c ∈ "0123456789".toList, c ≠ ',' ∧ c ≠ ']') c (natToStr_digits n c hc)
  obtain ⟨⟨a, b⟩, c, d⟩ := p
  obtain ⟨⟨a', b'⟩, c', d'⟩ := q
  simp only [sourceposRepr, lit, List.append_assoc] at h
  have h := List.append_cancel_left h
  have hc : ∀ n : Nat, ',' ∉ natToStr n := fun n hm => (hd n _ hm).1 rfl
  have hb : ∀ n : Nat, ']' ∉ natToStr n := fun n hm => (hd n _ hm).2 rfl
  obtain ⟨e1, h⟩ := append_stop (hc a) (hc a') h
  have h := (List.cons.inj h).2
  obtain ⟨e2, h⟩ := append_stop (hb b) (hb b') h
  have h := List.append_cancel_left (as := ", [".toList) h
  obtain ⟨e3, h⟩ := append_stop (hc c) (hc c') h
  have h := (List.cons.inj h).2
  obtain ⟨e4, h⟩ := append_stop (hb d) (hb d') h
  rw [natToStr_inj e1, natToStr_inj e2, natToStr_inj e3, natToStr_inj e4]

/-- The values that are chosen. -/
def chosen : List Bool → List (List Str) → List Str
  | true :: m, v :: vs => v ++ chosen m vs
  | false :: m, _ :: vs => chosen m vs
  | _, _ => []

theorem filter_chosen (p : Str) : ∀ gs : List (Str × List Str),
    (gs.filter (·.1 == p)).flatMap (·.2) = chosen ((gs.map (·.1)).map (· == p)) (gs.map (·.2))
  | [] => rfl
  | g :: gs => by
    have ih := filter_chosen p gs
    cases h : g.1 == p with
    | true => rw [List.filter_cons_of_pos (by simpa using h), List.flatMap_cons, ih]; simp only [List.map_cons, h, chosen]
    | false => rw [List.filter_cons_of_neg (by simp [h]), ih]; simp only [List.map_cons, h, chosen]

/-- The labels. -/
def keys (ind : Nat) : List Str :=
  [indent ind ++ ['['], label ind "Title: ", label ind "Info: ", label ind "Destination: ", label ind "Open: ", label ind "Last line blank: ", label ind "Sourcepos: ", label ind "String content: ", label ind "Info: ", label ind "Literal: ", label ind "List Data: ",
   label2 ind "[type] = ", label2 ind "[bullet_char] = ", label2 ind "[start] = ", label2 ind "[delimiter] = ", label2 ind "[padding] = ", label2 ind "[marker_offset] = "]

theorem keys_eq (ind : Nat) (d : NodeData) : (fieldsOf ind d).map (·.1) = keys ind := rfl

theorem fields_inj {ind : Nat} (h : ind = 0 ∨ ind = 2) {d d' : NodeData} (e : labelled (fieldsOf ind d) = labelled (fieldsOf ind d')) :
    shownData d = shownData d' := by
  have key : ∀ (p : Str) (m : List Bool), p ∈ keys ind → (keys ind).map (· == p) = m →
      chosen m ((fieldsOf ind d).map (·.2)) = chosen m ((fieldsOf ind d').map (·.2)) := by
    rintro p m hp rfl
    rw [← keys_eq ind d] at hp
    obtain ⟨g, hg, rfl⟩ := List.mem_map.1 hp
    have h1 := valuesOf_labelled (p := g.1) (gs := fieldsOf ind d) (fun g' hg' => keys_differ h d d g hg g' hg')
    have h2 := valuesOf_labelled (p := g.1) (gs := fieldsOf ind d') (fun g' hg' => keys_differ h d d' g hg g' hg')
    rw [filter_chosen, keys_eq] at h1 h2
    rw [← h1, ← h2, e]
  have k0 := key (indent ind ++ ['[']) [true, false, false, false, false, false, false, false, false, false, false, false, false, false, false, false, false] (by simp [keys]) (by rcases h with rfl | rfl <;> decide +kernel)
  have k1 := key (label ind "Title: ") [false, true, false, false, false, false, false, false, false, false, false, false, false, false, false, false, false] (by simp [keys]) (by rcases h with rfl | rfl <;> decide +kernel)
  have k2 := key (label ind "Info: ") [false, false, true, false, false, false, false, false, true, false, false, false, false, false, false, false, false] (by simp [keys]) (by rcases h with rfl | rfl <;> decide +kernel)
  have k3 := key (label ind "Destination: ") [false, false, false, true, false, false, false, false, false, false, false, false, false, false, false, false, false] (by simp [keys]) (by rcases h with rfl | rfl <;> decide +kernel)
  have k4 := key (label ind "Open: ") [false, false, false, false, true, false, false, false, false, false, false, false, false, false, false, false, false] (by simp [keys]) (by rcases h with rfl | rfl <;> decide +kernel)
  have k5 := key (label ind "Last line blank: ") [false, false, false, false, false, true, false, false, false, false, false, false, false, false, false, false, false] (by simp [keys]) (by rcases h with rfl | rfl <;> decide +kernel)
  have k6 := key (label ind "Sourcepos: ") [false, false, false, false, false, false, true, false, false, false, false, false, false, false, false, false, false] (by simp [keys]) (by rcases h with rfl | rfl <;> decide +kernel)
  have k7 := key (label ind "String content: ") [false, false, false, false, false, false, false, true, false, false, false, false, false, false, false, false, false] (by simp [keys]) (by rcases h with rfl | rfl <;> decide +kernel)
  have k8 := key (label ind "Literal: ") [false, false, false, false, false, false, false, false, false, true, false, false, false, false, false, false, false] (by simp [keys]) (by rcases h with rfl | rfl <;> decide +kernel)
  have k9 := key (label ind "List Data: ") [false, false, false, false, false, false, false, false, false, false, true, false, false, false, false, false, false] (by simp [keys]) (by rcases h with rfl | rfl <;> decide +kernel)
  have k10 := key (label2 ind "[type] = ") [false, false, false, false, false, false, false, false, false, false, false, true, false, false, false, false, false] (by simp [keys]) (by rcases h with rfl | rfl <;> decide +kernel)
  have k11 := key (label2 ind "[bullet_char] = ") [false, false, false, false, false, false, false, false, false, false, false, false, true, false, false, false, false] (by simp [keys]) (by rcases h with rfl | rfl <;> decide +kernel)
  have k12 := key (label2 ind "[start] = ") [false, false, false, false, false, false, false, false, false, false, false, false, false, true, false, false, false] (by simp [keys]) (by rcases h with rfl | rfl <;> decide +kernel)
  have k13 := key (label2 ind "[delimiter] = ") [false, false, false, false, false, false, false, false, false, false, false, false, false, false, true, false, false] (by simp [keys]) (by rcases h with rfl | rfl <;> decide +kernel)
  have k14 := key (label2 ind "[padding] = ") [false, false, false, false, false, false, false, false, false, false, false, false, false, false, false, true, false] (by simp [keys]) (by rcases h with rfl | rfl <;> decide +kernel)
  have k15 := key (label2 ind "[marker_offset] = ") [false, false, false, false, false, false, false, false, false, false, false, false, false, false, false, false, true] (by simp [keys]) (by rcases h with rfl | rfl <;> decide +kernel)
  simp only [fieldsOf, List.map_cons, List.map_nil, chosen, List.append_nil] at k0 k1 k2 k3 k4 k5 k6 k7 k8 k9 k10 k11 k12 k13 k14 k15
  clear key e
  have sb : ∀ {b b' : Bool}, (if b = true then [lit "True"] else []) = (if b' = true then [lit "True"] else []) → b = b' := by
    intro b b'; cases b <;> cases b' <;> simp
  have so : ∀ {α : Type} {x y : Option α}, x.toList = y.toList → x = y := by
    intro α x y; cases x <;> cases y <;> simp
  have e0 : d.t = d'.t := name_inj (List.append_cancel_right (List.cons.inj k0).1)
  have e2 : d.info = d'.info := by
    refine optValues_inj ?_
    unfold optValues at k2 ⊢
    split at k2 <;> split at k2 <;> simp_all
  have e6 : d.sourcepos = d'.sourcepos := by
    have := so k6
    cases hp : d.sourcepos <;> cases hq : d'.sourcepos <;> simp [hp, hq] at this ⊢
    exact sourceposRepr_inj this
  have el : d.listData.map shownList = d'.listData.map shownList := by
    cases hp : d.listData with
    | none =>
      cases hq : d'.listData with
      | none => rfl
      | some l => simp [hp, hq] at k9
    | some l =>
      cases hq : d'.listData with
      | none => simp [hp, hq] at k9
      | some l' =>
        rw [hp, hq] at k10 k11 k12 k13 k14 k15
        obtain ⟨ty, ti, b, s, de, pa, mo⟩ := l
        obtain ⟨ty', ti', b', s', de', pa', mo'⟩ := l'
        have f1 : ty = ty' := by
          have := so k10
          simp only [Option.map_some, Option.some.injEq] at this
          exact (by decide +kernel : ∀ x y : Bool, (if x = true then lit "bullet" else lit "ordered") = (if y = true then lit "bullet" else lit "ordered") →
            x = y) (ty == .bullet) (ty' == .bullet) this |> fun h => by revert h; cases ty <;> cases ty' <;> simp
        have f2 := so k11
        have f3 := natValues_inj k12
        have f4 := so k13
        have f5 := natValues_inj k14
        have f6 := natValues_inj k15
        have f2' : b = b' := by cases b <;> cases b' <;> simp at f2 ⊢; exact f2
        have f4' : de = de' := by cases de <;> cases de' <;> simp at f4 ⊢; exact f4
        simp only [Option.map_some, Option.getD_some] at f3 f5 f6
        subst f1; subst f2'; subst f4'; subst f5; subst f6
        simp only [shownList, Option.map_some, f3]
  unfold shownData
  rw [e0, optValues_inj k1, e2, optValues_inj k3, sb k4, sb k5, e6, optValues_inj k7, optValues_inj k8, el]

theorem dumpNode_shown (ind : Nat) (d : NodeData) : dumpNode ind (shownData d) = dumpNode ind d := by
  rw [dumpNode_eq, dumpNode_eq]
  have : fieldsOf ind (shownData d) = fieldsOf ind d := by
    unfold fieldsOf shownData
    cases d.listData <;> rfl
  rw [this]

/-- The lines of nodes determine what is shown of them. -/
theorem dump_inj : ∀ {xs ys : List NodeData}, xs.flatMap (dumpNode 2) = ys.flatMap (dumpNode 2) → xs.map shownData = ys.map shownData
  | [], [], _ => rfl
  | [], y :: ys, h => by
    have := congrArg List.length h
    simp [dumpNode_eq] at this
  | x :: xs, [], h => by
    have := congrArg List.length h
    simp [dumpNode_eq] at this
  | x :: xs, y :: ys, h => by
    rw [List.flatMap_cons, List.flatMap_cons] at h
    obtain ⟨h1, h2⟩ := dumpNode_split (.inr rfl) h
    rw [List.map_cons, List.map_cons, fields_inj (.inr rfl) h1, dump_inj h2]

mutual
theorem events_visits (p g : Option NodeData) : ∀ t : Tree, (events p g t).map (·.node) = visits t
  | .node d cs => by
    rw [events, visits]
    split
    · simp [eventsList_visits (some d) p cs]
    · rfl
theorem eventsList_visits (p g : Option NodeData) : ∀ ts : List Tree, (eventsList p g ts).map (·.node) = visitsList ts
  | [] => rfl
  | t :: ts => by rw [eventsList, visitsList, List.map_append, events_visits p g t, eventsList_visits p g ts]
end

theorem dumpAST_eq (t : Tree) : dumpAST t = dumpNode 0 t.data ++ (visits t).flatMap (dumpNode 2) := by
  rw [← events_visits none none t, List.flatMap_map]; rfl

theorem visits_head (t : Tree) : (visits t).head? = some t.data := by
  obtain ⟨d, cs⟩ := t
  rw [visits]; split <;> rfl

end CM
