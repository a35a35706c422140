import Verif.Proofs.Entity
/-
Facts about the entity table that are checked entry by entry.
-/
namespace CM

/-! ### Named references -/

/-- The bytes of a name. -/
def nameBytes (s : String) : List Nat := s.toByteArray.data.toList.map UInt8.toNat

theorem nameBytes_inj {a b : String} (h : nameBytes a = nameBytes b) : a = b := by
  have h1 : a.toByteArray.data.toList = b.toByteArray.data.toList :=
    (List.map_inj_right fun x y hxy => UInt8.toNat_inj.1 hxy).1 h
  have h2 : a.toByteArray = b.toByteArray := ByteArray.ext (Array.toList_inj.1 h1)
  exact String.toByteArray_inj.1 h2

def lowerByte (n : Nat) : Nat := if 65 ≤ n && n ≤ 90 then n + 32 else n

def ltNats : List Nat → List Nat → Bool
  | [], [] => false
  | [], _ :: _ => true
  | _ :: _, [] => false
  | a :: as, b :: bs => if a == b then ltNats as bs else decide (a < b)

theorem ltNats_irrefl : ∀ s, ltNats s s = false
  | [] => rfl
  | a :: as => by simp [ltNats, ltNats_irrefl as]

theorem ltNats_trans : ∀ {a b c : List Nat}, ltNats a b = true → ltNats b c = true → ltNats a c = true
  | [], [], _, h, _ => by cases h
  | [], _ :: _, [], _, h => by cases h
  | [], _ :: _, _ :: _, _, _ => rfl
  | _ :: _, [], _, h, _ => by cases h
  | _ :: _, _ :: _, [], _, h => by cases h
  | x :: xs, y :: ys, z :: zs, h1, h2 => by
    simp only [ltNats, beq_iff_eq] at h1 h2 ⊢
    split at h1
    · subst_vars
      split at h2
      · subst_vars; simp only [ite_true]; exact ltNats_trans h1 h2
      · rename_i hne; rw [if_neg hne]; exact h2
    · split at h2
      · subst_vars; rename_i hne; rw [if_neg hne]; exact h1
      · simp only [decide_eq_true_eq] at h1 h2
        rw [if_neg]
        · simp only [decide_eq_true_eq]; omega
        · rintro rfl; omega

/-- The order of the table: by lower-case name, then by name. -/
def ltKey (a b : String) : Bool :=
  ltNats ((nameBytes a).map lowerByte) ((nameBytes b).map lowerByte) ||
    ((nameBytes a).map lowerByte == (nameBytes b).map lowerByte && ltNats (nameBytes a) (nameBytes b))

theorem ltKey_irrefl (s : String) : ltKey s s = false := by simp [ltKey, ltNats_irrefl]

theorem ltKey_trans {a b c : String} (h1 : ltKey a b = true) (h2 : ltKey b c = true) : ltKey a c = true := by
  simp only [ltKey, Bool.or_eq_true, Bool.and_eq_true, beq_iff_eq] at *
  rcases h1 with h1 | ⟨h1, h1'⟩ <;> rcases h2 with h2 | ⟨h2, h2'⟩
  · exact Or.inl (ltNats_trans h1 h2)
  · exact Or.inl (h2 ▸ h1)
  · exact Or.inl (h1 ▸ h2)
  · exact Or.inr ⟨h1.trans h2, ltNats_trans h1' h2'⟩

def sortedKeys : List (String × List Nat) → Bool
  | [] => true
  | [_] => true
  | a :: b :: r => ltKey a.1 b.1 && sortedKeys (b :: r)

theorem html5_sorted : sortedKeys html5Tab = true := by decide +kernel

/-- Shape of the names that end with a semicolon. -/
def goodName (s : Str) : Bool :=
  match s with
  | [] => false
  | x :: r => isAlpha x && r.getLast? == some ';' && 1 ≤ r.dropLast.length && r.dropLast.length ≤ 31 && r.dropLast.all isAlnum

theorem html5_names : (html5Tab.all fun e => e.1.toList.getLast? != some ';' || goodName e.1.toList) = true := by
  decide +kernel

end CM
