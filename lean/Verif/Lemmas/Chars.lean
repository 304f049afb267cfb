import Verif.Model.Regex

/-! Character level facts, all reduced to arithmetic on code points. -/

namespace Art

theorem toNat_ofNat {n : Nat} (h : n.isValidChar) : (Char.ofNat n).toNat = n := by
  unfold Char.ofNat
  rw [dif_pos h]
  rfl

theorem char_le {a b : Char} : a ≤ b ↔ a.toNat ≤ b.toNat := Iff.rfl
theorem char_eq {a b : Char} : a = b ↔ a.toNat = b.toNat := Char.toNat_inj.symm

theorem foldC_toNat (c : Char) : (foldC c).toNat =
    if 65 ≤ c.toNat ∧ c.toNat ≤ 90 then c.toNat + 32
    else if c.toNat = 0x17F then 115 else if c.toNat = 0x212A then 107 else c.toNat := by
  unfold foldC
  have h1 : ('A' ≤ c ∧ c ≤ 'Z') ↔ (65 ≤ c.toNat ∧ c.toNat ≤ 90) := Iff.rfl
  have h2 : c = longS ↔ c.toNat = 0x17F := by rw [← Char.toNat_inj]; rfl
  have h3 : c = kelvin ↔ c.toNat = 0x212A := by rw [← Char.toNat_inj]; rfl
  simp only [h1, h2, h3]
  split
  · rw [toNat_ofNat]; left; omega
  · split
    · rfl
    · split <;> rfl

theorem upperC_toNat (c : Char) : (upperC c).toNat =
    if 97 ≤ c.toNat ∧ c.toNat ≤ 122 then c.toNat - 32 else c.toNat := by
  unfold upperC
  have h1 : ('a' ≤ c ∧ c ≤ 'z') ↔ (97 ≤ c.toNat ∧ c.toNat ≤ 122) := Iff.rfl
  simp only [h1]
  split
  · rw [toNat_ofNat]; left; omega
  · rfl

theorem nameCharI_toNat (c : Char) : nameCharI c = true ↔
    (65 ≤ c.toNat ∧ c.toNat ≤ 90) ∨ (97 ≤ c.toNat ∧ c.toNat ≤ 122) ∨ (48 ≤ c.toNat ∧ c.toNat ≤ 57) ∨
    c.toNat = 95 ∨ c.toNat = 0x17F ∨ c.toNat = 0x212A := by
  have h0 : nameCharI c = true ↔ (97 ≤ (foldC c).toNat ∧ (foldC c).toNat ≤ 122) ∨
      (48 ≤ (foldC c).toNat ∧ (foldC c).toNat ≤ 57) ∨ (foldC c).toNat = 95 := by
    unfold nameCharI
    simp only [Bool.or_eq_true, Bool.and_eq_true, decide_eq_true_eq, beq_iff_eq, char_le, char_eq,
      or_assoc]
    rfl
  rw [h0, foldC_toNat]
  split
  · omega
  · split
    · omega
    · split <;> omega

theorem upperC_idem (c : Char) : upperC (upperC c) = upperC c := by
  rw [char_eq, upperC_toNat, upperC_toNat]
  split_ifs <;> omega

theorem foldC_upperC (c : Char) : foldC (upperC c) = foldC c := by
  rw [char_eq, foldC_toNat, foldC_toNat, upperC_toNat]
  split_ifs <;> omega

theorem nameCharI_upperC (c : Char) : nameCharI (upperC c) = nameCharI c := by
  unfold nameCharI; rw [foldC_upperC]

@[simp] theorem upper_nil : upper [] = [] := rfl
@[simp] theorem upper_cons (c : Char) (s : Str) : upper (c :: s) = upperC c :: upper s := rfl
@[simp] theorem upper_append (s t : Str) : upper (s ++ t) = upper s ++ upper t := by simp [upper]
@[simp] theorem length_upper (s : Str) : (upper s).length = s.length := by simp [upper]

theorem upper_idem (s : Str) : upper (upper s) = upper s := by
  simp [upper, upperC_idem]

theorem upperC_eq_dash {c : Char} : upperC c = '-' ↔ c = '-' := by
  rw [char_eq, char_eq, upperC_toNat]
  have : ('-' : Char).toNat = 45 := rfl
  rw [this]; split <;> omega

theorem upperC_eq_dot {c : Char} : upperC c = '.' ↔ c = '.' := by
  rw [char_eq, char_eq, upperC_toNat]
  have : ('.' : Char).toNat = 46 := rfl
  rw [this]; split <;> omega

theorem utf8Len_upperC (c : Char) : utf8Len (upperC c) = utf8Len c := by
  unfold utf8Len; rw [upperC_toNat]
  split_ifs <;> omega

theorem utf8Len_ascii {c : Char} (h : c.toNat < 128) : utf8Len c = 1 := by simp [utf8Len, h]

theorem utf8Len_pos (c : Char) : 0 < utf8Len c := by unfold utf8Len; split_ifs <;> omega

end Art
