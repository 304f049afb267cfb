import Verif.Spec.Completion
import Verif.Model.Graph
import Mathlib.Algebra.BigOperators.Group.List.Basic
import Mathlib.Algebra.Order.BigOperators.Group.List
import Mathlib.Algebra.Order.Field.Rat
import Mathlib.Algebra.Order.Field.Basic
import Mathlib.Algebra.Order.Floor.Ring
import Mathlib.Tactic.Linarith
import Mathlib.Tactic.Positivity
import Mathlib.Tactic.FieldSimp
import Mathlib.Tactic.NormNum
import Mathlib.Tactic.Ring
import Mathlib.Data.Rat.Cast.Order

/-! # Averages and rounding -/

namespace Art
open Spec

/-- A ratio. -/
def Unit01 (x : ℚ) : Prop := 0 ≤ x ∧ x ≤ 1

theorem sum_bounds {l : List ℚ} (h : ∀ x ∈ l, Unit01 x) : 0 ≤ l.sum ∧ l.sum ≤ l.length := by
  induction l with
  | nil => simp
  | cons x l ih =>
    obtain ⟨h1, h2⟩ := ih (fun y hy => h y (by simp [hy]))
    obtain ⟨h3, h4⟩ := h x (by simp)
    rw [List.sum_cons, List.length_cons, Nat.cast_add, Nat.cast_one]
    constructor <;> linarith

theorem avg_nil : avg [] = 0 := by simp [avg]

theorem avg_bounds {l : List ℚ} (h : ∀ x ∈ l, Unit01 x) : Unit01 (avg l) := by
  unfold avg Unit01
  split
  · exact ⟨le_refl _, zero_le_one⟩
  · rename_i hne
    have hpos : (0 : ℚ) < l.length := by
      have : 0 < l.length := List.length_pos_iff.2 hne
      exact_mod_cast this
    obtain ⟨h1, h2⟩ := sum_bounds h
    exact ⟨div_nonneg h1 hpos.le, (div_le_one hpos).2 h2⟩

theorem sum_eq_length {l : List ℚ} (h : ∀ x ∈ l, x ≤ 1) : l.sum = l.length ↔ ∀ x ∈ l, x = 1 := by
  have hle : ∀ l : List ℚ, (∀ x ∈ l, x ≤ 1) → l.sum ≤ l.length := by
    intro l
    induction l with
    | nil => simp
    | cons x l ih =>
      intro h
      have h1 := ih (fun y hy => h y (by simp [hy]))
      have h2 := h x (by simp)
      rw [List.sum_cons, List.length_cons, Nat.cast_add, Nat.cast_one]; linarith
  induction l with
  | nil => simp
  | cons x l ih =>
    have h1 := hle l (fun y hy => h y (by simp [hy]))
    have h2 := h x (by simp)
    rw [List.sum_cons, List.length_cons, Nat.cast_add, Nat.cast_one]
    have ih' := ih (fun y hy => h y (by simp [hy]))
    simp only [List.mem_cons, forall_eq_or_imp]
    constructor
    · intro e; exact ⟨by linarith, ih'.1 (by linarith)⟩
    · rintro ⟨e1, e2⟩; have := ih'.2 e2; linarith

theorem avg_eq_one {l : List ℚ} (h : ∀ x ∈ l, x ≤ 1) : avg l = 1 ↔ l ≠ [] ∧ ∀ x ∈ l, x = 1 := by
  unfold avg
  split
  · rename_i he
    simp [he]
  · rename_i hne
    have hpos : (0 : ℚ) < l.length := by
      have : 0 < l.length := List.length_pos_iff.2 hne
      exact_mod_cast this
    rw [div_eq_one_iff_eq hpos.ne', sum_eq_length h]
    exact ⟨fun h => ⟨hne, h⟩, fun h => h.2⟩

theorem sum_le_of_forall₂ {l m : List ℚ} (h : List.Forall₂ (· ≤ ·) l m) : l.sum ≤ m.sum := by
  induction h with
  | nil => exact le_refl _
  | cons h _ ih => rw [List.sum_cons, List.sum_cons]; linarith

theorem avg_le_of_forall₂ {l m : List ℚ} (h : List.Forall₂ (· ≤ ·) l m) : avg l ≤ avg m := by
  have hlen := h.length_eq
  unfold avg
  by_cases hl : l = []
  · subst hl
    have : m = [] := List.length_eq_zero_iff.1 (by simpa using hlen.symm)
    rw [this]
  · have hm : m ≠ [] := by
      rintro rfl
      exact hl (List.length_eq_zero_iff.1 (by simpa using hlen))
    rw [if_neg hl, if_neg hm, hlen]
    exact div_le_div_of_nonneg_right (sum_le_of_forall₂ h) (Nat.cast_nonneg _)

theorem avg_le_cons_one {l : List ℚ} (h : ∀ x ∈ l, Unit01 x) : avg l ≤ avg (1 :: l) := by
  unfold avg
  rw [if_neg (by simp : (1 :: l) ≠ [])]
  obtain ⟨h1, h2⟩ := sum_bounds h
  by_cases hl : l = []
  · subst hl; simp
  · rw [if_neg hl]
    have hpos : (0 : ℚ) < l.length := by
      have : 0 < l.length := List.length_pos_iff.2 hl
      exact_mod_cast this
    rw [List.sum_cons, List.length_cons, Nat.cast_add, Nat.cast_one,
      div_le_div_iff₀ hpos (by linarith)]
    nlinarith

theorem avg_perm {l m : List ℚ} (h : l.Perm m) : avg l = avg m := by
  unfold avg
  by_cases hl : l = []
  · subst hl
    have : m = [] := h.nil_eq.symm
    subst this
    rfl
  · have hm : m ≠ [] := fun e => hl (by rw [e] at h; exact h.eq_nil)
    rw [if_neg hl, if_neg hm, h.sum_eq, h.length_eq]

/-! ## rounding -/

theorem roundQ_bounds (x : ℚ) : |(roundQ x : ℚ) - x| ≤ 1 / 2 := by
  unfold roundQ
  split
  · have h1 := Int.floor_le (x + 1 / 2)
    have h2 := Int.lt_floor_add_one (x + 1 / 2)
    rw [abs_le]
    constructor <;> linarith
  · have h1 := Int.le_ceil (x - 1 / 2)
    have h2 := Int.ceil_lt_add_one (x - 1 / 2)
    rw [abs_le]
    constructor <;> linarith

theorem roundRatio_close (x : ℚ) : |roundRatio x - x| ≤ 1 / 2000 := by
  have h := roundQ_bounds (x * 1000)
  unfold roundRatio
  rw [abs_le] at *
  constructor <;> linarith [h.1, h.2]

theorem roundQ_mono {x y : ℚ} (hx : 0 ≤ x) (h : x ≤ y) : roundQ x ≤ roundQ y := by
  unfold roundQ
  rw [if_pos hx, if_pos (hx.trans h)]
  exact Int.floor_le_floor (by linarith)

theorem roundRatio_mono {x y : ℚ} (hx : 0 ≤ x) (h : x ≤ y) : roundRatio x ≤ roundRatio y := by
  unfold roundRatio
  have := roundQ_mono (x := x * 1000) (y := y * 1000) (by linarith) (by linarith)
  have h2 : (roundQ (x * 1000) : ℚ) ≤ roundQ (y * 1000) := by exact_mod_cast this
  linarith

theorem roundRatio_zero : roundRatio 0 = 0 := by
  unfold roundRatio roundQ
  norm_num

theorem roundRatio_one : roundRatio 1 = 1 := by
  unfold roundRatio roundQ
  norm_num [Int.floor_eq_iff]

theorem roundRatio_unit {x : ℚ} (h : Unit01 x) : Unit01 (roundRatio x) := by
  constructor
  · rw [← roundRatio_zero]; exact roundRatio_mono (le_refl _) h.1
  · rw [← roundRatio_one]; exact roundRatio_mono h.1 h.2

theorem roundRatio_eq_one {x : ℚ} (h : Unit01 x) : roundRatio x = 1 ↔ 1999 / 2000 ≤ x := by
  unfold roundRatio roundQ
  rw [if_pos (by linarith [h.1]), div_eq_iff (by norm_num)]
  rw [show (1 : ℚ) * 1000 = ((1000 : ℤ) : ℚ) by norm_num, Int.cast_inj, Int.floor_eq_iff]
  push_cast
  constructor
  · rintro ⟨h1, h2⟩; linarith
  · intro h1; constructor <;> linarith [h.2]

theorem roundRatio_eq_zero {x : ℚ} (h : Unit01 x) : roundRatio x = 0 ↔ x < 1 / 2000 := by
  unfold roundRatio roundQ
  rw [if_pos (by linarith [h.1]), div_eq_iff (by norm_num)]
  rw [show (0 : ℚ) * 1000 = ((0 : ℤ) : ℚ) by norm_num, Int.cast_inj, Int.floor_eq_iff]
  push_cast
  constructor
  · rintro ⟨h1, h2⟩; linarith
  · intro h1; constructor <;> linarith [h.1]

end Art
