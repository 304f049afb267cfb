import Verif.Model.Float
import Verif.Spec.Float
import Mathlib.Tactic.Linarith
import Mathlib.Tactic.Ring
import Mathlib.Tactic.FieldSimp
import Mathlib.Tactic.NormNum
import Mathlib.Tactic.Positivity
import Mathlib.Tactic.Push

/-! # Helper lemmas about floating point numbers -/

namespace Art
open Spec

theorem pow2_eq (e : ℤ) : pow2 e = (2 : ℚ) ^ e := by
  cases e with
  | ofNat n => simp [pow2]
  | negSucc n => simp [pow2, zpow_negSucc]

theorem two_zpow_pos (e : ℤ) : (0 : ℚ) < (2 : ℚ) ^ e := zpow_pos (by norm_num) e

theorem two_zpow_le {a b : ℤ} (h : a ≤ b) : (2 : ℚ) ^ a ≤ (2 : ℚ) ^ b := zpow_le_zpow_right₀ (by norm_num) h

theorem two_zpow_add (a b : ℤ) : (2 : ℚ) ^ (a + b) = (2 : ℚ) ^ a * (2 : ℚ) ^ b := zpow_add₀ (by norm_num) a b

theorem log2_bounds {n : Nat} (h : n ≠ 0) : (2 : ℚ) ^ (Nat.log2 n : ℤ) ≤ n ∧ (n : ℚ) < (2 : ℚ) ^ ((Nat.log2 n : ℤ) + 1) := by
  constructor
  · rw [zpow_natCast]; exact_mod_cast Nat.log2_self_le h
  · rw [show ((Nat.log2 n : ℤ) + 1) = ((Nat.log2 n + 1 : Nat) : ℤ) by push_cast; rfl, zpow_natCast]
    exact_mod_cast Nat.lt_log2_self

theorem abs_eq_num (x : ℚ) : |x| = (x.num.natAbs : ℚ) / x.den := by
  have hd : (0 : ℚ) < x.den := by exact_mod_cast x.den_pos
  conv_lhs => rw [← Rat.num_div_den x]
  rw [abs_div, abs_of_pos hd, Nat.cast_natAbs, Int.cast_abs]

/-- The exponent is that of the leading digit. -/
theorem ilog_spec {x : ℚ} (h : x ≠ 0) : (2 : ℚ) ^ ilog x ≤ |x| ∧ |x| < (2 : ℚ) ^ (ilog x + 1) := by
  have hn : x.num.natAbs ≠ 0 := by simpa using h
  obtain ⟨a1, a2⟩ := log2_bounds hn
  obtain ⟨b1, b2⟩ := log2_bounds x.den_nz
  have hx := abs_eq_num x
  have hd : (0 : ℚ) < x.den := by exact_mod_cast x.den_pos
  unfold ilog
  simp only [pow2_eq]
  generalize (Nat.log2 x.num.natAbs : ℤ) = a at *
  generalize (Nat.log2 x.den : ℤ) = b at *
  have up : |x| < (2 : ℚ) ^ (a - b + 1) := by
    rw [hx, div_lt_iff₀ hd]
    have : (2 : ℚ) ^ (a - b + 1) * 2 ^ b = 2 ^ (a + 1) := by rw [← two_zpow_add]; congr 1; ring
    have h2 := mul_le_mul_of_nonneg_left b1 (two_zpow_pos (a - b + 1)).le
    linarith
  have low : (2 : ℚ) ^ (a - b - 1) ≤ |x| := by
    rw [hx, le_div_iff₀ hd]
    have : (2 : ℚ) ^ (a - b - 1) * 2 ^ (b + 1) = 2 ^ a := by rw [← two_zpow_add]; congr 1; ring
    have h2 := mul_le_mul_of_nonneg_left b2.le (two_zpow_pos (a - b - 1)).le
    linarith
  split
  · rename_i hc; exact ⟨hc, up⟩
  · rename_i hc
    refine ⟨low, ?_⟩
    rw [show a - b - 1 + 1 = a - b by ring]
    exact lt_of_not_ge hc

/-! ## rounding to integers -/

theorem roundEven_near (x : ℚ) : |(roundEven x : ℚ) - x| ≤ 1 / 2 := by
  have h1 := Int.floor_le x
  have h2 := Int.lt_floor_add_one x
  unfold roundEven
  simp only
  split
  · rw [abs_le]; constructor <;> linarith
  · split
    · push_cast; rw [abs_le]; constructor <;> linarith
    · have : x - ⌊x⌋ = 1 / 2 := le_antisymm (by linarith) (by linarith)
      split
      · rw [abs_le]; constructor <;> linarith
      · push_cast; rw [abs_le]; constructor <;> linarith

theorem roundEven_best (x : ℚ) (n : ℤ) : |(roundEven x : ℚ) - x| ≤ |(n : ℚ) - x| := by
  by_cases h : n = roundEven x
  · rw [h]
  · have h1 := roundEven_near x
    have h2 : (1 : ℚ) ≤ |(n : ℚ) - roundEven x| := by
      have : (1 : ℤ) ≤ |n - roundEven x| := Int.one_le_abs (sub_ne_zero.2 h)
      exact_mod_cast this
    have h3 : |(n : ℚ) - roundEven x| ≤ |(n : ℚ) - x| + |(roundEven x : ℚ) - x| := by
      have := abs_sub_le (n : ℚ) x (roundEven x)
      rwa [abs_sub_comm x] at this
    linarith

theorem roundEven_int (n : ℤ) : roundEven (n : ℚ) = n := by
  unfold roundEven
  simp

theorem roundEven_tie {x : ℚ} {n : ℤ} (hn : n ≠ roundEven x) (h : |(roundEven x : ℚ) - x| = |(n : ℚ) - x|) :
    Even (roundEven x) ∧ (n = roundEven x + 1 ∨ n = roundEven x - 1) := by
  have h1 := roundEven_near x
  have h2 : (1 : ℚ) ≤ |(n : ℚ) - roundEven x| := by
    have : (1 : ℤ) ≤ |n - roundEven x| := Int.one_le_abs (sub_ne_zero.2 hn)
    exact_mod_cast this
  have h3 : |(n : ℚ) - roundEven x| ≤ |(n : ℚ) - x| + |(roundEven x : ℚ) - x| := by
    have := abs_sub_le (n : ℚ) x (roundEven x)
    rwa [abs_sub_comm x] at this
  have h4 : |(roundEven x : ℚ) - x| = 1 / 2 := by linarith
  have h5 : |(n : ℚ) - roundEven x| = 1 := by linarith
  have h5' : |n - roundEven x| = 1 := by exact_mod_cast h5
  refine ⟨?_, ?_⟩
  · have g1 := Int.floor_le x
    have g2 := Int.lt_floor_add_one x
    revert h4
    unfold roundEven
    simp only
    split
    · intro h4
      rw [abs_of_nonpos (by linarith)] at h4
      linarith
    · split
      · push_cast
        intro h4
        rw [abs_of_nonneg (by linarith)] at h4
        linarith
      · split
        · rename_i h; intro _; exact Int.even_iff.2 h
        · rename_i h; intro _; rw [Int.even_iff]; omega
  · rcases (abs_eq (by norm_num)).1 h5' with h | h
    · left; linarith
    · right; linarith

/-! ## rounding -/

theorem roundTo_eq (p : Nat) (emin : ℤ) (x : ℚ) : roundTo p emin x =
    (roundEven (x / 2 ^ (max (ilog x - ((p : ℤ) - 1)) emin)) : ℚ) * 2 ^ (max (ilog x - ((p : ℤ) - 1)) emin) := by
  unfold roundTo
  simp only [pow2_eq]

theorem scale_near {x s : ℚ} (hs : 0 < s) (n : ℤ) : |(n : ℚ) * s - x| = |(n : ℚ) - x / s| * s := by
  rw [← abs_of_pos hs, ← abs_mul, abs_of_pos hs]
  congr 1
  field_simp

/-- The rounding of the model is the rounding of IEEE 754. -/
theorem roundTo_rounded {p : Nat} (hp : 0 < p) (emin : ℤ) (x : ℚ) : Rounded p emin x (roundTo p emin x) := by
  by_cases hx : x = 0
  · subst hx
    have h0 : roundTo p emin 0 = 0 := by
      rw [roundTo_eq, zero_div, show roundEven 0 = 0 from roundEven_int 0, Int.cast_zero, zero_mul]
    rw [h0]
    refine ⟨⟨0, emin, by simp, le_refl _, by simp⟩, fun z _ => by simp, fun z _ hz he => ?_⟩
    exact absurd (by simpa using he.symm) hz
  rw [roundTo_eq]
  generalize he : max (ilog x - ((p : ℤ) - 1)) emin = e
  have hs := two_zpow_pos e
  have hmin : emin ≤ e := he ▸ le_max_right _ _
  have hlog : ilog x - ((p : ℤ) - 1) ≤ e := he ▸ le_max_left _ _
  -- representable numbers that are not multiples of `2 ^ e` are farther away
  have off : ∀ z, Representable p emin z → (∃ n : ℤ, z = n * 2 ^ e) ∨ |(roundEven (x / 2 ^ e) : ℚ) * 2 ^ e - x| < |z - x| := by
    rintro z ⟨m, e', hm, hee, rfl⟩
    by_cases hle : e ≤ e'
    · left
      obtain ⟨k, hk⟩ := Int.le.dest hle
      refine ⟨m * 2 ^ k, ?_⟩
      rw [← hk, two_zpow_add, zpow_natCast]
      push_cast
      ring
    · push Not at hle
      right
      have hel : e = ilog x - ((p : ℤ) - 1) := by
        rcases max_choice (ilog x - ((p : ℤ) - 1)) emin with h | h
        · rw [← he, h]
        · rw [he] at h; omega
      have hz : |(m : ℚ) * 2 ^ e'| < 2 ^ ilog x := by
        rw [abs_mul, abs_of_pos (two_zpow_pos e')]
        have h1 : |(m : ℚ)| < (2 : ℚ) ^ (p : ℤ) := by rw [zpow_natCast]; exact_mod_cast hm
        have h2 : (2 : ℚ) ^ (p : ℤ) * 2 ^ e' ≤ 2 ^ ilog x := by
          rw [← two_zpow_add]; exact two_zpow_le (by omega)
        exact lt_of_lt_of_le (mul_lt_mul_of_pos_right h1 (two_zpow_pos e')) h2
      · obtain ⟨l1, -⟩ := ilog_spec hx
        -- the number `± 2 ^ ilog x` is a multiple and lies between
        have hk : (2 : ℚ) ^ ilog x = ((2 ^ (p - 1) : ℤ) : ℚ) * 2 ^ e := by
          push_cast
          rw [← zpow_natCast, ← two_zpow_add]
          congr 1
          omega
        rcases lt_or_gt_of_ne hx with hneg | hpos
        · have := roundEven_best (x / 2 ^ e) (-(2 ^ (p - 1)))
          have h3 : |(roundEven (x / 2 ^ e) : ℚ) * 2 ^ e - x| ≤ |-(2 : ℚ) ^ ilog x - x| := by
            rw [scale_near hs, hk, ← neg_mul, ← Int.cast_neg, scale_near hs]
            exact mul_le_mul_of_nonneg_right this hs.le
          rw [abs_of_neg hneg] at l1
          rw [abs_of_nonneg (a := -(2 : ℚ) ^ ilog x - x) (by linarith)] at h3
          have h4 := abs_lt.1 hz
          rw [abs_of_nonneg (a := (m : ℚ) * 2 ^ e' - x) (by linarith)]
          linarith
        · have := roundEven_best (x / 2 ^ e) (2 ^ (p - 1))
          have h3 : |(roundEven (x / 2 ^ e) : ℚ) * 2 ^ e - x| ≤ |(2 : ℚ) ^ ilog x - x| := by
            rw [scale_near hs, hk, scale_near hs]
            exact mul_le_mul_of_nonneg_right this hs.le
          rw [abs_of_pos hpos] at l1
          rw [abs_of_nonpos (a := (2 : ℚ) ^ ilog x - x) (by linarith)] at h3
          have h4 := abs_lt.1 hz
          rw [abs_of_nonpos (a := (m : ℚ) * 2 ^ e' - x) (by linarith)]
          linarith
  refine ⟨?_, ?_, ?_⟩
  · obtain ⟨-, l2⟩ := ilog_spec hx
    have hb : |x / 2 ^ e| ≤ ((2 ^ p : ℤ) : ℚ) := by
      rw [abs_div, abs_of_pos hs, div_le_iff₀ hs]
      push_cast
      rw [← zpow_natCast, ← two_zpow_add]
      exact l2.le.trans (two_zpow_le (by omega))
    have hb2 := abs_le.1 hb
    have hm : |roundEven (x / 2 ^ e)| ≤ 2 ^ p := by
      have n1 := abs_le.1 (roundEven_near (x / 2 ^ e))
      rw [abs_le]
      constructor
      · have : ((-(2 ^ p : ℤ) : ℤ) : ℚ) - 1 < roundEven (x / 2 ^ e) := by rw [Int.cast_neg]; linarith [hb2.1, n1.1]
        have : -(2 ^ p : ℤ) - 1 < roundEven (x / 2 ^ e) := by exact_mod_cast this
        omega
      · have : (roundEven (x / 2 ^ e) : ℚ) < ((2 ^ p : ℤ) : ℚ) + 1 := by linarith [hb2.2, n1.2]
        have : roundEven (x / 2 ^ e) < (2 ^ p : ℤ) + 1 := by exact_mod_cast this
        omega
    rcases lt_or_eq_of_le hm with h | h
    · exact ⟨_, e, h, hmin, rfl⟩
    · have hpp : (p : ℤ) = ((p - 1 : Nat) : ℤ) + 1 := by omega
      have h1p : (1 : ℤ) < 2 ^ p := one_lt_pow₀ (by norm_num) (by omega)
      rcases (abs_eq (by positivity)).1 h with h | h
      · refine ⟨1, p + e, by simpa using h1p, by omega, ?_⟩
        rw [h, two_zpow_add, zpow_natCast]; push_cast; ring
      · refine ⟨-1, p + e, by simpa using h1p, by omega, ?_⟩
        rw [h, two_zpow_add, zpow_natCast]; push_cast; ring
  · intro z hz
    rcases off z hz with ⟨n, rfl⟩ | h
    · rw [scale_near hs, scale_near hs]
      exact mul_le_mul_of_nonneg_right (roundEven_best _ n) hs.le
    · exact h.le
  · intro z hz hne heq
    rcases off z hz with ⟨n, rfl⟩ | h
    · rw [scale_near hs, scale_near hs] at heq
      have heq := mul_right_cancel₀ hs.ne' heq
      have hn : n ≠ roundEven (x / 2 ^ e) := by rintro rfl; exact hne rfl
      obtain ⟨h1, h2⟩ := roundEven_tie hn heq
      refine ⟨_, e, h1, rfl, ?_⟩
      rcases h2 with h2 | h2
      · left; rw [h2]; push_cast; rfl
      · right; rw [h2]; push_cast; rfl
    · exact absurd heq h.ne

/-! ## consequences -/

/-- What is used of a rounding: monotone, exact on the integers up to `B`, and with error at most `u` relative to any bound of the number. -/
structure Rounding (fl : ℚ → ℚ) (u : ℚ) (B : Nat) : Prop where
  u0 : 0 ≤ u
  mono : ∀ {x y}, x ≤ y → fl x ≤ fl y
  nat : ∀ {n : Nat}, n ≤ B → fl n = n
  err : ∀ {x c}, 0 ≤ x → x ≤ c → 1 ≤ c → |fl x - x| ≤ c * u

theorem Spec.Rounded.le {p : Nat} {emin : ℤ} {x y a b : ℚ} (ha : Rounded p emin x a) (hb : Rounded p emin y b) (h : x ≤ y) :
    a ≤ b ∨ x = y := by
  by_contra hc
  push Not at hc
  obtain ⟨hlt, hne⟩ := hc
  have hxy := lt_of_le_of_ne h hne
  have h1 := ha.nearest b hb.repr
  have h2 := hb.nearest a ha.repr
  have g1 : x ≥ (a + b) / 2 := by
    by_contra hx
    push Not at hx
    rw [abs_of_pos (by linarith)] at h1
    rcases le_total 0 (b - x) with h | h
    · rw [abs_of_nonneg h] at h1; linarith
    · rw [abs_of_nonpos h] at h1; linarith
  have g2 : y ≤ (a + b) / 2 := by
    by_contra hy
    push Not at hy
    rw [abs_of_neg (a := b - y) (by linarith)] at h2
    rcases le_total 0 (a - y) with h | h
    · rw [abs_of_nonneg h] at h2; linarith
    · rw [abs_of_nonpos h] at h2; linarith
  linarith

theorem roundTo_mono {p : Nat} (hp : 0 < p) (emin : ℤ) {x y : ℚ} (h : x ≤ y) : roundTo p emin x ≤ roundTo p emin y := by
  rcases (roundTo_rounded hp emin x).le (roundTo_rounded hp emin y) h with h | h
  · exact h
  · rw [h]

theorem roundTo_repr {p : Nat} (hp : 0 < p) {emin : ℤ} {x : ℚ} (h : Representable p emin x) : roundTo p emin x = x := by
  have := (roundTo_rounded hp emin x).nearest x h
  rw [sub_self, abs_zero] at this
  exact sub_eq_zero.1 (abs_nonpos_iff.1 this)

theorem roundTo_nat {p : Nat} (hp : 0 < p) {emin : ℤ} (he : emin ≤ 0) {n : Nat} (h : n ≤ 2 ^ p) : roundTo p emin n = n := by
  apply roundTo_repr hp
  rcases lt_or_eq_of_le h with h | h
  · exact ⟨n, 0, by rw [Nat.abs_cast]; exact_mod_cast h, he, by simp⟩
  · have h1p : (1 : ℤ) < 2 ^ p := one_lt_pow₀ (by norm_num) (by omega)
    refine ⟨1, p, by simpa using h1p, by omega, ?_⟩
    rw [h, zpow_natCast]; push_cast; ring

theorem roundTo_err {p : Nat} {emin : ℤ} (he : emin ≤ 1 - p) {x c : ℚ} (h0 : 0 ≤ x) (hc : x ≤ c) (h1 : 1 ≤ c) :
    |roundTo p emin x - x| ≤ c * (1 / 2 ^ p) := by
  rw [roundTo_eq]
  generalize hee : max (ilog x - ((p : ℤ) - 1)) emin = e
  have hs := two_zpow_pos e
  rw [scale_near hs]
  have hn := mul_le_mul_of_nonneg_right (roundEven_near (x / 2 ^ e)) hs.le
  refine hn.trans ?_
  have hp : (1 : ℚ) / 2 ^ p = 2 ^ (-(p : ℤ)) := by rw [zpow_neg, zpow_natCast, one_div]
  have h2 : (1 : ℚ) / 2 * 2 ^ e = 2 ^ (e - 1) := by
    rw [sub_eq_add_neg, two_zpow_add]; norm_num [mul_comm]
  rw [hp, h2]
  have hpp := two_zpow_pos (-(p : ℤ))
  by_cases hx : x = 0
  · have h0' : ilog x = -1 := by rw [hx]; decide +kernel
    rw [h0'] at hee
    have : e ≤ 1 - p := by rw [← hee]; exact max_le (by omega) he
    have h3 : (2 : ℚ) ^ (e - 1) ≤ 2 ^ (-(p : ℤ)) := two_zpow_le (by omega)
    nlinarith
  · rcases max_choice (ilog x - ((p : ℤ) - 1)) emin with h | h
    · rw [hee] at h
      obtain ⟨l1, -⟩ := ilog_spec hx
      rw [abs_of_nonneg h0] at l1
      rw [show e - 1 = ilog x + -(p : ℤ) by omega, two_zpow_add]
      exact mul_le_mul_of_nonneg_right (l1.trans hc) hpp.le
    · rw [hee] at h
      have h3 : (2 : ℚ) ^ (e - 1) ≤ 2 ^ (-(p : ℤ)) := two_zpow_le (by omega)
      nlinarith

theorem f64_rounding : Rounding f64 (1 / 2 ^ 53) (2 ^ 53) where
  u0 := by positivity
  mono h := roundTo_mono (by norm_num) _ h
  nat h := roundTo_nat (by norm_num) (by norm_num) h
  err h0 hc h1 := roundTo_err (by norm_num) h0 hc h1

theorem id_rounding (B : Nat) : Rounding id 0 B where
  u0 := le_refl _
  mono h := h
  nat _ := rfl
  err _ _ _ := by simp

end Art
