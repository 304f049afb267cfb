import Mathlib.Data.Rat.Floor
import Mathlib.Algebra.Order.Field.Power
import Mathlib.Algebra.Ring.Parity

/-!
# What floating point numbers are supposed to be
The binary formats of IEEE 754-2008 (section 3.3) and the rounding `roundTiesToEven` (section 4.3.1), for finite numbers without overflow.
-/

namespace Art.Spec

/-- `y` is a number with at most `p` binary digits and exponent at least `emin`. -/
def Representable (p : Nat) (emin : ℤ) (y : ℚ) : Prop := ∃ m e : ℤ, |m| < 2 ^ p ∧ emin ≤ e ∧ y = m * (2 : ℚ) ^ e

/-- `y` is `x` rounded: a representable number, no other is nearer, and if another is as near, then the two are consecutive multiples of a
power of two and `y` is the even one. -/
structure Rounded (p : Nat) (emin : ℤ) (x y : ℚ) : Prop where
  repr : Representable p emin y
  nearest : ∀ z, Representable p emin z → |y - x| ≤ |z - x|
  tie : ∀ z, Representable p emin z → z ≠ y → |y - x| = |z - x| →
    ∃ m e : ℤ, Even m ∧ y = m * (2 : ℚ) ^ e ∧ (z = (m + 1) * (2 : ℚ) ^ e ∨ z = (m - 1) * (2 : ℚ) ^ e)

/-- The type `f64`. -/
abbrev RoundedF64 := Rounded 53 (-1074)

/-- The type `f32`. -/
abbrev RoundedF32 := Rounded 24 (-149)

/-- `v` is what is shown of the ratio `r` by a computation that is off by at most `ε`: the `f32` nearest to a whole number `k` of
thousandths, where `k` is the rounding of `1000 r` up to that error; 100% and 0% are exact. -/
def ShownAs (ε r v : ℚ) : Prop := ∃ k : Nat, k ≤ 1000 ∧ RoundedF32 ((k : ℚ) / 1000) v ∧ |(k : ℚ) - 1000 * r| ≤ 1 / 2 + 1000 * ε ∧
  (r = 1 → k = 1000) ∧ (r = 0 → k = 0)

/-- The error that can pile up in a project of `n` artifacts that have at most `m` slots each. -/
def floatError (n m : Nat) : ℚ := (n * (m + 1) + 1) / 2 ^ 53

end Art.Spec
