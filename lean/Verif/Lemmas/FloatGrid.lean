import Verif.Model.Float

/-! # The thousand and one ratios that can be shown -/

namespace Art

/-- Everything that depends on the number of thousandths shown, for all of them: the value, the colours, the printed numbers. -/
theorem grid : ∀ k : Fin 1001, f32 (f64 ((k.1 : ℚ) / 1000)) = f32 ((k.1 : ℚ) / 1000) ∧
    Completed.spcPointsF ⟨f32 ((k.1 : ℚ) / 1000), 0⟩ = Completed.spcPoints ⟨(k.1 : ℚ) / 1000, 0⟩ ∧
    Completed.tstPointsF ⟨0, f32 ((k.1 : ℚ) / 1000)⟩ = Completed.tstPoints ⟨0, (k.1 : ℚ) / 1000⟩ ∧
    tenthsF (f32 ((k.1 : ℚ) / 1000)) = k.1 ∧ |f32 (f32 ((k.1 : ℚ) / 1000) * 100) * 10 - k.1| < 1 / 100 ∧
    hundredthsF (f32 ((k.1 : ℚ) / 1000)) = 10 * k.1 ∧ |f32 (f32 ((k.1 : ℚ) / 1000) * 100) * 100 - 10 * k.1| < 1 / 100 := by
  decide +kernel

end Art
