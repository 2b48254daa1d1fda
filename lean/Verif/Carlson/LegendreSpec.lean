import Mathlib.MeasureTheory.Integral.IntervalIntegral.Basic
import Mathlib.Analysis.SpecialFunctions.Trigonometric.Deriv
import Mathlib.Analysis.SpecialFunctions.Sqrt

/-! # Specification: Legendre's elliptic integrals (DLMF 19.2.4-19.2.8), parameter `m = k²` -/

namespace Verif.Carlson

/-- `F(φ | m)`. -/
noncomputable def legF (φ m : ℝ) : ℝ := ∫ θ in (0 : ℝ)..φ, 1 / √(1 - m * Real.sin θ ^ 2)

/-- `E(φ | m)`. -/
noncomputable def legE (φ m : ℝ) : ℝ := ∫ θ in (0 : ℝ)..φ, √(1 - m * Real.sin θ ^ 2)

/-- `D(φ | m)`. -/
noncomputable def legD (φ m : ℝ) : ℝ := ∫ θ in (0 : ℝ)..φ, Real.sin θ ^ 2 / √(1 - m * Real.sin θ ^ 2)

/-- `Π(n; φ | m)`. -/
noncomputable def legPi (n φ m : ℝ) : ℝ := ∫ θ in (0 : ℝ)..φ, 1 / ((1 - n * Real.sin θ ^ 2) * √(1 - m * Real.sin θ ^ 2))

end Verif.Carlson
