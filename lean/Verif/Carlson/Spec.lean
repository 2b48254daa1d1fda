import Mathlib.MeasureTheory.Integral.IntegralEqImproper
import Mathlib.Analysis.SpecialFunctions.Sqrt

/-! # Specification: Carlson's symmetric elliptic integrals for real arguments (DLMF 19.16, 19.2.17) -/

namespace Verif.Carlson

open MeasureTheory Set

/-- `R_F(x, y, z)`, DLMF 19.16.1. -/
noncomputable def RF (x y z : ℝ) : ℝ := 1 / 2 * ∫ t in Ioi (0 : ℝ), 1 / (√(t + x) * √(t + y) * √(t + z))

/-- `R_C(x, y)`, DLMF 19.2.17, for `y > 0`. -/
noncomputable def RC (x y : ℝ) : ℝ := 1 / 2 * ∫ t in Ioi (0 : ℝ), 1 / (√(t + x) * (t + y))

/-- `R_J(x, y, z, p)`, DLMF 19.16.2, for `p > 0`. -/
noncomputable def RJ (x y z p : ℝ) : ℝ :=
  3 / 2 * ∫ t in Ioi (0 : ℝ), 1 / (√(t + x) * √(t + y) * √(t + z) * (t + p))

/-- `R_D(x, y, z)`, DLMF 19.16.5. -/
noncomputable def RD (x y z : ℝ) : ℝ :=
  3 / 2 * ∫ t in Ioi (0 : ℝ), 1 / (√(t + x) * √(t + y) * √(t + z) * (t + z))

/-- `R_G(x, y, z)`, DLMF 19.16.3 in the form 19.23.7. -/
noncomputable def RG (x y z : ℝ) : ℝ :=
  1 / 4 * ∫ t in Ioi (0 : ℝ), t / (√(t + x) * √(t + y) * √(t + z)) * (x / (t + x) + y / (t + y) + z / (t + z))

/-- Non-negative arguments, at most one of them zero. -/
structure Args (x y z : ℝ) : Prop where
  x0 : 0 ≤ x
  y0 : 0 ≤ y
  z0 : 0 ≤ z
  xy : 0 < x + y
  yz : 0 < y + z
  xz : 0 < x + z

end Verif.Carlson
