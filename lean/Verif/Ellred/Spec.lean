import Verif.Carlson.Model
import Verif.Carlson.Spec

/-! # Specification: Carlson's integrals for complex arguments (DLMF 19.16, principal square roots) -/

namespace Verif.Ellred

open MeasureTheory Set Verif.Carlson

/-- `R_F(u, v, w)`, DLMF 19.16.1. -/
noncomputable def RFc (u v w : ℂ) : ℂ :=
  1 / 2 * ∫ s in Ioi (0 : ℝ), 1 / (csqrt (s + u) * csqrt (s + v) * csqrt (s + w))

/-- `R_J(u, v, w, p)`, DLMF 19.16.2. -/
noncomputable def RJc (u v w p : ℂ) : ℂ :=
  3 / 2 * ∫ s in Ioi (0 : ℝ), 1 / (csqrt (s + u) * csqrt (s + v) * csqrt (s + w) * (s + p))

/-- `R_D(u, v, w)`, DLMF 19.16.5. -/
noncomputable def RDc (u v w : ℂ) : ℂ :=
  3 / 2 * ∫ s in Ioi (0 : ℝ), 1 / (csqrt (s + u) * csqrt (s + v) * csqrt (s + w) * (s + w))

/-- `R_C(u, p)`, DLMF 19.2.17. -/
noncomputable def RCc (u p : ℂ) : ℂ := 1 / 2 * ∫ s in Ioi (0 : ℝ), 1 / (csqrt (s + u) * (s + p))

/-- `R_G(u, v, w)`, DLMF 19.16.3 in the form 19.23.7. -/
noncomputable def RGc (u v w : ℂ) : ℂ :=
  1 / 4 * ∫ s in Ioi (0 : ℝ), (s : ℂ) / (csqrt (s + u) * csqrt (s + v) * csqrt (s + w)) * (u / (s + u) + v / (s + v) + w / (s + w))

end Verif.Ellred
