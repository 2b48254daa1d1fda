import Mathlib.Analysis.SpecialFunctions.Pow.Complex
import Mathlib.Algebra.BigOperators.Fin

/-! # Specification: the integrands that `EllipticReduction` integrates -/

namespace Verif.Ellred

/-- `∏ (a_i + t) ^ (m_i - 1/2)` over the first `h` factors times `∏ (a_i + t) ^ m_i` over the others (principal powers). -/
noncomputable def integrand (a : List ℂ) (h : ℕ) (m : List ℤ) (t : ℝ) : ℂ :=
  ∏ i : Fin a.length, (a[i] + (t : ℂ)) ^ ((m.getD i 0 : ℂ) - if (i : ℕ) < h then 1 / 2 else 0)

end Verif.Ellred
