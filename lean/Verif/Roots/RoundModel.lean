import Mathlib.Analysis.SpecialFunctions.Sqrt

/-! # Floating-point model of `roots2` (phytorch-extensions/roots/roots.h)

`fl` is the rounding of the precision at hand, applied to the exact result of every operation. Real coefficients and real roots: the imaginary parts of the
complex numbers of the code are then 0, and its complex product, square root and quotient are taken to round the real result correctly (a simplification:
a library may spend a few more roundings there). No overflow, no underflow. -/

namespace Verif.Roots.Flt

open Classical in
/-- `roots2(b, c)` (roots.h:11-18) for finite real coefficients; `none` when the computed discriminant is negative (complex roots: not modelled). -/
noncomputable def roots2F (fl : ℝ → ℝ) (b c : ℝ) : Option (ℝ × ℝ) :=
  if c = 0 then some (0, -b)
  else
    let D := fl (fl (b * b) - fl (4 * c))
    if D < 0 then none
    else
      let s := fl (√D)
      let q := fl (-(if 0 ≤ b then fl (b + s) else fl (b - s)) / 2)
      some (q, fl (c / q))

end Verif.Roots.Flt
