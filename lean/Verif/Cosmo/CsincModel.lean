import Mathlib.Analysis.SpecialFunctions.Trigonometric.Basic
import Mathlib.Analysis.SpecialFunctions.Sqrt

/-! # Floating-point model of `csinc` (phytorch/math.py) and `comoving_volume_dimless` (phytorch/cosmology/core.py)

`fl` is the rounding of the precision at hand, applied to the exact result of every operation (elementary functions included: the best case). The complex
numbers of the code are purely real (closed universe, `Ok0 < 0`) or purely imaginary (open, `Ok0 > 0`): they are represented by their non-zero part. Not
modelled: the sign of zero, overflow and underflow, rounding noise in the part that should vanish. -/

namespace Verif.Cosmo.Flt

/-- Which part of the argument of `csinc` is non-zero: real for a closed, imaginary for an open universe. -/
inductive Curv | closed | opened
  deriving DecidableEq

/-- `sin x` for `x = y` or `sin x / i` for `x = i y`. -/
noncomputable def Curv.trig : Curv → ℝ → ℝ
  | .closed => Real.sin
  | .opened => Real.sinh

/-- The sign of `x**2`. -/
def Curv.sgn : Curv → ℝ
  | .closed => 1
  | .opened => -1

variable (fl : ℝ → ℝ)

/-- `x * pi` (math.py:31 and torch's `sinc`). -/
noncomputable def timesPi (r : ℝ) : ℝ := fl (r * fl Real.pi)

open Classical in
/-- `sinc(x)` (math.py:27-31) for tensors: torch computes `sin(pi x) / (pi x)`, or 1 at 0. -/
noncomputable def sincF (c : Curv) (r : ℝ) : ℝ :=
  if timesPi fl r = 0 then 1 else fl (fl (c.trig (timesPi fl r)) / timesPi fl r)

open Classical in
/-- `csinc(x, eps)` (math.py:34-35): `where(abs(x) > eps, (1 - sinc(x)) / (x*pi)**2, 1/6)`. -/
noncomputable def csincF (c : Curv) (eps r : ℝ) : ℝ :=
  if eps < |r| then fl (fl (1 - sincF fl c r) / (c.sgn * fl (timesPi fl r ^ 2))) else fl (1 / 6)

/-- `2 * self.isqrtOk0_pi * dc` (core.py:154-162, 291): the non-zero part, up to its sign. -/
noncomputable def argF (k d : ℝ) : ℝ := fl (fl (2 * fl (fl (√|k|) / fl Real.pi)) * d)

open Classical in
/-- `comoving_volume_dimless` (core.py:288-291) with the default `eps=1e-8`, as a function of `Ok0` and the comoving distance. -/
noncomputable def comovingVolumeF (k d : ℝ) : ℝ :=
  fl (fl (fl (8 * Real.pi) * fl (d ^ 3)) * csincF fl (if k < 0 then .closed else .opened) 1e-8 (argF fl k d))

end Verif.Cosmo.Flt
