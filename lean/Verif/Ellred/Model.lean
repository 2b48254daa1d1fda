import Verif.Ellred.Spec

/-! # Model: the analytic distances (cosmology/drivers/analytic.py)

`elliprf`, `elliprd`, `elliprj` and `elliprc` are modelled here by the integrals they stand for (`RFc`, `RDc`, `RJc`, `RCc`); that
the routines compute those integrals is a separate matter (C79-C82 for real arguments, C145, C148 and C150 for complex arguments).  Arithmetic is exact. -/

namespace Verif.Ellred

open Verif.Carlson

/-- `_fix_dimless` (_analytic_base.py:36-37): `val.real / leading**0.5`. -/
noncomputable def fixDimless (leading : ℝ) (val : ℂ) : ℝ := val.re / leading ^ (0.5 : ℝ)

/-- `(z - r)**0.5` (analytic.py:103-106, 174-177). -/
noncomputable def Xr (r : ℂ) (t : ℝ) : ℂ := csqrt (t - r)

/-- The three arguments returned by `LambdaCDM._get_ellipr_params` (analytic.py:101-110); `d1i` and `d2i` are the square roots at
`z1` and `z2`. -/
noncomputable def params3 (r1 r2 r3 : ℂ) (z1 z2 : ℝ) : ℂ × ℂ × ℂ :=
  let d11 := Xr r1 z1
  let d12 := Xr r2 z1
  let d13 := Xr r3 z1
  let d21 := Xr r1 z2
  let d22 := Xr r2 z2
  let d23 := Xr r3 z2
  ((d11 * d22 * d23 + d21 * d12 * d13) ^ 2, (d11 * d22 * d13 + d21 * d12 * d23) ^ 2, (d11 * d12 * d23 + d21 * d22 * d13) ^ 2)

/-- `LambdaCDM._ellipr_comoving_distance_dimless_z1z2` (analytic.py:112-113). -/
noncomputable def comoving3 (L : ℝ) (r1 r2 r3 : ℂ) (z1 z2 : ℝ) : ℝ :=
  let u := params3 r1 r2 r3 z1 z2
  2 * (z2 - z1) * fixDimless L (RFc u.1 u.2.1 u.2.2)

/-- `LambdaCDM._ellipr_lookback_time_dimless` (analytic.py:115-122). -/
noncomputable def lookback3 (L : ℝ) (r1 r2 r3 : ℂ) (z : ℝ) : ℝ :=
  let u := params3 r1 r2 r3 0 z
  let p := (r1 + 1) * z ^ 2 + u.1
  2 * z * fixDimless L (RCc ((Xr r1 0 * Xr r2 0 * Xr r3 0 * (z + 1) + Xr r1 z * Xr r2 z * Xr r3 z) ^ 2) ((z + 1) * p) +
    z ^ 2 / 3 * RJc u.1 u.2.1 u.2.2 p)

/-- `LambdaCDM._ellipr_absorption_distance_dimless_z1z2` (analytic.py:124-137). -/
noncomputable def absorption3 (L : ℝ) (r1 r2 r3 : ℂ) (z1 z2 : ℝ) : ℝ :=
  let dz := z2 - z1
  let u := params3 r1 r2 r3 z1 z2
  let dijdik := (r2 - r1) * (r3 - r1)
  2 / 3 * dz * fixDimless L ((Xr r1 z2 * Xr r2 z2 * Xr r3 z2 - Xr r1 z1 * Xr r2 z1 * Xr r3 z1) / dz +
    (3 * (r1 + 1) ^ 2 - dijdik) * RFc u.1 u.2.1 u.2.2 +
    2 * (r1 + r2 + r3 + 3) * (dz ^ 2 / 3 * dijdik * RDc u.2.1 u.2.2 u.1 + Xr r1 z1 * Xr r1 z2 / csqrt u.1))

/-- The three arguments returned by `LambdaCDMR._get_ellipr_params` (analytic.py:172-181); the roots are taken in reverse. -/
noncomputable def params4 (r1 r2 r3 r4 : ℂ) (z1 z2 : ℝ) : ℂ × ℂ × ℂ :=
  let d11 := Xr r1 z1
  let d12 := Xr r2 z1
  let d13 := Xr r3 z1
  let d14 := Xr r4 z1
  let d21 := Xr r1 z2
  let d22 := Xr r2 z2
  let d23 := Xr r3 z2
  let d24 := Xr r4 z2
  ((d11 * d12 * d23 * d24 + d21 * d22 * d13 * d14) ^ 2, (d11 * d22 * d13 * d24 + d21 * d12 * d23 * d14) ^ 2,
    (d11 * d22 * d23 * d14 + d21 * d12 * d13 * d24) ^ 2)

/-- `LambdaCDMR._ellipr_comoving_distance_dimless_z1z2` (analytic.py:183-184). -/
noncomputable def comoving4 (L : ℝ) (r1 r2 r3 r4 : ℂ) (z1 z2 : ℝ) : ℝ :=
  let u := params4 r1 r2 r3 r4 z1 z2
  2 * (z2 - z1) * fixDimless L (RFc u.1 u.2.1 u.2.2)

/-- `LambdaCDMR._ellipr_lookback_time_dimless` (analytic.py:186-194). -/
noncomputable def lookback4 (L : ℝ) (r1 r2 r3 r4 : ℂ) (z : ℝ) : ℝ :=
  let u := params4 r1 r2 r3 r4 0 z
  let p := u.1 - (r3 - r1) * (r4 - r1) * (r2 + 1) / (r1 + 1) * z ^ 2
  2 * z * fixDimless L ((RFc u.1 u.2.1 u.2.2 +
    z ^ 2 / 3 * (r2 - r1) * (r3 - r1) * (r4 - r1) / (r1 + 1) * RJc u.1 u.2.1 u.2.2 p -
    RCc ((Xr r2 0 * Xr r3 0 * Xr r4 0 / Xr r1 0 * (z + 1) + Xr r2 z * Xr r3 z * Xr r4 z / Xr r1 z) ^ 2)
      ((z + 1) / Xr r1 0 ^ 2 / Xr r1 z ^ 2 * p)) / (r1 + 1))

/-- `LambdaCDMR._ellipr_absorption_distance_dimless_z1z2` (analytic.py:196-242). -/
noncomputable def absorption4 (L : ℝ) (r1 r2 r3 r4 : ℂ) (z1 z2 : ℝ) : ℝ :=
  let dz := z2 - z1
  let u := params4 r1 r2 r3 r4 z1 z2
  let p := u.1 - dz ^ 2 * (r3 - r1) * (r4 - r1)
  let q := p / (z1 - r1) / (z2 - r1)
  dz * fixDimless L ((Xr r1 z2 * Xr r2 z2 * Xr r3 z2 / Xr r4 z2 - Xr r1 z1 * Xr r2 z1 * Xr r3 z1 / Xr r4 z1) / dz +
    (2 * (r1 + 1) ^ 2 - (r2 - r1) * (r3 - r1)) * RFc u.1 u.2.1 u.2.2 +
    (r4 - r2) * (r4 - r3) * (dz ^ 2 / 3 * (r2 - r1) * (r3 - r1) * RDc u.1 u.2.1 u.2.2 +
      Xr r1 z2 * Xr r1 z1 / Xr r4 z2 / Xr r4 z1 / csqrt u.2.2) +
    (r1 + r2 + r3 + r4 + 4) * (RCc (q + dz ^ 2) q - dz ^ 2 / 3 * (r2 - r1) * (r3 - r1) * (r4 - r1) * RJc u.1 u.2.1 u.2.2 p))

end Verif.Ellred
