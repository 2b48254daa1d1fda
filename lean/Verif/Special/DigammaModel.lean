import Verif.Special.GammaModel
import Mathlib.Analysis.SpecialFunctions.Trigonometric.Deriv

/-!
# Model of `digamma.h`

`phytorch-extensions/special/digamma.h`, in exact complex arithmetic: `none` is the NaN result,
`M_PI` is `π`, all other literals are the rationals written in the source.
-/

open Complex

namespace Verif.Special

/-- `digamma.h:12-28`: the array `c[]` without `c[0]`. -/
def digammaC : List ℚ := [
  57.156235665862923517,
  -59.597960355475491248,
  14.136097974741747174,
  -0.49191381609762019978,
  0.33994649984811888699e-4,
  0.46523628927048575665e-4,
  -0.98374475304879564677e-4,
  0.15808870322491248884e-3,
  -0.21026444172410488319e-3,
  0.21743961811521264320e-3,
  -0.16431810653676389022e-3,
  0.84418223983852743293e-4,
  -0.26190838401581408670e-4,
  0.36899182659531622704e-5]

/-- `digamma.h:13`: `c[0]`. -/
def digammaC0 : ℚ := 0.99999999999999709182

/-- `digamma.h:30-36`: the loop over `k = 14, …, 1` with its accumulators `(d, n)`.  The model
runs through the list of coefficients and treats the largest index first, as the source does:
`digammaSums z k [c_{k+1}, c_{k+2}, …]` is the state after the iterations for all these. -/
noncomputable def digammaSums (z : ℂ) : ℕ → List ℚ → ℂ × ℂ
  | _, [] => (0, 0)
  | k, c :: l =>
    let s := digammaSums z (k + 1) l
    let dz := 1 / (z + k)
    let dd := c * dz
    (s.1 + dd, s.2 - dd * dz)

/-- `gammahead.h:6-7`: `polygamma_g`, `polygamma_h`. -/
def polygammaG : ℚ := 607 / 128
def polygammaH : ℚ := 0.5

/-- `digamma.h:30-40`: the value returned for `z.real() >= 0.5`. -/
noncomputable def digammaRight (z : ℂ) : ℂ :=
  let s := digammaSums z 0 digammaC
  let d := s.1 + digammaC0
  let zp := z + ((polygammaG - polygammaH : ℚ) : ℂ)
  log zp + (s.2 / d - polygammaG / zp)

open Classical in
/-- `digamma.h:5-41`: `digamma`.  Where `cos(πz) = 0` the source divides by an infinite tangent and
gets `0`; Lean's `π / tan(πz)` is `0` there as well. -/
noncomputable def digamma (eps : ℝ) (z : ℂ) : Option ℂ :=
  if atPole eps z then none
  else if z.re < 0.5 then
    (digamma eps (1 - z)).map fun d => d - Real.pi / tan (Real.pi * z)
  else some (digammaRight z)
termination_by (if z.re < 0.5 then 1 else 0 : ℕ)
decreasing_by
  rename_i h
  have : ¬ (1 - z).re < 0.5 := by rw [sub_re, one_re]; norm_num at h ⊢; linarith
  rw [if_neg this, if_pos h]; norm_num

end Verif.Special
