import Mathlib.Analysis.SpecialFunctions.Pow.Complex
import Mathlib.Analysis.SpecialFunctions.Trigonometric.Basic
import Mathlib.Algebra.Order.Round
import Mathlib.Analysis.Complex.Norm

/-!
# Model of `gamma.h` and `loggamma.h`

`phytorch-extensions/special/gamma.h` and `loggamma.h`, in exact complex arithmetic:
`none` is the NaN result, `eps` is `numeric_limits<scalar_t>::epsilon()`.  `M_PI` is `π`; all other
numeric literals are the rationals written in the source.  Rounding, overflow and the
floating-point evaluation of `exp`, `log`, `sin` and `pow` are not modelled.
-/

open Complex

namespace Verif.Special

/-- `common/complex.h:16-26`: `is_int(z) and is_real_nonpositive(z)` — the tests by which the
functions below decide that they are at a pole. -/
def atPole (eps : ℝ) (z : ℂ) : Prop :=
  (z.im = 0 ∧ |(round z.re : ℝ) - z.re| < 100 * eps) ∧ (z.im = 0 ∧ z.re ≤ 0)

/-- `common/moremath.h:9`: `SQRT2PI`. -/
noncomputable def SQRT2PI : ℝ := 2.50662827463100050242
/-- `common/moremath.h:8`: `LOGPI`. -/
noncomputable def LOGPI : ℝ := 1.14472988584940017414
/-- `common/moremath.h:11`: `LOGSQRT2PI`. -/
noncomputable def LOGSQRT2PI : ℝ := 0.91893853320467274178

/-- `gamma.h:5-16`: `stirling`. -/
noncomputable def stirling (z : ℂ) : ℂ :=
  let w := 1 / z
  SQRT2PI * z ^ (z - 0.5) * exp (-z) * (
    1 +
    ((((((-5.92166437353693882865e-4 * w
      + 6.97281375836585777429e-5) * w
      + 7.84039221720066627474e-4) * w
      + -2.29472093621399176955e-4) * w
      + -2.68132716049382716049e-3) * w
      + 3.47222222222222222222e-3) * w
      + 8.33333333333333333333E-2) * w)

open Classical in
/-- `gamma.h:28-35`: the loop `while (z.real() < 18)` with its accumulator `c`, and the return
after it. -/
noncomputable def gammaLoop (z c : ℂ) : ℂ :=
  if z.re < 18 then
    if ‖z‖ < 1e-9 then 1 / (((1 + 0.5772156649015329 * z) * z) * c)
    else gammaLoop (z + 1) (c * z)
  else stirling z / c
termination_by ⌈18 - z.re⌉₊
decreasing_by
  rename_i h _
  have h1 : (z + 1).re = z.re + 1 := by simp
  rw [h1, Nat.lt_ceil]
  have h2 : 0 < ⌈18 - z.re⌉₊ := Nat.ceil_pos.2 (by linarith)
  have h3 := Nat.ceil_lt_add_one (a := 18 - (z.re + 1) + 0)
  by_cases h4 : 0 ≤ 18 - (z.re + 1)
  · have := Nat.ceil_lt_add_one h4; linarith
  · push Not at h4
    rw [Nat.ceil_eq_zero.2 h4.le]; push_cast; linarith

open Classical in
/-- `gamma.h:19-36`: `gamma`. -/
noncomputable def gamma (eps : ℝ) (z : ℂ) : Option ℂ :=
  if atPole eps z then none
  else if 18 ≤ |z.re| then
    if z.re < 0 then (gamma eps (1 - z)).map fun g => Real.pi / sin (Real.pi * z) / g
    else some (stirling z)
  else some (gammaLoop z 1)
termination_by (if z.re < 0 then 1 else 0 : ℕ)
decreasing_by
  rename_i h
  have : ¬ (1 - z).re < 0 := by simp; linarith
  rw [if_neg this, if_pos h]; norm_num

open Classical in
/-- `loggamma.h:20-26`: the loop `while (z.real() < 14)`, which accumulates the product `c` and
the sum of arguments `a`; returns the final `(z, c, a)`. -/
noncomputable def loggammaLoop (z c : ℂ) (a : ℝ) : ℂ × ℂ × ℝ :=
  if z.re < 14 then loggammaLoop (z + 1) (c * z) (a + arg z) else (z, c, a)
termination_by ⌈14 - z.re⌉₊
decreasing_by
  rename_i h
  have h1 : (z + 1).re = z.re + 1 := by simp
  rw [h1, Nat.lt_ceil]
  by_cases h4 : 0 ≤ 14 - (z.re + 1)
  · have := Nat.ceil_lt_add_one h4; linarith
  · push Not at h4
    rw [Nat.ceil_eq_zero.2 h4.le]; push_cast; linarith

open Classical in
/-- `loggamma.h:28-40`: the value returned after the loop. -/
noncomputable def loggammaTail (z c : ℂ) (a : ℝ) : ℂ :=
  let res := (z - 0.5) * log z - z + LOGSQRT2PI - (Real.log ‖c‖ + a * I)
  if ‖z‖ < 1e8 then
    let w := 1 / (z * z)
    res + (((((-1.9175269175269175269175269175269175269175e-3 * w
      + 8.4175084175084175084175084175084175084175E-4) * w
      + -5.9523809523809523809523809523809523809524e-4) * w
      + 7.9365079365079365079365079365079365079365e-4) * w
      + -2.7777777777777777777777777777777777777778e-3) * w
      + 8.3333333333333333333333333333333333333333e-2) / z
  else res

open Classical in
/-- `loggamma.h:12-16`: the logarithm of `sin(πz)` subtracted by the reflection branch. -/
noncomputable def loggammaLogSin (z : ℂ) : ℂ :=
  if 36.7 < z.im ∨ z.im < -36.7 then
    Real.pi * z.im - 0.6931471805599453094 + Real.pi * (0.5 - z.re) * I
  else log (sin (Real.pi * (z - ⌊z.re⌋))) - Real.pi * ⌊z.re⌋ * I

open Classical in
/-- `loggamma.h:9-10`: `if (doconj) z = conj(z)`. -/
noncomputable def toUpper (z : ℂ) : ℂ := if z.im < 0 then starRingEnd ℂ z else z

theorem toUpper_re (z : ℂ) : (toUpper z).re = z.re := by unfold toUpper; split <;> simp

theorem toUpper_im (z : ℂ) : 0 ≤ (toUpper z).im := by
  unfold toUpper; split
  · rename_i h; rw [conj_im]; linarith
  · rename_i h; linarith

open Classical in
/-- `loggamma.h:5-43`: `loggamma`.  The conjugation `doconj` is applied to the argument
(`toUpper`) and to the result. -/
noncomputable def loggamma (eps : ℝ) (z : ℂ) : Option ℂ :=
  if atPole eps z then none
  else
    let res :=
      if (toUpper z).re < -14 ∨ (toUpper z).im < -14 then
        (loggamma eps (1 - toUpper z)).map fun l => LOGPI - l - loggammaLogSin (toUpper z)
      else
        let s := loggammaLoop (toUpper z) 1 0
        some (loggammaTail s.1 s.2.1 s.2.2)
    if z.im < 0 then res.map (starRingEnd ℂ) else res
termination_by (if z.re < 0 then 1 else 0 : ℕ)
decreasing_by
  rename_i hd
  have him := toUpper_im z
  rcases hd with h | h
  · rw [toUpper_re] at h
    have : ¬ (1 - toUpper z).re < 0 := by
      rw [sub_re, toUpper_re, one_re]; linarith
    rw [if_neg this, if_pos (by linarith)]; norm_num
  · linarith

end Verif.Special
