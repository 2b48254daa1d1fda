import Verif.Carlson.Series
import Verif.Carlson.Run

/-! # Closed forms of `R_C` -/

namespace Verif.Carlson

open MeasureTheory Set Filter Topology

/-- `R_C` for `x < y` (DLMF 19.2.18), in scaled form. -/
theorem RC_arctan {e : ℝ} (he : 0 < e) : RC 1 (1 + e) = Real.arctan √e / √e := by
  have hs : 0 < √e := Real.sqrt_pos.mpr he
  have hd : ∀ t ∈ Ioi (0 : ℝ), HasDerivAt (fun t => Real.arctan (√(t + 1) / √e) / √e) (1 / 2 * (1 / (√(t + 1) * (t + (1 + e))))) t := by
    intro t (ht : 0 < t)
    have h1 : 0 < t + 1 := by linarith
    have := (((hasDerivAt_sqrt_add 1 t h1).div_const √e).arctan).div_const √e
    refine this.congr_deriv ?_
    have hr : 0 < √(t + 1) := Real.sqrt_pos.mpr h1
    have e1 : (√(t + 1) / √e) ^ 2 = (t + 1) / e := by rw [div_pow, Real.sq_sqrt h1.le, Real.sq_sqrt he.le]
    rw [e1]
    have h3 : 0 < 1 + (t + 1) / e := by positivity
    have e2 : t + (1 + e) = e * (1 + (t + 1) / e) := by field_simp; ring
    rw [e2]
    have e3 : e = √e * √e := (Real.mul_self_sqrt he.le).symm
    generalize 1 + (t + 1) / e = W at *
    nth_rw 3 [e3]
    field_simp
  have hc : ContinuousWithinAt (fun t => Real.arctan (√(t + 1) / √e) / √e) (Ici 0) 0 := by
    apply Continuous.continuousWithinAt
    fun_prop
  have hl : Tendsto (fun t => Real.arctan (√(t + 1) / √e) / √e) atTop (𝓝 (Real.pi / 2 / √e)) := by
    apply Tendsto.div_const
    refine (tendsto_nhds_of_tendsto_nhdsWithin Real.tendsto_arctan_atTop).comp ?_
    exact (Real.tendsto_sqrt_atTop.comp (tendsto_atTop_add_const_right _ 1 tendsto_id)).atTop_div_const hs
  have := integral_Ioi_of_hasDerivAt_of_nonneg hc hd (fun t (ht : 0 < t) => by positivity) hl
  rw [RC, ← MeasureTheory.integral_const_mul, this]
  simp only [zero_add, Real.sqrt_one, one_div]
  rw [Real.arctan_inv_of_pos hs]
  ring

/-- `R_C` for `y < x` (DLMF 19.2.19), in scaled form. -/
theorem RC_log {s : ℝ} (h0 : 0 < s) (h1 : s < 1) : RC 1 (1 - s ^ 2) = 1 / (2 * s) * Real.log ((1 + s) / (1 - s)) := by
  have hv : ∀ t : ℝ, 0 ≤ t → s < √(t + 1) := by
    intro t ht
    calc s < 1 := h1
      _ = √1 := Real.sqrt_one.symm
      _ ≤ √(t + 1) := Real.sqrt_le_sqrt (by linarith)
  have hd : ∀ t ∈ Ioi (0 : ℝ), HasDerivAt (fun t => 1 / (2 * s) * (Real.log (√(t + 1) - s) - Real.log (√(t + 1) + s)))
      (1 / 2 * (1 / (√(t + 1) * (t + (1 - s ^ 2))))) t := by
    intro t (ht : 0 < t)
    have h1 : 0 < t + 1 := by linarith
    have hr : 0 < √(t + 1) := Real.sqrt_pos.mpr h1
    have hvt := hv t ht.le
    have dv := hasDerivAt_sqrt_add 1 t h1
    have := (((dv.sub_const s).log (by linarith)).sub ((dv.add_const s).log (by linarith))).const_mul (1 / (2 * s))
    refine this.congr_deriv ?_
    have e2 : t + (1 - s ^ 2) = (√(t + 1) - s) * (√(t + 1) + s) := by
      have := Real.mul_self_sqrt h1.le
      nlinarith
    rw [e2]
    have k1 : 0 < √(t + 1) - s := by linarith
    have k2 : 0 < √(t + 1) + s := by linarith
    generalize √(t + 1) = v at *
    field_simp
    ring
  have hc : ContinuousWithinAt (fun t => 1 / (2 * s) * (Real.log (√(t + 1) - s) - Real.log (√(t + 1) + s))) (Ici 0) 0 := by
    apply ContinuousAt.continuousWithinAt
    have := hv 0 le_rfl
    apply ContinuousAt.mul continuousAt_const
    apply ContinuousAt.sub
    · apply ContinuousAt.log (by fun_prop)
      linarith
    · apply ContinuousAt.log (by fun_prop)
      linarith
  have hvlim : Tendsto (fun t : ℝ => √(t + 1)) atTop atTop :=
    Real.tendsto_sqrt_atTop.comp (tendsto_atTop_add_const_right _ 1 tendsto_id)
  have hl : Tendsto (fun t => 1 / (2 * s) * (Real.log (√(t + 1) - s) - Real.log (√(t + 1) + s))) atTop (𝓝 0) := by
    have h2 : Tendsto (fun t : ℝ => 1 - 2 * s / (√(t + 1) + s)) atTop (𝓝 (1 - 0)) := by
      apply Tendsto.sub tendsto_const_nhds
      exact Tendsto.div_atTop tendsto_const_nhds (tendsto_atTop_add_const_right _ s hvlim)
    rw [sub_zero] at h2
    have h3 := (Real.continuousAt_log (by norm_num : (1 : ℝ) ≠ 0)).tendsto.comp h2
    rw [Real.log_one] at h3
    have h4 := h3.const_mul (1 / (2 * s))
    rw [mul_zero] at h4
    refine h4.congr' ?_
    filter_upwards [eventually_ge_atTop 0] with t ht
    have := hv t ht
    simp only [Function.comp]
    congr 1
    rw [← Real.log_div (by linarith) (by linarith)]
    congr 1
    have : 0 < √(t + 1) + s := by linarith
    field_simp
    ring
  have := integral_Ioi_of_hasDerivAt_of_nonneg hc hd (fun t (ht : 0 < t) => by
    have : 0 < 1 - s ^ 2 := by nlinarith
    positivity) hl
  rw [RC, ← MeasureTheory.integral_const_mul, this]
  simp only [zero_add, Real.sqrt_one]
  rw [Real.log_div (by linarith) (by linarith)]
  ring

theorem csqrt_neg {e : ℝ} (he : e < 0) : csqrt e = Complex.I * (√(-e) : ℝ) := by
  rw [csqrt, Complex.ofReal_cpow_of_nonpos he.le]
  have h1 : Complex.exp (Real.pi * Complex.I * (1 / 2)) = Complex.I := by
    rw [show (Real.pi : ℂ) * Complex.I * (1 / 2) = Real.pi / 2 * Complex.I by ring, Complex.exp_pi_div_two_mul_I]
  rw [h1, mul_comm, ← csqrt_ofReal (by linarith : 0 ≤ -e), csqrt]
  push_cast
  ring

/-- The summand of `elliprj`, `atan(√e)/√e`, is `R_C(1, 1 + e)` (elliprj.h:62-63). -/
theorem arctan_ratio {e : ℝ} (h1 : -1 < e) (h0 : e ≠ 0) :
    Complex.arctan (csqrt e) / csqrt e = ((RC 1 (1 + e) : ℝ) : ℂ) := by
  rcases lt_or_gt_of_ne h0 with h | h
  · obtain ⟨s, hs, hs0, hs1, hse⟩ : ∃ s, s = √(-e) ∧ 0 < s ∧ s < 1 ∧ e = -s ^ 2 := by
      refine ⟨√(-e), rfl, Real.sqrt_pos.mpr (by linarith), ?_, ?_⟩
      · calc √(-e) < √1 := Real.sqrt_lt_sqrt (by linarith) (by linarith)
          _ = 1 := Real.sqrt_one
      · rw [Real.sq_sqrt (by linarith)]; ring
    rw [csqrt_neg h, ← hs, hse, show (1 : ℝ) + -s ^ 2 = 1 - s ^ 2 by ring, RC_log hs0 hs1, Complex.arctan]
    have e1 : (1 + Complex.I * (s : ℂ) * Complex.I) / (1 - Complex.I * s * Complex.I) = (((1 - s) / (1 + s) : ℝ) : ℂ) := by
      push_cast
      congr 1
      · linear_combination (s : ℂ) * Complex.I_mul_I
      · linear_combination -(s : ℂ) * Complex.I_mul_I
    rw [e1, ← Complex.ofReal_log (div_nonneg (by linarith) (by linarith)), Real.log_div (by linarith) (by linarith),
      Real.log_div (by linarith) (by linarith)]
    push_cast
    have hsC : (s : ℂ) ≠ 0 := by exact_mod_cast hs0.ne'
    have hI := Complex.I_ne_zero
    field_simp
    ring
  · rw [csqrt_ofReal h.le, ← Complex.ofReal_arctan, RC_arctan h]
    push_cast
    ring

theorem RC_zero {y : ℝ} (hy : 0 < y) : RC 0 y = Real.pi / 2 / √y := by
  rw [RC]
  simp only [add_zero]
  rw [integral_major y hy]
  ring

theorem RC_scale (k x y : ℝ) (hk : 0 < k) (hy : 0 ≤ y) : RC (k * x) (k * y) = RC x y / √k := by
  rw [RC_eq_RF _ _ hy, RC_eq_RF _ _ (by positivity), RF_scale _ _ _ _ hk]

theorem RC_lower {x y M : ℝ} (hx : 0 ≤ x) (hy : 0 < y) (hxM : x ≤ M) (hyM : y ≤ M) : 1 / √M ≤ RC x y := by
  rw [RC_eq_RF _ _ hy.le]
  exact RF_lower (Args.of_pair hx hy) hxM hyM hyM (hy.trans_le hyM)

end Verif.Carlson
