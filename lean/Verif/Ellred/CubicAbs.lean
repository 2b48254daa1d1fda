import Verif.Ellred.CubicInt

/-! # The absorption integral of a cubic -/

namespace Verif.Ellred

open MeasureTheory Set Filter Topology Verif.Carlson ComplexConjugate

theorem Xr_sq (r : ℂ) (t : ℝ) : Xr r t ^ 2 = t - r := by rw [Xr, sq, csqrt_sq]

theorem Xr_deriv {r : ℂ} {t : ℝ} (h : (t : ℂ) - r ∈ Complex.slitPlane) : HasDerivAt (Xr r) (1 / (2 * Xr r t)) t := by
  have f : Fac t t (-r) 1 := fun u hu => by
    have : u = t := le_antisymm hu.2 hu.1
    rw [this, show -r + 1 * (t : ℂ) = t - r by ring]
    exact h
  have := f.deriv (t := t) ⟨le_rfl, le_rfl⟩
  rwa [X_eq_Xr] at this

namespace CubicOK

variable {y x t : ℝ} {r1 r2 r3 : ℂ} {b c d : ℝ}

/-- `(t - y) U_1(t)`. -/
noncomputable def N1 (y : ℝ) (r1 r2 r3 : ℂ) (t : ℝ) : ℂ := Xr r1 t * Xr r2 y * Xr r3 y + Xr r1 y * Xr r2 t * Xr r3 t

theorem Uc_eq_N1 (y : ℝ) (r1 r2 r3 : ℂ) (t : ℝ) : Uc y r1 r2 r3 t = N1 y r1 r2 r3 t / ((t : ℂ) - y) := rfl

variable (h : CubicOK y r1 r2 r3 b c d)
include h

theorem X_ne (hyt : y ≤ t) : Xr r1 t ≠ 0 ∧ Xr r2 t ≠ 0 ∧ Xr r3 t ≠ 0 := by
  have hp := Real.sqrt_pos.mpr (h.cpos hyt)
  have e := h.sqrt_eq (x := t + 1) (by linarith) (t := t) ⟨hyt, by linarith⟩
  have : Xr r1 t * Xr r2 t * Xr r3 t ≠ 0 := by rw [e]; exact_mod_cast hp.ne'
  exact ⟨left_ne_zero_of_mul (left_ne_zero_of_mul this), right_ne_zero_of_mul (left_ne_zero_of_mul this), right_ne_zero_of_mul this⟩

theorem N1_ne (hyt : y ≤ t) : N1 y r1 r2 r3 t ≠ 0 := by
  rcases eq_or_lt_of_le hyt with e | e
  · subst e
    obtain ⟨h1, h2, h3⟩ := h.X_ne le_rfl
    rw [N1, ← two_mul]
    exact mul_ne_zero two_ne_zero (mul_ne_zero (mul_ne_zero h1 h2) h3)
  · obtain ⟨V, W, K⟩ := h.kernel' e
    have := K.re1 t ⟨e, le_rfl⟩
    rw [Uc_eq_N1] at this
    intro hn
    rw [hn] at this
    simp at this

theorem prim_deriv (hyt : y ≤ t) : HasDerivAt (fun t : ℝ => Xr r1 t * ((t : ℂ) - y) / N1 y r1 r2 r3 t)
    ((((t : ℂ) - r1) / √(cubic b c d t) - (r2 - r1) * (r3 - r1) * ((t - y) ^ 2 / N1 y r1 r2 r3 t ^ 2 / √(cubic b c d t))) / (2 * Xr r1 y)) t := by
  obtain ⟨n1, n2, n3⟩ := h.X_ne hyt
  obtain ⟨m1, m2, m3⟩ := h.X_ne le_rfl
  obtain ⟨s1, s2, s3, -⟩ := h.kernel (x := t + 1) (by linarith)
  have ht : t ∈ Icc y (t + 1) := ⟨hyt, by linarith⟩
  have d1 := Xr_deriv (s1 t ht)
  have d2 := Xr_deriv (s2 t ht)
  have d3 := Xr_deriv (s3 t ht)
  have hN := h.N1_ne hyt
  have dt : HasDerivAt (fun t : ℝ => (t : ℂ) - y) 1 t := (HasDerivAt.ofReal_comp (hasDerivAt_id t)).sub_const _
  have dN : HasDerivAt (N1 y r1 r2 r3) _ t := ((d1.mul_const (Xr r2 y)).mul_const (Xr r3 y)).add (((d2.const_mul (Xr r1 y))).mul d3)
  have := (d1.mul dt).div dN hN
  refine this.congr_deriv ?_
  rw [← h.sqrt_eq (x := t + 1) (by linarith) ht]
  simp only [Pi.mul_apply]
  have a1 := Xr_sq r1 t
  have a2 := Xr_sq r2 t
  have a3 := Xr_sq r3 t
  have b1 := Xr_sq r1 y
  have b2 := Xr_sq r2 y
  have b3 := Xr_sq r3 y
  rw [← a1]
  rw [N1] at hN ⊢
  generalize Xr r1 t = X1 at *
  generalize Xr r2 t = X2 at *
  generalize Xr r3 t = X3 at *
  generalize Xr r1 y = Y1 at *
  generalize Xr r2 y = Y2 at *
  generalize Xr r3 y = Y3 at *
  have key : X1 ^ 2 * (X1 ^ 2 * Y2 ^ 2 * Y3 ^ 2) - (t - y + X1 ^ 2) * (Y1 ^ 2 * X2 ^ 2 * X3 ^ 2) + (t - y) * X1 ^ 2 * Y1 ^ 2 * (X2 ^ 2 + X3 ^ 2) =
      (r2 - r1) * (r3 - r1) * (t - y) ^ 2 := by
    rw [a1, a2, a3, b1, b2, b3]
    ring
  generalize (t : ℂ) - y = k at *
  generalize (r2 - r1) * (r3 - r1) = δ at *
  field_simp
  linear_combination -key

theorem N1_cont : ContinuousOn (N1 y r1 r2 r3) (Ici y) := by
  intro t ht
  have ht : y ≤ t := ht
  obtain ⟨s1, s2, s3, -⟩ := h.kernel (x := t + 1) (by linarith)
  have ht' : t ∈ Icc y (t + 1) := ⟨ht, by linarith⟩
  have d1 := (Xr_deriv (s1 t ht')).continuousAt
  have d2 := (Xr_deriv (s2 t ht')).continuousAt
  have d3 := (Xr_deriv (s3 t ht')).continuousAt
  have : ContinuousAt (N1 y r1 r2 r3) t := by unfold N1; fun_prop
  exact this.continuousWithinAt

theorem s_cont : ContinuousOn (fun t => √(cubic b c d t)) (Icc y x) := (Real.continuous_sqrt.comp cubic_cont).continuousOn

theorem cs_ne (hyt : y ≤ t) : ((√(cubic b c d t) : ℝ) : ℂ) ≠ 0 := by exact_mod_cast (Real.sqrt_pos.mpr (h.cpos hyt)).ne'

/-- `∫ (t - r_1) / s`. -/
theorem lin_eq (hlt : y < x) : let u := params3 r1 r2 r3 y x
    ∫ t in Ioc y x, ((t : ℂ) - r1) / √(cubic b c d t) = (r2 - r1) * (r3 - r1) *
      (2 * ((x - y : ℝ) : ℂ) * (((x - y : ℝ) : ℂ) ^ 2 / 3) * RDc u.2.1 u.2.2 u.1) +
        2 * ((x - y : ℝ) : ℂ) * (Xr r1 y * Xr r1 x / csqrt u.1) := by
  obtain ⟨V, W, K⟩ := h.kernel' hlt
  have hk := sub_pos.mpr hlt
  have hk' : ((x - y : ℝ) : ℂ) ≠ 0 := by exact_mod_cast hk.ne'
  obtain ⟨m1, -, -⟩ := h.X_ne (t := y) le_rfl
  intro u
  rw [show u = _ from params3_eq hlt]
  simp only
  rw [csqrt_of_sq (by
    have := mul_pos hk (K.re1 x ⟨hlt, le_rfl⟩)
    rwa [Complex.re_ofReal_mul])]
  have hD := (K.swap12.swap23).rd hk
  rw [← integral_Ioc_eq_integral_Ioo] at hD
  rw [hD]
  have hsc : ContinuousOn (fun t : ℝ => ((√(cubic b c d t) : ℝ) : ℂ)) (Icc y x) :=
    Complex.continuous_ofReal.comp_continuousOn h.s_cont
  have c1 : ContinuousOn (fun t : ℝ => ((t : ℂ) - r1) / √(cubic b c d t)) (Icc y x) := by
    refine ContinuousOn.div ?_ hsc fun t ht => h.cs_ne ht.1
    fun_prop
  have c2 : ContinuousOn (fun t : ℝ => ((t : ℂ) - y) ^ 2 / N1 y r1 r2 r3 t ^ 2 / √(cubic b c d t)) (Icc y x) := by
    refine ContinuousOn.div ?_ hsc fun t ht => h.cs_ne ht.1
    refine ContinuousOn.div ?_ ((h.N1_cont.mono Icc_subset_Ici_self).pow 2) fun t ht => pow_ne_zero 2 (h.N1_ne ht.1)
    fun_prop
  have i1 : IntegrableOn (fun t : ℝ => ((t : ℂ) - r1) / √(cubic b c d t)) (Ioc y x) :=
    c1.integrableOn_Icc.mono_set Ioc_subset_Icc_self
  have i2 : IntegrableOn (fun t : ℝ => ((t : ℂ) - y) ^ 2 / N1 y r1 r2 r3 t ^ 2 / √(cubic b c d t)) (Ioc y x) :=
    c2.integrableOn_Icc.mono_set Ioc_subset_Icc_self
  have hF := intervalIntegral.integral_eq_sub_of_hasDerivAt (a := y) (b := x) (f := fun t : ℝ => Xr r1 t * ((t : ℂ) - y) / N1 y r1 r2 r3 t)
    (fun t ht => by
      rw [uIcc_of_le hlt.le] at ht
      exact h.prim_deriv ht.1) (by
      rw [intervalIntegrable_iff_integrableOn_Ioc_of_le hlt.le]
      exact (i1.sub (i2.const_mul _)).div_const _)
  rw [intervalIntegral.integral_of_le hlt.le, integral_div, integral_sub i1 (i2.const_mul _), integral_const_mul] at hF
  have e2 : ∫ t in Ioc y x, ((t : ℂ) - y) ^ 2 / N1 y r1 r2 r3 t ^ 2 / √(cubic b c d t) =
      ∫ t in Ioc y x, 1 / ((√(cubic b c d t) : ℝ) : ℂ) * (1 / Uc y r1 r2 r3 t ^ 2) := by
    apply setIntegral_congr_fun measurableSet_Ioc
    intro t ht
    simp only
    rw [Uc_eq_N1]
    have := h.N1_ne ht.1.le
    have := h.cs_ne ht.1.le
    have : (t : ℂ) - y ≠ 0 := sub_ne_zero.mpr (by exact_mod_cast ht.1.ne')
    field_simp
  rw [e2] at hF
  simp only [sub_self, mul_zero, zero_div, sub_zero] at hF
  rw [div_eq_iff (mul_ne_zero two_ne_zero m1)] at hF
  have hNx := h.N1_ne hlt.le
  rw [Uc_eq_N1]
  have e3 : ((x : ℂ) - y) = ((x - y : ℝ) : ℂ) := by push_cast; ring
  rw [e3] at hF ⊢
  rw [sub_eq_iff_eq_add] at hF
  rw [hF]
  field_simp
  ring

/-- The third integral. -/
theorem absorption_eq (hlt : y < x) : let u := params3 r1 r2 r3 y x
    let dz : ℂ := ((x - y : ℝ) : ℂ)
    let δ := (r2 - r1) * (r3 - r1)
    2 / 3 * dz * ((Xr r1 x * Xr r2 x * Xr r3 x - Xr r1 y * Xr r2 y * Xr r3 y) / dz + (3 * (r1 + 1) ^ 2 - δ) * RFc u.1 u.2.1 u.2.2 +
      2 * (r1 + r2 + r3 + 3) * (dz ^ 2 / 3 * δ * RDc u.2.1 u.2.2 u.1 + Xr r1 y * Xr r1 x / csqrt u.1)) =
        ((∫ t in Ioc y x, (1 + t) ^ 2 / √(cubic b c d t) : ℝ) : ℂ) := by
  intro u dz δ
  have h1 := h.rf_eq hlt
  have h2 := h.lin_eq hlt
  have hdz : dz ≠ 0 := Complex.ofReal_ne_zero.mpr (sub_pos.mpr hlt).ne'
  simp only at h1 h2
  -- coefficients
  have hb : r1 + r2 + r3 = -b := by
    have e0 := h.vieta 0
    have e1 := h.vieta 1
    have e2 := h.vieta (-1)
    linear_combination (-1 / 2) * e1 + (-1 / 2) * e2 + e0
  have hc : r1 * r2 + r1 * r3 + r2 * r3 = c := by
    have e1 := h.vieta 1
    have e2 := h.vieta (-1)
    linear_combination (1 / 2) * e1 + (-1 / 2) * e2
  have hP : ∫ t in Ioc y x, (3 * t ^ 2 + 2 * b * t + c) / (2 * √(cubic b c d t)) = √(cubic b c d x) - √(cubic b c d y) := by
    rw [← intervalIntegral.integral_of_le hlt.le]
    apply intervalIntegral.integral_eq_sub_of_hasDerivAt
    · intro t ht
      rw [uIcc_of_le hlt.le] at ht
      exact h.s_deriv ht.1
    · rw [intervalIntegrable_iff_integrableOn_Ioc_of_le hlt.le]
      apply IntegrableOn.mono_set _ Ioc_subset_Icc_self
      apply ContinuousOn.integrableOn_Icc
      refine ContinuousOn.div (by fun_prop) (continuousOn_const.mul h.s_cont) fun t ht => (mul_pos two_pos (Real.sqrt_pos.mpr (h.cpos ht.1))).ne'
  have hP' := congrArg (fun r : ℝ => (r : ℂ)) hP
  rw [← integral_complex_ofReal, Complex.ofReal_sub, ← h.sqrt_eq hlt ⟨hlt.le, le_rfl⟩, ← h.sqrt_eq hlt ⟨le_rfl, hlt.le⟩] at hP'
  have hsc : ContinuousOn (fun t : ℝ => ((√(cubic b c d t) : ℝ) : ℂ)) (Icc y x) :=
    Complex.continuous_ofReal.comp_continuousOn h.s_cont
  have iP : IntegrableOn (fun t : ℝ => (((3 * t ^ 2 + 2 * b * t + c) / (2 * √(cubic b c d t)) : ℝ) : ℂ)) (Ioc y x) := by
    apply IntegrableOn.mono_set _ Ioc_subset_Icc_self
    apply ContinuousOn.integrableOn_Icc
    refine Complex.continuous_ofReal.comp_continuousOn ?_
    refine ContinuousOn.div (by fun_prop) (continuousOn_const.mul h.s_cont) fun t ht => (mul_pos two_pos (Real.sqrt_pos.mpr (h.cpos ht.1))).ne'
  have i1 : IntegrableOn (fun t : ℝ => ((t : ℂ) - r1) / √(cubic b c d t)) (Ioc y x) := by
    apply IntegrableOn.mono_set _ Ioc_subset_Icc_self
    apply ContinuousOn.integrableOn_Icc
    exact ContinuousOn.div (by fun_prop) hsc fun t ht => h.cs_ne ht.1
  have i0 : IntegrableOn (fun t : ℝ => ((1 / √(cubic b c d t) : ℝ) : ℂ)) (Ioc y x) := (h.inv_s_integrable hlt).ofReal
  have hsum : ((∫ t in Ioc y x, (1 + t) ^ 2 / √(cubic b c d t) : ℝ) : ℂ) =
      2 / 3 * (Xr r1 x * Xr r2 x * Xr r3 x - Xr r1 y * Xr r2 y * Xr r3 y) +
        (2 / 3 * (r1 + r2 + r3 + 3) * (∫ t in Ioc y x, ((t : ℂ) - r1) / √(cubic b c d t)) +
        1 / 3 * (3 * (r1 + 1) ^ 2 - δ) * ((∫ t in Ioc y x, 1 / √(cubic b c d t) : ℝ) : ℂ)) := by
    have i10 : Integrable (fun a : ℝ => 2 / 3 * (r1 + r2 + r3 + 3) * (((a : ℂ) - r1) / √(cubic b c d a)) +
        1 / 3 * (3 * (r1 + 1) ^ 2 - δ) * ((1 / √(cubic b c d a) : ℝ) : ℂ)) (volume.restrict (Ioc y x)) :=
      (i1.const_mul _).add (i0.const_mul _)
    rw [← hP', ← integral_complex_ofReal, ← integral_complex_ofReal, ← integral_const_mul, ← integral_const_mul, ← integral_const_mul,
      ← integral_add (i1.const_mul _) (i0.const_mul _), ← integral_add (iP.const_mul _) i10]
    apply setIntegral_congr_fun measurableSet_Ioc
    intro t ht
    have hs := h.cs_ne ht.1.le
    simp only
    push_cast
    rw [hb, ← hc]
    have hb' : (b : ℂ) = -(r1 + r2 + r3) := by rw [hb]; ring
    rw [hb']
    simp only [δ]
    field_simp
    ring
  rw [hsum, ← h1, h2]
  simp only [u, dz] at hdz ⊢
  field_simp
  ring

end CubicOK

end Verif.Ellred
