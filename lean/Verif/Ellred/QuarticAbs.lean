import Verif.Ellred.QuarticLook

/-! # The absorption integral of a quartic -/

namespace Verif.Ellred

open MeasureTheory Set Filter Topology Verif.Carlson ComplexConjugate Bornology

namespace QuarticOK

variable {y x t : ℝ} {r1 r2 r3 r4 : ℂ} {b c d e : ℝ}

/-- `(t - y) U_14(t)`. -/
noncomputable def N4 (y : ℝ) (r1 r2 r3 r4 : ℂ) (t : ℝ) : ℂ := Xr r1 t * Xr r4 t * (Xr r2 y * Xr r3 y) + Xr r1 y * Xr r4 y * (Xr r2 t * Xr r3 t)

theorem U_eq_N4 (y : ℝ) (r1 r2 r3 r4 : ℂ) (t : ℝ) : U y (Xr r1) (Xr r4) (Xr r2) (Xr r3) t = N4 y r1 r2 r3 r4 t / ((t : ℂ) - y) := rfl

variable (h : QuarticOK y r1 r2 r3 r4 b c d e)
include h

theorem N4_ne (hyt : y ≤ t) : N4 y r1 r2 r3 r4 t ≠ 0 := by
  rcases eq_or_lt_of_le hyt with e0 | e0
  · subst e0
    obtain ⟨h1, h2, h3, h4⟩ := h.X_ne le_rfl
    rw [N4, ← two_mul]
    exact mul_ne_zero two_ne_zero (mul_ne_zero (mul_ne_zero h1 h4) (mul_ne_zero h2 h3))
  · obtain ⟨V, W, K⟩ := h.kernel' e0
    have := K.re3 t ⟨e0, le_rfl⟩
    rw [U_eq_N4] at this
    intro hn
    rw [hn] at this
    simp at this

theorem X_derivs (hyt : y ≤ t) : HasDerivAt (Xr r1) (1 / (2 * Xr r1 t)) t ∧ HasDerivAt (Xr r2) (1 / (2 * Xr r2 t)) t ∧
    HasDerivAt (Xr r3) (1 / (2 * Xr r3 t)) t ∧ HasDerivAt (Xr r4) (1 / (2 * Xr r4 t)) t := by
  obtain ⟨s1, s2, s3, s4, -⟩ := h.kernel (x := t + 1) (by linarith)
  have ht : t ∈ Icc y (t + 1) := ⟨hyt, by linarith⟩
  exact ⟨Xr_deriv (s1 t ht), Xr_deriv (s2 t ht), Xr_deriv (s3 t ht), Xr_deriv (s4 t ht)⟩

theorem prim4_deriv (hyt : y ≤ t) : HasDerivAt (fun t : ℝ => Xr r1 t * ((t : ℂ) - y) / (Xr r4 t * N4 y r1 r2 r3 r4 t))
    ((((t : ℂ) - r1) / ((t - r4) * √(quartic b c d e t)) - (r2 - r1) * (r3 - r1) * ((t - y) ^ 2 / N4 y r1 r2 r3 r4 t ^ 2 / √(quartic b c d e t))) *
      (Xr r4 y / (2 * Xr r1 y))) t := by
  obtain ⟨n1, n2, n3, n4⟩ := h.X_ne hyt
  obtain ⟨m1, m2, m3, m4⟩ := h.X_ne le_rfl
  obtain ⟨d1, d2, d3, d4⟩ := h.X_derivs hyt
  have hN := h.N4_ne hyt
  have dt : HasDerivAt (fun t : ℝ => (t : ℂ) - y) 1 t := (HasDerivAt.ofReal_comp (hasDerivAt_id t)).sub_const _
  have dN : HasDerivAt (N4 y r1 r2 r3 r4) _ t := ((d1.mul d4).mul_const (Xr r2 y * Xr r3 y)).add ((d2.mul d3).const_mul (Xr r1 y * Xr r4 y))
  refine ((d1.mul dt).div (d4.mul dN) (mul_ne_zero n4 hN)).congr_deriv ?_
  simp only [Pi.mul_apply]
  rw [← h.sqrt_eq hyt]
  have a1 := Xr_sq r1 t
  have a2 := Xr_sq r2 t
  have a3 := Xr_sq r3 t
  have a4 := Xr_sq r4 t
  have b1 := Xr_sq r1 y
  have b2 := Xr_sq r2 y
  have b3 := Xr_sq r3 y
  have b4 := Xr_sq r4 y
  rw [← a1, ← a4]
  have eN : N4 y r1 r2 r3 r4 t = Xr r1 t * Xr r4 t * (Xr r2 y * Xr r3 y) + Xr r1 y * Xr r4 y * (Xr r2 t * Xr r3 t) := rfl
  clear dN
  generalize N4 y r1 r2 r3 r4 t = N at *
  have h4 : Xr r4 t ^ 2 - ((t : ℂ) - y) = Xr r4 y ^ 2 := by rw [a4, b4]; ring
  have key : Xr r1 y ^ 2 * (((t : ℂ) - y) * (Xr r2 t ^ 2 * Xr r3 t ^ 2 * Xr r4 t ^ 2) + 2 * (Xr r1 t ^ 2 * Xr r2 t ^ 2 * Xr r3 t ^ 2 * Xr r4 t ^ 2) -
      ((t : ℂ) - y) * (Xr r1 t ^ 2 * Xr r2 t ^ 2 * Xr r3 t ^ 2) - ((t : ℂ) - y) * (Xr r1 t ^ 2 * Xr r4 t ^ 2 * (Xr r2 t ^ 2 + Xr r3 t ^ 2))) =
      Xr r1 t ^ 2 * (Xr r1 t ^ 2 * Xr r4 t ^ 2 * (Xr r2 y ^ 2 * Xr r3 y ^ 2) + Xr r1 y ^ 2 * Xr r4 y ^ 2 * (Xr r2 t ^ 2 * Xr r3 t ^ 2)) -
        (r2 - r1) * (r3 - r1) * ((t : ℂ) - y) ^ 2 * Xr r4 t ^ 2 := by
    rw [a1, a2, a3, a4, b1, b2, b3, b4]
    ring
  generalize Xr r1 t = X1 at *
  generalize Xr r2 t = X2 at *
  generalize Xr r3 t = X3 at *
  generalize Xr r4 t = X4 at *
  generalize Xr r1 y = Y1 at *
  generalize Xr r2 y = Y2 at *
  generalize Xr r3 y = Y3 at *
  generalize Xr r4 y = Y4 at *
  generalize (t : ℂ) - y = k at *
  generalize (r2 - r1) * (r3 - r1) = δ at *
  field_simp
  rw [eN]
  linear_combination Y4 * key + 2 * X1 * X2 * X3 * X4 * Y1 * Y2 * Y3 * X1 ^ 2 * h4

theorem N4_cont : ContinuousOn (N4 y r1 r2 r3 r4) (Ici y) := by
  intro t ht
  obtain ⟨c1, c2, c3, c4⟩ := h.X_cont (t := t) ht
  have : ContinuousAt (N4 y r1 r2 r3 r4) t := by unfold N4; fun_prop
  exact this.continuousWithinAt

theorem sub_ne (ht : y ≤ t) : (t : ℂ) - r4 ≠ 0 := by
  rw [← Xr_sq]
  exact pow_ne_zero 2 (h.X_ne ht).2.2.2

/-- `∫ (t - r_1) / ((t - r_4) s)`. -/
theorem frac_eq (hlt : y < x) : let u := params4 r1 r2 r3 r4 y x
    ∫ t in Ioc y x, ((t : ℂ) - r1) / ((t - r4) * √(quartic b c d e t)) = (r2 - r1) * (r3 - r1) *
      (2 * ((x - y : ℝ) : ℂ) * (((x - y : ℝ) : ℂ) ^ 2 / 3) * RDc u.1 u.2.1 u.2.2) +
        2 * ((x - y : ℝ) : ℂ) * (Xr r1 x * Xr r1 y / Xr r4 x / Xr r4 y / csqrt u.2.2) := by
  obtain ⟨V, W, K⟩ := h.kernel' hlt
  have hk := sub_pos.mpr hlt
  have hk' : ((x - y : ℝ) : ℂ) ≠ 0 := by exact_mod_cast hk.ne'
  obtain ⟨m1, -, -, m4⟩ := h.X_ne (t := y) le_rfl
  intro u
  rw [show u = _ from params4_eq hlt]
  simp only
  rw [csqrt_of_sq (by
    have := mul_pos hk (K.re3 x ⟨hlt, le_rfl⟩)
    rwa [Complex.re_ofReal_mul])]
  have hD := K.rd hk
  rw [← integral_Ioc_eq_integral_Ioo] at hD
  rw [hD]
  have hsc : ContinuousOn (fun t : ℝ => ((√(quartic b c d e t) : ℝ) : ℂ)) (Icc y x) :=
    Complex.continuous_ofReal.comp_continuousOn s_cont
  have c1 : ContinuousOn (fun t : ℝ => ((t : ℂ) - r1) / ((t - r4) * √(quartic b c d e t))) (Icc y x) := by
    refine ContinuousOn.div (by fun_prop) (ContinuousOn.mul (by fun_prop) hsc) fun t ht => mul_ne_zero (h.sub_ne ht.1) (h.cs_ne ht.1)
  have c2 : ContinuousOn (fun t : ℝ => ((t : ℂ) - y) ^ 2 / N4 y r1 r2 r3 r4 t ^ 2 / √(quartic b c d e t)) (Icc y x) := by
    refine ContinuousOn.div ?_ hsc fun t ht => h.cs_ne ht.1
    refine ContinuousOn.div ?_ ((h.N4_cont.mono Icc_subset_Ici_self).pow 2) fun t ht => pow_ne_zero 2 (h.N4_ne ht.1)
    fun_prop
  have i1 := c1.integrableOn_Icc.mono_set Ioc_subset_Icc_self (μ := volume)
  have i2 := c2.integrableOn_Icc.mono_set Ioc_subset_Icc_self (μ := volume)
  have hF := intervalIntegral.integral_eq_sub_of_hasDerivAt (a := y) (b := x)
    (f := fun t : ℝ => Xr r1 t * ((t : ℂ) - y) / (Xr r4 t * N4 y r1 r2 r3 r4 t))
    (fun t ht => by
      rw [uIcc_of_le hlt.le] at ht
      exact h.prim4_deriv ht.1) (by
      rw [intervalIntegrable_iff_integrableOn_Ioc_of_le hlt.le]
      exact (i1.sub (i2.const_mul _)).mul_const _)
  rw [intervalIntegral.integral_of_le hlt.le, integral_mul_const, integral_sub i1 (i2.const_mul _), integral_const_mul] at hF
  have e2 : ∫ t in Ioc y x, ((t : ℂ) - y) ^ 2 / N4 y r1 r2 r3 r4 t ^ 2 / √(quartic b c d e t) =
      ∫ t in Ioc y x, 1 / ((√(quartic b c d e t) : ℝ) : ℂ) * (1 / U y (Xr r1) (Xr r4) (Xr r2) (Xr r3) t ^ 2) := by
    apply setIntegral_congr_fun measurableSet_Ioc
    intro t ht
    simp only
    rw [U_eq_N4]
    have := h.N4_ne ht.1.le
    have := h.cs_ne ht.1.le
    have : (t : ℂ) - y ≠ 0 := sub_ne_zero.mpr (by exact_mod_cast ht.1.ne')
    field_simp
  rw [e2] at hF
  simp only [sub_self, mul_zero, zero_div, sub_zero] at hF
  have hNx := h.N4_ne hlt.le
  obtain ⟨n1, -, -, n4⟩ := h.X_ne hlt.le
  rw [U_eq_N4]
  have e3 : ((x : ℂ) - y) = ((x - y : ℝ) : ℂ) := by push_cast; ring
  rw [e3] at hF ⊢
  rw [← eq_div_iff (div_ne_zero m4 (mul_ne_zero two_ne_zero m1)), sub_eq_iff_eq_add] at hF
  rw [hF]
  field_simp
  ring

theorem s4_deriv (hyt : y ≤ t) : HasDerivAt (fun t => Xr r1 t * Xr r2 t * Xr r3 t / Xr r4 t)
    (((1 + (t : ℂ)) ^ 2 - 1 / 2 * (2 * (r1 + 1) ^ 2 - (r2 - r1) * (r3 - r1)) - 1 / 2 * ((r4 - r2) * (r4 - r3)) * ((t - r1) / (t - r4)) -
      1 / 2 * (r1 + r2 + r3 + r4 + 4) * (t - r1)) / √(quartic b c d e t)) t := by
  obtain ⟨n1, n2, n3, n4⟩ := h.X_ne hyt
  obtain ⟨d1, d2, d3, d4⟩ := h.X_derivs hyt
  refine (((d1.mul d2).mul d3).div d4 n4).congr_deriv ?_
  simp only [Pi.mul_apply]
  rw [← h.sqrt_eq hyt]
  have a1 := Xr_sq r1 t
  have a2 := Xr_sq r2 t
  have a3 := Xr_sq r3 t
  have a4 := Xr_sq r4 t
  clear d1 d2 d3 d4
  generalize Xr r1 t = X1 at *
  generalize Xr r2 t = X2 at *
  generalize Xr r3 t = X3 at *
  generalize Xr r4 t = X4 at *
  rw [← a1, ← a4, show r1 = t - X1 ^ 2 by rw [a1]; ring, show r2 = t - X2 ^ 2 by rw [a2]; ring,
    show r3 = t - X3 ^ 2 by rw [a3]; ring, show r4 = t - X4 ^ 2 by rw [a4]; ring]
  field_simp
  ring

theorem abs_split (hlt : y < x) : ((∫ t in Ioc y x, (1 + t) ^ 2 / √(quartic b c d e t) : ℝ) : ℂ) =
    (Xr r1 x * Xr r2 x * Xr r3 x / Xr r4 x - Xr r1 y * Xr r2 y * Xr r3 y / Xr r4 y) +
    (1 / 2 * (2 * (r1 + 1) ^ 2 - (r2 - r1) * (r3 - r1)) * ((∫ t in Ioc y x, 1 / √(quartic b c d e t) : ℝ) : ℂ) +
    (1 / 2 * ((r4 - r2) * (r4 - r3)) * (∫ t in Ioc y x, ((t : ℂ) - r1) / ((t - r4) * √(quartic b c d e t))) +
    1 / 2 * (r1 + r2 + r3 + r4 + 4) * (∫ t in Ioc y x, ((t : ℂ) - r1) / (lam 1 0 t * √(quartic b c d e t))))) := by
  have hsc : ContinuousOn (fun t : ℝ => ((√(quartic b c d e t) : ℝ) : ℂ)) (Icc y x) :=
    Complex.continuous_ofReal.comp_continuousOn s_cont
  have i0 : IntegrableOn (fun t : ℝ => ((1 / √(quartic b c d e t) : ℝ) : ℂ)) (Ioc y x) := (h.inv_s_integrable hlt).ofReal
  have i1 : IntegrableOn (fun t : ℝ => ((t : ℂ) - r1) / ((t - r4) * √(quartic b c d e t))) (Ioc y x) := by
    refine (ContinuousOn.integrableOn_Icc ?_).mono_set Ioc_subset_Icc_self
    exact ContinuousOn.div (by fun_prop) (ContinuousOn.mul (by fun_prop) hsc) fun t ht => mul_ne_zero (h.sub_ne ht.1) (h.cs_ne ht.1)
  have i2 : IntegrableOn (fun t : ℝ => ((t : ℂ) - r1) / (lam 1 0 t * √(quartic b c d e t))) (Ioc y x) := by
    refine (ContinuousOn.integrableOn_Icc ?_).mono_set Ioc_subset_Icc_self
    refine ContinuousOn.div (by fun_prop) (lam_cont.continuousOn.mul hsc) fun t ht => mul_ne_zero (by simp [lam]) (h.cs_ne ht.1)
  have i3 : IntegrableOn (fun t : ℝ => (((1 + (t : ℂ)) ^ 2 - 1 / 2 * (2 * (r1 + 1) ^ 2 - (r2 - r1) * (r3 - r1)) -
      1 / 2 * ((r4 - r2) * (r4 - r3)) * ((t - r1) / (t - r4)) - 1 / 2 * (r1 + r2 + r3 + r4 + 4) * (t - r1)) / √(quartic b c d e t))) (Ioc y x) := by
    refine (ContinuousOn.integrableOn_Icc ?_).mono_set Ioc_subset_Icc_self
    refine ContinuousOn.div ?_ hsc fun t ht => h.cs_ne ht.1
    have : ContinuousOn (fun t : ℝ => ((t : ℂ) - r1) / (t - r4)) (Icc y x) := ContinuousOn.div (by fun_prop) (by fun_prop) fun t ht => h.sub_ne ht.1
    fun_prop
  have hP := intervalIntegral.integral_eq_sub_of_hasDerivAt (a := y) (b := x) (fun t ht => by
    rw [uIcc_of_le hlt.le] at ht
    exact h.s4_deriv ht.1) (by rwa [intervalIntegrable_iff_integrableOn_Ioc_of_le hlt.le])
  rw [intervalIntegral.integral_of_le hlt.le] at hP
  have i12 : IntegrableOn (fun t : ℝ => 1 / 2 * ((r4 - r2) * (r4 - r3)) * (((t : ℂ) - r1) / ((t - r4) * √(quartic b c d e t))) +
      1 / 2 * (r1 + r2 + r3 + r4 + 4) * (((t : ℂ) - r1) / (lam 1 0 t * √(quartic b c d e t)))) (Ioc y x) :=
    (i1.const_mul (1 / 2 * ((r4 - r2) * (r4 - r3)))).add (i2.const_mul (1 / 2 * (r1 + r2 + r3 + r4 + 4)))
  have i012 : IntegrableOn (fun t : ℝ => 1 / 2 * (2 * (r1 + 1) ^ 2 - (r2 - r1) * (r3 - r1)) * ((1 / √(quartic b c d e t) : ℝ) : ℂ) +
      (1 / 2 * ((r4 - r2) * (r4 - r3)) * (((t : ℂ) - r1) / ((t - r4) * √(quartic b c d e t))) +
      1 / 2 * (r1 + r2 + r3 + r4 + 4) * (((t : ℂ) - r1) / (lam 1 0 t * √(quartic b c d e t))))) (Ioc y x) :=
    (i0.const_mul (1 / 2 * (2 * (r1 + 1) ^ 2 - (r2 - r1) * (r3 - r1)))).add i12
  rw [← hP, ← integral_complex_ofReal, ← integral_complex_ofReal, ← integral_const_mul, ← integral_const_mul, ← integral_const_mul,
    ← integral_add (i1.const_mul _) (i2.const_mul _), ← integral_add (i0.const_mul _) i12, ← integral_add i3 i012]
  apply setIntegral_congr_fun measurableSet_Ioc
  intro t ht
  have n1 := h.cs_ne ht.1.le
  have n2 := h.sub_ne ht.1.le
  simp only [lam, Pi.add_apply]
  push_cast
  simp only [zero_mul, add_zero, one_mul]
  field_simp
  ring

theorem W2_one (hlt : y < x) : ((x - y : ℝ) : ℂ) ^ 2 * W2 1 0 y r1 r2 r3 r4 x =
    (params4 r1 r2 r3 r4 y x).1 - ((x - y : ℝ) : ℂ) ^ 2 * (r3 - r1) * (r4 - r1) := by
  rw [params4_eq hlt, W2, lam, lam]
  simp
  ring

/-- The third integral. -/
theorem absorption_eq (hlt : y < x) (hg : Good 1 0 y x r1 r2 r3 r4) : let u := params4 r1 r2 r3 r4 y x
    let dz : ℂ := ((x - y : ℝ) : ℂ)
    let p := u.1 - dz ^ 2 * (r3 - r1) * (r4 - r1)
    let q := p / (y - r1) / (x - r1)
    dz * ((Xr r1 x * Xr r2 x * Xr r3 x / Xr r4 x - Xr r1 y * Xr r2 y * Xr r3 y / Xr r4 y) / dz +
      (2 * (r1 + 1) ^ 2 - (r2 - r1) * (r3 - r1)) * RFc u.1 u.2.1 u.2.2 +
      (r4 - r2) * (r4 - r3) * (dz ^ 2 / 3 * (r2 - r1) * (r3 - r1) * RDc u.1 u.2.1 u.2.2 +
        Xr r1 x * Xr r1 y / Xr r4 x / Xr r4 y / csqrt u.2.2) +
      (r1 + r2 + r3 + r4 + 4) * (RCc (q + dz ^ 2) q - dz ^ 2 / 3 * (r2 - r1) * (r3 - r1) * (r4 - r1) * RJc u.1 u.2.1 u.2.2 p)) =
        ((∫ t in Ioc y x, (1 + t) ^ 2 / √(quartic b c d e t) : ℝ) : ℂ) := by
  intro u dz p q
  have h1 := h.rf_eq hlt
  have h2 := h.frac_eq hlt
  have h3 := h.third_good (α := 1) (β := 0) hlt (by simp [lam]) (fun t ht => by norm_num) hg
  have hdz : dz ≠ 0 := Complex.ofReal_ne_zero.mpr (sub_pos.mpr hlt).ne'
  have hk : (x : ℂ) - y ≠ 0 := sub_ne_zero.mpr (by exact_mod_cast hlt.ne')
  have n1 := (h.X_ne hlt.le).1
  have m1 := (h.X_ne le_rfl).1
  simp only at h1 h2 h3
  rw [h.W2_one hlt] at h3
  have hq : lam 1 0 x * lam 1 0 y * p / (Xr r1 x ^ 2 * Xr r1 y ^ 2) = q := by
    simp only [q, lam, Xr_sq]
    rw [div_div]
    push_cast
    ring
  have hM : M 1 0 y r1 r2 r3 r4 x ^ 2 = q + dz ^ 2 := by
    have hs := h.S_sq (α := 1) (β := 0) (by simp [lam]) hlt
    have hκ : kap 1 0 r1 r2 r3 r4 = 1 := by simp [kap, lam]
    rw [hκ, S, div_pow, sub_eq_iff_eq_add, div_eq_iff (pow_ne_zero 2 hk)] at hs
    rw [hs, ← hq, show p = dz ^ 2 * W2 1 0 y r1 r2 r3 r4 x from (h.W2_one hlt).symm]
    simp only [dz]
    push_cast
    ring
  rw [show (params4 r1 r2 r3 r4 y x).1 - ((x - y : ℝ) : ℂ) ^ 2 * (r3 - r1) * (r4 - r1) = p from rfl, hq, hM,
    show cJ 1 0 r1 r2 r3 r4 = (r2 - r1) * (r3 - r1) * (r4 - r1) by simp [cJ, lam]] at h3
  rw [h.abs_split hlt, h2, h3, ← h1]
  simp only [u, dz] at hdz ⊢
  field_simp
  ring

end QuarticOK

end Verif.Ellred
