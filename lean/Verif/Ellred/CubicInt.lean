import Verif.Ellred.Cubic
import Verif.Ellred.RCint

/-! # The three integrals of a cubic -/

namespace Verif.Ellred

open MeasureTheory Set Filter Topology Verif.Carlson ComplexConjugate

namespace CubicOK

variable {y x t : ℝ} {r1 r2 r3 : ℂ} {b c d : ℝ}

theorem cubic_cont : Continuous (cubic b c d) := by unfold cubic; fun_prop

theorem cubic_deriv (t : ℝ) : HasDerivAt (cubic b c d) (3 * t ^ 2 + 2 * b * t + c) t := by
  unfold cubic
  have := (((hasDerivAt_pow 3 t).add ((hasDerivAt_pow 2 t).const_mul b)).add ((hasDerivAt_id t).const_mul c)).add_const d
  refine this.congr_deriv ?_
  simp
  ring

theorem params3_eq (hlt : y < x) : params3 r1 r2 r3 y x =
    ((((x - y : ℝ) : ℂ) * Uc y r1 r2 r3 x) ^ 2, (((x - y : ℝ) : ℂ) * Uc y r2 r1 r3 x) ^ 2, (((x - y : ℝ) : ℂ) * Uc y r3 r1 r2 x) ^ 2) := by
  have hk : (x : ℂ) - y ≠ 0 := sub_ne_zero.mpr (by exact_mod_cast hlt.ne')
  have e : ∀ r1 r2 r3, ((x - y : ℝ) : ℂ) * Uc y r1 r2 r3 x = Xr r1 x * Xr r2 y * Xr r3 y + Xr r1 y * Xr r2 x * Xr r3 x := by
    intro r1 r2 r3
    rw [Uc]
    push_cast
    field_simp
  rw [e, e, e, params3]
  simp only [Prod.mk.injEq]
  refine ⟨by ring, by ring, by ring⟩

theorem params3_swap (y x : ℝ) (r1 r2 r3 : ℂ) : params3 r1 r2 r3 y x = params3 r1 r2 r3 x y := by
  simp only [params3, Prod.mk.injEq]
  exact ⟨by ring, by ring, by ring⟩

variable (h : CubicOK y r1 r2 r3 b c d)
include h

theorem cpos (ht : y ≤ t) : 0 < cubic b c d t := h.pos t ht

theorem s_eq (hlt : y < x) (ht : t ∈ Icc y x) : (Xr r1 t * Xr r2 t * Xr r3 t).re = √(cubic b c d t) := by
  rw [h.sqrt_eq hlt ht, Complex.ofReal_re]

theorem s_deriv (ht : y ≤ t) : HasDerivAt (fun t => √(cubic b c d t)) ((3 * t ^ 2 + 2 * b * t + c) / (2 * √(cubic b c d t))) t :=
  (cubic_deriv t).sqrt (h.cpos ht).ne'

/-- The kernel with the square root of the cubic. -/
theorem kernel' (hlt : y < x) : ∃ V W, Kernel y x (fun t => √(cubic b c d t)) (Uc y r1 r2 r3) (Uc y r2 r1 r3) (Uc y r3 r1 r2) V W := by
  obtain ⟨-, -, -, -, V, W, K⟩ := h.kernel hlt
  have e : ∀ t ∈ Ioc y x, (Xr r1 t * Xr r2 t * Xr r3 t).re = √(cubic b c d t) := fun t ht => h.s_eq hlt ⟨ht.1.le, ht.2⟩
  refine ⟨V, W, K.lt, fun t ht => Real.sqrt_pos.mpr (h.cpos ht.1.le), (Real.continuous_sqrt.comp cubic_cont).continuousOn, K.re1, K.re2, K.re3,
    K.prod, K.W_pos, K.sq1, K.sq2, K.sq3, fun t ht => ?_, K.lim⟩
  have := K.deriv t ht
  simp only [e t ht] at this
  exact this

/-- The first integral. -/
theorem rf_eq (hlt : y < x) : let u := params3 r1 r2 r3 y x
    2 * ((x - y : ℝ) : ℂ) * RFc u.1 u.2.1 u.2.2 = ((∫ t in Ioc y x, 1 / √(cubic b c d t) : ℝ) : ℂ) := by
  obtain ⟨V, W, K⟩ := h.kernel' hlt
  intro u
  have := K.rf (sub_pos.mpr hlt)
  rw [show u = _ from params3_eq hlt]
  simp only
  rw [this, ← integral_complex_ofReal, ← integral_Ioc_eq_integral_Ioo]
  simp only [Complex.ofReal_div, Complex.ofReal_one]

theorem inv_s_integrable (hlt : y < x) : IntegrableOn (fun t => 1 / √(cubic b c d t)) (Ioc y x) := by
  apply IntegrableOn.mono_set _ Ioc_subset_Icc_self
  apply ContinuousOn.integrableOn_Icc
  exact ContinuousOn.div continuousOn_const (Real.continuous_sqrt.comp cubic_cont).continuousOn fun t ht => (Real.sqrt_pos.mpr (h.cpos ht.1)).ne'

omit h in
/-- The argument of `R_C`. -/
noncomputable def S (y b c d t : ℝ) : ℝ := (√(cubic b c d t) * (1 + y) + √(cubic b c d y) * (1 + t)) / (t - y)

omit h in
/-- `U_1² + r_1 + 1`. -/
noncomputable def Q (y b c d t : ℝ) : ℝ := (S y b c d t ^ 2 - cubic b c d (-1)) / ((1 + t) * (1 + y))

theorem Q_eq (hy : -1 < y) (hyt : y < t) : ((Q y b c d t : ℝ) : ℂ) = Uc y r1 r2 r3 t ^ 2 + (r1 + 1) := by
  have h1 := h.sqrt_eq hyt ⟨le_rfl, hyt.le⟩
  have h2 := h.sqrt_eq hyt ⟨hyt.le, le_rfl⟩
  have hk : (t : ℂ) - y ≠ 0 := sub_ne_zero.mpr (by exact_mod_cast hyt.ne')
  have ht0 : (1 : ℂ) + t ≠ 0 := by exact_mod_cast (by linarith : (0:ℝ) < 1 + t).ne'
  have hy0 : (1 : ℂ) + y ≠ 0 := by exact_mod_cast (by linarith : (0:ℝ) < 1 + y).ne'
  have hm : ((cubic b c d (-1) : ℝ) : ℂ) = -(1 + r1) * (1 + r2) * (1 + r3) := by
    have := h.vieta (-1)
    rw [cubic]
    push_cast
    linear_combination -this
  have q : ∀ r : ℂ, ∀ t : ℝ, Xr r t ^ 2 = t - r := fun r t => by rw [Xr, sq, csqrt_sq]
  rw [Q, S]
  push_cast
  rw [hm, ← h1, ← h2, div_eq_iff (mul_ne_zero ht0 hy0), Uc, div_pow, div_pow, div_add' _ _ _ (pow_ne_zero 2 hk), div_sub' (pow_ne_zero 2 hk),
    div_mul_eq_mul_div]
  congr 1
  have a1 := q r1 t
  have a2 := q r2 t
  have a3 := q r3 t
  have b1 := q r1 y
  have b2 := q r2 y
  have b3 := q r3 y
  generalize Xr r1 t = X1 at *
  generalize Xr r2 t = X2 at *
  generalize Xr r3 t = X3 at *
  generalize Xr r1 y = Y1 at *
  generalize Xr r2 y = Y2 at *
  generalize Xr r3 y = Y3 at *
  have key : (X1 * X2 * X3 * (1 + y) + Y1 * Y2 * Y3 * (1 + t)) ^ 2 - (1 + t) * (1 + y) * (X1 * Y2 * Y3 + Y1 * X2 * X3) ^ 2 =
      X1 ^ 2 * X2 ^ 2 * X3 ^ 2 * (1 + y) ^ 2 + Y1 ^ 2 * Y2 ^ 2 * Y3 ^ 2 * (1 + t) ^ 2 -
        (1 + t) * (1 + y) * (X1 ^ 2 * Y2 ^ 2 * Y3 ^ 2 + Y1 ^ 2 * X2 ^ 2 * X3 ^ 2) := by ring
  rw [a1, a2, a3, b1, b2, b3] at key
  linear_combination key

theorem S_pos (hy : -1 < y) (hyt : y < t) : 0 < S y b c d t := by
  have := Real.sqrt_pos.mpr (h.cpos hyt.le)
  have := Real.sqrt_pos.mpr (h.cpos le_rfl)
  exact div_pos (add_pos (mul_pos ‹_› (by linarith)) (mul_pos ‹_› (by linarith))) (by linarith)

theorem Q_anti (hy : -1 < y) (hyt : y < t) (htx : t < x) : Q y b c d x < Q y b c d t := by
  have hlt := hyt.trans htx
  obtain ⟨V, W, K⟩ := h.kernel' hlt
  have e1 := h.Q_eq hy hyt
  have e2 := h.Q_eq hy hlt
  rw [K.sq1 t ⟨hyt, htx.le⟩] at e1
  have : ((Q y b c d t : ℝ) : ℂ) = ((Q y b c d x + V t : ℝ) : ℂ) := by push_cast; rw [e1, e2]; ring
  have : Q y b c d t = Q y b c d x + V t := by exact_mod_cast this
  have := K.V_pos ⟨hyt, htx⟩
  linarith

theorem Q_explicit (hy : -1 < y) (hyt : y < t) : Q y b c d t * (t - y) ^ 2 =
    (1 + y) * (1 + t) * (2 + y + t) + 2 * (b - 3) * (1 + y) * (1 + t) + (3 - 2 * b + c) * (2 + y + t) + 2 * cubic b c d (-1) +
      2 * (√(cubic b c d y) * √(cubic b c d t)) := by
  have s1 := Real.sq_sqrt (h.cpos (t := t) hyt.le).le
  have s2 := Real.sq_sqrt (h.cpos (t := y) le_rfl).le
  have hk : t - y ≠ 0 := by linarith
  have ht0 : 1 + t ≠ 0 := by linarith
  have hy0 : 1 + y ≠ 0 := by linarith
  rw [Q, S]
  generalize √(cubic b c d t) = s at *
  generalize √(cubic b c d y) = s' at *
  field_simp
  simp only [cubic] at *
  linear_combination (1 + y) ^ 2 * s1 + (1 + t) ^ 2 * s2

theorem Q_pos (hy : -1 < y) (hyt : y < t) : 0 < Q y b c d t := by
  obtain ⟨x, htx, hx⟩ : ∃ x, t < x ∧ 0 < Q y b c d x := by
    have hα : 0 < 1 + y := by linarith
    set β := (1 + y) ^ 2 + 2 * (b - 3) * (1 + y) + (3 - 2 * b + c) with hβ
    set γ := (3 - 2 * b + c) * (1 + y) + 2 * cubic b c d (-1) with hγ
    have hw : Tendsto (fun w : ℝ => w * ((1 + y) * w + β) + γ) atTop atTop := by
      apply tendsto_atTop_add_const_right
      apply Tendsto.atTop_mul_atTop₀ tendsto_id
      apply tendsto_atTop_add_const_right
      exact tendsto_id.const_mul_atTop hα
    obtain ⟨w, hw0, hw1⟩ := ((hw.eventually_gt_atTop 0).and (eventually_gt_atTop (1 + t))).exists
    refine ⟨w - 1, by linarith, ?_⟩
    have hyx : y < w - 1 := by linarith
    have e := h.Q_explicit hy hyx
    have hs : 0 ≤ √(cubic b c d y) * √(cubic b c d (w - 1)) := by positivity
    have hk : 0 < (w - 1 - y) ^ 2 := by have : 0 < w - 1 - y := by linarith
                                        positivity
    have : 0 < Q y b c d (w - 1) * (w - 1 - y) ^ 2 := by
      rw [e]
      rw [hβ, hγ] at hw0
      nlinarith
    exact (pos_iff_pos_of_mul_pos this).mpr hk
  exact hx.trans (h.Q_anti hy hyt htx)

theorem S_deriv (hy : -1 < y) (hyt : y < t) :
    HasDerivAt (S y b c d) ((1 + y) * ((1 + t) - Q y b c d t) / (2 * √(cubic b c d t))) t := by
  have hk : t - y ≠ 0 := by linarith
  have hs := (Real.sqrt_pos.mpr (h.cpos (t := t) hyt.le)).ne'
  have := (((h.s_deriv hyt.le).mul_const (1 + y)).add (((hasDerivAt_id t).const_add 1).const_mul (√(cubic b c d y)))).div
    ((hasDerivAt_id t).sub_const y) hk
  refine this.congr_deriv ?_
  have e := h.Q_explicit hy hyt
  have s1 := Real.sq_sqrt (h.cpos (t := t) hyt.le).le
  have hq : Q y b c d t = ((1 + y) * (1 + t) * (2 + y + t) + 2 * (b - 3) * (1 + y) * (1 + t) + (3 - 2 * b + c) * (2 + y + t) +
      2 * cubic b c d (-1) + 2 * (√(cubic b c d y) * √(cubic b c d t))) / (t - y) ^ 2 := by
    rw [eq_div_iff (pow_ne_zero 2 hk), e]
  rw [hq]
  simp only [Pi.add_apply, id]
  generalize √(cubic b c d t) = s at *
  generalize √(cubic b c d y) = s' at *
  field_simp
  simp only [cubic] at *
  linear_combination (-2 * (1 + y)) * s1

theorem S_tendsto (hy : -1 < y) : Tendsto (S y b c d) (𝓝[>] y) atTop := by
  have hi : Tendsto (fun t : ℝ => (t - y)⁻¹) (𝓝[>] y) atTop := by
    refine tendsto_inv_nhdsGT_zero.comp (tendsto_nhdsWithin_iff.mpr ⟨?_, ?_⟩)
    · have : Tendsto (fun t : ℝ => t - y) (𝓝 y) (𝓝 (y - y)) := (continuous_id.sub continuous_const).tendsto y
      rw [sub_self] at this
      exact this.mono_left nhdsWithin_le_nhds
    · filter_upwards [self_mem_nhdsWithin] with t ht
      have ht : y < t := ht
      exact sub_pos.mpr ht
  have hN : Continuous fun t => √(cubic b c d t) * (1 + y) + √(cubic b c d y) * (1 + t) := by
    have := cubic_cont (b := b) (c := c) (d := d)
    fun_prop
  have hp : 0 < √(cubic b c d y) * (1 + y) + √(cubic b c d y) * (1 + y) := by
    have := Real.sqrt_pos.mpr (h.cpos (t := y) le_rfl)
    have : 0 < 1 + y := by linarith
    positivity
  have := Tendsto.pos_mul_atTop hp ((hN.tendsto y).mono_left nhdsWithin_le_nhds) hi
  exact this.congr fun t => by rw [S, div_eq_mul_inv]

theorem sq_sub (hy : -1 < y) (hyt : y < t) : S y b c d t ^ 2 - cubic b c d (-1) = (1 + t) * (1 + y) * Q y b c d t := by
  have ht0 : 1 + t ≠ 0 := by linarith
  have hy0 : 1 + y ≠ 0 := by linarith
  rw [Q]
  field_simp

/-- The second integral. -/
theorem lookback_eq (hy : -1 < y) (hlt : y < x) : let u := params3 r1 r2 r3 y x
    let p := (r1 + 1) * ((x - y : ℝ) : ℂ) ^ 2 + u.1
    2 * ((x - y : ℝ) : ℂ) * (RCc ((Xr r1 x * Xr r2 x * Xr r3 x * (y + 1) + Xr r1 y * Xr r2 y * Xr r3 y * (x + 1)) ^ 2) ((x + 1) * (y + 1) * p) +
      ((x - y : ℝ) : ℂ) ^ 2 / 3 * RJc u.1 u.2.1 u.2.2 p) = ((∫ t in Ioc y x, 1 / ((1 + t) * √(cubic b c d t)) : ℝ) : ℂ) := by
  obtain ⟨V, W, K⟩ := h.kernel' hlt
  have hx : x ∈ Ioc y x := ⟨hlt, le_rfl⟩
  have hk : 0 < x - y := sub_pos.mpr hlt
  have hQx := h.Q_pos hy hlt
  have hSx := h.S_pos hy hlt
  intro u p
  have hu : u = _ := params3_eq hlt
  have hp : p = (x - y : ℝ) ^ 2 * (Uc y r1 r2 r3 x ^ 2 + (r1 + 1)) := by simp only [p, hu]; ring
  -- the part with R_J
  have hJ : 2 * ((x - y : ℝ) : ℂ) * (((x - y : ℝ) : ℂ) ^ 2 / 3) * RJc u.1 u.2.1 u.2.2 p =
      ((∫ t in Ioc y x, 1 / (Q y b c d t * √(cubic b c d t)) : ℝ) : ℂ) := by
    have := K.rj hk (Uc y r1 r2 r3 x ^ 2 + (r1 + 1))
    rw [hp, hu]
    simp only
    rw [this, ← integral_complex_ofReal, ← integral_Ioc_eq_integral_Ioo]
    apply setIntegral_congr_fun measurableSet_Ioc
    intro t ht
    have e : (V t : ℂ) + (Uc y r1 r2 r3 x ^ 2 + (r1 + 1)) = (Q y b c d t : ℝ) := by
      rw [h.Q_eq hy ht.1, K.sq1 t ht]; ring
    simp only
    rw [e, one_div_mul_one_div, mul_comm]
    push_cast
    rfl
  -- the part with R_C
  have hC : ((x - y : ℝ) : ℂ) * RCc ((Xr r1 x * Xr r2 x * Xr r3 x * (y + 1) + Xr r1 y * Xr r2 y * Xr r3 y * (x + 1)) ^ 2)
      ((x + 1) * (y + 1) * p) = ((∫ v in Ioi (S y b c d x), 1 / (v ^ 2 - cubic b c d (-1)) : ℝ) : ℂ) := by
    have e1 : (Xr r1 x * Xr r2 x * Xr r3 x * (y + 1) + Xr r1 y * Xr r2 y * Xr r3 y * (x + 1)) ^ 2 =
        (((x - y) ^ 2 * S y b c d x ^ 2 : ℝ) : ℂ) := by
      rw [h.sqrt_eq hlt ⟨hlt.le, le_rfl⟩, h.sqrt_eq hlt ⟨le_rfl, hlt.le⟩, ← mul_pow]
      have : (x - y) * S y b c d x = √(cubic b c d x) * (y + 1) + √(cubic b c d y) * (x + 1) := by
        rw [S]; field_simp; ring
      rw [this]
      push_cast
      ring
    have e2 : (x + 1) * (y + 1) * p = (((x - y) ^ 2 * (S y b c d x ^ 2 - cubic b c d (-1)) : ℝ) : ℂ) := by
      rw [hp, h.sq_sub hy hlt, ← h.Q_eq hy hlt]
      push_cast
      ring
    have hn : 0 ≤ S y b c d x ^ 2 - cubic b c d (-1) := by
      rw [h.sq_sub hy hlt]
      have : 0 < 1 + x := by linarith
      have : 0 < 1 + y := by linarith
      positivity
    rw [e1, e2, RCc_ofReal (by positivity), ← Complex.ofReal_mul, RC_scale_sq hk (by positivity) hn, RC_eq_Ioi hSx]
  have hQi : IntegrableOn (fun t => 1 / (Q y b c d t * √(cubic b c d t))) (Ioc y x) := by
    refine Integrable.mono' ((h.inv_s_integrable hlt).const_mul (1 / Q y b c d x)) ?_ ?_
    · refine ContinuousOn.aestronglyMeasurable ?_ measurableSet_Ioc
      refine ContinuousOn.div continuousOn_const ?_ fun t ht => (mul_pos (h.Q_pos hy ht.1) (Real.sqrt_pos.mpr (h.cpos ht.1.le))).ne'
      refine ContinuousOn.mul ?_ (Real.continuous_sqrt.comp cubic_cont).continuousOn
      intro t ht
      have h1 := (h.S_deriv hy ht.1).continuousAt
      have h2 : (1 + t) * (1 + y) ≠ 0 := by
        have : 0 < 1 + y := by linarith
        have : 0 < 1 + t := by linarith [ht.1]
        positivity
      have : ContinuousAt (Q y b c d) t := by
        unfold Q
        fun_prop (disch := exact h2)
      exact this.continuousWithinAt
    · refine (ae_restrict_iff' measurableSet_Ioc).mpr (Eventually.of_forall fun t ht => ?_)
      have h1 := h.Q_pos hy ht.1
      have h2 := Real.sqrt_pos.mpr (h.cpos (t := t) ht.1.le)
      have h3 : Q y b c d x ≤ Q y b c d t := by
        rcases eq_or_lt_of_le ht.2 with e | e
        · rw [e]
        · exact (h.Q_anti hy ht.1 e).le
      rw [Real.norm_of_nonneg (by positivity), one_div_mul_one_div]
      gcongr
  have hLi : IntegrableOn (fun t => 1 / ((1 + t) * √(cubic b c d t))) (Ioc y x) := by
    apply IntegrableOn.mono_set _ Ioc_subset_Icc_self
    apply ContinuousOn.integrableOn_Icc
    refine ContinuousOn.div continuousOn_const ?_ fun t ht => ?_
    · have := cubic_cont (b := b) (c := c) (d := d)
      fun_prop
    · have := Real.sqrt_pos.mpr (h.cpos (t := t) ht.1)
      have : 0 < 1 + t := by linarith [ht.1]
      positivity
  have hpt : ∀ t ∈ Ioc y x, 2 * (-((1 + y) * ((1 + t) - Q y b c d t) / (2 * √(cubic b c d t))) / (S y b c d t ^ 2 - cubic b c d (-1))) =
      1 / ((1 + t) * √(cubic b c d t)) - 1 / (Q y b c d t * √(cubic b c d t)) := by
    intro t ht
    have h1 := (h.Q_pos hy ht.1).ne'
    have h2 := (Real.sqrt_pos.mpr (h.cpos (t := t) ht.1.le)).ne'
    have h3 : 1 + t ≠ 0 := by linarith [ht.1]
    have h4 : 1 + y ≠ 0 := by linarith
    rw [h.sq_sub hy ht.1]
    field_simp
    ring
  have hF := integral_log_deriv (κ := cubic b c d (-1)) hlt (fun t ht => h.S_deriv hy ht.1) (by
      intro t ht
      have h1 := (h.S_deriv hy ht.1).continuousAt
      have h2 : (1 + t) * (1 + y) ≠ 0 := by
        have : 0 < 1 + y := by linarith
        have : 0 < 1 + t := by linarith [ht.1]
        positivity
      have hq : ContinuousAt (Q y b c d) t := by
        unfold Q
        fun_prop (disch := exact h2)
      have h3 : 2 * √(cubic b c d t) ≠ 0 := (mul_pos two_pos (Real.sqrt_pos.mpr (h.cpos (t := t) ht.1.le))).ne'
      have h4 : ContinuousAt (fun t => √(cubic b c d t)) t := (h.s_deriv ht.1.le).continuousAt
      have : ContinuousAt (fun t => (1 + y) * ((1 + t) - Q y b c d t) / (2 * √(cubic b c d t))) t := by fun_prop (disch := exact h3)
      exact this.continuousWithinAt)
    (fun t ht => h.S_pos hy ht.1) (fun t ht => by
      have := h.sq_sub hy ht.1
      have h1 := h.Q_pos hy ht.1
      have : 0 < 1 + y := by linarith
      have : 0 < 1 + t := by linarith [ht.1]
      have : 0 < (1 + t) * (1 + y) * Q y b c d t := by positivity
      linarith) (h.S_tendsto hy) (by
      have := ((hLi.sub hQi).const_mul (1 / 2))
      refine Integrable.congr this ?_
      refine (ae_restrict_iff' measurableSet_Ioc).mpr (Eventually.of_forall fun t ht => ?_)
      simp only [Pi.sub_apply]
      rw [← hpt t ht]
      ring)
  have hsum : 2 * ∫ v in Ioi (S y b c d x), 1 / (v ^ 2 - cubic b c d (-1)) =
      (∫ t in Ioc y x, 1 / ((1 + t) * √(cubic b c d t))) - ∫ t in Ioc y x, 1 / (Q y b c d t * √(cubic b c d t)) := by
    rw [← hF, ← integral_sub hLi hQi, ← integral_const_mul]
    exact setIntegral_congr_fun measurableSet_Ioc hpt
  have := congrArg (fun r : ℝ => (r : ℂ)) hsum
  push_cast at this hC hJ ⊢
  linear_combination 2 * hC + hJ + this

end CubicOK

end Verif.Ellred
