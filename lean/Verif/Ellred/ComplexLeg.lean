import Verif.Ellred.ComplexDRun
import Verif.Ellred.ComplexJZero
import Verif.Carlson.LegendreProps

/-! # Legendre's integrals with complex parameters (C152)

`ellip.h` at a real amplitude in `(0, π/2]` and complex `m` (and `n`), with the integrals computed by the routines of C145, C148 and C150. -/

namespace Verif.Ellred

open MeasureTheory Set Filter Topology Verif.Carlson

/-! ### Specification: DLMF 19.2.4-19.2.8 with complex parameters, along the real interval, principal roots -/

/-- `F(φ | m)`. -/
noncomputable def legFc (φ : ℝ) (m : ℂ) : ℂ := ∫ θ in (0 : ℝ)..φ, 1 / csqrt (1 - m * (Real.sin θ : ℂ) ^ 2)

/-- `E(φ | m)`. -/
noncomputable def legEc (φ : ℝ) (m : ℂ) : ℂ := ∫ θ in (0 : ℝ)..φ, csqrt (1 - m * (Real.sin θ : ℂ) ^ 2)

/-- `D(φ | m)`. -/
noncomputable def legDc (φ : ℝ) (m : ℂ) : ℂ := ∫ θ in (0 : ℝ)..φ, (Real.sin θ : ℂ) ^ 2 / csqrt (1 - m * (Real.sin θ : ℂ) ^ 2)

/-- `Π(n; φ | m)`. -/
noncomputable def legPic (n : ℂ) (φ : ℝ) (m : ℂ) : ℂ :=
  ∫ θ in (0 : ℝ)..φ, 1 / ((1 - n * (Real.sin θ : ℂ) ^ 2) * csqrt (1 - m * (Real.sin θ : ℂ) ^ 2))

/-- The amplitude is in `(0, π/2]`, and `m` is not a real number from `1 / sin² φ` on. -/
structure LegOK (φ : ℝ) (m : ℂ) : Prop where
  pos : 0 < φ
  le : φ ≤ Real.pi / 2
  slit : 1 - m * (Real.sin φ : ℂ) ^ 2 ∈ Complex.slitPlane

namespace LegOK

variable {φ : ℝ} {m n : ℂ}

theorem sin_pos (h : LegOK φ m) : 0 < Real.sin φ := Real.sin_pos_of_pos_of_lt_pi h.pos (by linarith [Real.pi_pos, h.le])

theorem c_ge (h : LegOK φ m) : 1 ≤ 1 / Real.sin φ ^ 2 := by
  have hs := h.sin_pos
  rw [le_div_iff₀ (by positivity), one_mul]
  nlinarith [Real.sin_sq_add_cos_sq φ, sq_nonneg (Real.cos φ)]

theorem c_slit (h : LegOK φ m) : ((1 / Real.sin φ ^ 2 : ℝ) : ℂ) - m ∈ Complex.slitPlane := by
  have hs := h.sin_pos
  have e : ((1 / Real.sin φ ^ 2 : ℝ) : ℂ) - m = ((1 / Real.sin φ ^ 2 : ℝ) : ℂ) * (1 - m * (Real.sin φ : ℂ) ^ 2) := by
    have : (Real.sin φ : ℂ) ≠ 0 := by exact_mod_cast hs.ne'
    simp only [Complex.ofReal_div, Complex.ofReal_pow, Complex.ofReal_one, Complex.ofReal_sub]
    field_simp
  rw [e, Complex.mem_slitPlane_iff, Complex.re_ofReal_mul, Complex.im_ofReal_mul]
  rcases h.slit with k | k
  · exact Or.inl (by positivity)
  · exact Or.inr (mul_ne_zero (by positivity) k)

/-- The values under the root stay off the cut. -/
theorem slit_of_le (h : LegOK φ m) {s : ℝ} (h0 : 0 ≤ s) (h1 : s ≤ Real.sin φ) : 1 - m * (s : ℂ) ^ 2 ∈ Complex.slitPlane := by
  have hs := h.sin_pos
  have hr : 0 ≤ s ^ 2 / Real.sin φ ^ 2 ∧ s ^ 2 / Real.sin φ ^ 2 ≤ 1 := ⟨by positivity, by rw [div_le_one (by positivity)]; gcongr⟩
  have e : 1 - m * (s : ℂ) ^ 2 = ((1 - s ^ 2 / Real.sin φ ^ 2 : ℝ) : ℂ) + ((s ^ 2 / Real.sin φ ^ 2 : ℝ) : ℂ) * (1 - m * (Real.sin φ : ℂ) ^ 2) := by
    have : (Real.sin φ : ℂ) ≠ 0 := by exact_mod_cast hs.ne'
    simp only [Complex.ofReal_div, Complex.ofReal_pow, Complex.ofReal_one, Complex.ofReal_sub]
    field_simp
    ring
  rw [e, Complex.mem_slitPlane_iff, Complex.add_re, Complex.add_im, Complex.re_ofReal_mul, Complex.im_ofReal_mul, Complex.ofReal_re, Complex.ofReal_im, zero_add]
  generalize s ^ 2 / Real.sin φ ^ 2 = r at *
  rcases hr.1.eq_or_lt with hr0 | hr0
  · rw [← hr0]
    exact Or.inl (by norm_num)
  · rcases h.slit with k | k
    · exact Or.inl (by have := mul_pos hr0 k; linarith [hr.2])
    · exact Or.inr (mul_ne_zero hr0.ne' k)

theorem slit_at (h : LegOK φ m) {θ : ℝ} (hθ : θ ∈ Icc 0 φ) : 1 - m * (Real.sin θ : ℂ) ^ 2 ∈ Complex.slitPlane :=
  h.slit_of_le (Real.sin_nonneg_of_nonneg_of_le_pi hθ.1 (by linarith [hθ.2, h.le, Real.pi_pos]))
    (Real.sin_le_sin_of_le_of_le_pi_div_two (by linarith [hθ.1, Real.pi_pos]) h.le hθ.2)

theorem cont (h : LegOK φ m) : ContinuousOn (fun θ : ℝ => csqrt (1 - m * (Real.sin θ : ℂ) ^ 2)) (uIcc 0 φ) := by
  rw [uIcc_of_le h.pos.le]
  intro θ hθ
  have c1 : ContinuousAt (fun θ : ℝ => 1 - m * (Real.sin θ : ℂ) ^ 2) θ := by fun_prop
  exact (c1.cpow continuousAt_const (h.slit_at hθ)).continuousWithinAt

theorem root_ne (h : LegOK φ m) {θ : ℝ} (hθ : θ ∈ uIcc 0 φ) : csqrt (1 - m * (Real.sin θ : ℂ) ^ 2) ≠ 0 := by
  rw [uIcc_of_le h.pos.le] at hθ
  exact csqrt_ne0 (Complex.slitPlane_ne_zero (h.slit_at hθ))

theorem subst (h : LegOK φ m) (w : ℝ → ℂ) :
    ∫ θ in (0 : ℝ)..φ, w (Real.sin θ ^ 2) / csqrt (1 - m * (Real.sin θ : ℂ) ^ 2) =
      1 / 2 * ∫ t in Ioi (0 : ℝ), w (1 / (t + 1 / Real.sin φ ^ 2)) /
        cS (((1 / Real.sin φ ^ 2 : ℝ) : ℂ) - 1) (((1 / Real.sin φ ^ 2 : ℝ) : ℂ) - m) ((1 / Real.sin φ ^ 2 : ℝ) : ℂ) t := by
  have hsφ := h.sin_pos
  have h0 := h.pos
  have h1 := h.le
  obtain ⟨c, hc⟩ : ∃ c, c = 1 / Real.sin φ ^ 2 := ⟨_, rfl⟩
  rw [← hc]
  have hsin : ∀ θ ∈ Ioo 0 φ, 0 < Real.sin θ := fun θ hθ =>
    Real.sin_pos_of_pos_of_lt_pi hθ.1 (by linarith [Real.pi_pos, hθ.2])
  have hcos : ∀ θ ∈ Ioo 0 φ, 0 < Real.cos θ := fun θ hθ =>
    Real.cos_pos_of_mem_Ioo ⟨by linarith [Real.pi_pos, hθ.1], by linarith [hθ.2]⟩
  rw [← csc_sub_image h0 h1 hc, integral_image_eq_integral_abs_deriv_smul (f' := fun θ => -(2 * Real.cos θ / Real.sin θ ^ 3))
    measurableSet_Ioo, intervalIntegral.integral_of_le h0.le, integral_Ioc_eq_integral_Ioo, ← MeasureTheory.integral_const_mul]
  · apply setIntegral_congr_fun measurableSet_Ioo
    intro θ hθ
    have hs := hsin θ hθ
    have hk := hcos θ hθ
    have hsl := h.slit_at ⟨hθ.1.le, hθ.2.le⟩
    have hs' : (Real.sin θ : ℂ) ≠ 0 := by exact_mod_cast hs.ne'
    have hk' : (Real.cos θ : ℂ) ≠ 0 := by exact_mod_cast hk.ne'
    simp only [cS]
    have e1 : ((1 / Real.sin θ ^ 2 - c : ℝ) : ℂ) + ((c : ℂ) - 1) = (((Real.cos θ / Real.sin θ) ^ 2 : ℝ) : ℂ) := by
      rw [← Complex.ofReal_one, ← Complex.ofReal_sub, ← Complex.ofReal_add, div_pow, Real.cos_sq']
      congr 1
      field_simp
      ring
    have e2 : ((1 / Real.sin θ ^ 2 - c : ℝ) : ℂ) + ((c : ℂ) - m) = ((1 / Real.sin θ ^ 2 : ℝ) : ℂ) * (1 - m * (Real.sin θ : ℂ) ^ 2) := by
      simp only [Complex.ofReal_div, Complex.ofReal_pow, Complex.ofReal_one, Complex.ofReal_sub]
      field_simp
      ring
    have e3 : ((1 / Real.sin θ ^ 2 - c : ℝ) : ℂ) + (c : ℂ) = (((1 / Real.sin θ) ^ 2 : ℝ) : ℂ) := by
      rw [← Complex.ofReal_add, div_pow, one_pow]
      congr 1
      ring
    have e4 : 1 / (1 / Real.sin θ ^ 2 - c + c) = Real.sin θ ^ 2 := by
      rw [sub_add_cancel, one_div_one_div]
    have e5 : √(1 / Real.sin θ ^ 2) = 1 / Real.sin θ := by rw [Real.sqrt_div zero_le_one, Real.sqrt_one, Real.sqrt_sq hs.le]
    rw [e4, e1, e2, e3, csqrt_ofReal (by positivity), csqrt_ofReal (by positivity), csqrt_mul_pos (by positivity), Real.sqrt_sq (by positivity), Real.sqrt_sq (by positivity), e5,
      abs_neg, abs_of_pos (by positivity), Complex.real_smul]
    have hq : csqrt (1 - m * (Real.sin θ : ℂ) ^ 2) ≠ 0 := csqrt_ne0 (Complex.slitPlane_ne_zero hsl)
    generalize csqrt (1 - m * (Real.sin θ : ℂ) ^ 2) = q at *
    push_cast at hs' hk' ⊢
    field_simp
  · intro θ hθ
    have hs := hsin θ hθ
    have hp : HasDerivAt (fun θ => Real.sin θ ^ 2) (2 * Real.sin θ * Real.cos θ) θ := by
      simpa using (Real.hasDerivAt_sin θ).fun_pow 2
    have := ((hasDerivAt_const θ (1 : ℝ)).div hp (by positivity)).sub_const c
    refine (this.congr_deriv ?_).hasDerivWithinAt
    field_simp
    ring
  · intro a ha b hb hab
    have hsa := hsin a ha
    have hsb := hsin b hb
    have h : 1 / Real.sin a ^ 2 - c = 1 / Real.sin b ^ 2 - c := hab
    have h2 : Real.sin a ^ 2 = Real.sin b ^ 2 := by
      have : 1 / Real.sin a ^ 2 = 1 / Real.sin b ^ 2 := by linarith
      rw [div_eq_div_iff (by positivity) (by positivity)] at this
      linarith
    have h3 : Real.sin a = Real.sin b := by
      rwa [sq_eq_sq₀ hsa.le hsb.le] at h2
    exact Real.injOn_sin ⟨by linarith [Real.pi_pos, ha.1], by linarith [ha.2]⟩ ⟨by linarith [Real.pi_pos, hb.1], by linarith [hb.2]⟩ h3

theorem F_eq (h : LegOK φ m) : legFc φ m = RFc (((1 / Real.sin φ ^ 2 : ℝ) : ℂ) - 1) (((1 / Real.sin φ ^ 2 : ℝ) : ℂ) - m) ((1 / Real.sin φ ^ 2 : ℝ) : ℂ) := by
  rw [legFc, h.subst fun _ => 1]
  rfl

theorem D_eq (h : LegOK φ m) : legDc φ m = RDc (((1 / Real.sin φ ^ 2 : ℝ) : ℂ) - 1) (((1 / Real.sin φ ^ 2 : ℝ) : ℂ) - m) ((1 / Real.sin φ ^ 2 : ℝ) : ℂ) / 3 := by
  have := h.subst fun s => (s : ℂ)
  simp only [Complex.ofReal_pow] at this
  rw [legDc, this, RDc, mul_div_right_comm]
  congr 1
  · norm_num
  · congr 1
    funext t
    simp only [cS]
    push_cast
    rw [div_div, mul_comm]

theorem E_eq (h : LegOK φ m) : legEc φ m = legFc φ m - m * legDc φ m := by
  have i1 : IntervalIntegrable (fun θ : ℝ => 1 / csqrt (1 - m * (Real.sin θ : ℂ) ^ 2)) volume 0 φ :=
    (continuousOn_const.div h.cont fun θ hθ => h.root_ne hθ).intervalIntegrable
  have i2 : IntervalIntegrable (fun θ : ℝ => m * ((Real.sin θ : ℂ) ^ 2 / csqrt (1 - m * (Real.sin θ : ℂ) ^ 2))) volume 0 φ :=
    (continuousOn_const.mul (ContinuousOn.div (by fun_prop) h.cont fun θ hθ => h.root_ne hθ)).intervalIntegrable
  rw [legEc, legFc, legDc, ← intervalIntegral.integral_const_mul, ← intervalIntegral.integral_sub i1 i2]
  apply intervalIntegral.integral_congr
  intro θ hθ
  have hq := h.root_ne hθ
  have hq2 := csqrt_sq (1 - m * (Real.sin θ : ℂ) ^ 2)
  simp only
  generalize csqrt (1 - m * (Real.sin θ : ℂ) ^ 2) = q at *
  field_simp
  linear_combination hq2

theorem Pi_eq (h : LegOK φ m) (hn : LegOK φ n) : legPic n φ m = legFc φ m + n / 3 *
    RJc (((1 / Real.sin φ ^ 2 : ℝ) : ℂ) - 1) (((1 / Real.sin φ ^ 2 : ℝ) : ℂ) - m) ((1 / Real.sin φ ^ 2 : ℝ) : ℂ) (((1 / Real.sin φ ^ 2 : ℝ) : ℂ) - n) := by
  have i1 : IntervalIntegrable (fun θ : ℝ => 1 / csqrt (1 - m * (Real.sin θ : ℂ) ^ 2)) volume 0 φ :=
    (continuousOn_const.div h.cont fun θ hθ => h.root_ne hθ).intervalIntegrable
  have hn0 : ∀ θ ∈ uIcc 0 φ, 1 - n * (Real.sin θ : ℂ) ^ 2 ≠ 0 := fun θ hθ => by
    rw [uIcc_of_le h.pos.le] at hθ
    exact Complex.slitPlane_ne_zero (hn.slit_at hθ)
  have i2 : IntervalIntegrable (fun θ : ℝ => n * (((Real.sin θ : ℂ) ^ 2 / (1 - n * (Real.sin θ : ℂ) ^ 2)) / csqrt (1 - m * (Real.sin θ : ℂ) ^ 2))) volume 0 φ :=
    (continuousOn_const.mul (ContinuousOn.div (ContinuousOn.div (by fun_prop) (by fun_prop) hn0) h.cont fun θ hθ => h.root_ne hθ)).intervalIntegrable
  have e : legPic n φ m = legFc φ m + n * ∫ θ in (0 : ℝ)..φ, ((Real.sin θ : ℂ) ^ 2 / (1 - n * (Real.sin θ : ℂ) ^ 2)) / csqrt (1 - m * (Real.sin θ : ℂ) ^ 2) := by
    rw [legPic, legFc, ← intervalIntegral.integral_const_mul, ← intervalIntegral.integral_add i1 i2]
    apply intervalIntegral.integral_congr
    intro θ hθ
    have hq := h.root_ne hθ
    have hq2 := hn0 θ hθ
    simp only
    generalize csqrt (1 - m * (Real.sin θ : ℂ) ^ 2) = q at *
    field_simp
    ring
  have := h.subst fun s => (s : ℂ) / (1 - n * s)
  simp only [Complex.ofReal_pow] at this
  rw [e, this, RJc, ← mul_assoc, ← mul_assoc]
  congr 2
  · ring
  · apply setIntegral_congr_fun measurableSet_Ioi
    intro t ht
    have ht : 0 < t := ht
    have hs := h.sin_pos
    have hc : ((t + 1 / Real.sin φ ^ 2 : ℝ) : ℂ) ≠ 0 := by
      have : 0 < t + 1 / Real.sin φ ^ 2 := by positivity
      exact_mod_cast this.ne'
    simp only [cS]
    rw [Complex.ofReal_div, Complex.ofReal_one, show (t : ℂ) + (((1 / Real.sin φ ^ 2 : ℝ) : ℂ) - n) = ((t + 1 / Real.sin φ ^ 2 : ℝ) : ℂ) - n by push_cast; ring]
    generalize ((t + 1 / Real.sin φ ^ 2 : ℝ) : ℂ) = k at *
    rw [show 1 / k / (1 - n * (1 / k)) = 1 / (k - n) by
      rw [show 1 - n * (1 / k) = (k - n) / k by field_simp, div_div_div_eq, one_mul, div_mul_cancel_left₀ hc, one_div], div_div, mul_comm (k - n)]

theorem args (h : LegOK φ m) : CArgs (((1 / Real.sin φ ^ 2 : ℝ) : ℂ) - 1) (((1 / Real.sin φ ^ 2 : ℝ) : ℂ) - m) ((1 / Real.sin φ ^ 2 : ℝ) : ℂ) := by
  have h1 := h.c_ge
  have h2 := h.c_slit
  generalize 1 / Real.sin φ ^ 2 = c at *
  have hc : (c : ℂ) ∈ Complex.slitPlane := Complex.ofReal_mem_slitPlane.mpr (by linarith)
  have hx : (c : ℂ) - 1 = 0 ∨ (c : ℂ) - 1 ∈ Complex.slitPlane := by
    rw [← Complex.ofReal_one, ← Complex.ofReal_sub]
    rcases h1.eq_or_lt with e | e
    · exact Or.inl (by rw [e]; simp)
    · exact Or.inr (Complex.ofReal_mem_slitPlane.mpr (by linarith))
  exact ⟨hx, Or.inr h2, Or.inr hc, Or.inr (Complex.slitPlane_ne_zero h2), Or.inr (Complex.slitPlane_ne_zero hc), Or.inr (Complex.slitPlane_ne_zero hc), Or.inr (Or.inl (by simpa using h1))⟩

theorem mu (h : LegOK φ m) {μ : ℝ} (m1 : 2 * μ ≤ 1) (m2 : 2 * μ ≤ (csqrt (((1 / Real.sin φ ^ 2 : ℝ) : ℂ) - m)).re) :
    2 * μ ≤ (csqrt (((1 / Real.sin φ ^ 2 : ℝ) : ℂ) - 1) + csqrt (((1 / Real.sin φ ^ 2 : ℝ) : ℂ) - m)).re ∧
    2 * μ ≤ (csqrt (((1 / Real.sin φ ^ 2 : ℝ) : ℂ) - 1) + csqrt ((1 / Real.sin φ ^ 2 : ℝ) : ℂ)).re ∧
    2 * μ ≤ (csqrt (((1 / Real.sin φ ^ 2 : ℝ) : ℂ) - m) + csqrt ((1 / Real.sin φ ^ 2 : ℝ) : ℂ)).re := by
  have h1 := h.c_ge
  generalize 1 / Real.sin φ ^ 2 = c at *
  have k1 := csqrt_re ((c : ℂ) - 1)
  have k2 : 1 ≤ (csqrt (c : ℂ)).re := by
    rw [csqrt_ofReal (by linarith), Complex.ofReal_re]
    exact Real.one_le_sqrt.mpr h1
  simp only [Complex.add_re]
  exact ⟨by linarith, by linarith, by linarith⟩

end LegOK

variable {φ : ℝ} {m n : ℂ} {eps : ℝ}

/-- **C152** `ellipkinc(φ, m)` is `F(φ | m)` up to a relative error of `2e-6 eps`. -/
theorem C152_ellipkinc (h0 : 0 < eps) (h1 : eps ≤ 1) (h : LegOK φ m) :
    ∃ v, ellipkinc eps φ m = .val v ∧ ‖v - legFc φ m‖ ≤ 2 * (1 / 1000000 * eps) * ‖legFc φ m‖ := by
  rw [ellipkinc, ofCsc2_real h.sin_pos, ellipkinc_, h.F_eq, show 1 / 1000000 * eps = EPS eps by unfold EPS; ring]
  exact C145_elliprf h0 h1 h.args

theorem dinc_complex (h0 : 0 < eps) (h1 : eps ≤ 1) (h : LegOK φ m) {μ : ℝ} (hμ : 0 < μ) (m1 : 2 * μ ≤ 1) (m2 : 2 * μ ≤ (csqrt (((1 / Real.sin φ ^ 2 : ℝ) : ℂ) - m)).re) :
    ∃ v, ellipdinc_ eps ((1 / Real.sin φ ^ 2 : ℝ) : ℂ) m = .val v ∧ ‖v - legDc φ m‖ ≤ 2 * (1 / 1000000 * eps) / μ ^ 3 := by
  obtain ⟨k1, k2, k3⟩ := h.mu m1 m2
  obtain ⟨v, hv, hb⟩ := C148_elliprd h0 h1 h.args (Complex.slitPlane_ne_zero (Complex.ofReal_mem_slitPlane.mpr (by linarith [h.c_ge]))) hμ k1 k2 k3
  refine ⟨v / 3, by rw [ellipdinc_, hv]; simp [Out.map, Out.bind], ?_⟩
  rw [h.D_eq, ← sub_div, norm_div, Complex.norm_ofNat]
  rw [show 5 * EPS eps / μ ^ 3 = 5 * (1 / 1000000 * eps) / μ ^ 3 by unfold EPS; ring] at hb
  have : 0 ≤ 1 / 1000000 * eps / μ ^ 3 := by positivity
  calc _ ≤ 5 * (1 / 1000000 * eps) / μ ^ 3 / 3 := by gcongr
    _ = 5 / 3 * (1 / 1000000 * eps / μ ^ 3) := by ring
    _ ≤ 2 * (1 / 1000000 * eps / μ ^ 3) := by gcongr; norm_num
    _ = _ := by ring

/-- **C152** `ellipdinc(φ, m)` is `D(φ | m)` up to `2e-6 eps / μ³`, where `2 μ` is at most 1 and at most the real part of the root of `1/sin² φ - m`. -/
theorem C152_ellipdinc (h0 : 0 < eps) (h1 : eps ≤ 1) (h : LegOK φ m) {μ : ℝ} (hμ : 0 < μ) (m1 : 2 * μ ≤ 1) (m2 : 2 * μ ≤ (csqrt (((1 / Real.sin φ ^ 2 : ℝ) : ℂ) - m)).re) :
    ∃ v, ellipdinc eps φ m = .val v ∧ ‖v - legDc φ m‖ ≤ 2 * (1 / 1000000 * eps) / μ ^ 3 := by
  rw [ellipdinc, ofCsc2_real h.sin_pos]
  exact dinc_complex h0 h1 h hμ m1 m2

theorem einc_bound (h : LegOK φ m) {f d : ℂ} {a b : ℝ} (hf : ‖f - legFc φ m‖ ≤ a) (hd : ‖d - legDc φ m‖ ≤ b) : ‖f - m * d - legEc φ m‖ ≤ a + ‖m‖ * b := by
  rw [h.E_eq, show f - m * d - (legFc φ m - m * legDc φ m) = (f - legFc φ m) - m * (d - legDc φ m) by ring]
  refine (norm_sub_le _ _).trans ?_
  rw [norm_mul]
  gcongr

/-- **C152** `ellipeinc(φ, m)` is `E(φ | m)`. -/
theorem C152_ellipeinc (h0 : 0 < eps) (h1 : eps ≤ 1) (h : LegOK φ m) {μ : ℝ} (hμ : 0 < μ) (m1 : 2 * μ ≤ 1) (m2 : 2 * μ ≤ (csqrt (((1 / Real.sin φ ^ 2 : ℝ) : ℂ) - m)).re) :
    ∃ v, ellipeinc eps φ m = .val v ∧ ‖v - legEc φ m‖ ≤ 2 * (1 / 1000000 * eps) * ‖legFc φ m‖ + ‖m‖ * (2 * (1 / 1000000 * eps) / μ ^ 3) := by
  obtain ⟨f, hf, hfe⟩ := C152_ellipkinc h0 h1 h
  obtain ⟨d, hd, hde⟩ := dinc_complex h0 h1 h hμ m1 m2
  rw [ellipkinc, ofCsc2_real h.sin_pos, ellipkinc_] at hf
  rw [ellipeinc, ofCsc2_real h.sin_pos, ellipeinc_, if_neg ?_, hf, hd]
  · exact ⟨f - m * d, by simp [Out.map, Out.bind], einc_bound h hfe hde⟩
  · rintro ⟨e1, e2⟩
    exact Complex.slitPlane_ne_zero h.c_slit (by rw [e1, e2, sub_self])

theorem LegOK.of_re (hφ : 0 < φ) (hφ' : φ ≤ Real.pi / 2) {w : ℂ} (hw : w.re < 1 / Real.sin φ ^ 2) : LegOK φ w := by
  have hs : 0 < Real.sin φ := Real.sin_pos_of_pos_of_lt_pi hφ (by linarith [Real.pi_pos])
  refine ⟨hφ, hφ', Or.inl ?_⟩
  rw [lt_div_iff₀ (by positivity)] at hw
  rw [← Complex.ofReal_pow, Complex.sub_re, Complex.re_mul_ofReal, Complex.one_re]
  linarith

theorem rj_complex (h0 : 0 < eps) (h1 : eps ≤ 1 / 2 ^ 20) (hφ : 0 < φ) (hφ' : φ ≤ Real.pi / 2) (hm : m.re < 1 / Real.sin φ ^ 2) (hn : n.re < 1 / Real.sin φ ^ 2) (hn0 : n ≠ 0) (hn1 : n ≠ 1)
    (hnm : n ≠ m) {μ : ℝ} (hμ : 0 < μ) (m1 : 2 * μ ≤ 1) (m2 : 2 * μ ≤ (csqrt (((1 / Real.sin φ ^ 2 : ℝ) : ℂ) - m)).re) :
    ∃ v, elliprj eps (((1 / Real.sin φ ^ 2 : ℝ) : ℂ) - 1) (((1 / Real.sin φ ^ 2 : ℝ) : ℂ) - m) ((1 / Real.sin φ ^ 2 : ℝ) : ℂ) (((1 / Real.sin φ ^ 2 : ℝ) : ℂ) - n) = .val v ∧
      ‖v - RJc (((1 / Real.sin φ ^ 2 : ℝ) : ℂ) - 1) (((1 / Real.sin φ ^ 2 : ℝ) : ℂ) - m) ((1 / Real.sin φ ^ 2 : ℝ) : ℂ) (((1 / Real.sin φ ^ 2 : ℝ) : ℂ) - n)‖ ≤ 4400 * eps / μ ^ 3 := by
  have h := LegOK.of_re hφ hφ' hm
  obtain ⟨k1, k2, k3⟩ := h.mu m1 m2
  rcases h.c_ge.eq_or_lt with hc | hc
  · rw [← hc] at hm hn m2 ⊢
    simp only [Complex.ofReal_one, sub_self] at m2 ⊢
    exact C150_elliprj_zero h0 h1 (Or.inl ⟨by rw [Complex.sub_re, Complex.one_re]; linarith, by simp, by rw [Complex.sub_re, Complex.one_re]; linarith⟩)
      (fun e => hnm (sub_right_injective e)) (fun e => hn0 (by simpa using e)) hμ m2 (by
        have : csqrt (1 : ℂ) = 1 := by simp [csqrt]
        rw [this, Complex.one_re]
        exact m1)
  · exact C150_elliprj h0 h1 (x := ((1 / Real.sin φ ^ 2 : ℝ) : ℂ) - 1) (y := ((1 / Real.sin φ ^ 2 : ℝ) : ℂ) - m) (z := ((1 / Real.sin φ ^ 2 : ℝ) : ℂ))
      (p := ((1 / Real.sin φ ^ 2 : ℝ) : ℂ) - n)
      (Or.inl ⟨by rw [Complex.sub_re, Complex.ofReal_re, Complex.one_re]; linarith, by rw [Complex.sub_re, Complex.ofReal_re]; linarith, by rw [Complex.ofReal_re]; linarith,
        by rw [Complex.sub_re, Complex.ofReal_re]; linarith⟩) (fun e => hn1 (sub_right_injective e)) (fun e => hnm (sub_right_injective e)) (fun e => hn0 (by simpa using e)) hμ k1 k2 k3

theorem piinc_complex (h0 : 0 < eps) (h1 : eps ≤ 1 / 2 ^ 20) (hφ : 0 < φ) (hφ' : φ ≤ Real.pi / 2) (hm : m.re < 1 / Real.sin φ ^ 2) (hn : n.re < 1 / Real.sin φ ^ 2) (hn1 : n ≠ 1)
    (hnm : n ≠ m) {μ : ℝ} (hμ : 0 < μ) (m1 : 2 * μ ≤ 1) (m2 : 2 * μ ≤ (csqrt (((1 / Real.sin φ ^ 2 : ℝ) : ℂ) - m)).re) :
    ∃ v, ellippiinc_ eps n ((1 / Real.sin φ ^ 2 : ℝ) : ℂ) m = .val v ∧ ‖v - legPic n φ m‖ ≤ 2 * (1 / 1000000 * eps) * ‖legFc φ m‖ + ‖n‖ / 3 * (4400 * eps / μ ^ 3) := by
  have h := LegOK.of_re hφ hφ' hm
  have hn' := LegOK.of_re hφ hφ' hn
  obtain ⟨f, hf, hfe⟩ := C152_ellipkinc h0 (h1.trans (by norm_num)) h
  rw [ellipkinc, ofCsc2_real h.sin_pos] at hf
  rw [ellippiinc_]
  by_cases h00 : n = 0
  · rw [if_pos h00, hf]
    refine ⟨f, rfl, ?_⟩
    have : legPic n φ m = legFc φ m := by
      rw [h.Pi_eq hn', h00]
      simp
    rw [this, h00]
    simpa using hfe
  obtain ⟨g, hg, hge⟩ := rj_complex h0 h1 hφ hφ' hm hn h00 hn1 hnm hμ m1 m2
  rw [if_neg h00, hf, hg]
  refine ⟨f + n / 3 * g, by simp [Out.map, Out.bind], ?_⟩
  rw [h.Pi_eq hn', add_sub_add_comm, ← mul_sub]
  refine (norm_add_le _ _).trans ?_
  rw [norm_mul, norm_div, Complex.norm_ofNat]
  gcongr

/-- **C152** for `m` and `n` with real parts below `1/sin² φ`, `n` not 1 and not `m`: `ellippiinc(n, φ, m)` is `Π(n; φ | m)`. Missing: the other `m` and `n` off the cut. -/
theorem C152_ellippiinc_partial (h0 : 0 < eps) (h1 : eps ≤ 1 / 2 ^ 20) (hφ : 0 < φ) (hφ' : φ ≤ Real.pi / 2) (hm : m.re < 1 / Real.sin φ ^ 2) (hn : n.re < 1 / Real.sin φ ^ 2) (hn1 : n ≠ 1)
    (hnm : n ≠ m) {μ : ℝ} (hμ : 0 < μ) (m1 : 2 * μ ≤ 1) (m2 : 2 * μ ≤ (csqrt (((1 / Real.sin φ ^ 2 : ℝ) : ℂ) - m)).re) :
    ∃ v, ellippiinc eps n φ m = .val v ∧ ‖v - legPic n φ m‖ ≤ 2 * (1 / 1000000 * eps) * ‖legFc φ m‖ + ‖n‖ / 3 * (4400 * eps / μ ^ 3) := by
  rw [ellippiinc, ofCsc2_real (LegOK.of_re hφ hφ' hm).sin_pos]
  exact piinc_complex h0 h1 hφ hφ' hm hn hn1 hnm hμ m1 m2

/-- **C152** the complete integral: for `m` and `n` with real parts below 1 and `n ≠ m`, `ellippi(n, m)` is `Π(n | m)`. Missing: the other `m` and `n` off the cut. -/
theorem C152_ellippi_partial (h0 : 0 < eps) (h1 : eps ≤ 1 / 2 ^ 20) (hm : m.re < 1) (hn : n.re < 1) (hnm : n ≠ m) {μ : ℝ} (hμ : 0 < μ) (m1 : 2 * μ ≤ 1)
    (m2 : 2 * μ ≤ (csqrt (1 - m)).re) :
    ∃ v, ellippi eps n m = .val v ∧
      ‖v - legPic n (Real.pi / 2) m‖ ≤ 2 * (1 / 1000000 * eps) * ‖legFc (Real.pi / 2) m‖ + ‖n‖ / 3 * (4400 * eps / μ ^ 3) := by
  have e1 : 1 / Real.sin (Real.pi / 2) ^ 2 = 1 := by rw [Real.sin_pi_div_two]; norm_num
  obtain ⟨v, hv, hb⟩ := piinc_complex h0 h1 (φ := Real.pi / 2) (m := m) (n := n) (by positivity) le_rfl (by rwa [e1]) (by rwa [e1])
    (fun e => by rw [e, Complex.one_re] at hn; exact lt_irrefl _ hn) hnm hμ m1 (by rw [e1]; simpa using m2)
  refine ⟨v, ?_, hb⟩
  rw [e1, ellippiinc_, ellipkinc_] at hv
  rw [← hv, ellippi, ellipk]
  simp

theorem LegOK.half_pi (hm : 1 - m ∈ Complex.slitPlane) : LegOK (Real.pi / 2) m := ⟨by positivity, le_rfl, by rw [Real.sin_pi_div_two]; simpa using hm⟩

/-- **C152** the complete integral: `ellipk(m)` is `K(m)` for every complex `m` that is not a real number from 1 on. -/
theorem C152_ellipk (h0 : 0 < eps) (h1 : eps ≤ 1) (hm : 1 - m ∈ Complex.slitPlane) :
    ∃ v, ellipk eps m = .val v ∧ ‖v - legFc (Real.pi / 2) m‖ ≤ 2 * (1 / 1000000 * eps) * ‖legFc (Real.pi / 2) m‖ := by
  obtain ⟨v, hv, hb⟩ := C152_ellipkinc h0 h1 (LegOK.half_pi hm)
  refine ⟨v, ?_, hb⟩
  rw [ellipkinc, ofCsc2_real (LegOK.half_pi hm).sin_pos, ellipkinc_, Real.sin_pi_div_two] at hv
  rw [← hv, ellipk]
  simp

/-- **C152** `ellipd(m)` is `D(m)`. -/
theorem C152_ellipd (h0 : 0 < eps) (h1 : eps ≤ 1) (hm : 1 - m ∈ Complex.slitPlane) {μ : ℝ} (hμ : 0 < μ) (m1 : 2 * μ ≤ 1) (m2 : 2 * μ ≤ (csqrt (1 - m)).re) :
    ∃ v, ellipd eps m = .val v ∧ ‖v - legDc (Real.pi / 2) m‖ ≤ 2 * (1 / 1000000 * eps) / μ ^ 3 := by
  obtain ⟨v, hv, hb⟩ := dinc_complex h0 h1 (LegOK.half_pi hm) hμ m1 (by rw [Real.sin_pi_div_two]; simpa using m2)
  refine ⟨v, ?_, hb⟩
  rw [ellipdinc_, Real.sin_pi_div_two] at hv
  rw [← hv, ellipd]
  simp

/-- **C152** `ellipe(m)`, which the code computes from `elliprg(0, 1 - m, 1)`, is `E(m)`. -/
theorem C152_ellipe (h0 : 0 < eps) (h1 : eps ≤ 1) (hm : 1 - m ∈ Complex.slitPlane) {μ : ℝ} (hμ : 0 < μ) (m1 : 2 * μ ≤ 1) (m2 : 2 * μ ≤ (csqrt (1 - m)).re) :
    ∃ v, ellipe eps m = .val v ∧ ‖v - legEc (Real.pi / 2) m‖ ≤ 2 * (1 / 1000000 * eps) * ‖legFc (Real.pi / 2) m‖ + ‖m‖ * (2 * (1 / 1000000 * eps) / μ ^ 3) := by
  obtain ⟨f, hf, hfe⟩ := C152_ellipk h0 h1 hm
  obtain ⟨d, hd, hde⟩ := C152_ellipd h0 h1 hm hμ m1 m2
  refine ⟨f - m * d, ?_, einc_bound (LegOK.half_pi hm) hfe hde⟩
  rw [ellipk] at hf
  have hd' : ∃ g, elliprd eps 0 (1 - m) 1 = .val g ∧ g / 3 = d := by
    rw [ellipd] at hd
    cases hg : elliprd eps 0 (1 - m) 1 with
    | val g => rw [hg] at hd; exact ⟨g, rfl, by simpa [Out.map, Out.bind] using hd⟩
    | _ => rw [hg] at hd; simp [Out.map, Out.bind] at hd
  obtain ⟨g, hg, rfl⟩ := hd'
  have z1 : isZero (1 - m) = 0 := if_neg (Complex.slitPlane_ne_zero hm)
  have z0 : isZero 0 = 1 := if_pos rfl
  have z2 : isZero 1 = 0 := if_neg one_ne_zero
  rw [ellipe, elliprg, z0, z1, z2, if_neg (by omega), if_neg (by omega), if_neg (by rintro ⟨-, e⟩; exact one_ne_zero e), elliprgMain, if_neg ?_, hf, hg]
  · simp only [Out.map, Out.bind]
    congr 1
    have : csqrt 0 = 0 := csqrt_eq_zero.mpr rfl
    rw [this]
    ring
  · rintro (k | k | k)
    · simpa using k.1.2
    · simpa using k.1.2
    · have := k.2.1.2
      rw [Complex.one_re] at this
      linarith

/-! ### Examples -/

example : ∃ μ : ℝ, 0 < μ ∧ (∃ v, ellipk (1 / 2 ^ 52) (2 + Complex.I) = .val v ∧
      ‖v - legFc (Real.pi / 2) (2 + Complex.I)‖ ≤ 2 * (1 / 1000000 * (1 / 2 ^ 52)) * ‖legFc (Real.pi / 2) (2 + Complex.I)‖) ∧
    ∃ v, ellipe (1 / 2 ^ 52) (2 + Complex.I) = .val v ∧ ‖v - legEc (Real.pi / 2) (2 + Complex.I)‖ ≤
      2 * (1 / 1000000 * (1 / 2 ^ 52)) * ‖legFc (Real.pi / 2) (2 + Complex.I)‖ + ‖2 + Complex.I‖ * (2 * (1 / 1000000 * (1 / 2 ^ 52)) / μ ^ 3) := by
  have hs : 1 - (2 + Complex.I) ∈ Complex.slitPlane := Or.inr (by simp)
  have hp := csqrt_re_pos hs
  refine ⟨min 1 (csqrt (1 - (2 + Complex.I))).re / 2, by have := lt_min one_pos hp; linarith, C152_ellipk (by norm_num) (by norm_num) hs,
    C152_ellipe (by norm_num) (by norm_num) hs (by have := lt_min one_pos hp; linarith) ?_ ?_⟩
  · linarith [min_le_left 1 (csqrt (1 - (2 + Complex.I))).re]
  · linarith [min_le_right 1 (csqrt (1 - (2 + Complex.I))).re]

/-- Amplitude `π/6`, where `1/sin² φ = 4`, with `m = 2 + i` and `n = 3 - i`. -/
example : LegOK (Real.pi / 6) (2 + Complex.I) ∧ ∃ μ : ℝ, 0 < μ ∧ ∃ v, ellippiinc (1 / 2 ^ 52) (3 - Complex.I) (Real.pi / 6 : ℝ) (2 + Complex.I) = .val v ∧
    ‖v - legPic (3 - Complex.I) (Real.pi / 6) (2 + Complex.I)‖ ≤
      2 * (1 / 1000000 * (1 / 2 ^ 52)) * ‖legFc (Real.pi / 6) (2 + Complex.I)‖ + ‖3 - Complex.I‖ / 3 * (4400 * (1 / 2 ^ 52) / μ ^ 3) := by
  have hs6 : 1 / Real.sin (Real.pi / 6) ^ 2 = 4 := by rw [Real.sin_pi_div_six]; norm_num
  have hL : LegOK (Real.pi / 6) (2 + Complex.I) := ⟨by positivity, by linarith [Real.pi_pos], Or.inl (by rw [Real.sin_pi_div_six]; norm_num [pow_two])⟩
  have hp := csqrt_re_pos hL.c_slit
  refine ⟨hL, min 1 (csqrt (((1 / Real.sin (Real.pi / 6) ^ 2 : ℝ) : ℂ) - (2 + Complex.I))).re / 2, by have := lt_min one_pos hp; linarith, ?_⟩
  refine C152_ellippiinc_partial (by norm_num) (by norm_num) (by positivity) (by linarith [Real.pi_pos]) (by rw [hs6]; norm_num) (by rw [hs6]; norm_num)
    (fun e => by have := congrArg Complex.im e; norm_num at this) (fun e => by have := congrArg Complex.re e; norm_num at this) (by have := lt_min one_pos hp; linarith) ?_ ?_
  · linarith [min_le_left 1 (csqrt (((1 / Real.sin (Real.pi / 6) ^ 2 : ℝ) : ℂ) - (2 + Complex.I))).re]
  · linarith [min_le_right 1 (csqrt (((1 / Real.sin (Real.pi / 6) ^ 2 : ℝ) : ℂ) - (2 + Complex.I))).re]

/-- The complete integral with `m = -2 + i`, `n = 1/2 - i`. -/
example : ∃ μ : ℝ, 0 < μ ∧ ∃ v, ellippi (1 / 2 ^ 52) (1 / 2 - Complex.I) (-2 + Complex.I) = .val v ∧ ‖v - legPic (1 / 2 - Complex.I) (Real.pi / 2) (-2 + Complex.I)‖ ≤
      2 * (1 / 1000000 * (1 / 2 ^ 52)) * ‖legFc (Real.pi / 2) (-2 + Complex.I)‖ + ‖1 / 2 - Complex.I‖ / 3 * (4400 * (1 / 2 ^ 52) / μ ^ 3) := by
  have hs : 1 - (-2 + Complex.I) ∈ Complex.slitPlane := Or.inr (by simp)
  have hp := csqrt_re_pos hs
  refine ⟨min 1 (csqrt (1 - (-2 + Complex.I))).re / 2, by have := lt_min one_pos hp; linarith, C152_ellippi_partial (by norm_num) (by norm_num) (by norm_num) (by norm_num)
    (fun e => by have := congrArg Complex.re e; norm_num at this) (by have := lt_min one_pos hp; linarith) ?_ ?_⟩
  · linarith [min_le_left 1 (csqrt (1 - (-2 + Complex.I))).re]
  · linarith [min_le_right 1 (csqrt (1 - (-2 + Complex.I))).re]

end Verif.Ellred
