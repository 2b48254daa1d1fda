import Verif.Ellred.CarlsonRed
import Verif.Carlson.Accuracy

/-! # The duplication theorem and homogeneity of Carlson's integrals for complex arguments -/

namespace Verif.Ellred

open MeasureTheory Set Filter Topology Verif.Carlson

variable {x y z : ℂ}

/-! ### Square roots -/

/-- A product of numbers in the right half-plane is off the cut. -/
theorem slit_mul_of_re {p q : ℂ} (hp : 0 < p.re) (hq : 0 < q.re) : p * q ∈ Complex.slitPlane := by
  rw [Complex.mem_slitPlane_iff]
  by_cases h : (p * q).im = 0
  · left
    rw [Complex.mul_im] at h
    rw [Complex.mul_re]
    have h1 : p.re * (p.re * q.re - p.im * q.im) = q.re * (p.re * p.re + p.im * p.im) := by linear_combination -p.im * h
    have h2 : 0 < q.re * (p.re * p.re + p.im * p.im) := mul_pos hq (by nlinarith [mul_pos hp hp, mul_self_nonneg p.im])
    rw [← h1] at h2
    exact (pos_iff_pos_of_mul_pos h2).mp hp
  · exact Or.inr h

theorem re_slit {p : ℂ} (hp : 0 < p.re) : p ∈ Complex.slitPlane := Complex.mem_slitPlane_iff.mpr (Or.inl hp)

theorem csqrt_mul_of_re {p q : ℂ} (hp : 0 < p.re) (hq : 0 < q.re) : csqrt (p * q) = csqrt p * csqrt q := by
  have h := re_csqrt_mul (μ := min p.re q.re) (lt_min hp hq) (min_le_left _ _) (min_le_right _ _)
  have h2 : (csqrt p * csqrt q) ^ 2 = p * q := by rw [mul_pow, pow_two, pow_two, csqrt_sq, csqrt_sq]
  rw [← h2, csqrt_of_sq (lt_of_lt_of_le (lt_min hp hq) h)]

/-- `4 x'`, `x'` the argument after a duplication step. -/
theorem dup_factor (x y z : ℂ) : x + lmOf x y z = (csqrt x + csqrt y) * (csqrt x + csqrt z) := by
  simp only [lmOf]
  linear_combination -csqrt_sq x

theorem dup_factor2 (x y z : ℂ) : y + lmOf x y z = (csqrt x + csqrt y) * (csqrt y + csqrt z) := by
  simp only [lmOf]
  linear_combination -csqrt_sq y

theorem dup_factor3 (x y z : ℂ) : z + lmOf x y z = (csqrt x + csqrt z) * (csqrt y + csqrt z) := by
  simp only [lmOf]
  linear_combination -csqrt_sq z

theorem csqrt_quarter (w : ℂ) : csqrt (w / 4) = csqrt w / 2 := by
  have := csqrt_mul_pos (k := 1 / 4) (by norm_num) w
  rw [show w / 4 = ((1 / 4 : ℝ) : ℂ) * w by push_cast; ring, this, show √(1 / 4 : ℝ) = 1 / 2 by
    rw [show (1 / 4 : ℝ) = (1 / 2) ^ 2 by norm_num, Real.sqrt_sq (by norm_num)]]
  push_cast
  ring

theorem slit_quarter {w : ℂ} (h : w ∈ Complex.slitPlane) : w / 4 ∈ Complex.slitPlane := by
  rw [Complex.mem_slitPlane_iff] at h ⊢
  rw [show w / 4 = ((1 / 4 : ℝ) : ℂ) * w by push_cast; ring, Complex.re_ofReal_mul, Complex.im_ofReal_mul]
  rcases h with h | h
  · left; linarith
  · right; intro e; apply h; linarith

section
variable (hx : x ∈ Complex.slitPlane) (hy : y ∈ Complex.slitPlane) (hz : z ∈ Complex.slitPlane)
include hx hy

theorem re_sum_pos : 0 < (csqrt x + csqrt y).re := by
  rw [Complex.add_re]
  linarith [csqrt_re_pos hx, csqrt_re_pos hy]

include hz

theorem dup_slit : (x + lmOf x y z) / 4 ∈ Complex.slitPlane ∧ (y + lmOf x y z) / 4 ∈ Complex.slitPlane ∧ (z + lmOf x y z) / 4 ∈ Complex.slitPlane := by
  rw [dup_factor, dup_factor2, dup_factor3]
  exact ⟨slit_quarter (slit_mul_of_re (re_sum_pos hx hy) (re_sum_pos hx hz)), slit_quarter (slit_mul_of_re (re_sum_pos hx hy) (re_sum_pos hy hz)),
    slit_quarter (slit_mul_of_re (re_sum_pos hx hz) (re_sum_pos hy hz))⟩

theorem dup_sqrt : csqrt ((x + lmOf x y z) / 4) * csqrt ((y + lmOf x y z) / 4) * csqrt ((z + lmOf x y z) / 4) =
    (csqrt x + csqrt y) * (csqrt x + csqrt z) * (csqrt y + csqrt z) / 8 := by
  rw [dup_factor, dup_factor2, dup_factor3, csqrt_quarter, csqrt_quarter, csqrt_quarter, csqrt_mul_of_re (re_sum_pos hx hy) (re_sum_pos hx hz),
    csqrt_mul_of_re (re_sum_pos hx hy) (re_sum_pos hy hz), csqrt_mul_of_re (re_sum_pos hx hz) (re_sum_pos hy hz)]
  have h1 := csqrt_sq (csqrt x + csqrt y)
  have h2 := csqrt_sq (csqrt x + csqrt z)
  have h3 := csqrt_sq (csqrt y + csqrt z)
  generalize csqrt (csqrt x + csqrt y) = a at *
  generalize csqrt (csqrt x + csqrt z) = b at *
  generalize csqrt (csqrt y + csqrt z) = c at *
  rw [← h1, ← h2, ← h3]
  ring

/-! ### Sums of `R_D` -/

theorem inv_dec : Dec (5 / 2) fun t => 1 / (cS x y z t * ((t : ℂ) + z)) :=
  (((cS_dec hx hy hz).mul (Dec.inv hz)).mono (by norm_num)).congr fun t _ => by simp only [one_div_mul_one_div]

theorem sum_inv_deriv {t : ℝ} (ht : 0 ≤ t) : HasDerivAt (fun t => 1 / cS x y z t)
    (-(1 / 2) * (1 / (cS x y z t * ((t : ℂ) + x)) + 1 / (cS x y z t * ((t : ℂ) + y)) + 1 / (cS x y z t * ((t : ℂ) + z)))) t := by
  have h := (cS_deriv hx hy hz ht).inv (cS_ne hx hy hz ht)
  have h' : HasDerivAt (fun t => 1 / cS x y z t) _ t := h.congr_of_eventuallyEq (Eventually.of_forall fun t => by simp)
  refine h'.congr_deriv ?_
  have e1 := csqrt_sq ((t : ℂ) + x)
  have e2 := csqrt_sq ((t : ℂ) + y)
  have e3 := csqrt_sq ((t : ℂ) + z)
  have n1 := sqrt_ne hx ht
  have n2 := sqrt_ne hy ht
  have n3 := sqrt_ne hz ht
  clear h h'
  simp only [cS]
  generalize csqrt ((t : ℂ) + x) = a at *
  generalize csqrt ((t : ℂ) + y) = b at *
  generalize csqrt ((t : ℂ) + z) = c at *
  rw [← e1, ← e2, ← e3]
  field_simp

theorem inv_decs : Dec (5 / 2) (fun t => 1 / (cS x y z t * ((t : ℂ) + x))) ∧ Dec (5 / 2) (fun t => 1 / (cS x y z t * ((t : ℂ) + y))) ∧
    Dec (5 / 2) (fun t => 1 / (cS x y z t * ((t : ℂ) + z))) := by
  refine ⟨(inv_dec hy hz hx).congr fun t _ => ?_, (inv_dec hx hz hy).congr fun t _ => ?_, inv_dec hx hy hz⟩
  · simp only [cS]; ring
  · simp only [cS]; ring

omit hx hy hz in
theorem RD_int (x y z : ℂ) : RDc y z x = 3 / 2 * ∫ t in Ioi (0 : ℝ), 1 / (cS x y z t * ((t : ℂ) + x)) := by
  rw [RDc]
  congr 2
  funext t
  simp only [cS]
  ring

omit hx hy hz in
theorem RD_int2 (x y z : ℂ) : RDc x z y = 3 / 2 * ∫ t in Ioi (0 : ℝ), 1 / (cS x y z t * ((t : ℂ) + y)) := by
  rw [RDc]
  congr 2
  funext t
  simp only [cS]
  ring

/-- `∑ R_D = 3/√(xyz)` (DLMF 19.21.8). -/
theorem RD_sum : RDc y z x + RDc x z y + RDc x y z = 3 / (csqrt x * csqrt y * csqrt z) := by
  obtain ⟨d1, d2, d3⟩ := inv_decs hx hy hz
  have h := Dec.boundary (cS_dec hx hy hz) (by norm_num) (((d1.add d2).add d3).cmul (-(1 / 2))) (by norm_num) fun t ht => sum_inv_deriv hx hy hz ht.le
  rw [integral_const_mul, integral_add (((d1.add d2).integrable (by norm_num))) (d3.integrable (by norm_num)), integral_add (d1.integrable (by norm_num)) (d2.integrable (by norm_num))] at h
  rw [RD_int, RD_int2, RDc_cS, RJc_cS]
  simp only [cS, Complex.ofReal_zero, zero_add] at h ⊢
  linear_combination -3 * h

/-- Euler's relation: `∑ x R_D = 3 R_F`. -/
theorem RD_euler : x * RDc y z x + y * RDc x z y + z * RDc x y z = 3 * RFc x y z := by
  obtain ⟨d1, d2, d3⟩ := inv_decs hx hy hz
  have dB : Dec (1 / 2) fun t => (t : ℂ) * (1 / cS x y z t) := (Dec.id.mul (cS_dec hx hy hz)).mono (by norm_num)
  have i0 := (cS_dec hx hy hz).cmul (-(1 / 2))
  have i1 := (d1.cmul (x / 2)).mono (l := 3 / 2) (by norm_num)
  have i2 := (d2.cmul (y / 2)).mono (l := 3 / 2) (by norm_num)
  have i3 := (d3.cmul (z / 2)).mono (l := 3 / 2) (by norm_num)
  have h := Dec.boundary dB (by norm_num) (((i0.add i1).add i2).add i3) (by norm_num) fun t ht => by
    have := ((hasDerivAt_id t).ofReal_comp).mul (sum_inv_deriv hx hy hz ht.le)
    refine this.congr_deriv ?_
    have n1 := far_ne hx ht.le
    have n2 := far_ne hy ht.le
    have n3 := far_ne hz ht.le
    have n4 := cS_ne hx hy hz ht.le
    simp only [id_eq]
    push_cast
    field_simp
    ring
  rw [integral_add (((i0.add i1).add i2).integrable (by norm_num)) (i3.integrable (by norm_num)), integral_add ((i0.add i1).integrable (by norm_num)) (i2.integrable (by norm_num)),
    integral_add (i0.integrable (by norm_num)) (i1.integrable (by norm_num)), integral_const_mul, integral_const_mul, integral_const_mul, integral_const_mul] at h
  rw [RD_int, RD_int2, RDc_cS, RJc_cS, RFc_cS]
  simp only [Complex.ofReal_zero, zero_mul, neg_zero] at h
  linear_combination 3 * h

end

/-- The derivative of `R_F` when all arguments move alike. -/
theorem RFc_shift {u v w : ℝ → ℂ} {m : ℂ} {s0 : ℝ} (hu : HasDerivAt u m s0) (hv : HasDerivAt v m s0) (hw : HasDerivAt w m s0)
    (h1 : u s0 ∈ Complex.slitPlane) (h2 : v s0 ∈ Complex.slitPlane) (h3 : w s0 ∈ Complex.slitPlane) :
    HasDerivAt (fun s => RFc (u s) (v s) (w s)) (-(1 / 2) * (m / (csqrt (u s0) * csqrt (v s0) * csqrt (w s0)))) s0 := by
  refine (RFc_deriv hu hv hw h1 h2 h3).congr_deriv ?_
  have h := RD_sum h1 h2 h3
  linear_combination -(m / 6) * h

/-- `R_F` is small for arguments with a large real part. -/
theorem RFc_small {μ : ℝ} (hμ : 0 < μ) (hx : μ ≤ x.re) (hy : μ ≤ y.re) (hz : μ ≤ z.re) : ‖RFc x y z‖ ≤ 1 / √μ := by
  have key : ∀ {w : ℂ}, μ ≤ w.re → ∀ t ∈ Ioi (0 : ℝ), √(t + μ) ≤ ‖csqrt ((t : ℂ) + w)‖ := by
    intro w hw t ht
    rw [norm_csqrt, ← Real.sqrt_eq_rpow]
    apply Real.sqrt_le_sqrt
    refine le_trans ?_ (Complex.re_le_norm _)
    rw [Complex.add_re, Complex.ofReal_re]
    linarith
  have hI := (Args.integrable (x := μ) (y := μ) (z := μ) ⟨hμ.le, hμ.le, hμ.le, by linarith, by linarith, by linarith⟩)
  have hR : RF μ μ μ = 1 / √μ := by
    have := RF_scale μ 1 1 1 hμ
    simp only [mul_one] at this
    rw [this]
    congr 1
    have := RF_series 0 0 0 0 (by norm_num) (by simp) (by simp) (by simp) (by simp)
    simp only [sub_zero, mul_zero, add_zero, zero_div, ne_eq, OfNat.ofNat_ne_zero, not_false_eq_true, zero_pow, zero_mul] at this
    have := abs_nonpos_iff.mp this
    linarith
  rw [← hR, RFc, RF, norm_mul, show ‖(1 / 2 : ℂ)‖ = 1 / 2 by norm_num]
  apply mul_le_mul_of_nonneg_left _ (by norm_num)
  refine norm_integral_le_of_norm_le hI ?_
  rw [ae_restrict_iff' measurableSet_Ioi]
  refine Eventually.of_forall fun t ht => ?_
  have hp : 0 < √(t + μ) := Real.sqrt_pos.mpr (by have := mem_Ioi.mp ht; linarith)
  rw [norm_div, norm_one, norm_mul, norm_mul]
  apply one_div_le_one_div_of_le (by positivity)
  have a1 := key hx t ht
  have a2 := key hy t ht
  have a3 := key hz t ht
  gcongr

/-- The derivative of the sum of products of roots. -/
theorem lm_deriv (hx : x ∈ Complex.slitPlane) (hy : y ∈ Complex.slitPlane) (hz : z ∈ Complex.slitPlane) {s : ℝ} (hs : 0 ≤ s) :
    HasDerivAt (fun s : ℝ => lmOf ((s : ℂ) + x) ((s : ℂ) + y) ((s : ℂ) + z))
      ((csqrt ((s : ℂ) + x) + csqrt ((s : ℂ) + y)) * (csqrt ((s : ℂ) + x) + csqrt ((s : ℂ) + z)) * (csqrt ((s : ℂ) + y) + csqrt ((s : ℂ) + z)) /
        (2 * (csqrt ((s : ℂ) + x) * csqrt ((s : ℂ) + y) * csqrt ((s : ℂ) + z))) - 1) s := by
  have a := sqrt_deriv hx hs
  have b := sqrt_deriv hy hs
  have c := sqrt_deriv hz hs
  simp only [lmOf]
  refine (((a.mul b).add (a.mul c)).add (b.mul c)).congr_deriv ?_
  have n1 := sqrt_ne hx hs
  have n2 := sqrt_ne hy hs
  have n3 := sqrt_ne hz hs
  generalize csqrt ((s : ℂ) + x) = a at *
  generalize csqrt ((s : ℂ) + y) = b at *
  generalize csqrt ((s : ℂ) + z) = c at *
  field_simp
  ring

/-- The duplication theorem for `R_F` (DLMF 19.26.18) with complex arguments. -/
theorem RFc_dup (hx : x ∈ Complex.slitPlane) (hy : y ∈ Complex.slitPlane) (hz : z ∈ Complex.slitPlane) :
    RFc ((x + lmOf x y z) / 4) ((y + lmOf x y z) / 4) ((z + lmOf x y z) / 4) = RFc x y z := by
  have hsl : ∀ {w : ℂ}, w ∈ Complex.slitPlane → ∀ {s : ℝ}, 0 ≤ s → (s : ℂ) + w ∈ Complex.slitPlane := fun hw s hs => by
    rw [add_comm]; exact slit_add hw hs
  let L : ℝ → ℂ := fun s => lmOf ((s : ℂ) + x) ((s : ℂ) + y) ((s : ℂ) + z)
  let D : ℝ → ℂ := fun s => RFc (((s : ℂ) + x + L s) / 4) (((s : ℂ) + y + L s) / 4) (((s : ℂ) + z + L s) / 4) - RFc ((s : ℂ) + x) ((s : ℂ) + y) ((s : ℂ) + z)
  have hD : ∀ s : ℝ, 0 ≤ s → HasDerivAt D 0 s := by
    intro s hs
    obtain ⟨k1, k2, k3⟩ := dup_slit (hsl hx hs) (hsl hy hs) (hsl hz hs)
    have hL := lm_deriv hx hy hz hs
    have g := (RFc_shift (((add_deriv x s).add hL).div_const 4) (((add_deriv y s).add hL).div_const 4) (((add_deriv z s).add hL).div_const 4) k1 k2 k3).sub
      (RFc_shift (add_deriv x s) (add_deriv y s) (add_deriv z s) (hsl hx hs) (hsl hy hs) (hsl hz hs))
    refine g.congr_deriv ?_
    simp only [Pi.add_apply]
    rw [dup_sqrt (hsl hx hs) (hsl hy hs) (hsl hz hs)]
    have n1 := sqrt_ne hx hs
    have n2 := sqrt_ne hy hs
    have n3 := sqrt_ne hz hs
    have m1 : csqrt ((s : ℂ) + x) + csqrt ((s : ℂ) + y) ≠ 0 := fun e => by simpa [e] using re_sum_pos (hsl hx hs) (hsl hy hs)
    have m2 : csqrt ((s : ℂ) + x) + csqrt ((s : ℂ) + z) ≠ 0 := fun e => by simpa [e] using re_sum_pos (hsl hx hs) (hsl hz hs)
    have m3 : csqrt ((s : ℂ) + y) + csqrt ((s : ℂ) + z) ≠ 0 := fun e => by simpa [e] using re_sum_pos (hsl hy hs) (hsl hz hs)
    generalize csqrt ((s : ℂ) + x) = a at *
    generalize csqrt ((s : ℂ) + y) = b at *
    generalize csqrt ((s : ℂ) + z) = c at *
    field_simp
    ring
  have hc : ∀ s : ℝ, 0 ≤ s → D s = D 0 := fun s hs =>
    constant_of_has_deriv_right_zero (f := D) (a := 0) (b := s) (fun t ht => (hD t ht.1).continuousAt.continuousWithinAt)
      (fun t ht => (hD t ht.1).hasDerivWithinAt) s ⟨hs, le_rfl⟩
  have ht : Tendsto D atTop (𝓝 0) := by
    obtain ⟨M, M0, hM⟩ : ∃ M : ℝ, 0 ≤ M ∧ -M ≤ x.re ∧ -M ≤ y.re ∧ -M ≤ z.re :=
      ⟨|x.re| + |y.re| + |z.re|, by positivity, by linarith [neg_abs_le x.re, abs_nonneg y.re, abs_nonneg z.re],
        by linarith [neg_abs_le y.re, abs_nonneg x.re, abs_nonneg z.re], by linarith [neg_abs_le z.re, abs_nonneg y.re, abs_nonneg x.re]⟩
    have h1 : Tendsto (fun s : ℝ => 1 / √(s - M) + 1 / √(s - M)) atTop (𝓝 0) := by
      have : Tendsto (fun s : ℝ => √(s - M)) atTop atTop := Real.tendsto_sqrt_atTop.comp (tendsto_atTop_add_const_right _ (-M) tendsto_id)
      have := this.inv_tendsto_atTop
      simpa using this.add this
    refine squeeze_zero_norm' ?_ h1
    filter_upwards [eventually_gt_atTop M] with s hs
    have hμ : 0 < s - M := by linarith
    have r1 : s - M ≤ ((s : ℂ) + x).re := by rw [Complex.add_re, Complex.ofReal_re]; linarith
    have r2 : s - M ≤ ((s : ℂ) + y).re := by rw [Complex.add_re, Complex.ofReal_re]; linarith
    have r3 : s - M ≤ ((s : ℂ) + z).re := by rw [Complex.add_re, Complex.ofReal_re]; linarith
    have rl := re_lmOf hμ r1 r2 r3
    refine (norm_sub_le _ _).trans (add_le_add (RFc_small hμ ?_ ?_ ?_) (RFc_small hμ r1 r2 r3)) <;>
      (rw [re_add_div4]; simp only [L]; linarith)
  have h0 : D 0 = 0 := tendsto_nhds_unique (tendsto_const_nhds.congr' (by filter_upwards [eventually_ge_atTop 0] with s hs using (hc s hs).symm)) ht
  simp only [D, L, Complex.ofReal_zero, zero_add] at h0
  exact sub_eq_zero.mp h0

end Verif.Ellred
