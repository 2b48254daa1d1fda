import Verif.Ellred.ComplexDRun
import Verif.Ellred.RedCubic

/-! # `elliprg` with complex arguments (C153) -/

namespace Verif.Ellred

open MeasureTheory Set Filter Topology Verif.Carlson

theorem RGc_swap12 (u v w : ℂ) : RGc u v w = RGc v u w := by
  simp only [RGc]
  congr 2
  funext t
  rw [mul_comm (csqrt (t + u)), add_comm (u / _)]

theorem RGc_swap13 (u v w : ℂ) : RGc u v w = RGc w v u := by
  simp only [RGc]
  congr 2
  funext t
  rw [show csqrt (t + u) * csqrt (t + v) * csqrt (t + w) = csqrt (t + w) * csqrt (t + v) * csqrt (t + u) by ring]
  ring

/-- DLMF 19.21.10 for arguments off the cut. -/
theorem RGc_formula {x y z : ℂ} (hx : x ∈ Complex.slitPlane) (hy : y ∈ Complex.slitPlane) (hz : z ∈ Complex.slitPlane) :
    RGc x y z = (z * RFc x y z - (x - z) * (y - z) * RDc x y z / 3 + csqrt x * csqrt y / csqrt z) / 2 := by
  have h := RJ_red_p hx hy hz hz
  rw [sub_self, mul_zero, zero_mul, ← RDc_cS] at h
  have e : csqrt x * csqrt y * csqrt z / z = csqrt x * csqrt y / csqrt z := by
    have h1 := csqrt_ne0 (Complex.slitPlane_ne_zero hz)
    have h2 := csqrt_sq z
    rw [div_eq_div_iff (Complex.slitPlane_ne_zero hz) h1]
    linear_combination csqrt x * csqrt y * h2
  rw [e] at h
  linear_combination (1 / 2 : ℂ) * h

/-- A limit under the integral as the first argument tends to zero from the right. -/
theorem zero_limit {y z : ℂ} (hy : y ∈ Complex.slitPlane) (hz : z ∈ Complex.slitPlane) {w : ℝ → ℝ → ℂ} {K : ℝ} (hw : ∀ r, ContinuousOn (w r) (Ioi 0))
    (hK : ∀ r ∈ Ioo (0 : ℝ) 1, ∀ t, 0 < t → ‖w r t‖ ≤ K) (hc : ∀ t, 0 < t → ContinuousAt (fun r => w r t) 0) :
    Tendsto (fun r : ℝ => ∫ t in Ioi (0 : ℝ), 1 / (csqrt ((t : ℂ) + ((r ^ 2 : ℝ) : ℂ)) * csqrt ((t : ℂ) + y) * csqrt ((t : ℂ) + z)) * w r t) (𝓝[>] 0)
      (𝓝 (∫ t in Ioi (0 : ℝ), 1 / (csqrt ((t : ℂ) + 0) * csqrt ((t : ℂ) + y) * csqrt ((t : ℂ) + z)) * w 0 t)) := by
  obtain ⟨-, C, hC, hb⟩ := ((Dec.inv_sqrt hy).mul (Dec.inv_sqrt hz)).mono (l := 1) (by norm_num)
  have hI := (Args.integrable (x := 0) (y := 1) (z := 1) ⟨by norm_num, by norm_num, by norm_num, by norm_num, by norm_num, by norm_num⟩).const_mul (C * K)
  refine tendsto_integral_filter_of_dominated_convergence _ ?_ ?_ hI ?_
  · filter_upwards [self_mem_nhdsWithin] with r hr
    have hr' : ((r ^ 2 : ℝ) : ℂ) ∈ Complex.slitPlane := re_slit (by rw [Complex.ofReal_re]; exact pow_pos hr 2)
    exact ((cS_dec hr' hy hz).integrable (by norm_num)).aestronglyMeasurable.mul ((hw r).aestronglyMeasurable measurableSet_Ioi)
  · filter_upwards [Ioo_mem_nhdsGT (zero_lt_one' ℝ)] with r hr
    rw [ae_restrict_iff' measurableSet_Ioi]
    refine Eventually.of_forall fun t ht => ?_
    have ht0 : 0 < t := ht
    rw [← Complex.ofReal_add, csqrt_ofReal (by positivity), mul_assoc, ← one_div_mul_one_div, norm_mul, norm_mul]
    have h1 := hb t ht0.le
    have h2 : ‖1 / ((√(t + r ^ 2) : ℝ) : ℂ)‖ ≤ 1 / √(t + 0) := by
      rw [norm_div, norm_one, Complex.norm_real, Real.norm_of_nonneg (Real.sqrt_nonneg _)]
      apply one_div_le_one_div_of_le (Real.sqrt_pos.mpr (by linarith))
      apply Real.sqrt_le_sqrt
      nlinarith [sq_nonneg r]
    have h3 : (1 + t) ^ (-(1 : ℝ)) = 1 / (√(t + 1) * √(t + 1)) := by
      rw [Real.mul_self_sqrt (by linarith)]
      norm_num
      rw [Real.rpow_neg_one, add_comm]
    rw [h3] at h1
    have h4 : 1 / (csqrt ((t : ℂ) + y) * csqrt ((t : ℂ) + z)) = 1 / csqrt ((t : ℂ) + y) * (1 / csqrt ((t : ℂ) + z)) := by rw [one_div_mul_one_div]
    have h5 := hK r hr t ht0
    rw [h4]
    calc _ ≤ 1 / √(t + 0) * (C * (1 / (√(t + 1) * √(t + 1)))) * K := mul_le_mul (mul_le_mul h2 h1 (norm_nonneg _) (by positivity)) h5 (norm_nonneg _) (by positivity)
      _ = _ := by field_simp
  · rw [ae_restrict_iff' measurableSet_Ioi]
    refine Eventually.of_forall fun t ht => ?_
    have ht0 : 0 < t := ht
    have e : ∀ r : ℝ, 1 / (csqrt ((t : ℂ) + ((r ^ 2 : ℝ) : ℂ)) * csqrt ((t : ℂ) + y) * csqrt ((t : ℂ) + z)) =
        1 / (((√(t + r ^ 2) : ℝ) : ℂ) * csqrt ((t : ℂ) + y) * csqrt ((t : ℂ) + z)) := fun r => by
      rw [← Complex.ofReal_add, csqrt_ofReal (by positivity)]
    have e0 : csqrt ((t : ℂ) + 0) = ((√(t + 0 ^ 2) : ℝ) : ℂ) := by
      rw [add_zero, csqrt_ofReal ht0.le]; norm_num
    simp only [e, e0]
    refine Tendsto.mono_left ?_ nhdsWithin_le_nhds
    have hcont : ContinuousAt (fun r : ℝ => 1 / (((√(t + r ^ 2) : ℝ) : ℂ) * csqrt ((t : ℂ) + y) * csqrt ((t : ℂ) + z)) * w r t) 0 := by
      refine ContinuousAt.mul ?_ (hc t ht0)
      apply ContinuousAt.div continuousAt_const
      · refine ContinuousAt.mul (ContinuousAt.mul ?_ continuousAt_const) continuousAt_const
        exact Complex.continuous_ofReal.continuousAt.comp (Real.continuous_sqrt.continuousAt.comp (by fun_prop))
      · refine mul_ne_zero (mul_ne_zero ?_ (sqrt_ne hy ht0.le)) (sqrt_ne hz ht0.le)
        have : 0 < √(t + 0 ^ 2) := Real.sqrt_pos.mpr (by linarith)
        exact_mod_cast this.ne'
    exact hcont.tendsto

theorem RGc_zero_limit {y z : ℂ} (hy : y ∈ Complex.slitPlane) (hz : z ∈ Complex.slitPlane) :
    Tendsto (fun r : ℝ => RGc ((r ^ 2 : ℝ) : ℂ) y z) (𝓝[>] 0) (𝓝 (RGc 0 y z)) := by
  have key : ∀ {v : ℂ}, v ∈ Complex.slitPlane → ∃ C : ℝ, ∀ t : ℝ, 0 < t → ‖(t : ℂ) * (v / ((t : ℂ) + v))‖ ≤ C := fun {v} hv => by
    obtain ⟨-, C, hC, hb⟩ := ((Dec.id.mul ((Dec.inv hv).cmul v))).mono (l := 0) (by norm_num)
    refine ⟨C, fun t ht => ?_⟩
    have := hb t ht.le
    rw [neg_zero, Real.rpow_zero, mul_one] at this
    simpa only [mul_one_div] using this
  obtain ⟨C1, h1⟩ := key hy
  obtain ⟨C2, h2⟩ := key hz
  have htr : ∀ r t : ℝ, 0 < t → (t : ℂ) + ((r ^ 2 : ℝ) : ℂ) ≠ 0 := fun r t ht => by
    have : 0 < t + r ^ 2 := by positivity
    exact_mod_cast this.ne'
  have := zero_limit hy hz (w := fun r t => (t : ℂ) * (((r ^ 2 : ℝ) : ℂ) / ((t : ℂ) + ((r ^ 2 : ℝ) : ℂ))) + (t : ℂ) * (y / ((t : ℂ) + y)) + (t : ℂ) * (z / ((t : ℂ) + z)))
    (K := 1 + C1 + C2) (fun r => ?_) (fun r hr t ht => ?_) fun t ht => ?_
  · have hm := this.const_mul (1 / 4 : ℂ)
    have e : ∀ u : ℂ, RGc u y z = 1 / 4 * ∫ t in Ioi (0 : ℝ), 1 / (csqrt ((t : ℂ) + u) * csqrt ((t : ℂ) + y) * csqrt ((t : ℂ) + z)) *
        ((t : ℂ) * (u / ((t : ℂ) + u)) + (t : ℂ) * (y / ((t : ℂ) + y)) + (t : ℂ) * (z / ((t : ℂ) + z))) := fun u => by
      rw [RGc]
      congr 2
      funext t
      ring
    have e0 : ((0 : ℝ) ^ 2 : ℝ) = 0 := by norm_num
    simp only [e0, Complex.ofReal_zero] at hm
    rw [e]
    simp only [e]
    exact hm
  · refine ContinuousOn.add (ContinuousOn.add ?_ ?_) ?_
    · exact ContinuousOn.mul (by fun_prop) (ContinuousOn.div continuousOn_const (by fun_prop) fun t ht => htr r t ht)
    · exact ContinuousOn.mul (by fun_prop) (ContinuousOn.div continuousOn_const (by fun_prop) fun t ht => far_ne hy (le_of_lt ht))
    · exact ContinuousOn.mul (by fun_prop) (ContinuousOn.div continuousOn_const (by fun_prop) fun t ht => far_ne hz (le_of_lt ht))
  · refine (norm_add_le _ _).trans (add_le_add ((norm_add_le _ _).trans (add_le_add ?_ (h1 t ht))) (h2 t ht))
    rw [← Complex.ofReal_add, ← Complex.ofReal_div, ← Complex.ofReal_mul, Complex.norm_real, Real.norm_of_nonneg (by positivity), ← mul_div_assoc,
      div_le_one (by positivity)]
    have : r ^ 2 ≤ 1 := by nlinarith [hr.1, hr.2]
    nlinarith [sq_nonneg r]
  · refine ContinuousAt.add (ContinuousAt.add ?_ continuousAt_const) continuousAt_const
    refine continuousAt_const.mul (ContinuousAt.div (by fun_prop) (by fun_prop) (htr 0 t ht))

/-- DLMF 19.21.10 with a zero first argument. -/
theorem RGc_formula_zero {y z : ℂ} (hy : y ∈ Complex.slitPlane) (hz : z ∈ Complex.slitPlane) :
    RGc 0 y z = (z * RFc 0 y z - (0 - z) * (y - z) * RDc 0 y z / 3 + csqrt 0 * csqrt y / csqrt z) / 2 := by
  have hzero : csqrt 0 = 0 := csqrt_eq_zero.mpr rfl
  have h0 : Tendsto (fun r : ℝ => (r : ℂ)) (𝓝[>] 0) (𝓝 0) := by
    have : ContinuousAt (fun r : ℝ => (r : ℂ)) 0 := by fun_prop
    have := this.tendsto.mono_left (nhdsWithin_le_nhds (s := Ioi (0 : ℝ)))
    simpa using this
  have h2 : Tendsto (fun r : ℝ => ((r ^ 2 : ℝ) : ℂ)) (𝓝[>] 0) (𝓝 0) := by
    have := h0.pow 2
    simpa using this
  have h := (((RFc_zero_limit hy hz).const_mul z).sub (((((h2.sub_const z).mul_const (y - z)).mul (RDc_zero_limit hy hz)).div_const 3))).add
    ((h0.mul_const (csqrt y)).div_const (csqrt z))
  refine tendsto_nhds_unique (RGc_zero_limit hy hz) ?_
  rw [hzero]
  refine (h.div_const 2).congr' ?_
  filter_upwards [self_mem_nhdsWithin] with r hr
  have hr0 : 0 < r := hr
  have hr' : ((r ^ 2 : ℝ) : ℂ) ∈ Complex.slitPlane := re_slit (by rw [Complex.ofReal_re]; exact pow_pos hr0 2)
  have hrs : csqrt ((r ^ 2 : ℝ) : ℂ) = r := by rw [csqrt_ofReal (by positivity), Real.sqrt_sq hr0.le]
  rw [RGc_formula hr' hy hz, hrs]

theorem RGc_formula_args {x y z : ℂ} (h : CArgs x y z) (hz : z ≠ 0) :
    RGc x y z = (z * RFc x y z - (x - z) * (y - z) * RDc x y z / 3 + csqrt x * csqrt y / csqrt z) / 2 := by
  have hz' := h.z0.resolve_left hz
  rcases h.x0 with rfl | hx <;> rcases h.y0 with rfl | hy
  · exact absurd h.xy (by simp)
  · exact RGc_formula_zero hy hz'
  · rw [RGc_swap12, RGc_formula_zero hx hz', RFc_swap12, RDc_swap12]
    ring
  · exact RGc_formula hx hy hz'

theorem RGc_two_zeros {z : ℂ} (hz : z ∈ Complex.slitPlane) : RGc 0 0 z = csqrt z / 2 := by
  have hB := (Dec.inv_sqrt hz).cmul (-2)
  have hf : Dec (3 / 2) fun t => 1 / csqrt ((t : ℂ) + z) * (1 / ((t : ℂ) + z)) := ((Dec.inv_sqrt hz).mul (Dec.inv hz)).mono (by norm_num)
  have hb := Dec.boundary hB (by norm_num) hf (by norm_num) fun t ht => by
    have hc := sqrt_ne hz ht.le
    refine (((hasDerivAt_const t (1 : ℂ)).div (sqrt_deriv hz ht.le) hc).const_mul (-2)).congr_deriv ?_
    have e := csqrt_sq ((t : ℂ) + z)
    generalize csqrt ((t : ℂ) + z) = q at *
    rw [← e]
    field_simp
    ring
  have e : ∀ t ∈ Ioi (0 : ℝ), (t : ℂ) / (csqrt ((t : ℂ) + 0) * csqrt ((t : ℂ) + 0) * csqrt ((t : ℂ) + z)) * (0 / ((t : ℂ) + 0) + 0 / ((t : ℂ) + 0) + z / ((t : ℂ) + z)) =
      z * (1 / csqrt ((t : ℂ) + z) * (1 / ((t : ℂ) + z))) := fun t ht => by
    have ht0 : (t : ℂ) ≠ 0 := by exact_mod_cast (ne_of_gt ht)
    have h1 := far_ne hz (le_of_lt ht)
    have h2 := sqrt_ne hz (le_of_lt ht)
    rw [add_zero, csqrt_sq]
    field_simp
    ring
  rw [RGc, setIntegral_congr_fun measurableSet_Ioi e, integral_const_mul, hb]
  simp only [Complex.ofReal_zero, zero_add]
  have h1 := csqrt_ne0 (Complex.slitPlane_ne_zero hz)
  have h2 := csqrt_sq z
  generalize csqrt z = q at *
  rw [← h2]
  field_simp
  ring

theorem not_equalNegative {a b : ℂ} (ha : a = 0 ∨ a ∈ Complex.slitPlane) : ¬areEqualNegative a b := by
  rintro ⟨⟨h1, h2⟩, -⟩
  rcases ha with rfl | ha
  · simp at h2
  · rcases ha with k | k
    · linarith
    · exact k h1

theorem rgMain {eps : ℝ} (h0 : 0 < eps) (h1 : eps ≤ 1) {x y z : ℂ} (h : CArgs x y z) (hz : z ≠ 0) {μ : ℝ} (hμ : 0 < μ)
    (m1 : 2 * μ ≤ (csqrt x + csqrt y).re) (m2 : 2 * μ ≤ (csqrt x + csqrt z).re) (m3 : 2 * μ ≤ (csqrt y + csqrt z).re) :
    ∃ v, elliprgMain eps x y z = .val v ∧ ‖v - RGc x y z‖ ≤ (1 / 1000000 * eps) * (‖z‖ * ‖RFc x y z‖ + ‖x - z‖ * ‖y - z‖ / μ ^ 3) := by
  obtain ⟨f, hf, hfe⟩ := C145_elliprf h0 h1 h
  obtain ⟨d, hd, hde⟩ := C148_elliprd h0 h1 h hz hμ m1 m2 m3
  rw [elliprgMain, if_neg ?_, hf, hd]
  · refine ⟨(z * f - (x - z) * (y - z) * d / 3 + csqrt x * csqrt y / csqrt z) / 2, by simp [Out.map, Out.bind], ?_⟩
    rw [RGc_formula_args h hz, show (z * f - (x - z) * (y - z) * d / 3 + csqrt x * csqrt y / csqrt z) / 2 -
      (z * RFc x y z - (x - z) * (y - z) * RDc x y z / 3 + csqrt x * csqrt y / csqrt z) / 2 = z / 2 * (f - RFc x y z) - (x - z) * (y - z) / 6 * (d - RDc x y z) by ring]
    refine (norm_sub_le _ _).trans ?_
    rw [norm_mul, norm_mul, norm_div, norm_div, norm_mul, Complex.norm_ofNat, Complex.norm_ofNat]
    rw [show EPS eps = 1 / 1000000 * eps by unfold EPS; ring] at hfe hde
    have hE : 0 ≤ 1 / 1000000 * eps := by positivity
    calc _ ≤ ‖z‖ / 2 * (2 * (1 / 1000000 * eps) * ‖RFc x y z‖) + ‖x - z‖ * ‖y - z‖ / 6 * (5 * (1 / 1000000 * eps) / μ ^ 3) := by gcongr
      _ = (1 / 1000000 * eps) * (‖z‖ * ‖RFc x y z‖) + 5 / 6 * ((1 / 1000000 * eps) * (‖x - z‖ * ‖y - z‖ / μ ^ 3)) := by ring
      _ ≤ (1 / 1000000 * eps) * (‖z‖ * ‖RFc x y z‖) + 1 * ((1 / 1000000 * eps) * (‖x - z‖ * ‖y - z‖ / μ ^ 3)) := by gcongr; norm_num
      _ = _ := by ring
  · rintro (k | k | k)
    · exact not_equalNegative h.x0 k
    · exact not_equalNegative h.x0 k
    · exact not_equalNegative h.y0 k

/-- **C153** `elliprg` at complex arguments off the negative real axis, at most one of `x` and `y` zero. -/
theorem C153_elliprg {eps : ℝ} (h0 : 0 < eps) (h1 : eps ≤ 1) {x y z : ℂ} (h : CArgs x y z) (hz : z ≠ 0) {μ : ℝ} (hμ : 0 < μ)
    (m1 : 2 * μ ≤ (csqrt x + csqrt y).re) (m2 : 2 * μ ≤ (csqrt x + csqrt z).re) (m3 : 2 * μ ≤ (csqrt y + csqrt z).re) :
    ∃ v, elliprg eps x y z = .val v ∧ ‖v - RGc x y z‖ ≤ (1 / 1000000 * eps) * (‖z‖ * ‖RFc x y z‖ + ‖x - z‖ * ‖y - z‖ / μ ^ 3) := by
  have hle : isZero x + isZero y + isZero z ≤ 1 := by
    unfold isZero
    rw [if_neg hz]
    have := h.xy
    split_ifs <;> simp_all
  rw [elliprg, if_neg (by omega), if_neg (by omega), if_neg fun e => hz e.2]
  exact rgMain h0 h1 h hz hμ m1 m2 m3

/-- **C153** with `z = 0` (the code exchanges `x` and `z`). -/
theorem C153_elliprg_zero {eps : ℝ} (h0 : 0 < eps) (h1 : eps ≤ 1) {x y : ℂ} (h : CArgs x y 0) {μ : ℝ} (hμ : 0 < μ) (m1 : 2 * μ ≤ (csqrt x).re) (m2 : 2 * μ ≤ (csqrt y).re) :
    ∃ v, elliprg eps x y 0 = .val v ∧ ‖v - RGc x y 0‖ ≤ (1 / 1000000 * eps) * (‖x‖ * ‖RFc x y 0‖ + ‖x‖ * ‖y - x‖ / μ ^ 3) := by
  have hx : x ≠ 0 := h.xz.resolve_right (by simp)
  have hy : y ≠ 0 := h.yz.resolve_right (by simp)
  have hzero : csqrt 0 = 0 := csqrt_eq_zero.mpr rfl
  have e1 : isZero x + isZero y + isZero 0 = 1 := by
    unfold isZero
    rw [if_neg hx, if_neg hy, if_pos rfl]
  rw [elliprg, e1, if_neg (by norm_num), if_neg (by norm_num), if_pos ⟨rfl, rfl⟩, RGc_swap13]
  have := rgMain h0 h1 h.swap12.swap23.swap12 hx hμ (by rw [hzero, zero_add]; exact m2) (by rw [hzero, zero_add]; exact m1)
    (by rw [Complex.add_re]; linarith [csqrt_re x])
  rw [zero_sub, norm_neg] at this
  rwa [show RFc 0 y x = RFc x y 0 by rw [RFc_swap12, RFc_swap23, RFc_swap12]] at this

/-- **C153** two zeros: the value is exact, whichever argument is not zero. -/
theorem C153_elliprg_two_zeros {eps : ℝ} {z : ℂ} (hz : z ∈ Complex.slitPlane) :
    elliprg eps 0 0 z = .val (RGc 0 0 z) ∧ elliprg eps 0 z 0 = .val (RGc 0 z 0) ∧ elliprg eps z 0 0 = .val (RGc z 0 0) := by
  have h := Complex.slitPlane_ne_zero hz
  have e0 : isZero 0 = 1 := if_pos rfl
  have e1 : isZero z = 0 := if_neg h
  refine ⟨?_, ?_, ?_⟩
  · simp [elliprg, e0, e1, RGc_two_zeros hz]
  · have : RGc 0 z 0 = csqrt z / 2 := by rw [RGc_swap13, RGc_swap12, RGc_swap13, RGc_two_zeros hz]
    simp [elliprg, e0, e1, this, h]
  · have : RGc z 0 0 = csqrt z / 2 := by rw [RGc_swap13, RGc_two_zeros hz]
    simp [elliprg, e0, e1, this, h]

/-- **C153** three zeros. -/
theorem C153_elliprg_zeros {eps : ℝ} : elliprg eps 0 0 0 = .val (RGc 0 0 0) := by
  have e0 : isZero 0 = 1 := if_pos rfl
  simp [elliprg, e0, RGc]

/-- `x = 0`, `y = -2 + 3i`, `z = 2 - i`; and `x = 1 + i`, `y = -2 + 3i`, `z = 0`. -/
example : ∃ μ : ℝ, 0 < μ ∧ (∃ v, elliprg (1 / 2 ^ 52) 0 (-2 + 3 * Complex.I) (2 - Complex.I) = .val v ∧ ‖v - RGc 0 (-2 + 3 * Complex.I) (2 - Complex.I)‖ ≤
      (1 / 1000000 * (1 / 2 ^ 52)) * (‖2 - Complex.I‖ * ‖RFc 0 (-2 + 3 * Complex.I) (2 - Complex.I)‖ + ‖0 - (2 - Complex.I)‖ * ‖-2 + 3 * Complex.I - (2 - Complex.I)‖ / μ ^ 3)) ∧
    ∃ v, elliprg (1 / 2 ^ 52) (2 - Complex.I) (-2 + 3 * Complex.I) 0 = .val v ∧ ‖v - RGc (2 - Complex.I) (-2 + 3 * Complex.I) 0‖ ≤
      (1 / 1000000 * (1 / 2 ^ 52)) * (‖2 - Complex.I‖ * ‖RFc (2 - Complex.I) (-2 + 3 * Complex.I) 0‖ + ‖2 - Complex.I‖ * ‖-2 + 3 * Complex.I - (2 - Complex.I)‖ / μ ^ 3) := by
  have r2 : (-2 + 3 * Complex.I) ∈ Complex.slitPlane := Or.inr (by simp)
  have r3 : (2 - Complex.I) ∈ Complex.slitPlane := Or.inl (by simp)
  have n2 := Complex.slitPlane_ne_zero r2
  have n3 := Complex.slitPlane_ne_zero r3
  have q1 := csqrt_re_pos r2
  have q2 := csqrt_re_pos r3
  have q3 := lt_min q1 q2
  have hzero : csqrt 0 = 0 := csqrt_eq_zero.mpr rfl
  have l1 := min_le_left (csqrt (-2 + 3 * Complex.I)).re (csqrt (2 - Complex.I)).re
  have l2 := min_le_right (csqrt (-2 + 3 * Complex.I)).re (csqrt (2 - Complex.I)).re
  have hA : CArgs 0 (-2 + 3 * Complex.I) (2 - Complex.I) := ⟨Or.inl rfl, Or.inr r2, Or.inr r3, Or.inr n2, Or.inr n3, Or.inr n3, Or.inr (Or.inl (by simp))⟩
  refine ⟨min (csqrt (-2 + 3 * Complex.I)).re (csqrt (2 - Complex.I)).re / 2, by linarith,
    C153_elliprg (by norm_num) (by norm_num) hA n3 (by linarith) (by rw [hzero, zero_add]; linarith) (by rw [hzero, zero_add]; linarith) (by rw [Complex.add_re]; linarith),
    C153_elliprg_zero (by norm_num) (by norm_num) hA.swap12.swap23.swap12 (by linarith) (by linarith) (by linarith)⟩

end Verif.Ellred
