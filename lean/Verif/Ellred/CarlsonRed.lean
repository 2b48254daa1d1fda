import Verif.Ellred.CarlsonDeriv
import Verif.Ellred.CubicAbs
import Mathlib.Analysis.SpecialFunctions.Pow.Asymptotics

/-! # Reductions of Carlson's integrals with complex arguments -/

namespace Verif.Ellred

open MeasureTheory Set Filter Topology Verif.Carlson

/-- A continuous function that decays like `t^(-k)`. -/
def Dec (k : ℝ) (f : ℝ → ℂ) : Prop := ContinuousOn f (Ici 0) ∧ ∃ C, 0 ≤ C ∧ ∀ t, 0 ≤ t → ‖f t‖ ≤ C * (1 + t) ^ (-k)

theorem Dec.mul {k l : ℝ} {f g : ℝ → ℂ} (hf : Dec k f) (hg : Dec l g) : Dec (k + l) fun t => f t * g t := by
  obtain ⟨cf, C, C0, hC⟩ := hf
  obtain ⟨cg, D, D0, hD⟩ := hg
  refine ⟨cf.mul cg, C * D, by positivity, fun t ht => ?_⟩
  have h1 : 0 < 1 + t := by linarith
  rw [norm_mul, neg_add, Real.rpow_add h1]
  calc ‖f t‖ * ‖g t‖ ≤ (C * (1 + t) ^ (-k)) * (D * (1 + t) ^ (-l)) := mul_le_mul (hC t ht) (hD t ht) (norm_nonneg _) (by positivity)
    _ = _ := by ring

theorem Dec.const (c : ℂ) : Dec 0 fun _ => c := ⟨continuousOn_const, ‖c‖, norm_nonneg _, fun t _ => by simp⟩

theorem Dec.cmul {k : ℝ} {f : ℝ → ℂ} (hf : Dec k f) (c : ℂ) : Dec k fun t => c * f t := by simpa using (Dec.const c).mul hf

theorem Dec.add {k : ℝ} {f g : ℝ → ℂ} (hf : Dec k f) (hg : Dec k g) : Dec k fun t => f t + g t := by
  obtain ⟨cf, C, C0, hC⟩ := hf
  obtain ⟨cg, D, D0, hD⟩ := hg
  refine ⟨cf.add cg, C + D, by positivity, fun t ht => ?_⟩
  rw [add_mul]
  exact (norm_add_le _ _).trans (add_le_add (hC t ht) (hD t ht))

theorem Dec.mono {k l : ℝ} {f : ℝ → ℂ} (hf : Dec k f) (h : l ≤ k) : Dec l f := by
  obtain ⟨cf, C, C0, hC⟩ := hf
  refine ⟨cf, C, C0, fun t ht => (hC t ht).trans ?_⟩
  gcongr
  linarith

theorem Dec.congr {k : ℝ} {f g : ℝ → ℂ} (hf : Dec k f) (h : ∀ t, 0 ≤ t → g t = f t) : Dec k g :=
  ⟨hf.1.congr h, hf.2.choose, hf.2.choose_spec.1, fun t ht => by rw [h t ht]; exact hf.2.choose_spec.2 t ht⟩

theorem Dec.id : Dec (-1) fun t => (t : ℂ) :=
  ⟨by fun_prop, 1, zero_le_one, fun t ht => by rw [neg_neg, Real.rpow_one, Complex.norm_real, Real.norm_of_nonneg ht]; linarith⟩

theorem Dec.integrable {k : ℝ} (hk : 1 < k) {f : ℝ → ℂ} (hf : Dec k f) : IntegrableOn f (Ioi 0) := by
  obtain ⟨cf, C, C0, hC⟩ := hf
  refine Integrable.mono' (integrable_pow (C := C) hk) ((cf.mono Ioi_subset_Ici_self).aestronglyMeasurable measurableSet_Ioi) ?_
  exact (ae_restrict_iff' measurableSet_Ioi).mpr (ae_of_all _ fun t ht => hC t (le_of_lt ht))

theorem Dec.tendsto {k : ℝ} (hk : 0 < k) {f : ℝ → ℂ} (hf : Dec k f) : Tendsto f atTop (𝓝 0) := by
  obtain ⟨-, C, C0, hC⟩ := hf
  have h1 : Tendsto (fun t : ℝ => C * (1 + t) ^ (-k)) atTop (𝓝 0) := by
    have := ((tendsto_rpow_neg_atTop hk).comp (tendsto_atTop_add_const_left atTop (1 : ℝ) tendsto_id)).const_mul C
    simpa [Function.comp_def] using this
  refine squeeze_zero_norm' ?_ h1
  filter_upwards [eventually_ge_atTop 0] with t ht using hC t ht

variable {x y z p : ℂ}

theorem csqrt_ne0 {w : ℂ} (h : w ≠ 0) : csqrt w ≠ 0 := fun e => h (csqrt_eq_zero.mp e)

theorem far_ne (hx : x ∈ Complex.slitPlane) {t : ℝ} (ht : 0 ≤ t) : (t : ℂ) + x ≠ 0 := by
  rw [add_comm]
  exact Complex.slitPlane_ne_zero (slit_add hx ht)

theorem sqrt_ne (hx : x ∈ Complex.slitPlane) {t : ℝ} (ht : 0 ≤ t) : csqrt ((t : ℂ) + x) ≠ 0 := csqrt_ne0 (far_ne hx ht)

theorem Dec.inv (hx : x ∈ Complex.slitPlane) : Dec 1 fun t => 1 / ((t : ℂ) + x) := by
  obtain ⟨c, c0, hc⟩ := exists_far hx
  refine ⟨ContinuousOn.div continuousOn_const (by fun_prop) fun t ht => far_ne hx ht, 1 / c, by positivity, fun t ht => ?_⟩
  have h1 : 0 < 1 + t := by linarith
  have h2 := (hc.self_of_nhds t ht).2
  rw [add_comm x] at h2
  rw [norm_div, norm_one, Real.rpow_neg_one, ← one_div, one_div_mul_one_div]
  exact one_div_le_one_div_of_le (by positivity) h2

theorem sqrt_cont (hx : x ∈ Complex.slitPlane) : ContinuousOn (fun t : ℝ => csqrt ((t : ℂ) + x)) (Ici 0) := by
  refine ContinuousOn.cpow_const (by fun_prop) fun t ht => ?_
  rw [add_comm]
  exact slit_add hx ht

theorem norm_csqrt (w : ℂ) : ‖csqrt w‖ = ‖w‖ ^ (1 / 2 : ℝ) := by
  rw [csqrt, show (1 / 2 : ℂ) = ((1 / 2 : ℝ) : ℂ) by norm_num, Complex.norm_cpow_real]

theorem Dec.inv_sqrt (hx : x ∈ Complex.slitPlane) : Dec (1 / 2) fun t => 1 / csqrt ((t : ℂ) + x) := by
  obtain ⟨c, c0, hc⟩ := exists_far hx
  refine ⟨ContinuousOn.div continuousOn_const (sqrt_cont hx) fun t ht => sqrt_ne hx ht, 1 / c ^ (1 / 2 : ℝ), by positivity, fun t ht => ?_⟩
  have h1 : 0 < 1 + t := by linarith
  have h2 := (hc.self_of_nhds t ht).2
  rw [add_comm x] at h2
  rw [norm_div, norm_one, norm_csqrt, Real.rpow_neg h1.le, ← one_div, one_div_mul_one_div, ← Real.mul_rpow c0.le h1.le]
  exact one_div_le_one_div_of_le (by positivity) (Real.rpow_le_rpow (by positivity) h2 (by norm_num))

theorem Dec.sqrt (hx : x ∈ Complex.slitPlane) : Dec (-(1 / 2)) fun t => csqrt ((t : ℂ) + x) := by
  refine (((Dec.inv_sqrt hx).mul ((Dec.id.mono (l := -1) le_rfl).add ((Dec.const x).mono (l := -1) (by norm_num)))).mono (l := -(1 / 2)) (by norm_num)).congr fun t ht => ?_
  rw [one_div_mul_eq_div, eq_div_iff (sqrt_ne hx ht), csqrt_sq]

/-- Integrating a derivative. -/
theorem Dec.boundary {k l : ℝ} {B f : ℝ → ℂ} (hB : Dec k B) (hk : 0 < k) (hf : Dec l f) (hl : 1 < l) (hd : ∀ t, 0 < t → HasDerivAt B (f t) t) :
    ∫ t in Ioi (0 : ℝ), f t = -B 0 := by
  rw [integral_Ioi_of_hasDerivAt_of_tendsto (hB.1 0 self_mem_Ici) (fun t ht => hd t ht) (hf.integrable hl) (hB.tendsto hk), zero_sub]

theorem sqrt_deriv (hx : x ∈ Complex.slitPlane) {t : ℝ} (ht : 0 ≤ t) :
    HasDerivAt (fun t : ℝ => csqrt ((t : ℂ) + x)) (1 / (2 * csqrt ((t : ℂ) + x))) t := by
  have := Xr_deriv (r := -x) (t := t) (by rw [sub_neg_eq_add, add_comm]; exact slit_add hx ht)
  simpa only [funext_iff, Xr, sub_neg_eq_add, show Xr (-x) = fun t : ℝ => csqrt ((t : ℂ) + x) from funext fun t => by rw [Xr, sub_neg_eq_add]] using this

theorem add_deriv (x : ℂ) (t : ℝ) : HasDerivAt (fun t : ℝ => (t : ℂ) + x) 1 t := (hasDerivAt_id t).ofReal_comp.add_const x

/-! ### Powers -/

theorem int_inv32 (hx : x ∈ Complex.slitPlane) : ∫ t in Ioi (0 : ℝ), 1 / (csqrt ((t : ℂ) + x) * ((t : ℂ) + x)) = 2 / csqrt x := by
  have := Dec.boundary (B := fun t => -2 * (1 / csqrt ((t : ℂ) + x))) ((Dec.inv_sqrt hx).cmul _) (by norm_num) ((Dec.inv_sqrt hx).mul (Dec.inv hx)) (by norm_num) ?_
  · simp only [one_div_mul_one_div] at this
    rw [this]
    simp
    ring
  · intro t ht
    have h0 := sqrt_ne hx ht.le
    have e := csqrt_sq ((t : ℂ) + x)
    refine (((hasDerivAt_const t (1 : ℂ)).div (sqrt_deriv hx ht.le) h0).const_mul (-2)).congr_deriv ?_
    generalize csqrt ((t : ℂ) + x) = a at *
    rw [← e]
    field_simp
    ring

theorem int_inv52 (hx : x ∈ Complex.slitPlane) : ∫ t in Ioi (0 : ℝ), 1 / (csqrt ((t : ℂ) + x) * (((t : ℂ) + x) * ((t : ℂ) + x))) = 2 / 3 / (csqrt x * x) := by
  have := Dec.boundary (B := fun t => -(2 / 3) * (1 / csqrt ((t : ℂ) + x) * (1 / ((t : ℂ) + x)))) (((Dec.inv_sqrt hx).mul (Dec.inv hx)).cmul _) (by norm_num)
    ((Dec.inv_sqrt hx).mul ((Dec.inv hx).mul (Dec.inv hx))) (by norm_num) ?_
  · simp only [one_div_mul_one_div] at this
    rw [this]
    simp
    ring
  · intro t ht
    have h0 := sqrt_ne hx ht.le
    have e := csqrt_sq ((t : ℂ) + x)
    refine ((((hasDerivAt_const t (1 : ℂ)).div (sqrt_deriv hx ht.le) h0).mul ((hasDerivAt_const t (1 : ℂ)).div (add_deriv x t) (far_ne hx ht.le))).const_mul _).congr_deriv ?_
    simp only [Pi.div_apply]
    generalize csqrt ((t : ℂ) + x) = a at *
    rw [← e]
    field_simp
    ring

theorem int_inv72 (hx : x ∈ Complex.slitPlane) :
    ∫ t in Ioi (0 : ℝ), 1 / (csqrt ((t : ℂ) + x) * (((t : ℂ) + x) * (((t : ℂ) + x) * ((t : ℂ) + x)))) = 2 / 5 / (csqrt x * (x * x)) := by
  have := Dec.boundary (B := fun t => -(2 / 5) * (1 / csqrt ((t : ℂ) + x) * (1 / ((t : ℂ) + x) * (1 / ((t : ℂ) + x))))) (((Dec.inv_sqrt hx).mul ((Dec.inv hx).mul (Dec.inv hx))).cmul _)
    (by norm_num) ((Dec.inv_sqrt hx).mul ((Dec.inv hx).mul ((Dec.inv hx).mul (Dec.inv hx)))) (by norm_num) ?_
  · simp only [one_div_mul_one_div] at this
    rw [this]
    simp
    ring
  · intro t ht
    have h0 := sqrt_ne hx ht.le
    have e := csqrt_sq ((t : ℂ) + x)
    have d1 := (hasDerivAt_const t (1 : ℂ)).div (add_deriv x t) (far_ne hx ht.le)
    refine ((((hasDerivAt_const t (1 : ℂ)).div (sqrt_deriv hx ht.le) h0).mul (d1.mul d1)).const_mul _).congr_deriv ?_
    simp only [Pi.div_apply, Pi.mul_apply]
    generalize csqrt ((t : ℂ) + x) = a at *
    rw [← e]
    field_simp
    ring

/-! ### `R_C` -/

theorem RC_dec (hx : x ∈ Complex.slitPlane) (hy : y ∈ Complex.slitPlane) : Dec (3 / 2) fun t => 1 / (csqrt ((t : ℂ) + x) * ((t : ℂ) + y)) :=
  (((Dec.inv_sqrt hx).mul (Dec.inv hy)).mono (by norm_num)).congr fun t _ => by rw [one_div_mul_one_div]

/-- `∂R_C/∂x`. -/
theorem RC_red_x (hx : x ∈ Complex.slitPlane) (hy : y ∈ Complex.slitPlane) :
    (y - x) * ∫ t in Ioi (0 : ℝ), 1 / (csqrt ((t : ℂ) + x) * (((t : ℂ) + x) * ((t : ℂ) + y))) = 2 / csqrt x - 2 * RCc x y := by
  rw [RCc, ← mul_assoc, show (2 * (1 / 2) : ℂ) = 1 by norm_num, one_mul, ← int_inv32 hx, ← integral_sub ((RC_dec hx hx).integrable (by norm_num)) ((RC_dec hx hy).integrable (by norm_num)),
    ← integral_const_mul]
  refine setIntegral_congr_fun measurableSet_Ioi fun t ht => ?_
  have h1 := far_ne hx (le_of_lt ht)
  have h2 := far_ne hy (le_of_lt ht)
  have h3 := sqrt_ne hx (le_of_lt ht)
  field_simp
  ring

/-- `∂R_C/∂y`. -/
theorem RC_red_y (hx : x ∈ Complex.slitPlane) (hy : y ∈ Complex.slitPlane) :
    (x - y) * ∫ t in Ioi (0 : ℝ), 1 / (csqrt ((t : ℂ) + x) * (((t : ℂ) + y) * ((t : ℂ) + y))) = csqrt x / y - RCc x y := by
  have i1 := (RC_dec hx hy).cmul (-(1 / 2))
  have i2 : Dec (3 / 2) fun t => -(x - y) * (1 / (csqrt ((t : ℂ) + x) * (((t : ℂ) + y) * ((t : ℂ) + y)))) :=
    ((((Dec.inv_sqrt hx).mul ((Dec.inv hy).mul (Dec.inv hy))).cmul (-(x - y))).mono (by norm_num)).congr fun t _ => by simp only [one_div_mul_one_div]
  have := Dec.boundary (B := fun t => csqrt ((t : ℂ) + x) * (1 / ((t : ℂ) + y))) ((Dec.sqrt hx).mul (Dec.inv hy)) (by norm_num) (i1.add i2) (by norm_num) ?_
  · rw [integral_add (i1.integrable (by norm_num)) (i2.integrable (by norm_num)), integral_const_mul, integral_const_mul] at this
    simp only [Complex.ofReal_zero, zero_add] at this
    rw [RCc]
    linear_combination -this
  · intro t ht
    have h0 := sqrt_ne hx ht.le
    have h1 := far_ne hy ht.le
    have e := csqrt_sq ((t : ℂ) + x)
    refine ((sqrt_deriv hx ht.le).mul ((hasDerivAt_const t (1 : ℂ)).div (add_deriv y t) h1)).congr_deriv ?_
    simp only [Pi.div_apply]
    generalize csqrt ((t : ℂ) + x) = a at *
    have ex : x = a * a - t := by linear_combination -e
    rw [ex]
    field_simp
    ring

/-! ### `R_J` and `R_D` -/

/-- The product of square roots. -/
noncomputable def cS (x y z : ℂ) (t : ℝ) : ℂ := csqrt ((t : ℂ) + x) * csqrt ((t : ℂ) + y) * csqrt ((t : ℂ) + z)

variable (hx : x ∈ Complex.slitPlane) (hy : y ∈ Complex.slitPlane) (hz : z ∈ Complex.slitPlane) (hp : p ∈ Complex.slitPlane)
include hx hy hz

theorem cS_ne {t : ℝ} (ht : 0 ≤ t) : cS x y z t ≠ 0 := mul_ne_zero (mul_ne_zero (sqrt_ne hx ht) (sqrt_ne hy ht)) (sqrt_ne hz ht)

theorem cS_dec : Dec (3 / 2) fun t => 1 / cS x y z t :=
  ((((Dec.inv_sqrt hx).mul (Dec.inv_sqrt hy)).mul (Dec.inv_sqrt hz)).mono (by norm_num)).congr fun t _ => by simp only [one_div_mul_one_div, cS]

theorem cS_dec' : Dec (-(3 / 2)) fun t => cS x y z t :=
  (((Dec.sqrt hx).mul (Dec.sqrt hy)).mul (Dec.sqrt hz)).mono (by norm_num)

include hp in
theorem RJ_dec : Dec (3 / 2) fun t => 1 / (cS x y z t * ((t : ℂ) + p)) :=
  (((cS_dec hx hy hz).mul (Dec.inv hp)).mono (by norm_num)).congr fun t _ => by simp only [one_div_mul_one_div]

include hp in
/-- Partial fractions. -/
theorem RJ_red_x {q : ℂ} (hq : q ∈ Complex.slitPlane) : (p - q) * ∫ t in Ioi (0 : ℝ), 1 / (cS x y z t * (((t : ℂ) + q) * ((t : ℂ) + p))) = 2 / 3 * RJc x y z q - 2 / 3 * RJc x y z p := by
  have e : ∀ q, 2 / 3 * RJc x y z q = ∫ t in Ioi (0 : ℝ), 1 / (cS x y z t * ((t : ℂ) + q)) := fun q => by
    rw [RJc, ← mul_assoc, show (2 / 3 * (3 / 2) : ℂ) = 1 by norm_num, one_mul]
    rfl
  rw [e, e, ← integral_sub ((RJ_dec hx hy hz hq).integrable (by norm_num)) ((RJ_dec hx hy hz hp).integrable (by norm_num)), ← integral_const_mul]
  refine setIntegral_congr_fun measurableSet_Ioi fun t ht => ?_
  have h1 := far_ne hq (le_of_lt ht)
  have h2 := far_ne hp (le_of_lt ht)
  have h3 := cS_ne hx hy hz (le_of_lt ht)
  field_simp
  ring

theorem cS_deriv {t : ℝ} (ht : 0 ≤ t) : HasDerivAt (cS x y z) ((1 / (2 * csqrt ((t : ℂ) + x)) * csqrt ((t : ℂ) + y) + csqrt ((t : ℂ) + x) * (1 / (2 * csqrt ((t : ℂ) + y)))) * csqrt ((t : ℂ) + z) +
    csqrt ((t : ℂ) + x) * csqrt ((t : ℂ) + y) * (1 / (2 * csqrt ((t : ℂ) + z)))) t :=
  ((sqrt_deriv hx ht).mul (sqrt_deriv hy ht)).mul (sqrt_deriv hz ht)

omit hx hy hz in
theorem cS_sq (t : ℝ) : cS x y z t * cS x y z t = ((t : ℂ) + x) * ((t : ℂ) + y) * ((t : ℂ) + z) := by
  calc cS x y z t * cS x y z t = (csqrt ((t : ℂ) + x) * csqrt ((t : ℂ) + x)) * (csqrt ((t : ℂ) + y) * csqrt ((t : ℂ) + y)) * (csqrt ((t : ℂ) + z) * csqrt ((t : ℂ) + z)) := by
        rw [cS]; ring
    _ = _ := by rw [csqrt_sq, csqrt_sq, csqrt_sq]

omit hx hy hz in
theorem RFc_cS : RFc x y z = 1 / 2 * ∫ t in Ioi (0 : ℝ), 1 / cS x y z t := rfl

omit hx hy hz in
theorem RJc_cS : RJc x y z p = 3 / 2 * ∫ t in Ioi (0 : ℝ), 1 / (cS x y z t * ((t : ℂ) + p)) := rfl

include hp in
/-- The integral of `1/(s (t+p)²)`: integrate the derivative of `s/(t+p) - t²/s`. -/
theorem RJ_red_p : (x - p) * (y - p) * (z - p) * ∫ t in Ioi (0 : ℝ), 1 / (cS x y z t * (((t : ℂ) + p) * ((t : ℂ) + p))) =
    csqrt x * csqrt y * csqrt z / p + p * RFc x y z - 2 * RGc x y z - 1 / 3 * ((x - p) * (y - p) + (x - p) * (z - p) + (y - p) * (z - p)) * RJc x y z p := by
  have i0 := (cS_dec hx hy hz).cmul (p / 2)
  have i1 := (RJ_dec hx hy hz hp).cmul (-(1 / 2) * ((x - p) * (y - p) + (x - p) * (z - p) + (y - p) * (z - p)))
  have i2 : Dec (3 / 2) fun t => -((x - p) * (y - p) * (z - p)) * (1 / (cS x y z t * (((t : ℂ) + p) * ((t : ℂ) + p)))) :=
    ((((cS_dec hx hy hz).mul ((Dec.inv hp).mul (Dec.inv hp))).cmul (-((x - p) * (y - p) * (z - p)))).mono (by norm_num)).congr fun t _ => by simp only [one_div_mul_one_div]
  have i3 : Dec (3 / 2) fun t => -(1 / 2) * ((t : ℂ) / cS x y z t * (x / ((t : ℂ) + x) + y / ((t : ℂ) + y) + z / ((t : ℂ) + z))) :=
    (((Dec.id.mul ((cS_dec hx hy hz).mul ((((Dec.inv hx).cmul x).add ((Dec.inv hy).cmul y)).add ((Dec.inv hz).cmul z)))).cmul (-(1 / 2))).mono (by norm_num)).congr
      fun t _ => by ring
  have hB : Dec (1 / 2) fun t => cS x y z t / ((t : ℂ) + p) - (t : ℂ) ^ 2 / cS x y z t := by
    have hpoly : Dec (-2) fun t => (x + y + z - p) * ((t : ℂ) * t) + (x * y + x * z + y * z) * t + x * y * z :=
      ((((Dec.id.mul Dec.id).mono (by norm_num)).cmul _).add ((Dec.id.mono (by norm_num)).cmul _)).add ((Dec.const _).mono (by norm_num))
    refine ((hpoly.mul ((cS_dec hx hy hz).mul (Dec.inv hp))).mono (by norm_num)).congr fun t ht => ?_
    have h1 := far_ne hp ht
    have h2 := cS_ne hx hy hz ht
    have h3 := cS_sq (x := x) (y := y) (z := z) t
    field_simp
    linear_combination h3
  have := Dec.boundary hB (by norm_num) (((i0.add i1).add i2).add i3) (by norm_num) ?_
  · rw [integral_add ((((i0.add i1).add i2)).integrable (by norm_num)) (i3.integrable (by norm_num)), integral_add ((i0.add i1).integrable (by norm_num)) (i2.integrable (by norm_num)),
      integral_add (i0.integrable (by norm_num)) (i1.integrable (by norm_num)), integral_const_mul, integral_const_mul, integral_const_mul, integral_const_mul] at this
    have e0 : cS x y z 0 = csqrt x * csqrt y * csqrt z := by simp [cS]
    simp only [Complex.ofReal_zero, zero_add, e0, ne_eq, OfNat.ofNat_ne_zero, not_false_eq_true, zero_pow, zero_div, sub_zero] at this
    have eG : RGc x y z = 1 / 4 * ∫ t in Ioi (0 : ℝ), (t : ℂ) / cS x y z t * (x / ((t : ℂ) + x) + y / ((t : ℂ) + y) + z / ((t : ℂ) + z)) := rfl
    rw [RFc_cS, RJc_cS, eG]
    linear_combination -this
  · intro t ht
    have h1 := far_ne hp ht.le
    have h2 := cS_ne hx hy hz ht.le
    have hta : HasDerivAt (fun t : ℝ => (t : ℂ) ^ 2) (2 * t) t := by
      have := (hasDerivAt_id t).ofReal_comp.mul (hasDerivAt_id t).ofReal_comp
      refine (this.congr_deriv (g' := 2 * (t : ℂ)) ?_).congr_of_eventuallyEq (Eventually.of_forall fun s => ?_)
      · simp
        ring
      · simp [sq]
    refine (((cS_deriv hx hy hz ht.le).div (add_deriv p t) h1).sub (hta.div (cS_deriv hx hy hz ht.le) h2)).congr_deriv ?_
    have ha := sqrt_ne hx ht.le
    have hb := sqrt_ne hy ht.le
    have hc := sqrt_ne hz ht.le
    have ea := csqrt_sq ((t : ℂ) + x)
    have eb := csqrt_sq ((t : ℂ) + y)
    have ec := csqrt_sq ((t : ℂ) + z)
    simp only [cS]
    generalize csqrt ((t : ℂ) + x) = a at *
    generalize csqrt ((t : ℂ) + y) = b at *
    generalize csqrt ((t : ℂ) + z) = c at *
    rw [← ea, ← eb, ← ec]
    obtain rfl : x = a * a - t := by linear_combination -ea
    obtain rfl : y = b * b - t := by linear_combination -eb
    obtain rfl : z = c * c - t := by linear_combination -ec
    field_simp
    ring

omit hx hy hz in
theorem RDc_cS : RDc x y z = RJc x y z z := rfl

/-- The integral of `1/(s (t+z)²)`: integrate the derivative of `√(t+x) √(t+y) (t+z)^(-3/2)`. -/
theorem RD_red_z : 3 / 2 * ((x - z) * (y - z)) * ∫ t in Ioi (0 : ℝ), 1 / (cS x y z t * (((t : ℂ) + z) * ((t : ℂ) + z))) =
    csqrt x * csqrt y / (csqrt z * z) - RFc x y z - 2 / 3 * (x + y - 2 * z) * RDc x y z := by
  have i0 := (cS_dec hx hy hz).cmul (-(1 / 2))
  have i1 := (RJ_dec hx hy hz hz).cmul (-(x + y - 2 * z))
  have i2 : Dec (3 / 2) fun t => -(3 / 2) * ((x - z) * (y - z)) * (1 / (cS x y z t * (((t : ℂ) + z) * ((t : ℂ) + z)))) :=
    ((((cS_dec hx hy hz).mul ((Dec.inv hz).mul (Dec.inv hz))).cmul (-(3 / 2) * ((x - z) * (y - z)))).mono (by norm_num)).congr fun t _ => by simp only [one_div_mul_one_div]
  have hB : Dec (1 / 2) fun t => csqrt ((t : ℂ) + x) * csqrt ((t : ℂ) + y) * (1 / csqrt ((t : ℂ) + z) * (1 / ((t : ℂ) + z))) :=
    (((Dec.sqrt hx).mul (Dec.sqrt hy)).mul ((Dec.inv_sqrt hz).mul (Dec.inv hz))).mono (by norm_num)
  have := Dec.boundary hB (by norm_num) ((i0.add i1).add i2) (by norm_num) ?_
  · rw [integral_add ((i0.add i1).integrable (by norm_num)) (i2.integrable (by norm_num)),
      integral_add (i0.integrable (by norm_num)) (i1.integrable (by norm_num)), integral_const_mul, integral_const_mul, integral_const_mul] at this
    simp only [Complex.ofReal_zero, zero_add] at this
    have e : csqrt x * csqrt y / (csqrt z * z) = csqrt x * csqrt y * (1 / csqrt z * (1 / z)) := by rw [one_div_mul_one_div, mul_one_div]
    rw [RDc_cS, RFc_cS, RJc_cS, e]
    linear_combination -this
  · intro t ht
    have h1 := far_ne hz ht.le
    have ha := sqrt_ne hx ht.le
    have hb := sqrt_ne hy ht.le
    have hc := sqrt_ne hz ht.le
    refine (((sqrt_deriv hx ht.le).mul (sqrt_deriv hy ht.le)).mul (((hasDerivAt_const t (1 : ℂ)).div (sqrt_deriv hz ht.le) hc).mul
      ((hasDerivAt_const t (1 : ℂ)).div (add_deriv z t) h1))).congr_deriv ?_
    have ea := csqrt_sq ((t : ℂ) + x)
    have eb := csqrt_sq ((t : ℂ) + y)
    have ec := csqrt_sq ((t : ℂ) + z)
    simp only [cS, Pi.mul_apply, Pi.div_apply]
    generalize csqrt ((t : ℂ) + x) = a at *
    generalize csqrt ((t : ℂ) + y) = b at *
    generalize csqrt ((t : ℂ) + z) = c at *
    rw [← ec]
    obtain rfl : x = a * a - t := by linear_combination -ea
    obtain rfl : y = b * b - t := by linear_combination -eb
    obtain rfl : z = c * c - t := by linear_combination -ec
    field_simp
    ring

end Verif.Ellred
