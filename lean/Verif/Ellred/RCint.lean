import Verif.Ellred.Kernel
import Mathlib.MeasureTheory.Integral.IntervalIntegral.IntegrationByParts
import Mathlib.MeasureTheory.Integral.DominatedConvergence
import Mathlib.Analysis.SpecialFunctions.ImproperIntegrals

/-! # `R_C` as the integral of `1 / (v² - κ)` -/

namespace Verif.Ellred

open MeasureTheory Set Filter Topology Verif.Carlson

theorem RCc_ofReal {a b : ℝ} (ha : 0 ≤ a) : RCc a b = (RC a b : ℝ) := by
  rw [RCc, RC]
  push_cast
  rw [← integral_complex_ofReal]
  congr 1
  apply setIntegral_congr_fun measurableSet_Ioi
  intro s hs
  have hs : 0 < s := hs
  simp only
  rw [← Complex.ofReal_add, ← Complex.ofReal_add, csqrt_ofReal (by linarith)]
  push_cast
  rfl

theorem RC_eq_Ioi {S κ : ℝ} (hS : 0 < S) : RC (S ^ 2) (S ^ 2 - κ) = ∫ v in Ioi S, 1 / (v ^ 2 - κ) := by
  have im : (fun σ : ℝ => √(σ + S ^ 2)) '' Ioi 0 = Ioi S := by
    ext v
    constructor
    · rintro ⟨σ, hσ, rfl⟩
      have hσ : 0 < σ := hσ
      exact Real.lt_sqrt_of_sq_lt (by linarith)
    · intro hv
      have hv : S < v := hv
      exact ⟨v ^ 2 - S ^ 2, by have : S ^ 2 < v ^ 2 := by gcongr
                               exact sub_pos.mpr this, by simp only [sub_add_cancel]; exact Real.sqrt_sq (by linarith)⟩
  rw [← im, integral_image_eq_integral_abs_deriv_smul (f' := fun σ => 1 / (2 * √(σ + S ^ 2))) measurableSet_Ioi, RC,
    ← integral_const_mul]
  · apply setIntegral_congr_fun measurableSet_Ioi
    intro σ hσ
    have hσ : 0 < σ := hσ
    have h : 0 < σ + S ^ 2 := by positivity
    have hq := Real.sqrt_pos.mpr h
    simp only [smul_eq_mul]
    rw [abs_of_pos (by positivity), Real.sq_sqrt h.le, one_div_mul_one_div, one_div_mul_one_div]
    congr 1
    ring
  · intro σ hσ
    have hσ : 0 < σ := hσ
    have h : 0 < σ + S ^ 2 := by positivity
    exact (((hasDerivAt_id σ).add_const (S ^ 2)).sqrt h.ne').hasDerivWithinAt
  · intro a ha b hb hab
    have ha : 0 < a := ha
    have hb : 0 < b := hb
    have := (Real.sqrt_inj (by positivity) (by positivity)).mp hab
    linarith

theorem RC_scale_sq {k a b : ℝ} (hk : 0 < k) (ha : 0 ≤ a) (hb : 0 ≤ b) : k * RC (k ^ 2 * a) (k ^ 2 * b) = RC a b := by
  have e : (fun t : ℝ => k ^ 2 * t) '' Ioi 0 = Ioi 0 := by
    ext v
    constructor
    · rintro ⟨t, ht, rfl⟩
      have ht : 0 < t := ht
      exact mul_pos (by positivity) ht
    · intro hv
      have hv : 0 < v := hv
      exact ⟨v / k ^ 2, div_pos hv (by positivity), by simp only; field_simp⟩
  rw [RC, ← e, integral_image_eq_integral_abs_deriv_smul (f' := fun _ => k ^ 2) measurableSet_Ioi, RC, mul_left_comm,
    ← integral_const_mul]
  · congr 1
    apply setIntegral_congr_fun measurableSet_Ioi
    intro t ht
    have ht : 0 < t := ht
    simp only [smul_eq_mul]
    rw [abs_of_pos (by positivity), ← mul_add, ← mul_add, Real.sqrt_mul (by positivity), Real.sqrt_sq hk.le]
    rcases eq_or_ne (√(t + a) * (t + b)) 0 with h | h
    · rw [show k * √(t + a) * (k ^ 2 * (t + b)) = k ^ 3 * (√(t + a) * (t + b)) by ring, h]
      simp
    · have h1 : √(t + a) ≠ 0 := left_ne_zero_of_mul h
      have h2 : t + b ≠ 0 := right_ne_zero_of_mul h
      field_simp
  · intro t _
    simpa using ((hasDerivAt_id t).const_mul (k ^ 2)).hasDerivWithinAt
  · intro a _ b _ hab
    have hab : k ^ 2 * a = k ^ 2 * b := hab
    exact mul_left_cancel₀ (by positivity) hab

theorem integrableOn_inv {S κ : ℝ} (hS : 0 < S) (h : κ < S ^ 2) : IntegrableOn (fun v : ℝ => 1 / (v ^ 2 - κ)) (Ioi S) := by
  have hp : ∀ v, S ≤ v → 0 < v ^ 2 - κ := fun v hv => by
    have : S ^ 2 ≤ v ^ 2 := by gcongr
    linarith
  obtain ⟨c, hc, hb⟩ : ∃ c : ℝ, 0 < c ∧ ∀ v, S ≤ v → c * v ^ 2 ≤ v ^ 2 - κ := by
    refine ⟨min 1 ((S ^ 2 - κ) / S ^ 2), lt_min one_pos (div_pos (by linarith) (by positivity)), fun v hv => ?_⟩
    have hv2 : S ^ 2 ≤ v ^ 2 := by gcongr
    rcases le_or_gt κ 0 with hκ | hκ
    · calc _ ≤ 1 * v ^ 2 := by gcongr; exact min_le_left _ _
        _ ≤ _ := by linarith
    · calc _ ≤ (S ^ 2 - κ) / S ^ 2 * v ^ 2 := by gcongr; exact min_le_right _ _
        _ ≤ _ := by
          rw [div_mul_eq_mul_div, div_le_iff₀ (by positivity)]
          nlinarith
  have hi : IntegrableOn (fun v : ℝ => 1 / c * v ^ (-2 : ℝ)) (Ioi S) := (integrableOn_Ioi_rpow_of_lt (by norm_num) hS).const_mul _
  refine Integrable.mono' hi ?_ ?_
  · refine ContinuousOn.aestronglyMeasurable ?_ measurableSet_Ioi
    intro v hv
    have hv : S < v := hv
    have hne := (hp v hv.le).ne'
    have : ContinuousAt (fun v : ℝ => 1 / (v ^ 2 - κ)) v := by fun_prop (disch := exact hne)
    exact this.continuousWithinAt
  · refine (ae_restrict_iff' measurableSet_Ioi).mpr (Eventually.of_forall fun v hv => ?_)
    have hv : S < v := hv
    have hv0 : 0 < v := hS.trans hv
    rw [Real.norm_of_nonneg (one_div_nonneg.mpr (hp v hv.le).le), Real.rpow_neg hv0.le, Real.rpow_two, ← one_div, one_div_mul_one_div]
    exact one_div_le_one_div_of_le (by positivity) (hb v hv.le)

/-- Integrating `-S' / (S² - κ)` from `y`, where `S` is infinite, needs no monotonicity of `S`. -/
theorem integral_log_deriv {y x κ : ℝ} (hlt : y < x) {S S' : ℝ → ℝ} (hd : ∀ t ∈ Ioc y x, HasDerivAt S (S' t) t)
    (hc : ContinuousOn S' (Ioc y x)) (hS : ∀ t ∈ Ioc y x, 0 < S t) (hκ : ∀ t ∈ Ioc y x, κ < S t ^ 2)
    (hlim : Tendsto S (𝓝[>] y) atTop) (hi : IntegrableOn (fun t => -(S' t) / (S t ^ 2 - κ)) (Ioc y x)) :
    ∫ t in Ioc y x, -(S' t) / (S t ^ 2 - κ) = ∫ v in Ioi (S x), 1 / (v ^ 2 - κ) := by
  have hx : x ∈ Ioc y x := ⟨hlt, le_rfl⟩
  have key : ∀ e ∈ Ioo y x, ∫ t in e..x, -(S' t) / (S t ^ 2 - κ) = ∫ v in (S x)..(S e), 1 / (v ^ 2 - κ) := by
    intro e he
    have hsub : ∀ t ∈ uIcc e x, t ∈ Ioc y x := fun t ht => by
      rw [uIcc_of_le he.2.le] at ht
      exact ⟨lt_of_lt_of_le he.1 ht.1, ht.2⟩
    have h := intervalIntegral.integral_comp_mul_deriv' (a := e) (b := x) (f := S) (f' := S') (g := fun v => 1 / (v ^ 2 - κ))
      (fun t ht => hd t (hsub t ht)) (hc.mono hsub) (by
        rintro v ⟨t, ht, rfl⟩
        have := hκ t (hsub t ht)
        have hne : S t ^ 2 - κ ≠ 0 := by linarith
        have : ContinuousAt (fun v : ℝ => 1 / (v ^ 2 - κ)) (S t) := by fun_prop (disch := exact hne)
        exact this.continuousWithinAt)
    rw [intervalIntegral.integral_symm (S e) (S x), ← h, ← intervalIntegral.integral_neg]
    apply intervalIntegral.integral_congr
    intro t _
    simp only [Function.comp]
    ring
  have l1 : Tendsto (fun e => ∫ v in (S x)..(S e), 1 / (v ^ 2 - κ)) (𝓝[>] y) (𝓝 (∫ v in Ioi (S x), 1 / (v ^ 2 - κ))) :=
    intervalIntegral_tendsto_integral_Ioi _ (integrableOn_inv (hS x hx) (hκ x hx)) hlim
  have l2 : Tendsto (fun e => ∫ t in e..x, -(S' t) / (S t ^ 2 - κ)) (𝓝[>] y) (𝓝 (∫ t in y..x, -(S' t) / (S t ^ 2 - κ))) := by
    have hii : IntegrableOn (fun t => -(S' t) / (S t ^ 2 - κ)) (uIcc y x) := by
      rw [uIcc_of_le hlt.le]
      exact (integrableOn_Icc_iff_integrableOn_Ioc).mpr hi
    have := (intervalIntegral.continuousOn_primitive_interval_left hii) y left_mem_uIcc
    rw [uIcc_of_le hlt.le] at this
    refine this.tendsto.mono_left ?_
    rw [← nhdsWithin_Ioc_eq_nhdsGT hlt]
    exact nhdsWithin_mono _ Ioc_subset_Icc_self
  have l3 : Tendsto (fun e => ∫ t in e..x, -(S' t) / (S t ^ 2 - κ)) (𝓝[>] y) (𝓝 (∫ v in Ioi (S x), 1 / (v ^ 2 - κ))) := by
    refine l1.congr' ?_
    filter_upwards [Ioo_mem_nhdsGT hlt] with e he
    exact (key e he).symm
  have := tendsto_nhds_unique l2 l3
  rwa [intervalIntegral.integral_of_le hlt.le] at this

end Verif.Ellred
