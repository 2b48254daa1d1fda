import Verif.Special.IncGammaSpec
import Mathlib.Analysis.Calculus.ParametricIntegral
import Mathlib.MeasureTheory.Integral.IntegralEqImproper
import Mathlib.Analysis.SpecialFunctions.Gamma.Deriv
import Mathlib.Analysis.SpecialFunctions.Gamma.Digamma

/-!
# The functions `T(m, a, x)`

Specification of `Tgamma` and its derivatives; nothing here models the code.
-/

open Real MeasureTheory Set Filter Topology

namespace Verif.Special

/-- Specification (Geddes, Glasser, Moore, Scott 1990): `T(1,a,x) = x^(a-1) e^(-x)` and
`T(m,a,x) = (1/x) ∫ₓ^∞ log(t/x)^(m-2)/(m-2)! t^(a-1) e^(-t) dt` for `m ≥ 2`, so that
`T(2,a,x) = Γ(a,x)/x`. -/
noncomputable def TInt : ℕ → ℝ → ℝ → ℝ
  | 0, _, _ => 0
  | 1, a, x => x ^ (a - 1) * exp (-x)
  | m + 2, a, x => (∫ t in Ioi x, log (t / x) ^ m / m.factorial * (t ^ (a - 1) * exp (-t))) / x

/-- `t^s e^(-t)` is integrable away from `0` for every exponent. -/
theorem kernel_integrable (s : ℝ) {x : ℝ} (hx : 0 < x) :
    IntegrableOn (fun t : ℝ => t ^ s * exp (-t)) (Ioi x) := by
  have h1 : IntegrableOn (fun t : ℝ => x ^ (s - |s|) * (t ^ (|s| + 1 - 1) * exp (-t))) (Ioi x) :=
    ((gammaKernel_integrableOn (a := |s| + 1) (by positivity)).mono_set
      (Ioi_subset_Ioi hx.le)).const_mul _
  refine Integrable.mono' h1 ?_ ?_
  · refine ContinuousOn.aestronglyMeasurable ?_ measurableSet_Ioi
    refine ContinuousOn.mul (fun t ht => ?_) (by fun_prop)
    exact (continuousAt_rpow_const _ _ (Or.inl (hx.trans ht).ne')).continuousWithinAt
  · refine (ae_restrict_iff' measurableSet_Ioi).2 (Eventually.of_forall fun t ht => ?_)
    have ht0 : 0 < t := hx.trans ht
    rw [norm_of_nonneg (by positivity), ← mul_assoc]
    refine mul_le_mul_of_nonneg_right ?_ (exp_nonneg _)
    rw [add_sub_cancel_right]
    have : t ^ s = t ^ (s - |s|) * t ^ |s| := by rw [← rpow_add ht0]; ring_nf
    rw [this]
    refine mul_le_mul_of_nonneg_right ?_ (by positivity)
    exact rpow_le_rpow_of_nonpos hx (le_of_lt ht) (by linarith [le_abs_self s])

theorem abs_log_le {t : ℝ} (ht : 0 < t) : |log t| ≤ t + 1 / t := by
  have h1 := log_le_self ht.le
  have h2 := log_le_self (x := 1 / t) (by positivity)
  rw [one_div, log_inv] at h2
  have : 0 < 1 / t := by positivity
  rw [abs_le]; constructor
  · rw [one_div]; linarith
  · linarith

/-- Powers of the logarithm do not matter. -/
theorem kernel_log_integrable (s : ℝ) (n : ℕ) {x : ℝ} (hx : 0 < x) :
    IntegrableOn (fun t : ℝ => log t ^ n * (t ^ s * exp (-t))) (Ioi x) := by
  have hb : IntegrableOn (fun t : ℝ => (1 + 1 / x ^ 2) ^ n * (t ^ (s + n) * exp (-t))) (Ioi x) :=
    (kernel_integrable (s + n) hx).const_mul _
  refine Integrable.mono' hb ?_ ?_
  · refine ContinuousOn.aestronglyMeasurable ?_ measurableSet_Ioi
    refine ContinuousOn.mul (fun t ht => ?_) (ContinuousOn.mul (fun t ht => ?_) (by fun_prop))
    · exact ((continuousAt_log (hx.trans ht).ne').pow n).continuousWithinAt
    · exact (continuousAt_rpow_const _ _ (Or.inl (hx.trans ht).ne')).continuousWithinAt
  · refine (ae_restrict_iff' measurableSet_Ioi).2 (Eventually.of_forall fun t ht => ?_)
    have ht0 : 0 < t := hx.trans ht
    rw [norm_mul, norm_pow, Real.norm_eq_abs, norm_of_nonneg (by positivity : 0 ≤ t ^ s * exp (-t)),
      rpow_add_natCast ht0.ne']
    have h1 : |log t| ≤ (1 + 1 / x ^ 2) * t := by
      refine (abs_log_le ht0).trans ?_
      rw [add_mul, one_mul]
      have : 1 / t ≤ 1 / x ^ 2 * t := by
        rw [div_le_iff₀ ht0, mul_assoc, one_div_mul_eq_div, le_div_iff₀ (by positivity)]
        nlinarith [mem_Ioi.1 ht]
      linarith
    have h2 : |log t| ^ n ≤ ((1 + 1 / x ^ 2) * t) ^ n := pow_le_pow_left₀ (abs_nonneg _) h1 n
    calc |log t| ^ n * (t ^ s * exp (-t)) ≤ ((1 + 1 / x ^ 2) * t) ^ n * (t ^ s * exp (-t)) :=
          mul_le_mul_of_nonneg_right h2 (by positivity)
      _ = _ := by rw [mul_pow]; ring

/-- `∫ₓ^∞ (log t)^n t^s e^(-t) dt`. -/
noncomputable def logJ (s : ℝ) (n : ℕ) (x : ℝ) : ℝ := ∫ t in Ioi x, log t ^ n * (t ^ s * exp (-t))

theorem logJ_hasDerivAt (s : ℝ) (n : ℕ) {x : ℝ} (hx : 0 < x) :
    HasDerivAt (logJ s n) (-(log x ^ n * (x ^ s * exp (-x)))) x := by
  set f : ℝ → ℝ := fun t => log t ^ n * (t ^ s * exp (-t)) with hf
  have hx2 : 0 < x / 2 := by positivity
  have hi := kernel_log_integrable s n hx2
  have hc : ContinuousAt f x := by
    refine ContinuousAt.mul ((continuousAt_log hx.ne').pow n) (ContinuousAt.mul ?_ (by fun_prop))
    exact continuousAt_rpow_const _ _ (Or.inl hx.ne')
  have hii : IntervalIntegrable f volume (x / 2) x :=
    (intervalIntegrable_iff_integrableOn_Ioc_of_le (by linarith)).2 (hi.mono_set Ioc_subset_Ioi_self)
  have hsm : StronglyMeasurableAtFilter f (𝓝 x) := by
    refine ContinuousOn.stronglyMeasurableAtFilter (s := Ioi 0) isOpen_Ioi ?_ x hx
    intro t ht
    refine (ContinuousAt.mul ((continuousAt_log (ne_of_gt ht)).pow n)
      (ContinuousAt.mul ?_ (by fun_prop))).continuousWithinAt
    exact continuousAt_rpow_const _ _ (Or.inl (ne_of_gt ht))
  have h1 := intervalIntegral.integral_hasDerivAt_right hii hsm hc
  have h2 := h1.const_sub (∫ t in Ioi (x / 2), f t)
  refine h2.congr_of_eventuallyEq ?_
  filter_upwards [Ioi_mem_nhds (show x / 2 < x by linarith)] with y hy
  have hy' : x / 2 < y := hy
  have : (∫ t in Ioi (x / 2), f t) = (∫ t in (x/2)..y, f t) + ∫ t in Ioi y, f t := by
    rw [intervalIntegral.integral_of_le hy'.le, ← setIntegral_union (Ioc_disjoint_Ioi le_rfl)
      measurableSet_Ioi (hi.mono_set Ioc_subset_Ioi_self) (hi.mono_set (Ioi_subset_Ioi hy'.le)),
      Ioc_union_Ioi_eq_Ioi hy'.le]
  show (∫ t in Ioi y, f t) = _
  rw [this]; ring

/-- The numerator of `T`. -/
noncomputable def TNum (s : ℝ) (m : ℕ) (x : ℝ) : ℝ :=
  ∫ t in Ioi x, log (t / x) ^ m * (t ^ s * exp (-t))

theorem TNum_expand (s : ℝ) (m : ℕ) {x : ℝ} (hx : 0 < x) :
    TNum s m x = ∑ j ∈ Finset.range (m + 1), logJ s j x * ((-log x) ^ (m - j) * (m.choose j)) := by
  have h1 : TNum s m x = ∫ t in Ioi x, ∑ j ∈ Finset.range (m + 1),
      log t ^ j * (t ^ s * exp (-t)) * ((-log x) ^ (m - j) * (m.choose j)) := by
    refine setIntegral_congr_fun measurableSet_Ioi fun t ht => ?_
    have ht0 : 0 < t := hx.trans ht
    rw [log_div ht0.ne' hx.ne', sub_eq_add_neg, add_pow, Finset.sum_mul]
    exact Finset.sum_congr rfl fun j _ => by ring
  rw [h1, integral_finset_sum _ fun j _ => (kernel_log_integrable s j hx).mul_const _]
  exact Finset.sum_congr rfl fun j _ => by rw [integral_mul_const]; rfl

theorem TNum_hasDerivAt_zero (s : ℝ) {x : ℝ} (hx : 0 < x) :
    HasDerivAt (TNum s 0) (-(x ^ s * exp (-x))) x := by
  have := logJ_hasDerivAt s 0 hx
  rw [pow_zero, one_mul] at this
  refine this.congr_of_eventuallyEq (Eventually.of_forall fun y => ?_)
  simp [TNum, logJ]

theorem TNum_hasDerivAt_succ (s : ℝ) (m : ℕ) {x : ℝ} (hx : 0 < x) :
    HasDerivAt (TNum s (m + 1)) (-((m + 1) / x * TNum s m x)) x := by
  have h1 : HasDerivAt (fun x => ∑ j ∈ Finset.range (m + 1 + 1),
      logJ s j x * ((-log x) ^ (m + 1 - j) * ((m + 1).choose j)))
      (∑ j ∈ Finset.range (m + 1 + 1), (-(log x ^ j * (x ^ s * exp (-x))) *
          ((-log x) ^ (m + 1 - j) * ((m + 1).choose j)) +
        logJ s j x * (((m + 1 - j : ℕ) * (-log x) ^ (m + 1 - j - 1) * -x⁻¹) * ((m + 1).choose j)))) x := by
    refine HasDerivAt.fun_sum fun j _ => ?_
    exact (logJ_hasDerivAt s j hx).mul ((((hasDerivAt_log hx.ne').neg).pow _).mul_const _)
  refine (h1.congr_deriv ?_).congr_of_eventuallyEq ?_
  · rw [Finset.sum_add_distrib]
    have e1 : ∑ j ∈ Finset.range (m + 1 + 1), -(log x ^ j * (x ^ s * exp (-x))) *
        ((-log x) ^ (m + 1 - j) * ((m + 1).choose j)) = 0 := by
      have : ∑ j ∈ Finset.range (m + 1 + 1), -(log x ^ j * (x ^ s * exp (-x))) *
        ((-log x) ^ (m + 1 - j) * ((m + 1).choose j)) =
          -(x ^ s * exp (-x)) * (log x + -log x) ^ (m + 1) := by
        rw [add_pow, Finset.mul_sum]
        exact Finset.sum_congr rfl fun j _ => by ring
      rw [this, add_neg_cancel, zero_pow (by omega), mul_zero]
    rw [e1, zero_add, TNum_expand s m hx, Finset.sum_range_succ, Nat.sub_self, Nat.cast_zero, zero_mul,
      zero_mul, zero_mul, mul_zero, add_zero, Finset.mul_sum, ← Finset.sum_neg_distrib]
    refine Finset.sum_congr rfl fun j hj => ?_
    have hj' : j ≤ m := by rw [Finset.mem_range] at hj; omega
    have hch : ((m + 1 - j : ℕ) : ℝ) * ((m + 1).choose j : ℝ) = (m + 1) * (m.choose j : ℝ) := by
      have := Nat.choose_mul_succ_eq m j
      have h2 : ((m.choose j * (m + 1) : ℕ) : ℝ) = (((m + 1).choose j * (m + 1 - j) : ℕ) : ℝ) := by
        rw [this]
      push_cast at h2
      rw [mul_comm, mul_comm ((m : ℝ) + 1)]
      rw [h2]
    rw [show m + 1 - j - 1 = m - j by omega]
    calc _ = -(logJ s j x * (-log x) ^ (m - j) * x⁻¹ * (((m + 1 - j : ℕ) : ℝ) * ((m + 1).choose j : ℝ))) := by ring
      _ = _ := by rw [hch]; field_simp
  · filter_upwards [Ioi_mem_nhds hx] with y hy
    exact TNum_expand s (m + 1) hy

theorem TInt_eq (m : ℕ) (a x : ℝ) : TInt (m + 2) a x = TNum (a - 1) m x / m.factorial / x := by
  show (∫ t in Ioi x, _) / x = _
  congr 1
  rw [TNum, ← integral_div]
  refine setIntegral_congr_fun measurableSet_Ioi fun t _ => ?_
  ring

/-- `∂T(m,a,x)/∂x = -(T(m-1,a,x) + T(m,a,x))/x` for `m ≥ 2`. -/
theorem TInt_hasDerivAt_x (m : ℕ) (a : ℝ) {x : ℝ} (hx : 0 < x) :
    HasDerivAt (TInt (m + 2) a) (-(TInt (m + 1) a x + TInt (m + 2) a x) / x) x := by
  have e : TInt (m + 2) a = fun x => TNum (a - 1) m x / m.factorial / x := by
    funext y; exact TInt_eq m a y
  cases m with
  | zero =>
    rw [e]
    have h := ((TNum_hasDerivAt_zero (a - 1) hx).div_const ((Nat.factorial 0 : ℕ) : ℝ)).div
      (hasDerivAt_id x) hx.ne'
    refine h.congr_deriv ?_
    simp only [TInt, Nat.factorial_zero, Nat.cast_one, div_one, id]
    field_simp
    ring
  | succ n =>
    rw [e]
    have h := ((TNum_hasDerivAt_succ (a - 1) n hx).div_const ((Nat.factorial (n + 1) : ℕ) : ℝ)).div
      (hasDerivAt_id x) hx.ne'
    refine h.congr_deriv ?_
    rw [TInt_eq, Nat.factorial_succ]
    have : ((n.factorial : ℕ) : ℝ) ≠ 0 := by positivity
    push_cast
    simp only [id]
    field_simp
    ring

/-- The derivative in the exponent. -/
theorem TNum_hasDerivAt_s (m : ℕ) (s₀ : ℝ) {x : ℝ} (hx : 0 < x) :
    HasDerivAt (fun s => TNum s m x) (log x * TNum s₀ m x + TNum s₀ (m + 1) x) s₀ := by
  have hint : ∀ (s : ℝ) (n : ℕ), IntegrableOn (fun t : ℝ => log (t / x) ^ n * (t ^ s * exp (-t))) (Ioi x) := by
    intro s n
    have h1 : IntegrableOn (fun t : ℝ => ∑ j ∈ Finset.range (n + 1),
        log t ^ j * (t ^ s * exp (-t)) * ((-log x) ^ (n - j) * (n.choose j))) (Ioi x) :=
      integrable_finset_sum _ fun j _ => (kernel_log_integrable s j hx).mul_const _
    refine h1.congr_fun (fun t ht => ?_) measurableSet_Ioi
    have ht0 : 0 < t := hx.trans ht
    rw [log_div ht0.ne' hx.ne', sub_eq_add_neg, add_pow, Finset.sum_mul]
    exact Finset.sum_congr rfl fun j _ => by ring
  have key := (hasDerivAt_integral_of_dominated_loc_of_deriv_le (μ := volume.restrict (Ioi x))
    (F := fun s t => log (t / x) ^ m * (t ^ s * exp (-t)))
    (F' := fun s t => log (t / x) ^ m * (t ^ s * log t * exp (-t))) (x₀ := s₀)
    (s := Metric.ball s₀ 1)
    (bound := fun t => (1 + 1 / x ^ 2) * (log (t / x) ^ m * (t ^ (s₀ + 2) * exp (-t)) +
      log (t / x) ^ m * (t ^ s₀ * exp (-t))))
    (Metric.ball_mem_nhds _ one_pos) (Eventually.of_forall fun s => (hint s m).aestronglyMeasurable)
    (hint s₀ m) ?_ ?_ ?_ ?_).2
  · refine key.congr_deriv ?_
    rw [TNum, TNum, ← integral_const_mul, ← integral_add ((hint s₀ m).const_mul _) (hint s₀ (m + 1))]
    refine setIntegral_congr_fun measurableSet_Ioi fun t ht => ?_
    have ht0 : 0 < t := hx.trans ht
    have : log t = log x + log (t / x) := by rw [log_div ht0.ne' hx.ne']; ring
    rw [this, pow_succ]; ring
  · refine ContinuousOn.aestronglyMeasurable (fun t ht => ContinuousAt.continuousWithinAt ?_) measurableSet_Ioi
    have ht0 : 0 < t := hx.trans ht
    refine ContinuousAt.mul (ContinuousAt.pow ?_ m) (ContinuousAt.mul (ContinuousAt.mul ?_ ?_) (by fun_prop))
    · exact (continuousAt_id.div_const x).log (div_pos ht0 hx).ne'
    · exact continuousAt_rpow_const _ _ (Or.inl ht0.ne')
    · exact continuousAt_log ht0.ne'
  · refine (ae_restrict_iff' measurableSet_Ioi).2 (Eventually.of_forall fun t ht s hs => ?_)
    have ht0 : 0 < t := hx.trans ht
    have hl : 0 ≤ log (t / x) := log_nonneg (by rw [le_div_iff₀ hx]; linarith [mem_Ioi.1 ht])
    rw [Metric.mem_ball, Real.dist_eq, abs_lt] at hs
    rw [norm_mul, norm_pow, Real.norm_eq_abs, abs_of_nonneg hl, norm_mul, norm_mul, Real.norm_eq_abs,
      Real.norm_eq_abs, Real.norm_eq_abs, abs_of_nonneg (exp_nonneg _), abs_of_nonneg (rpow_nonneg ht0.le s)]
    have h1 : |log t| ≤ (1 + 1 / x ^ 2) * t := by
      refine (abs_log_le ht0).trans ?_
      rw [add_mul, one_mul]
      have : 1 / t ≤ 1 / x ^ 2 * t := by
        rw [div_le_iff₀ ht0, mul_assoc, one_div_mul_eq_div, le_div_iff₀ (by positivity)]
        nlinarith [mem_Ioi.1 ht]
      linarith
    have h2 : t ^ s * t ≤ t ^ (s₀ + 2) + t ^ s₀ := by
      rw [show t ^ s * t = t ^ (s + 1) by rw [rpow_add ht0, rpow_one]]
      rcases le_total 1 t with h | h
      · have := rpow_le_rpow_of_exponent_le h (show s + 1 ≤ s₀ + 2 by linarith)
        have := rpow_nonneg ht0.le s₀
        linarith
      · have := rpow_le_rpow_of_exponent_ge ht0 h (show s₀ ≤ s + 1 by linarith)
        have := rpow_nonneg ht0.le (s₀ + 2)
        linarith
    have h3 : t ^ s * |log t| ≤ (1 + 1 / x ^ 2) * (t ^ (s₀ + 2) + t ^ s₀) := by
      calc t ^ s * |log t| ≤ t ^ s * ((1 + 1 / x ^ 2) * t) :=
            mul_le_mul_of_nonneg_left h1 (rpow_nonneg ht0.le s)
        _ = (1 + 1 / x ^ 2) * (t ^ s * t) := by ring
        _ ≤ _ := mul_le_mul_of_nonneg_left h2 (by positivity)
    calc log (t / x) ^ m * (t ^ s * |log t| * exp (-t))
        ≤ log (t / x) ^ m * ((1 + 1 / x ^ 2) * (t ^ (s₀ + 2) + t ^ s₀) * exp (-t)) := by gcongr
      _ = _ := by ring
  · exact (((hint (s₀ + 2) m).add (hint s₀ m)).const_mul _)
  · refine (ae_restrict_iff' measurableSet_Ioi).2 (Eventually.of_forall fun t ht s _ => ?_)
    have ht0 : 0 < t := hx.trans ht
    have := ((hasStrictDerivAt_const_rpow ht0 s).hasDerivAt.mul_const (exp (-t))).const_mul (log (t / x) ^ m)
    exact this

/-- `∂T(m,a,x)/∂a = log x T(m,a,x) + (m-1) T(m+1,a,x)` for `m ≥ 1`. -/
theorem TInt_hasDerivAt_a (m : ℕ) (a : ℝ) {x : ℝ} (hx : 0 < x) :
    HasDerivAt (fun a => TInt (m + 1) a x) (log x * TInt (m + 1) a x + m * TInt (m + 2) a x) a := by
  cases m with
  | zero =>
    have h := ((hasStrictDerivAt_const_rpow hx (a - 1)).hasDerivAt.comp a
      ((hasDerivAt_id a).sub_const 1)).mul_const (exp (-x))
    refine h.congr_deriv ?_
    simp only [TInt]
    push_cast
    ring
  | succ n =>
    have e : (fun a => TInt (n + 1 + 1) a x) = fun a => TNum (a - 1) n x / n.factorial / x := by
      funext b; exact TInt_eq n b x
    rw [e]
    have h := (((TNum_hasDerivAt_s n (a - 1) hx).comp a ((hasDerivAt_id a).sub_const 1)).div_const
      ((n.factorial : ℕ) : ℝ)).div_const x
    refine h.congr_deriv ?_
    rw [TInt_eq, TInt_eq (n + 1), Nat.factorial_succ]
    have : ((n.factorial : ℕ) : ℝ) ≠ 0 := by positivity
    push_cast
    field_simp

end Verif.Special
