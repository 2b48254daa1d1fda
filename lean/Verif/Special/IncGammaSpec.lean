import Mathlib.Analysis.SpecialFunctions.Gamma.Deriv
import Mathlib.Analysis.SpecificLimits.Normed
import Mathlib.MeasureTheory.Integral.IntervalIntegral.FundThmCalculus
import Mathlib.Analysis.SpecialFunctions.ImproperIntegrals

/-!
# Specification: the regularised incomplete gamma functions, and their series
-/

open Real MeasureTheory Set Filter Topology

namespace Verif.Special

/-- Specification: `P(a,x) = (1/Γ(a)) ∫₀ˣ t^(a-1) e^(-t) dt`. -/
noncomputable def incP (a x : ℝ) : ℝ :=
  (∫ t in (0 : ℝ)..x, t ^ (a - 1) * exp (-t)) / Gamma a

/-- Specification: `Q(a,x) = (1/Γ(a)) ∫ₓ^∞ t^(a-1) e^(-t) dt`. -/
noncomputable def incQ (a x : ℝ) : ℝ :=
  (∫ t in Ioi x, t ^ (a - 1) * exp (-t)) / Gamma a

theorem gammaKernel_integrableOn {a : ℝ} (ha : 0 < a) :
    IntegrableOn (fun t : ℝ => t ^ (a - 1) * exp (-t)) (Ioi 0) := by
  refine (GammaIntegral_convergent ha).congr_fun (fun t _ => ?_) measurableSet_Ioi
  simp only; ring

theorem gammaKernel_intervalIntegrable {a : ℝ} (ha : 0 < a) {x : ℝ} (hx : 0 ≤ x) :
    IntervalIntegrable (fun t : ℝ => t ^ (a - 1) * exp (-t)) volume 0 x :=
  (intervalIntegrable_iff_integrableOn_Ioc_of_le hx).2
    ((gammaKernel_integrableOn ha).mono_set Ioc_subset_Ioi_self)

theorem integral_gammaKernel {a : ℝ} (ha : 0 < a) :
    ∫ t in Ioi (0 : ℝ), t ^ (a - 1) * exp (-t) = Gamma a := by
  rw [Gamma_eq_integral ha]
  refine setIntegral_congr_fun measurableSet_Ioi fun t _ => ?_
  exact mul_comm _ _

theorem incP_add_incQ {a x : ℝ} (ha : 0 < a) (hx : 0 ≤ x) : incP a x + incQ a x = 1 := by
  have hG := Gamma_pos_of_pos ha
  rw [incP, incQ, ← add_div, div_eq_one_iff_eq hG.ne', ← integral_gammaKernel ha,
    intervalIntegral.integral_of_le hx, ← setIntegral_union]
  · rw [Ioc_union_Ioi_eq_Ioi hx]
  · exact Set.disjoint_left.2 fun t h1 h2 => absurd h1.2 (not_le.2 h2)
  · exact measurableSet_Ioi
  · exact (gammaKernel_integrableOn ha).mono_set Ioc_subset_Ioi_self
  · exact (gammaKernel_integrableOn ha).mono_set (Ioi_subset_Ioi hx)

theorem incP_zero (a : ℝ) : incP a 0 = 0 := by simp [incP]

theorem incP_nonneg {a x : ℝ} (ha : 0 < a) (hx : 0 ≤ x) : 0 ≤ incP a x := by
  refine div_nonneg (intervalIntegral.integral_nonneg hx fun t ht => ?_) (Gamma_pos_of_pos ha).le
  have := rpow_nonneg ht.1 (a - 1)
  positivity

theorem incQ_nonneg {a x : ℝ} (ha : 0 < a) (hx : 0 ≤ x) : 0 ≤ incQ a x := by
  refine div_nonneg (setIntegral_nonneg measurableSet_Ioi fun t ht => ?_) (Gamma_pos_of_pos ha).le
  have := rpow_nonneg (hx.trans (le_of_lt ht)) (a - 1)
  positivity

theorem incP_le_one {a x : ℝ} (ha : 0 < a) (hx : 0 ≤ x) : incP a x ≤ 1 := by
  have := incP_add_incQ ha hx; have := incQ_nonneg ha hx; linarith

theorem incQ_le_one {a x : ℝ} (ha : 0 < a) (hx : 0 ≤ x) : incQ a x ≤ 1 := by
  have := incP_add_incQ ha hx; have := incP_nonneg ha hx; linarith

/-- `∂P/∂x = x^(a-1) e^(-x) / Γ(a)`. -/
theorem hasDerivAt_incP {a x : ℝ} (ha : 0 < a) (hx : 0 < x) :
    HasDerivAt (incP a) (x ^ (a - 1) * exp (-x) / Gamma a) x := by
  have hc : ContinuousOn (fun t : ℝ => t ^ (a - 1) * exp (-t)) (Ioi 0) := by
    refine ContinuousOn.mul (fun t ht => ?_) (by fun_prop)
    exact (continuousAt_rpow_const _ _ (Or.inl (ne_of_gt ht))).continuousWithinAt
  exact (intervalIntegral.integral_hasDerivAt_right (gammaKernel_intervalIntegrable ha hx.le)
    (hc.stronglyMeasurableAtFilter isOpen_Ioi x hx)
    (hc.continuousAt (Ioi_mem_nhds hx))).div_const _

/-- `∂Q/∂x = -x^(a-1) e^(-x) / Γ(a)`. -/
theorem hasDerivAt_incQ {a x : ℝ} (ha : 0 < a) (hx : 0 < x) :
    HasDerivAt (incQ a) (-(x ^ (a - 1) * exp (-x) / Gamma a)) x := by
  refine ((hasDerivAt_incP ha hx).const_sub 1).congr_of_eventuallyEq ?_
  filter_upwards [Ioi_mem_nhds hx] with y hy
  have := incP_add_incQ ha (le_of_lt hy); linarith

/-- Integration by parts: `P(a,x) = P(a+1,x) + x^a e^(-x) / Γ(a+1)`. -/
theorem incP_succ {a x : ℝ} (ha : 0 < a) (hx : 0 ≤ x) :
    incP a x = incP (a + 1) x + x ^ a * exp (-x) / Gamma (a + 1) := by
  have hG := Gamma_pos_of_pos ha
  have e : Gamma (a + 1) = a * Gamma a := Gamma_add_one ha.ne'
  have key : ∫ t in (0 : ℝ)..x, (a * (t ^ (a - 1) * exp (-t)) - t ^ (a + 1 - 1) * exp (-t)) =
      x ^ a * exp (-x) := by
    have h := intervalIntegral.integral_eq_sub_of_hasDerivAt_of_le hx
      (f := fun t : ℝ => t ^ a * exp (-t))
      (f' := fun t : ℝ => a * (t ^ (a - 1) * exp (-t)) - t ^ (a + 1 - 1) * exp (-t))
      (by
        refine ContinuousOn.mul ?_ (by fun_prop)
        exact (continuous_rpow_const ha.le).continuousOn)
      (fun t ht => by
        have h1 := (hasDerivAt_rpow_const (x := t) (p := a) (Or.inl ht.1.ne')).mul
          ((hasDerivAt_neg t).exp)
        refine h1.congr_deriv ?_
        rw [add_sub_cancel_right]; ring)
      (((gammaKernel_intervalIntegrable ha hx).const_mul a).sub
        (gammaKernel_intervalIntegrable (by linarith) hx))
    rw [h, zero_rpow ha.ne']; ring
  rw [intervalIntegral.integral_sub ((gammaKernel_intervalIntegrable ha hx).const_mul a)
    (gammaKernel_intervalIntegrable (by linarith) hx), intervalIntegral.integral_const_mul] at key
  rw [incP, incP, e]
  field_simp
  linarith

/-- The terms of DLMF 8.11.4: `x^n / ((a+1)(a+2)⋯(a+n))`. -/
noncomputable def igTerm (a x : ℝ) (n : ℕ) : ℝ := ∏ k ∈ Finset.range n, x / (a + (k + 1))

theorem igTerm_succ (a x : ℝ) (n : ℕ) : igTerm a x (n + 1) = igTerm a x n * (x / (a + (n + 1))) := by
  rw [igTerm, Finset.prod_range_succ, igTerm]

theorem igTerm_nonneg {a x : ℝ} (ha : 0 < a) (hx : 0 ≤ x) (n : ℕ) : 0 ≤ igTerm a x n :=
  Finset.prod_nonneg fun k _ => by positivity

theorem incP_le {a x : ℝ} (ha : 0 < a) (hx : 0 ≤ x) : incP a x ≤ x ^ a / Gamma (a + 1) := by
  have hG := Gamma_pos_of_pos ha
  rw [incP, Gamma_add_one ha.ne', ← div_div]
  refine div_le_div_of_nonneg_right ?_ hG.le
  have h1 : ∫ t in (0 : ℝ)..x, t ^ (a - 1) = x ^ a / a := by
    rw [integral_rpow (Or.inl (by linarith)), sub_add_cancel, zero_rpow ha.ne', sub_zero]
  rw [← h1]
  refine intervalIntegral.integral_mono_on hx (gammaKernel_intervalIntegrable ha hx)
    (intervalIntegral.intervalIntegrable_rpow' (by linarith)) fun t ht => ?_
  exact mul_le_of_le_one_right (rpow_nonneg ht.1 _) (exp_le_one_iff.2 (by linarith [ht.1]))

/-- `x^(a+n) / Γ(a+n+1)` in terms of the terms of the series. -/
theorem igTerm_shift {a x : ℝ} (ha : 0 < a) (hx : 0 < x) (n : ℕ) :
    x ^ (a + n) / Gamma (a + n + 1) = x ^ a / Gamma (a + 1) * igTerm a x n := by
  induction n with
  | zero => simp [igTerm]
  | succ n ih =>
    rw [igTerm_succ, ← mul_assoc, ← ih]
    push_cast
    rw [← add_assoc, Gamma_add_one (s := a + n + 1) (by positivity), rpow_add_one hx.ne']
    have hG : Gamma (a + n + 1) ≠ 0 := (Gamma_pos_of_pos (by positivity)).ne'
    field_simp

theorem incP_partial {a x : ℝ} (ha : 0 < a) (hx : 0 < x) (N : ℕ) :
    incP a x = x ^ a * exp (-x) / Gamma (a + 1) * (∑ n ∈ Finset.range N, igTerm a x n) +
      incP (a + N) x := by
  induction N with
  | zero => simp
  | succ N ih =>
    rw [ih, Finset.sum_range_succ, mul_add, incP_succ (a := a + N) (by positivity) hx.le]
    have e := igTerm_shift ha hx N
    have e2 : x ^ (a + N) * exp (-x) / Gamma (a + N + 1) =
        x ^ a * exp (-x) / Gamma (a + 1) * igTerm a x N := by
      linear_combination exp (-x) * e
    rw [e2]
    push_cast
    rw [add_assoc a (N : ℝ) 1]; ring

theorem summable_igTerm {a x : ℝ} (ha : 0 < a) (hx : 0 ≤ x) : Summable (igTerm a x) := by
  refine summable_of_ratio_norm_eventually_le (r := 1 / 2) (by norm_num) ?_
  obtain ⟨M, hM⟩ := exists_nat_ge (2 * x)
  filter_upwards [eventually_ge_atTop M] with n hn
  have h1 : (M : ℝ) ≤ n := by exact_mod_cast hn
  rw [igTerm_succ, norm_mul, mul_comm]
  refine mul_le_mul_of_nonneg_right ?_ (norm_nonneg _)
  rw [norm_of_nonneg (by positivity), div_le_div_iff₀ (by positivity) (by norm_num)]
  linarith

/-- DLMF 8.11.4. -/
theorem incP_series {a x : ℝ} (ha : 0 < a) (hx : 0 < x) :
    incP a x = x ^ a * exp (-x) / Gamma (a + 1) * ∑' n, igTerm a x n := by
  have hs := summable_igTerm ha hx.le
  have h1 := (hs.hasSum.tendsto_sum_nat.const_mul (x ^ a * exp (-x) / Gamma (a + 1)))
  have h2 : Tendsto (fun N : ℕ => incP (a + N) x) atTop (𝓝 0) := by
    have h3 : Tendsto (fun N : ℕ => x ^ a / Gamma (a + 1) * igTerm a x N) atTop (𝓝 0) := by
      simpa using hs.tendsto_atTop_zero.const_mul (x ^ a / Gamma (a + 1))
    refine squeeze_zero (fun N => incP_nonneg (by positivity) hx.le) (fun N => ?_) h3
    rw [← igTerm_shift ha hx]
    exact incP_le (by positivity) hx.le
  have h3 := h1.add h2
  rw [add_zero] at h3
  refine tendsto_nhds_unique (tendsto_const_nhds.congr fun N => ?_) h3
  exact incP_partial ha hx N

/-- The tail of the series after the term `N`. -/
theorem igTerm_tail {a x : ℝ} (ha : 0 < a) (hx : 0 ≤ x) (N : ℕ) (h : x < a + (N + 1)) :
    (∑' n, igTerm a x n) - ∑ n ∈ Finset.range (N + 1), igTerm a x n ≤
      igTerm a x N * (x / (a + (N + 1) - x)) := by
  have hs := summable_igTerm ha hx
  rw [← hs.sum_add_tsum_nat_add (N + 1), add_sub_cancel_left]
  set ρ := x / (a + (N + 1)) with hρ
  have hpos : 0 < a + ((N : ℝ) + 1) := by positivity
  have h0 : 0 ≤ ρ := by positivity
  have h1 : ρ < 1 := by rw [hρ, div_lt_one hpos]; exact h
  have hb : ∀ n, igTerm a x (N + n) ≤ igTerm a x N * ρ ^ n := by
    intro n
    induction n with
    | zero => simp
    | succ n ih =>
      rw [← add_assoc, igTerm_succ, pow_succ, ← mul_assoc]
      refine mul_le_mul ih ?_ (by positivity) (mul_nonneg (igTerm_nonneg ha hx _) (pow_nonneg h0 _))
      rw [hρ]
      push_cast
      exact div_le_div_of_nonneg_left hx hpos (by linarith [Nat.cast_nonneg (α := ℝ) n])
  have hg : HasSum (fun n : ℕ => igTerm a x N * ρ ^ (n + 1)) (igTerm a x N * (ρ * (1 - ρ)⁻¹)) := by
    have := (hasSum_geometric_of_lt_one h0 h1).mul_left (igTerm a x N * ρ)
    rw [mul_assoc] at this
    refine this.congr_fun ?_ |> fun h => h
    intro n; ring
  have e : ρ * (1 - ρ)⁻¹ = x / (a + (N + 1) - x) := by
    have : a + ((N : ℝ) + 1) - x ≠ 0 := by linarith
    have : (1 - ρ) ≠ 0 := by linarith
    rw [hρ] at this ⊢
    field_simp
  rw [← e, ← hg.tsum_eq]
  refine Summable.tsum_le_tsum (fun n => ?_) ((summable_nat_add_iff (N + 1)).2 hs) hg.summable
  rw [show n + (N + 1) = N + (n + 1) by omega]
  exact hb (n + 1)

end Verif.Special
