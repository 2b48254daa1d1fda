import Verif.Special.IncGammaSpec
import Mathlib.Analysis.SpecialFunctions.Exponential

/-!
# The alternating series of `P(a,x)` (DLMF 8.7.3)
-/

open Real MeasureTheory Set Filter Topology

namespace Verif.Special

/-- The terms `(-x)^n / (n! (a+n))`. -/
noncomputable def altTerm (a x : ℝ) (n : ℕ) : ℝ := (-x) ^ n / n.factorial / (a + n)

theorem hasSum_altTerm {a x : ℝ} (ha : 0 < a) (hx : 0 < x) :
    HasSum (altTerm a x) (Gamma a * incP a x / x ^ a) := by
  have hG := Gamma_pos_of_pos ha
  have hxa := rpow_pos_of_pos hx a
  have h := intervalIntegral.hasSum_integral_of_dominated_convergence (μ := volume) (a := 0) (b := x)
    (F := fun (n : ℕ) t => t ^ (a - 1) * ((-t) ^ n / n.factorial))
    (f := fun t => t ^ (a - 1) * exp (-t))
    (fun n t => t ^ (a - 1) * (x ^ n / n.factorial)) ?_ ?_ ?_ ?_ ?_
  · have e : ∀ n : ℕ, ∫ t in (0 : ℝ)..x, t ^ (a - 1) * ((-t) ^ n / n.factorial) =
        x ^ a * altTerm a x n := by
      intro n
      have e1 : ∫ t in (0 : ℝ)..x, t ^ (a - 1) * ((-t) ^ n / n.factorial) =
          ∫ t in (0 : ℝ)..x, ((-1) ^ n / n.factorial) * t ^ (a - 1 + n) := by
        refine intervalIntegral.integral_congr_ae (ae_of_all _ fun t ht => ?_)
        rw [uIoc_of_le hx.le] at ht
        rw [rpow_add_natCast ht.1.ne', neg_pow]; ring
      rw [e1, intervalIntegral.integral_const_mul, integral_rpow (Or.inl (by
        have := Nat.cast_nonneg (α := ℝ) n; linarith))]
      rw [show a - 1 + n + 1 = a + n by ring, zero_rpow (by positivity), sub_zero,
        rpow_add_natCast hx.ne', altTerm, neg_pow x]
      ring
    simp only [e] at h
    have h2 := h.mul_left (x ^ a)⁻¹
    have e2 : (x ^ a)⁻¹ * ∫ t in (0 : ℝ)..x, t ^ (a - 1) * exp (-t) =
        Gamma a * incP a x / x ^ a := by
      rw [incP]; field_simp
    rw [e2] at h2
    refine h2.congr_fun ?_ |> fun h => h
    intro n
    rw [← mul_assoc, inv_mul_cancel₀ hxa.ne', one_mul]
  · intro n
    rw [uIoc_of_le hx.le]
    have hc : ContinuousOn (fun t : ℝ => t ^ (a - 1) * ((-t) ^ n / n.factorial)) (Ioc 0 x) := by
      refine ContinuousOn.mul (fun t ht => ?_) (by fun_prop)
      exact (continuousAt_rpow_const _ _ (Or.inl ht.1.ne')).continuousWithinAt
    exact hc.aestronglyMeasurable measurableSet_Ioc
  · intro n
    refine ae_of_all _ fun t ht => ?_
    rw [uIoc_of_le hx.le] at ht
    rw [norm_mul, norm_of_nonneg (rpow_nonneg ht.1.le _), norm_div, norm_pow, norm_neg,
      norm_of_nonneg ht.1.le, norm_of_nonneg (by positivity)]
    exact mul_le_mul_of_nonneg_left (div_le_div_of_nonneg_right
      (pow_le_pow_left₀ ht.1.le ht.2 n) (by positivity)) (rpow_nonneg ht.1.le _)
  · refine ae_of_all _ fun t _ => ?_
    exact (Real.summable_pow_div_factorial x).mul_left _
  · simp only [tsum_mul_left]
    exact (intervalIntegral.intervalIntegrable_rpow' (by linarith)).mul_const _
  · refine ae_of_all _ fun t _ => ?_
    refine HasSum.mul_left _ ?_
    rw [Real.exp_eq_exp_ℝ]
    exact NormedSpace.expSeries_div_hasSum_exp (-t)

/-- DLMF 8.7.3: `Q = 1 - x^a/Γ(a+1) - (x^a/Γ(a)) ∑_{n≥1} (-x)^n/(n!(a+n))`. -/
theorem incQ_series {a x : ℝ} (ha : 0 < a) (hx : 0 < x) :
    incQ a x = 1 - x ^ a / Gamma (a + 1) - x ^ a / Gamma a * ∑' n : ℕ, altTerm a x (n + 1) := by
  have hG := Gamma_pos_of_pos ha
  have hxa := rpow_pos_of_pos hx a
  have hs := hasSum_altTerm ha hx
  have h1 := hs.summable.sum_add_tsum_nat_add 1
  rw [hs.tsum_eq, Finset.sum_range_one] at h1
  have h2 : ∑' n : ℕ, altTerm a x (n + 1) = Gamma a * incP a x / x ^ a - 1 / a := by
    rw [← h1]; simp [altTerm]
  have h3 := incP_add_incQ ha hx.le
  rw [h2, Gamma_add_one ha.ne']
  field_simp
  linear_combination a * Gamma a * h3

theorem abs_altTerm_succ {a x : ℝ} (ha : 0 < a) (hx : 0 ≤ x) (n : ℕ) :
    |altTerm a x (n + 1)| ≤ |altTerm a x n| * (x / (n + 1)) := by
  rw [altTerm, altTerm, abs_div, abs_div, abs_div, abs_div, abs_pow, abs_pow, abs_neg,
    abs_of_nonneg hx, abs_of_nonneg (a := ((n + 1).factorial : ℝ)) (by positivity),
    abs_of_nonneg (a := (n.factorial : ℝ)) (by positivity),
    abs_of_pos (a := a + ((n + 1 : ℕ) : ℝ)) (by positivity),
    abs_of_pos (a := a + (n : ℝ)) (by positivity), Nat.factorial_succ]
  push_cast
  have e : x ^ n / n.factorial / (a + n) * (x / (n + 1)) =
      x ^ (n + 1) / ((n + 1) * n.factorial) / (a + n) := by
    rw [pow_succ]; field_simp
  rw [e]
  exact div_le_div_of_nonneg_left (by positivity) (by positivity) (by linarith)

/-- The tail of the alternating series after the term `N`. -/
theorem altTerm_tail {a x : ℝ} (ha : 0 < a) (hx : 0 < x) (N : ℕ) (h : x < N + 1) :
    |(∑' n, altTerm a x n) - ∑ n ∈ Finset.range (N + 1), altTerm a x n| ≤
      |altTerm a x N| * (x / (N + 1 - x)) := by
  have hs := (hasSum_altTerm ha hx).summable
  rw [← hs.sum_add_tsum_nat_add (N + 1), add_sub_cancel_left]
  set ρ := x / ((N : ℝ) + 1) with hρ
  have hpos : 0 < (N : ℝ) + 1 := by positivity
  have h0 : 0 ≤ ρ := by positivity
  have h1 : ρ < 1 := by rw [hρ, div_lt_one hpos]; exact h
  have hb : ∀ n, |altTerm a x (N + n)| ≤ |altTerm a x N| * ρ ^ n := by
    intro n
    induction n with
    | zero => simp
    | succ n ih =>
      rw [← add_assoc, pow_succ, ← mul_assoc]
      refine (abs_altTerm_succ ha hx.le _).trans (mul_le_mul ih ?_ (by positivity) (by positivity))
      rw [hρ]
      push_cast
      exact div_le_div_of_nonneg_left hx.le hpos (by linarith [Nat.cast_nonneg (α := ℝ) n])
  have hg : HasSum (fun n : ℕ => |altTerm a x N| * ρ ^ (n + 1)) (|altTerm a x N| * (ρ * (1 - ρ)⁻¹)) := by
    have := (hasSum_geometric_of_lt_one h0 h1).mul_left (|altTerm a x N| * ρ)
    rw [mul_assoc] at this
    refine this.congr_fun ?_ |> fun h => h
    intro n; ring
  have e : ρ * (1 - ρ)⁻¹ = x / (N + 1 - x) := by
    have : (N : ℝ) + 1 - x ≠ 0 := by linarith
    have : (1 - ρ) ≠ 0 := by linarith
    rw [hρ] at this ⊢
    field_simp
  rw [← e]
  have := tsum_of_norm_bounded hg (f := fun n => altTerm a x (n + (N + 1))) fun n => ?_
  · exact this
  · rw [show n + (N + 1) = N + (n + 1) by omega]
    exact hb (n + 1)

end Verif.Special
