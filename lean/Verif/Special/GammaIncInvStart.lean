import Verif.Special.GammaIncInvModel
import Mathlib.Analysis.Complex.ExponentialBounds
import Mathlib.Tactic.NormNum
import Mathlib.Tactic.Linarith
import Mathlib.Tactic.Positivity

/-! # C61: the normal quantile used as a starting value -/

namespace Verif.Special

open Real

theorem horner_pos_aux {t : ℝ} (ht : 1.25 ≤ t) :
    0 < t - horner t [0.213623493715853, 4.28342155967104, 11.6616720288968, 3.31125922108741] /
      horner t [0.3611708101884203e-1, 1.27364489782223, 6.40691597760039, 6.61053765625462, 1] := by
  simp only [horner, List.foldl_cons, List.foldl_nil, mul_zero, add_zero]
  obtain ⟨u, rfl⟩ : ∃ u, t = 1.25 + u := ⟨t - 1.25, by ring⟩
  have hu : 0 ≤ u := by linarith
  rw [sub_pos, div_lt_iff₀ (by positivity)]
  have h2 : 0 ≤ u ^ 2 := by positivity
  have h3 : 0 ≤ u ^ 3 := by positivity
  have h4 : 0 ≤ u ^ 4 := by positivity
  have h5 : 0 ≤ u ^ 5 := by positivity
  norm_num
  ring_nf
  nlinarith

theorem quantile_arg {x : ℝ} (h0 : 0 < x) (h : x ≤ 0.45) : 1.25 ≤ √(-2 * log x) := by
  apply Real.le_sqrt_of_sq_le
  have h1 : log x ≤ log 0.45 := Real.log_le_log h0 h
  have h2 : log (0.45 : ℝ) < -0.785 := by
    rw [Real.log_lt_iff_lt_exp (by norm_num)]
    have h3 := Real.exp_one_lt_d9
    have e : Real.exp (-0.785) = (Real.exp 0.785)⁻¹ := Real.exp_neg _
    rw [e, lt_inv_comm₀ (by norm_num) (Real.exp_pos _)]
    have h6 := Real.exp_bound' (x := 0.785) (by norm_num) (by norm_num) (n := 6) (by norm_num)
    refine lt_of_le_of_lt h6 ?_
    simp only [Finset.sum_range_succ, Finset.sum_range_zero, Nat.factorial]
    norm_num
  norm_num at *
  linarith

/-- **C61** the starting value for `a > 1` is on the right side: `find_inverse_s`, the approximate normal quantile, is negative for `p ≤ 0.45`, positive for
`p ≥ 0.55`, and odd about 1/2. -/
theorem C61_start_side (p q : ℝ) : (0 < p → p ≤ 0.45 → findInverseS p q < 0) ∧ (0 < q → q ≤ 0.45 → 0.5 ≤ p → 0 < findInverseS p q) ∧
    (p < 0.5 → 0.5 ≤ q → findInverseS q p = -findInverseS p q) := by
  refine ⟨fun h0 h => ?_, fun h0 h hp => ?_, fun hp hq => ?_⟩
  · have h5 : p < 0.5 := by norm_num at *; linarith
    simp only [findInverseS, if_pos h5]
    have := horner_pos_aux (quantile_arg h0 h)
    linarith
  · simp only [findInverseS, if_neg (not_lt.mpr hp)]
    exact horner_pos_aux (quantile_arg h0 h)
  · simp only [findInverseS, if_pos hp, if_neg (not_lt.mpr hq), neg_neg]

/-- The quartiles. -/
example : findInverseS 0.25 0.75 < 0 ∧ 0 < findInverseS 0.75 0.25 :=
  ⟨(C61_start_side _ _).1 (by norm_num) (by norm_num), (C61_start_side _ _).2.1 (by norm_num) (by norm_num) (by norm_num)⟩

end Verif.Special
