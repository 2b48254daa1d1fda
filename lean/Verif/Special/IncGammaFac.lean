import Verif.Special.LanczosLim
import Verif.Special.IncGammaAlt

/-!
# `igam_fac` (C99) and the power series of `gammainc` (C100)
-/

open Real Filter Topology Finset

namespace Verif.Special

theorem exp_near {t : ℝ} (h : |t| ≤ 6 / 10 ^ 15) : |exp t - 1| ≤ 1 / 10 ^ 14 := by
  have h1 := Real.abs_exp_sub_one_sub_id_le (x := t) (by norm_num at h ⊢; linarith)
  have e : exp t - 1 = (exp t - 1 - t) + t := by ring
  have h2 : t ^ 2 ≤ (6 / 10 ^ 15) ^ 2 := by rw [← sq_abs]; gcongr
  rw [e]
  refine (abs_add_le _ _).trans ?_
  norm_num at h h1 h2 ⊢; linarith

/-- Both forms of the Lanczos branch of `igam_fac` are `x^a e^(-x)/Γ(a)`, up to the factor
`exp (-lanF a)`. -/
theorem igamFac_lanczos {a x : ℝ} (ha : 0 < a) (hx : 0 < x) :
    √(lFac a / exp 1) / lanczosSum a * (exp (a - x) * (x / lFac a) ^ a) =
      x ^ a * exp (-x) / Gamma a * exp (-lanF a) := by
  have hF := lFac_ge ha.le
  have hF0 : 0 < lFac a := by norm_num at hF; linarith
  have hN := rev_lanN_pos ha.le
  have hD := rev_lanD_pos ha
  have hG := Gamma_pos_of_pos ha
  have hL : 0 < lanczosSum a := by rw [lanczosSum_eq]; positivity
  apply log_injOn_pos
  · exact Set.mem_Ioi.2 (by positivity)
  · exact Set.mem_Ioi.2 (by positivity)
  rw [log_mul (by positivity) (by positivity), log_div (by positivity) hL.ne', log_sqrt (by positivity),
    log_div hF0.ne' (exp_pos _).ne', log_exp, log_mul (exp_pos _).ne' (by positivity), log_exp,
    log_rpow (by positivity), log_div hx.ne' hF0.ne', log_mul (by positivity) (exp_pos _).ne', log_exp,
    log_div (by positivity) hG.ne', log_mul (by positivity) (exp_pos _).ne', log_exp, log_rpow hx,
    lanczosSum_eq, log_div hN.ne' hD.ne', lanF]
  ring

theorem igamFac_log1pmx {a x : ℝ} (ha : 0 < a) (hx : 0 < x) :
    exp (a * log1pmx ((x - a - lanczosG + 0.5) / lFac a) + x * (0.5 - lanczosG) / lFac a) =
      exp (a - x) * (x / lFac a) ^ a := by
  have hF := lFac_ge ha.le
  have hF0 : 0 < lFac a := by norm_num at hF; linarith
  rw [rpow_def_of_pos (by positivity), ← exp_add]
  congr 1
  have e1 : (x - a - lanczosG + 0.5) / lFac a = x / lFac a - 1 := by
    have : x - a - lanczosG + 0.5 = x - lFac a := by unfold lFac; norm_num; ring
    rw [this, sub_div, div_self hF0.ne']
  have e2 : (0.5 - lanczosG) = a - lFac a := by unfold lFac; norm_num; ring
  rw [e1, e2, log1pmx, show 1 + (x / lFac a - 1) = x / lFac a by ring]
  field_simp
  ring

/-- **C99.** For `a, x > 0`, `igam_fac` returns `x^a e^(-x)/Γ(a)` to a relative `10⁻¹⁴`, on both
sides of the threshold `|a - x| > 0.4 a` and in both forms of the Lanczos branch — or 0, and then
the exact value is below `e^(-709.78)`. -/
theorem C99_igam_fac {a x : ℝ} (ha : 0 < a) (hx : 0 < x) :
    ∃ v, igamFac a x = some v ∧
      (|v - x ^ a * exp (-x) / Gamma a| ≤ 1 / 10 ^ 14 * (x ^ a * exp (-x) / Gamma a) ∨
        v = 0 ∧ x ^ a * exp (-x) / Gamma a < exp (-709.78)) := by
  have hG := Gamma_pos_of_pos ha
  have hT : 0 < x ^ a * exp (-x) / Gamma a := by positivity
  unfold igamFac
  by_cases h : 0.4 * |a| < |a - x|
  · rw [if_pos h, if_neg (not_lt.2 hx.le), if_neg hx.ne']
    have e : exp (a * log x - x - lgamma a) = x ^ a * exp (-x) / Gamma a := by
      rw [lgamma, abs_of_pos hG, exp_sub, exp_log hG, sub_eq_add_neg, exp_add,
        rpow_def_of_pos hx, mul_comm a]
    refine ⟨_, rfl, ?_⟩
    by_cases h2 : a * log x - x - lgamma a < -CEPHES_MAXLOG
    · right
      simp only [if_pos h2]
      refine ⟨trivial, ?_⟩
      rw [← e, exp_lt_exp]
      refine h2.trans_le ?_
      unfold CEPHES_MAXLOG; norm_num
    · left
      simp only [if_neg h2]
      rw [e, sub_self, abs_zero]; positivity
  · rw [if_neg h]
    refine ⟨_, rfl, Or.inl ?_⟩
    have hf : a + lanczosG - 0.5 = lFac a := by unfold lFac; norm_num
    simp only [hf]
    have e : (if a < 200 ∧ x < 200 then exp (a - x) * (x / lFac a) ^ a
       else exp (a * log1pmx ((x - a - lanczosG + 0.5) / lFac a) +
        x * (0.5 - lanczosG) / lFac a)) = exp (a - x) * (x / lFac a) ^ a := by
      split
      · rfl
      · exact igamFac_log1pmx ha hx
    rw [e, igamFac_lanczos ha hx]
    have h1 := exp_near (t := -lanF a) (by rw [abs_neg]; exact lanF_bound ha)
    have e2 : x ^ a * exp (-x) / Gamma a * exp (-lanF a) - x ^ a * exp (-x) / Gamma a =
        (exp (-lanF a) - 1) * (x ^ a * exp (-x) / Gamma a) := by ring
    rw [e2, abs_mul, abs_of_pos hT]
    exact mul_le_mul_of_nonneg_right h1 hT.le

/-- All three branches are taken. -/
example : 0.4 * |(1 : ℝ)| < |1 - 2| ∧ ¬ 0.4 * |(10 : ℝ)| < |10 - 11| ∧
    ¬ 0.4 * |(300 : ℝ)| < |300 - 310| := by norm_num

/-- `igam_fac` at `x = 0` and for negative `x`. -/
theorem C99_igam_fac_edge {a : ℝ} (ha : 0 < a) : igamFac a 0 = some 0 ∧
    ∀ x < 0, igamFac a x = none := by
  constructor
  · unfold igamFac
    rw [if_pos (by rw [sub_zero, abs_of_pos ha]; norm_num; linarith), if_neg (lt_irrefl _), if_pos rfl]
  · intro x hx
    unfold igamFac
    rw [if_pos (by rw [abs_of_pos ha, abs_of_pos (by linarith)]; norm_num; linarith), if_pos hx]

/-- What the loop of `igam_series` returns. -/
theorem igamSeriesLoop_spec (eps a x : ℝ) (fuel n : ℕ) :
    ∃ N, n ≤ N ∧ N ≤ n + fuel ∧
      igamSeriesLoop eps x fuel (a + n) (igTerm a x n) (∑ k ∈ range (n + 1), igTerm a x k) =
        ∑ k ∈ range (N + 1), igTerm a x k ∧
      (∀ m, n < m → m < N → eps * ∑ k ∈ range (m + 1), igTerm a x k < igTerm a x m) ∧
      (N = n + fuel ∧ (n < N → eps * ∑ k ∈ range (N + 1), igTerm a x k < igTerm a x N) ∨
        n < N ∧ igTerm a x N ≤ eps * ∑ k ∈ range (N + 1), igTerm a x k) := by
  induction fuel generalizing n with
  | zero =>
    exact ⟨n, le_rfl, le_rfl, by rw [igamSeriesLoop], fun m h1 h2 => by omega,
      Or.inl ⟨rfl, fun h => by omega⟩⟩
  | succ fuel ih =>
    have e1 : a + (n : ℝ) + 1 = a + ((n + 1 : ℕ) : ℝ) := by push_cast; ring
    have e2 : igTerm a x n * (x / (a + ((n + 1 : ℕ) : ℝ))) = igTerm a x (n + 1) := by
      rw [igTerm_succ]; push_cast; rfl
    have e3 : (∑ k ∈ range (n + 1), igTerm a x k) + igTerm a x (n + 1) =
      ∑ k ∈ range (n + 1 + 1), igTerm a x k := (sum_range_succ _ _).symm
    rw [igamSeriesLoop]
    simp only [e1, e2, e3]
    by_cases h : igTerm a x (n + 1) ≤ eps * ∑ k ∈ range (n + 1 + 1), igTerm a x k
    · rw [if_pos h]
      exact ⟨n + 1, by omega, by omega, rfl, fun m h1 h2 => by omega, Or.inr ⟨by omega, h⟩⟩
    · rw [if_neg h]
      obtain ⟨N, h1, h2, h3, h4, h5⟩ := ih (n + 1)
      push Not at h
      refine ⟨N, by omega, by omega, h3, ?_, ?_⟩
      · intro m hm1 hm2
        rcases eq_or_ne m (n + 1) with rfl | hne
        · exact h
        · exact h4 m (by omega) hm2
      · rcases h5 with ⟨h5, h6⟩ | ⟨h5, h6⟩
        · left
          refine ⟨by omega, fun _ => ?_⟩
          rcases eq_or_ne N (n + 1) with rfl | hne
          · exact h
          · exact h6 (by omega)
        · exact Or.inr ⟨by omega, h6⟩

/-- The value of the series part of `igam_series`. -/
theorem igamSeriesLoop_start (eps a x : ℝ) :
    ∃ N ≤ 2000, igamSeriesLoop eps x MAXITER a 1 1 = ∑ k ∈ range (N + 1), igTerm a x k ∧
      (∀ m, 0 < m → m < N → eps * ∑ k ∈ range (m + 1), igTerm a x k < igTerm a x m) ∧
      (N = 2000 ∧ eps * ∑ k ∈ range (N + 1), igTerm a x k < igTerm a x N ∨
        0 < N ∧ igTerm a x N ≤ eps * ∑ k ∈ range (N + 1), igTerm a x k) := by
  obtain ⟨N, -, h2, h3, h4, h5⟩ := igamSeriesLoop_spec eps a x MAXITER 0
  have e0 : igTerm a x 0 = 1 := by simp [igTerm]
  simp only [Nat.cast_zero, add_zero, zero_add, range_one, sum_singleton, e0] at h3
  refine ⟨N, by simpa [MAXITER] using h2, h3, h4, ?_⟩
  rcases h5 with ⟨h5, h6⟩ | h5
  · left
    have : N = 2000 := by simpa [MAXITER] using h5
    exact ⟨this, h6 (by omega)⟩
  · exact Or.inr h5

end Verif.Special
