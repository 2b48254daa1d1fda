import Mathlib.NumberTheory.Harmonic.EulerMascheroni
import Mathlib.Analysis.SpecialFunctions.Log.Deriv
import Mathlib.Analysis.Complex.ExponentialBounds
import Verif.Special.LogGammaSpec

/-!
# Euler's constant and `log Γ` near its pole at zero

`γ` to six digits (from the trapezoidal correction of `H_n − log n`), and the expansion
`log Γ(1+z) = −γ z + O(z²)` with an explicit constant.  Mathematics used in the accuracy proof of
`gamma.h`; nothing here models the code.
-/

open Filter Topology Finset

namespace Verif.Special

theorem log_step_lower {x : ℝ} (hx : 0 < x) :
    2 * (1 / (2 * x + 1)) + 2 / 3 * (1 / (2 * x + 1)) ^ 3 ≤ Real.log (1 + x⁻¹) := by
  have h := Real.hasSum_log_one_add_inv hx
  have := sum_le_hasSum (range 2) (fun k _ => by positivity) h
  simp only [sum_range_succ, sum_range_zero] at this
  norm_num at this ⊢
  linarith

theorem log_step_upper {x : ℝ} (hx : 0 < x) :
    Real.log (1 + x⁻¹) ≤ (1 / x + 1 / (x + 1)) / 2 := by
  have h := Real.hasSum_log_one_add_inv hx
  set u := 1 / (2 * x + 1) with hu
  have hu0 : 0 < u := by positivity
  have hu1 : u < 1 := by rw [hu, div_lt_one (by positivity)]; linarith
  have hg : HasSum (fun k : ℕ => 2 * u * (u ^ 2) ^ k) (2 * u * (1 - u ^ 2)⁻¹) :=
    (hasSum_geometric_of_lt_one (by positivity) (by nlinarith)).mul_left _
  have hle := hasSum_le (fun k => ?_) h hg
  · refine hle.trans (le_of_eq ?_)
    have e : 1 - u ^ 2 = 4 * x * (x + 1) / (2 * x + 1) ^ 2 := by rw [hu]; field_simp; ring
    rw [e, hu]; field_simp; ring
  · have : (1 : ℝ) / (2 * k + 1) ≤ 1 := by
      rw [div_le_one (by positivity)]; linarith [(by positivity : (0 : ℝ) ≤ k)]
    calc 2 * (1 / (2 * (k : ℝ) + 1)) * u ^ (2 * k + 1) ≤ 2 * 1 * u ^ (2 * k + 1) := by gcongr
      _ = 2 * u * (u ^ 2) ^ k := by rw [pow_succ, pow_mul]; ring

theorem log_step_lower' {x : ℝ} (hx : 0 < x) :
    (1 / x + 1 / (x + 1)) / 2 - (1 / x ^ 2 - 1 / (x + 1) ^ 2) / 12 ≤ Real.log (1 + x⁻¹) := by
  refine le_trans ?_ (log_step_lower hx)
  rw [← sub_nonneg]
  have : 2 * (1 / (2 * x + 1)) + 2 / 3 * (1 / (2 * x + 1)) ^ 3 -
      ((1 / x + 1 / (x + 1)) / 2 - (1 / x ^ 2 - 1 / (x + 1) ^ 2) / 12) =
      ((2 * x + 1) ^ 2 + 1) / (24 * x ^ 2 * (x + 1) ^ 2 * (2 * x + 1) ^ 3) := by
    field_simp; ring
  rw [this]; positivity

/-- Lower sequence. -/
noncomputable def eulerLo (n : ℕ) : ℝ := harmonic n - Real.log n - 1 / (2 * n)
/-- Upper sequence. -/
noncomputable def eulerHi (n : ℕ) : ℝ := eulerLo n + 1 / (12 * n ^ 2)

theorem log_succ {n : ℕ} (hn : 0 < n) :
    Real.log ((n + 1 : ℕ) : ℝ) = Real.log n + Real.log (1 + (n : ℝ)⁻¹) := by
  have : (0 : ℝ) < n := by positivity
  rw [← Real.log_mul (by positivity) (by positivity)]
  congr 1; push_cast; field_simp

theorem eulerLo_step {n : ℕ} (hn : 0 < n) : eulerLo n ≤ eulerLo (n + 1) := by
  have h0 : (0 : ℝ) < n := by positivity
  have h := log_step_upper h0
  rw [eulerLo, eulerLo, harmonic_succ, log_succ hn]
  push_cast
  have e : (1 / (n : ℝ) + 1 / (n + 1)) / 2 = 1 / (2 * n) + ((n : ℝ) + 1)⁻¹ - 1 / (2 * (n + 1)) := by
    field_simp; ring
  linarith

theorem eulerHi_step {n : ℕ} (hn : 0 < n) : eulerHi (n + 1) ≤ eulerHi n := by
  have h0 : (0 : ℝ) < n := by positivity
  have h := log_step_lower' h0
  rw [eulerHi, eulerHi, eulerLo, eulerLo, harmonic_succ, log_succ hn]
  push_cast
  have e : (1 / (n : ℝ) + 1 / (n + 1)) / 2 = 1 / (2 * n) + ((n : ℝ) + 1)⁻¹ - 1 / (2 * (n + 1)) := by
    field_simp; ring
  have e2 : (1 / (n : ℝ) ^ 2 - 1 / (n + 1) ^ 2) / 12 =
      1 / (12 * (n : ℝ) ^ 2) - 1 / (12 * ((n : ℝ) + 1) ^ 2) := by field_simp
  linarith

theorem eulerLo_tendsto : Tendsto eulerLo atTop (𝓝 Real.eulerMascheroniConstant) := by
  have h : Tendsto (fun n : ℕ => 1 / (2 * (n : ℝ))) atTop (𝓝 0) := by
    simp only [one_div]
    exact tendsto_inv_atTop_zero.comp (tendsto_natCast_atTop_atTop.const_mul_atTop (by norm_num))
  have h2 := Real.tendsto_harmonic_sub_log.sub h
  rw [sub_zero] at h2
  exact h2

theorem eulerHi_tendsto : Tendsto eulerHi atTop (𝓝 Real.eulerMascheroniConstant) := by
  have h : Tendsto (fun n : ℕ => 1 / (12 * (n : ℝ) ^ 2)) atTop (𝓝 0) := by
    simp only [one_div]
    refine tendsto_inv_atTop_zero.comp (Tendsto.const_mul_atTop (by norm_num) ?_)
    exact (tendsto_pow_atTop (by norm_num)).comp tendsto_natCast_atTop_atTop
  have h2 := eulerLo_tendsto.add h
  rw [add_zero] at h2
  exact h2

theorem eulerLo_le {n : ℕ} (hn : 0 < n) : eulerLo n ≤ Real.eulerMascheroniConstant := by
  have hm : Monotone fun k => eulerLo (n + k) :=
    monotone_nat_of_le_succ fun k => eulerLo_step (by omega)
  exact hm.ge_of_tendsto ((tendsto_add_atTop_iff_nat (f := eulerLo) n).2 eulerLo_tendsto |>.congr
    fun k => by rw [add_comm]) 0

theorem le_eulerHi {n : ℕ} (hn : 0 < n) : Real.eulerMascheroniConstant ≤ eulerHi n := by
  have hm : Antitone fun k => eulerHi (n + k) :=
    antitone_nat_of_succ_le fun k => eulerHi_step (n := n + k) (by omega)
  exact hm.le_of_tendsto ((tendsto_add_atTop_iff_nat (f := eulerHi) n).2 eulerHi_tendsto |>.congr
    fun k => by rw [add_comm]) 0

/-- The harmonic numbers by recursion, for evaluation. -/
def hsum : ℕ → ℚ
  | 0 => 0
  | n + 1 => hsum n + 1 / (n + 1)

theorem hsum_eq (n : ℕ) : hsum n = harmonic n := by
  induction n with
  | zero => rfl
  | succ n ih => rw [hsum, harmonic_succ, ih]; push_cast; rw [one_div]

theorem hsum_512 : 6.8165165 < hsum 512 ∧ hsum 512 < 6.8165166 := by decide +kernel

/-- Euler's constant to six digits. -/
theorem euler_approx : |Real.eulerMascheroniConstant - 0.5772156649015329| ≤ 1 / 10 ^ 6 := by
  have h1 := eulerLo_le (n := 512) (by norm_num)
  have h2 := le_eulerHi (n := 512) (by norm_num)
  have hl : Real.log ((512 : ℕ) : ℝ) = 9 * Real.log 2 := by
    have : ((512 : ℕ) : ℝ) = 2 ^ 9 := by norm_num
    rw [this, Real.log_pow]; norm_num
  have hh := hsum_512
  rw [hsum_eq] at hh
  rw [eulerHi] at h2
  rw [eulerLo, hl] at h1 h2
  generalize harmonic 512 = H at *
  have a1 : ((6.8165165 : ℚ) : ℝ) < (H : ℝ) := Rat.cast_lt.2 hh.1
  have a2 : (H : ℝ) < ((6.8165166 : ℚ) : ℝ) := Rat.cast_lt.2 hh.2
  have := Real.log_two_gt_d9
  have := Real.log_two_lt_d9
  rw [abs_le]
  constructor <;> norm_num at * <;> linarith

open Complex in
theorem logGamma_near_one {z L : ℂ} (hz : ‖z‖ ≤ 1 / 2) (h : IsLogGamma (z + 1) L) :
    ‖L + Real.eulerMascheroniConstant * z‖ ≤ 2 * ‖z‖ ^ 2 := by
  have hE : Tendsto (fun n : ℕ => ((harmonic (n + 1) - Real.log n : ℝ) : ℂ)) atTop
      (𝓝 (Real.eulerMascheroniConstant : ℂ)) := by
    refine (continuous_ofReal.tendsto _).comp ?_
    have h1 := Real.tendsto_harmonic_sub_log
    have h2 : Tendsto (fun n : ℕ => 1 / ((n : ℝ) + 1)) atTop (𝓝 0) :=
      tendsto_one_div_add_atTop_nhds_zero_nat
    have h3 := h1.add h2
    rw [add_zero] at h3
    refine h3.congr fun n => ?_
    rw [harmonic_succ]; push_cast; rw [one_div]; ring
  have hD : Tendsto (fun n : ℕ => log ((1 : ℂ) + 1 / n)) atTop (𝓝 0) := log_add_nat 1
  have hT : Tendsto (fun n : ℕ => logGammaSeq (z + 1) n +
      ((harmonic (n + 1) - Real.log n : ℝ) : ℂ) * z + log ((1 : ℂ) + 1 / n)) atTop
      (𝓝 (L + Real.eulerMascheroniConstant * z + 0)) :=
    (Tendsto.add h (hE.mul_const z)).add hD
  rw [add_zero] at hT
  refine le_of_tendsto hT.norm ?_
  filter_upwards [eventually_ne_atTop 0] with n hn
  have hk : ∀ k : ℕ, ‖z / (k + 1 : ℕ)‖ ≤ 1 / 2 := by
    intro k
    rw [norm_div, Complex.norm_natCast, div_le_iff₀ (by positivity)]
    have : (1 : ℝ) ≤ ((k + 1 : ℕ) : ℝ) := by exact_mod_cast Nat.le_add_left 1 k
    linarith
  have hlog : ∀ k : ℕ, log (z + 1 + k) = log ((k + 1 : ℕ) : ℂ) + log (1 + z / (k + 1 : ℕ)) := by
    intro k
    have e : z + 1 + k = z + (k + 1 : ℕ) := by push_cast; ring
    rw [e]
    refine log_nat_mul (by omega) fun e0 => ?_
    have := hk k
    rw [eq_neg_of_add_eq_zero_right e0] at this
    norm_num at this
  have hfac : ∀ m : ℕ, ∑ k ∈ range m, log ((k + 1 : ℕ) : ℂ) = log (m.factorial : ℂ) := by
    intro m
    induction m with
    | zero => simp
    | succ m ih =>
      rw [sum_range_succ, ih, Nat.factorial_succ]
      rw [← natCast_log, ← natCast_log, ← natCast_log, Nat.cast_mul,
        Real.log_mul (by positivity) (by positivity)]
      push_cast; ring
  have hsucc : log ((n + 1 : ℕ) : ℂ) = log n + log ((1 : ℂ) + 1 / n) := by
    have := log_nat_mul (n := n) hn (w := 1) (by
      intro e
      have : (n : ℂ) + 1 = 0 := by
        have hn' : (n : ℂ) ≠ 0 := Nat.cast_ne_zero.2 hn
        field_simp at e; linear_combination e
      exact Nat.cast_add_one_ne_zero n this)
    rw [← this]; push_cast; rw [add_comm]
  have hharm : ((harmonic (n + 1) : ℚ) : ℂ) * z = ∑ k ∈ range (n + 1), z / (k + 1 : ℕ) := by
    rw [harmonic, Rat.cast_sum, sum_mul]
    refine sum_congr rfl fun k _ => ?_
    push_cast; ring
  have e : logGammaSeq (z + 1) n + ((harmonic (n + 1) - Real.log n : ℝ) : ℂ) * z +
      log ((1 : ℂ) + 1 / n) =
      -∑ k ∈ range (n + 1), (log (1 + z / (k + 1 : ℕ)) - z / (k + 1 : ℕ)) := by
    rw [logGammaSeq, sum_sub_distrib, ← hharm]
    simp only [hlog]
    rw [sum_add_distrib, sum_range_succ (fun k : ℕ => log ((k + 1 : ℕ) : ℂ)), hfac, hsucc]
    push_cast
    ring
  rw [e, norm_neg]
  have hterm : ∀ k ∈ range (n + 1), ‖log (1 + z / (k + 1 : ℕ)) - z / (k + 1 : ℕ)‖ ≤
      ‖z‖ ^ 2 * (1 / ((k : ℝ) + 1) ^ 2) := by
    intro k _
    have h1 := hk k
    refine (norm_log_one_add_sub_self_le (by linarith)).trans ?_
    have h2 : (1 - ‖z / (k + 1 : ℕ)‖)⁻¹ ≤ 2 := by
      rw [inv_le_comm₀ (by linarith) (by norm_num)]; linarith
    have h3 : ‖z / (k + 1 : ℕ)‖ ^ 2 = ‖z‖ ^ 2 * (1 / ((k : ℝ) + 1) ^ 2) := by
      rw [norm_div, Complex.norm_natCast, div_pow]; push_cast; ring
    rw [h3]
    have h4 : 0 ≤ ‖z‖ ^ 2 * (1 / ((k : ℝ) + 1) ^ 2) := by positivity
    nlinarith
  have hsq : ∀ m : ℕ, ∑ k ∈ range (m + 1), 1 / ((k : ℝ) + 1) ^ 2 ≤ 2 - 1 / ((m : ℝ) + 1) := by
    intro m
    induction m with
    | zero => norm_num
    | succ m ih =>
      rw [sum_range_succ]
      have hm : (0 : ℝ) ≤ m := by positivity
      have : 1 / (((m + 1 : ℕ) : ℝ) + 1) ^ 2 ≤ 1 / ((m : ℝ) + 1) - 1 / (((m + 1 : ℕ) : ℝ) + 1) := by
        push_cast
        rw [div_sub_div _ _ (by positivity) (by positivity), div_le_div_iff₀ (by positivity)
          (by positivity)]
        nlinarith
      linarith
  calc _ ≤ ∑ k ∈ range (n + 1), ‖z‖ ^ 2 * (1 / ((k : ℝ) + 1) ^ 2) := norm_sum_le_of_le _ hterm
    _ = ‖z‖ ^ 2 * ∑ k ∈ range (n + 1), 1 / ((k : ℝ) + 1) ^ 2 := by rw [mul_sum]
    _ ≤ ‖z‖ ^ 2 * 2 := by
      refine mul_le_mul_of_nonneg_left ((hsq n).trans ?_) (by positivity)
      have : (0 : ℝ) ≤ 1 / ((n : ℝ) + 1) := by positivity
      linarith
    _ = _ := by ring

end Verif.Special
