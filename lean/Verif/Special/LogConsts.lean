import Verif.Special.GammaModel
import Mathlib.Analysis.Real.Pi.Bounds
import Mathlib.Analysis.SpecialFunctions.Log.Deriv

/-!
# The logarithmic constants of `common/moremath.h`

`LOGPI`, `LOGSQRT2PI` (and the literal for `log 2` in `loggamma.h:14`) agree with the numbers they
stand for to `10⁻¹⁶`.
-/

open Finset

namespace Verif.Special

/-- The Taylor polynomial of `exp`. -/
def expTerm (x : ℚ) : ℕ → ℚ
  | 0 => 1
  | n + 1 => expTerm x n * x / (n + 1)

/-- Its partial sums. -/
def expSum (x : ℚ) : ℕ → ℚ
  | 0 => 0
  | n + 1 => expSum x n + expTerm x n

theorem expTerm_eq (x : ℚ) (n : ℕ) : (expTerm x n : ℝ) = (x : ℝ) ^ n / n.factorial := by
  induction n with
  | zero => simp [expTerm]
  | succ n ih =>
    rw [expTerm, Nat.factorial_succ]
    push_cast
    rw [ih, pow_succ]
    field_simp

theorem expSum_eq (x : ℚ) (n : ℕ) :
    (expSum x n : ℝ) = ∑ m ∈ range n, (x : ℝ) ^ m / m.factorial := by
  induction n with
  | zero => simp [expSum]
  | succ n ih => rw [expSum, sum_range_succ]; push_cast; rw [ih, expTerm_eq]

theorem expSum_logpi :
    3.14159265358979323846 - 1 / 10 ^ 18 ≤ (expSum (1.14472988584940017414 / 2) 18) ^ 2 ∧
    (expSum (1.14472988584940017414 / 2) 18) ^ 2 ≤ 3.14159265358979323846 + 1 / 10 ^ 18 ∧
    0 < expSum (1.14472988584940017414 / 2) 18 ∧
    expSum (1.14472988584940017414 / 2) 18 ≤ 2 := by
  decide +kernel

theorem exp_logpi : |Real.exp LOGPI - Real.pi| ≤ 1 / 10 ^ 17 := by
  have hq : (((1.14472988584940017414 / 2 : ℚ) : ℚ) : ℝ) = LOGPI / 2 := by
    unfold LOGPI; norm_num
  have hb := Real.exp_bound (x := LOGPI / 2) (by unfold LOGPI; rw [abs_of_pos] <;> norm_num)
    (n := 18) (by norm_num)
  obtain ⟨h1, h2, h3, h4⟩ := expSum_logpi
  have hs := expSum_eq (1.14472988584940017414 / 2) 18
  rw [hq] at hs
  rw [← hs] at hb
  generalize expSum (1.14472988584940017414 / 2) 18 = S at *
  have h1' : ((3.14159265358979323846 - 1 / 10 ^ 18 : ℚ) : ℝ) ≤ (S : ℝ) ^ 2 := by
    exact_mod_cast h1
  have h2' : (S : ℝ) ^ 2 ≤ ((3.14159265358979323846 + 1 / 10 ^ 18 : ℚ) : ℝ) := by
    exact_mod_cast h2
  have h3' : (0 : ℝ) < S := by exact_mod_cast h3
  have h4' : (S : ℝ) ≤ 2 := by exact_mod_cast h4
  have hr : |LOGPI / 2| ^ 18 * ((Nat.succ 18 : ℝ) / ((Nat.factorial 18 : ℝ) * (18 : ℕ))) ≤
      1 / 10 ^ 19 := by
    have : |LOGPI / 2| ^ 18 ≤ (6/10) ^ 18 := by
      gcongr; unfold LOGPI; rw [abs_of_pos] <;> norm_num
    norm_num [Nat.factorial] at this ⊢; linarith
  have hb' := hb.trans hr
  have he : Real.exp LOGPI = Real.exp (LOGPI / 2) ^ 2 := by
    rw [← Real.exp_nat_mul]; congr 1; push_cast; ring
  have hp1 := Real.pi_gt_d20
  have hp2 := Real.pi_lt_d20
  have hE := Real.exp_pos (LOGPI / 2)
  rw [he]
  generalize Real.exp (LOGPI / 2) = E at *
  rw [abs_le] at hb' ⊢
  norm_num at h1' h2' hp1 hp2 hb' ⊢
  constructor <;> nlinarith

theorem logpi_approx : |LOGPI - Real.log Real.pi| ≤ 1 / 10 ^ 16 := by
  have h := abs_le.1 exp_logpi
  have hp := Real.pi_gt_three
  have hp4 := Real.pi_le_four
  have hE : 0 < Real.exp LOGPI := Real.exp_pos _
  rw [abs_le]
  have hδ : 1 + 1 / 10 ^ 16 ≤ Real.exp (1 / 10 ^ 16) := by
    have := Real.add_one_le_exp (1 / 10 ^ 16 : ℝ); linarith
  constructor
  · have : Real.log Real.pi ≤ LOGPI + 1 / 10 ^ 16 := by
      rw [Real.log_le_iff_le_exp Real.pi_pos, Real.exp_add]
      calc Real.pi ≤ Real.exp LOGPI * (1 + 1 / 10 ^ 16) := by nlinarith [h.1]
        _ ≤ _ := by gcongr
    linarith
  · have : LOGPI - 1 / 10 ^ 16 ≤ Real.log Real.pi := by
      rw [Real.le_log_iff_exp_le Real.pi_pos, Real.exp_sub, div_le_iff₀ (Real.exp_pos _)]
      calc Real.exp LOGPI ≤ Real.pi * (1 + 1 / 10 ^ 16) := by nlinarith [h.2]
        _ ≤ _ := by gcongr
    linarith

/-- Partial sums of `Σ 2^{-i-1}/(i+1)`. -/
def log2Sum : ℕ → ℚ
  | 0 => 0
  | n + 1 => log2Sum n + (1/2) ^ (n + 1) / (n + 1)

theorem log2Sum_60 : |log2Sum 60 - 0.6931471805599453094| ≤ 1 / 10 ^ 18 := by decide +kernel

theorem log2_approx : |0.6931471805599453094 - Real.log 2| ≤ 1 / 10 ^ 16 := by
  have h := Real.abs_log_sub_add_sum_range_le (x := 1/2) (by norm_num [abs_of_pos]) 60
  have hs : ∀ n, (log2Sum n : ℝ) = ∑ i ∈ range n, (1/2 : ℝ) ^ (i + 1) / ((i : ℝ) + 1) := by
    intro n
    induction n with
    | zero => simp [log2Sum]
    | succ n ih => rw [log2Sum, sum_range_succ]; push_cast; rw [ih]
  rw [← hs] at h
  have hl : Real.log (1 - 1/2) = -Real.log 2 := by
    rw [← Real.log_inv]; norm_num
  rw [hl] at h
  have hq := abs_le.1 log2Sum_60
  generalize log2Sum 60 = S at *
  have q1 : ((-(1 / 10 ^ 18) : ℚ) : ℝ) ≤ ((S - 0.6931471805599453094 : ℚ) : ℝ) := Rat.cast_le.2 hq.1
  have q2 : ((S - 0.6931471805599453094 : ℚ) : ℝ) ≤ ((1 / 10 ^ 18 : ℚ) : ℝ) := Rat.cast_le.2 hq.2
  have hh := abs_le.1 h
  have hr : |(1/2 : ℝ)| ^ (60 + 1) / (1 - |1/2|) ≤ 1 / 10 ^ 17 := by
    rw [abs_of_pos (by norm_num : (0:ℝ) < 1/2)]; norm_num
  push_cast at q1 q2
  rw [abs_le]
  constructor <;> linarith [hh.1, hh.2]

theorem logsqrt2pi_approx : |LOGSQRT2PI - Real.log (2 * Real.pi) / 2| ≤ 2 / 10 ^ 16 := by
  rw [Real.log_mul (by norm_num) Real.pi_ne_zero]
  have h1 := abs_le.1 logpi_approx
  have h2 := abs_le.1 log2_approx
  unfold LOGPI at h1
  unfold LOGSQRT2PI
  rw [abs_le]
  norm_num at h1 h2 ⊢
  constructor <;> linarith [h1.1, h1.2, h2.1, h2.2]

end Verif.Special
