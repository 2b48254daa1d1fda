import Verif.Special.IncGammaInt
import Verif.Special.IncGammaComp

/-!
# The continued fraction of `gammaincc` (C102)
-/

open Real Finset

namespace Verif.Special

/-- `J n = ∫₀^∞ e^(-xs) s^n (1+s)^(a-n-2) ds`. -/
noncomputable def cfJ (a x : ℝ) (n : ℕ) : ℝ := cfK x n (a - n - 2)

/-- Numerators of the convergents. -/
noncomputable def cfA (a x : ℝ) : ℕ → ℝ
  | 0 => 1
  | 1 => x + 1
  | n + 2 => (x + 2 * (n + 2) - a) * cfA a x (n + 1) - (n + 1) * (n + 2 - a) * cfA a x n

/-- Denominators of the convergents. -/
noncomputable def cfB (a x : ℝ) : ℕ → ℝ
  | 0 => x
  | 1 => (x + 2 - a) * x
  | n + 2 => (x + 2 * (n + 2) - a) * cfB a x (n + 1) - (n + 1) * (n + 2 - a) * cfB a x n

/-- `(1-a)(2-a)⋯(n-a)`. -/
noncomputable def cfC (a : ℝ) (n : ℕ) : ℝ := ∏ k ∈ range n, ((k : ℝ) + 1 - a)

theorem cfC_succ (a : ℝ) (n : ℕ) : cfC a (n + 1) = cfC a n * (n + 1 - a) := prod_range_succ _ _

theorem cfJ_nonneg (a x : ℝ) (n : ℕ) : 0 ≤ cfJ a x n := cfK_nonneg _ _ _

theorem cfT_eq {x : ℝ} (a : ℝ) (hx : 0 < x) :
    x * cfK x 0 (a - 1) = 1 - (1 - a) * cfJ a x 0 := by
  have h := cfK_parts_zero hx (a - 1)
  rw [cfJ, Nat.cast_zero, sub_zero, show a - 2 = a - 1 - 1 by ring]
  linarith

theorem cfJ_rec_zero {x : ℝ} (a : ℝ) (hx : 0 < x) :
    1 = (x + 2 - a) * cfJ a x 0 - (2 - a) * cfJ a x 1 := by
  have h := cfK_parts_zero hx (a - 2)
  have h2 := cfK_add hx 0 (a - 2 - 1)
  rw [sub_add_cancel] at h2
  rw [cfJ, cfJ, Nat.cast_zero, sub_zero, Nat.cast_one, show a - 1 - 2 = a - 2 - 1 by ring]
  rw [zero_add] at h2
  have : cfK x 0 (a - 2 - 1) = cfK x 0 (a - 2) - cfK x 1 (a - 2 - 1) := by linarith
  rw [this] at h
  linarith

theorem cfJ_rec {x : ℝ} (a : ℝ) (hx : 0 < x) (m : ℕ) :
    (m + 1) * cfJ a x m = (x + 2 * (m + 2) - a) * cfJ a x (m + 1) -
      (m + 3 - a) * cfJ a x (m + 2) := by
  have h := cfK_parts hx m (a - m - 3)
  have h1 := cfK_add hx m (a - m - 3)
  have h2 := cfK_add hx (m + 1) (a - m - 3 - 1)
  rw [sub_add_cancel] at h2
  rw [show a - m - 3 + 1 = a - m - 2 by ring] at h1
  simp only [cfJ]
  push_cast
  rw [show a - ((m : ℝ) + 1) - 2 = a - m - 3 by ring,
    show a - ((m : ℝ) + 2) - 2 = a - m - 3 - 1 by ring]
  have e1 : cfK x m (a - m - 3) = cfK x m (a - m - 2) - cfK x (m + 1) (a - m - 3) := by linarith
  have e2 : cfK x (m + 1) (a - m - 3 - 1) =
      cfK x (m + 1) (a - m - 3) - cfK x (m + 1 + 1) (a - m - 3 - 1) := by linarith
  rw [e1, e2] at h
  linarith

/-- The remainder of the continued fraction. -/
theorem cf_remainder {x : ℝ} (a : ℝ) (hx : 0 < x) (n : ℕ) :
    cfK x 0 (a - 1) * cfB a x n - cfA a x n = -(cfC a (n + 1) * cfJ a x n) := by
  induction n using Nat.strong_induction_on with
  | _ n ih =>
    match n with
    | 0 =>
      have := cfT_eq a hx
      simp only [cfA, cfB, zero_add, cfC, range_one, prod_singleton, Nat.cast_zero]
      linarith
    | 1 =>
      have h1 := cfT_eq a hx
      have h2 := cfJ_rec_zero a hx
      simp only [cfA, cfB, zero_add, cfC, prod_range_succ, range_zero, prod_empty, Nat.cast_zero,
        Nat.cast_one, one_mul]
      linear_combination (x + 2 - a) * h1 + (1 - a) * h2
    | n + 2 =>
      have h0 := ih n (by omega)
      have h1 := ih (n + 1) (by omega)
      have h2 := cfJ_rec a hx n
      have e1 := cfC_succ a (n + 1)
      have e2 := cfC_succ a (n + 2)
      push_cast at e1 e2
      rw [cfA, cfB]
      linear_combination (x + 2 * (n + 2) - a) * h1 - (n + 1) * (n + 2 - a) * h0 +
        cfC a (n + 2) * h2 - (n + 1) * cfJ a x n * e1 + cfJ a x (n + 2) * e2

theorem cfB_growth {a x : ℝ} (ha : 0 < a) (hax : a ≤ x) (n : ℕ) :
    0 < cfB a x n ∧ (n + 2) * cfB a x n ≤ cfB a x (n + 1) := by
  induction n with
  | zero =>
    have hx : 0 < x := by linarith
    refine ⟨hx, ?_⟩
    simp only [cfB, Nat.cast_zero, zero_add]
    exact mul_le_mul_of_nonneg_right (by linarith) hx.le
  | succ n ih =>
    obtain ⟨h1, h2⟩ := ih
    have h3 : 0 < cfB a x (n + 1) := lt_of_lt_of_le (by positivity) h2
    refine ⟨h3, ?_⟩
    rw [cfB]
    push_cast
    rcases le_or_gt ((n : ℝ) + 2 - a) 0 with h | h
    · have h4 : (n + 1) * ((n : ℝ) + 2 - a) * cfB a x n ≤ 0 :=
        mul_nonpos_of_nonpos_of_nonneg (mul_nonpos_of_nonneg_of_nonpos (by positivity) h) h1.le
      have h5 : ((n : ℝ) + 1 + 2) * cfB a x (n + 1) ≤ (x + 2 * (n + 2) - a) * cfB a x (n + 1) :=
        mul_le_mul_of_nonneg_right (by have : (0 : ℝ) ≤ n := by positivity
                                       linarith) h3.le
      linarith
    · have h4 : (n + 1) * ((n : ℝ) + 2 - a) * cfB a x n ≤ (n + 1) * cfB a x (n + 1) := by
        rw [mul_assoc]
        refine mul_le_mul_of_nonneg_left ?_ (by positivity)
        refine le_trans ?_ h2
        exact mul_le_mul_of_nonneg_right (by linarith) h1.le
      have h5 : ((n : ℝ) + 1 + 2 + (n + 1)) * cfB a x (n + 1) ≤
          (x + 2 * (n + 2) - a) * cfB a x (n + 1) :=
        mul_le_mul_of_nonneg_right (by linarith) h3.le
      linarith

theorem cfB_pos {a x : ℝ} (ha : 0 < a) (hax : a ≤ x) (n : ℕ) : 0 < cfB a x n :=
  (cfB_growth ha hax n).1

theorem cfB_ge {a x : ℝ} (ha : 0 < a) (hax : a ≤ x) (n : ℕ) :
    x * (n + 1).factorial ≤ cfB a x n := by
  induction n with
  | zero => simp [cfB]
  | succ n ih =>
    refine le_trans ?_ (cfB_growth ha hax n).2
    rw [Nat.factorial_succ]
    push_cast
    have : (0 : ℝ) ≤ n + 2 := by positivity
    nlinarith

/-- `J (n+1)` against `J n`, by the second-moment identity. -/
theorem cfJ_ratio {a x : ℝ} (ha : 0 < a) (hax : a ≤ x) (n : ℕ) :
    (√(n + 1) + √x) * cfJ a x (n + 1) ≤ √(n + 1) * cfJ a x n := by
  have hx : 0 < x := by linarith
  obtain ⟨q, hq⟩ : ∃ q, q = a - n - 2 := ⟨_, rfl⟩
  -- moments of the density `s^n (1+s)^q`
  set M0 := cfK x n q with hM0
  set M1 := cfK x (n + 1) q with hM1
  set M2 := cfK x (n + 2) q with hM2
  have hM1n : 0 ≤ M1 := cfK_nonneg _ _ _
  have hM0n : 0 ≤ M0 := cfK_nonneg _ _ _
  have hmom : x * M2 + (x - a) * M1 = (n + 1) * M0 := by
    have h := cfK_parts hx n (q + 1)
    have e1 := cfK_add hx n q
    have e2 := cfK_add hx (n + 1) q
    rw [add_sub_cancel_right, ← e1, ← e2] at h
    have : q + 1 = a - n - 1 := by rw [hq]; ring
    rw [this] at h
    rw [hM0, hM1, hM2]
    linarith
  have eJ0 : cfJ a x n = M0 := by rw [cfJ, hM0, hq]
  have eJ1 : cfJ a x (n + 1) = cfK x (n + 1) (q - 1) := by
    rw [cfJ, hq]; push_cast; ring_nf
  obtain ⟨s0, hs0⟩ : ∃ s0, s0 = √(n + 1) / √x := ⟨_, rfl⟩
  have hsx : 0 < √x := sqrt_pos.2 hx
  have hsn : 0 < √((n : ℝ) + 1) := sqrt_pos.2 (by positivity)
  have hs0p : 0 < s0 := by rw [hs0]; positivity
  have hs02 : x * s0 ^ 2 = n + 1 := by
    rw [hs0, div_pow, sq_sqrt (by positivity), sq_sqrt hx.le]; field_simp
  -- `M1 ≤ s0 M0`
  have hint := cfKern_integrableOn hx
  have hq1 : 2 * s0 * M1 ≤ M2 + s0 ^ 2 * M0 := by
    rw [hM0, hM1, hM2, cfK, cfK, cfK, ← MeasureTheory.integral_const_mul,
      ← MeasureTheory.integral_const_mul,
      ← MeasureTheory.integral_add (hint _ _) ((hint _ _).const_mul _)]
    refine MeasureTheory.setIntegral_mono_on ((hint _ _).const_mul _)
      ((hint _ _).add ((hint _ _).const_mul _)) measurableSet_Ioi fun s hs => ?_
    have h0 := cfKern_nonneg x n q (le_of_lt hs)
    have e1 : cfKern x (n + 1) q s = s * cfKern x n q s := by simp only [cfKern]; ring
    have e2 : cfKern x (n + 2) q s = s ^ 2 * cfKern x n q s := by simp only [cfKern]; ring
    rw [e1, e2]
    nlinarith [mul_nonneg (sq_nonneg (s - s0)) h0]
  have hM2le : M2 ≤ s0 ^ 2 * M0 := by
    have h1 : x * M2 ≤ x * (s0 ^ 2 * M0) := by
      rw [← mul_assoc, hs02]
      nlinarith [mul_nonneg (sub_nonneg.2 hax) hM1n]
    exact le_of_mul_le_mul_left h1 hx
  have hM1le : M1 ≤ s0 * M0 := by
    have h1 : (2 * s0) * M1 ≤ (2 * s0) * (s0 * M0) := by nlinarith
    exact le_of_mul_le_mul_left h1 (by positivity)
  -- tangent line
  have htan : (1 + s0) ^ 2 * cfK x (n + 1) (q - 1) ≤ s0 ^ 2 * M0 + M1 := by
    rw [hM0, hM1, cfK, cfK, cfK, ← MeasureTheory.integral_const_mul,
      ← MeasureTheory.integral_const_mul,
      ← MeasureTheory.integral_add ((hint _ _).const_mul _) (hint _ _)]
    refine MeasureTheory.setIntegral_mono_on ((hint _ _).const_mul _)
      (((hint _ _).const_mul _).add (hint _ _)) measurableSet_Ioi fun s hs => ?_
    have hs1 : (0 : ℝ) < s := hs
    have h0 := cfKern_nonneg x n (q - 1) hs1.le
    have e1 : cfKern x (n + 1) (q - 1) s = s * cfKern x n (q - 1) s := by
      simp only [cfKern]; ring
    have e2 : cfKern x n q s = (1 + s) * cfKern x n (q - 1) s := by
      simp only [cfKern]
      rw [rpow_sub_one (by linarith : (1 : ℝ) + s ≠ 0)]
      field_simp
    have e3 : cfKern x (n + 1) q s = s * cfKern x n q s := by simp only [cfKern]; ring
    rw [e3, e1, e2]
    nlinarith [mul_nonneg (sq_nonneg (s - s0)) h0]
  have h3 : (1 + s0) * cfK x (n + 1) (q - 1) ≤ s0 * M0 := by
    have h4 : (1 + s0) * ((1 + s0) * cfK x (n + 1) (q - 1)) ≤ (1 + s0) * (s0 * M0) := by nlinarith
    exact le_of_mul_le_mul_left h4 (by positivity)
  rw [eJ0, eJ1]
  have e4 : √((n : ℝ) + 1) = s0 * √x := by rw [hs0]; field_simp
  rw [e4]
  nlinarith

/-- The convergents. -/
noncomputable def cfr (a x : ℝ) (n : ℕ) : ℝ := cfA a x n / cfB a x n

theorem cf_err {a x : ℝ} (ha : 0 < a) (hax : a ≤ x) (n : ℕ) :
    cfK x 0 (a - 1) - cfr a x n = -(cfC a (n + 1) * cfJ a x n) / cfB a x n := by
  have hB := cfB_pos ha hax n
  rw [← cf_remainder a (by linarith) n, cfr]
  field_simp

/-- The stopping rule of the continued fraction is sound: the error of a convergent is at most
`max 1 √((n+1)/x)` times the last change. -/
theorem cf_stop {a x : ℝ} (ha : 0 < a) (hax : a ≤ x) (n : ℕ) :
    |cfK x 0 (a - 1) - cfr a x (n + 1)| ≤
      max 1 (√(n + 1) / √x) * |cfr a x (n + 1) - cfr a x n| := by
  have hx : 0 < x := by linarith
  have hB0 := cfB_pos ha hax n
  have hB1 := cfB_pos ha hax (n + 1)
  have hg := (cfB_growth ha hax n).2
  have hr := cfJ_ratio ha hax n
  have hJ0 := cfJ_nonneg a x n
  have hJ1 := cfJ_nonneg a x (n + 1)
  set T := cfK x 0 (a - 1)
  obtain ⟨e0, he0⟩ : ∃ e, e = T - cfr a x n := ⟨_, rfl⟩
  obtain ⟨e1, he1⟩ : ∃ e, e = T - cfr a x (n + 1) := ⟨_, rfl⟩
  have hd : cfr a x (n + 1) - cfr a x n = e0 - e1 := by rw [he0, he1]; ring
  rw [hd, ← he1]
  have h0 : e0 * cfB a x n = -(cfC a (n + 1) * cfJ a x n) := by
    rw [he0, cf_err ha hax n]; field_simp
  have h1 : e1 * cfB a x (n + 1) = -(cfC a (n + 1) * (n + 2 - a) * cfJ a x (n + 1)) := by
    rw [he1, cf_err ha hax (n + 1), cfC_succ a (n + 1)]; push_cast; field_simp; ring
  rcases le_or_gt ((n : ℝ) + 2 - a) 0 with h | h
  · -- opposite signs
    have hs : e0 * e1 ≤ 0 := by
      have h2 : (e0 * e1) * (cfB a x n * cfB a x (n + 1)) =
          cfC a (n + 1) ^ 2 * (cfJ a x n * cfJ a x (n + 1)) * (n + 2 - a) := by
        linear_combination e1 * cfB a x (n + 1) * h0 - (cfC a (n + 1) * cfJ a x n) * h1
      have h3 : (e0 * e1) * (cfB a x n * cfB a x (n + 1)) ≤ 0 := by
        rw [h2]
        exact mul_nonpos_of_nonneg_of_nonpos (by positivity) h
      by_contra hc
      push Not at hc
      have := mul_pos hc (mul_pos hB0 hB1)
      linarith
    have h4 : |e1| ≤ |e0 - e1| := by
      refine abs_le_of_sq_le_sq' ?_ (abs_nonneg _) |> fun h => abs_le.2 h
      rw [sq_abs]; nlinarith [sq_nonneg e0]
    exact h4.trans (le_mul_of_one_le_left (abs_nonneg _) (le_max_left _ _))
  · -- `e1 = ρ e0` with `0 ≤ ρ ≤ √(n+1)/(√(n+1)+√x)`
    have hsx : 0 < √x := sqrt_pos.2 hx
    have hsn : 0 < √((n : ℝ) + 1) := sqrt_pos.2 (by positivity)
    have hb : |e1| * (√(n + 1) + √x) ≤ √(n + 1) * |e0| := by
      have a0 : |e0| * cfB a x n = |cfC a (n + 1)| * cfJ a x n := by
        have := congrArg abs h0
        rwa [abs_mul, abs_of_pos hB0, abs_neg, abs_mul, abs_of_nonneg hJ0] at this
      have a1 : |e1| * cfB a x (n + 1) = |cfC a (n + 1)| * (n + 2 - a) * cfJ a x (n + 1) := by
        have := congrArg abs h1
        rwa [abs_mul, abs_of_pos hB1, abs_neg, abs_mul, abs_mul, abs_of_pos h,
          abs_of_nonneg hJ1] at this
      have c0 := abs_nonneg (cfC a (n + 1))
      have h5 : (|e1| * (√(n + 1) + √x)) * cfB a x (n + 1) ≤ (√(n + 1) * |e0|) * cfB a x (n + 1) := by
        calc (|e1| * (√(n + 1) + √x)) * cfB a x (n + 1)
            = |cfC a (n + 1)| * (n + 2 - a) * ((√(n + 1) + √x) * cfJ a x (n + 1)) := by
              linear_combination (√(n + 1) + √x) * a1
          _ ≤ |cfC a (n + 1)| * (n + 2 - a) * (√(n + 1) * cfJ a x n) :=
              mul_le_mul_of_nonneg_left hr (mul_nonneg c0 h.le)
          _ = √(n + 1) * |e0| * ((n + 2 - a) * cfB a x n) := by
              linear_combination -(√(n + 1) * (n + 2 - a)) * a0
          _ ≤ √(n + 1) * |e0| * cfB a x (n + 1) := by
              refine mul_le_mul_of_nonneg_left (le_trans ?_ hg) (by positivity)
              exact mul_le_mul_of_nonneg_right (by linarith) hB0.le
      exact le_of_mul_le_mul_right h5 hB1
    have h6 : |e0| - |e1| ≤ |e0 - e1| := abs_sub_abs_le_abs_sub _ _
    have h7 : |e1| ≤ √(n + 1) / √x * |e0 - e1| := by
      rw [div_mul_eq_mul_div, le_div_iff₀ hsx]
      nlinarith
    exact h7.trans (mul_le_mul_of_nonneg_right (le_max_right _ _) (abs_nonneg _))

theorem cfC_le {a : ℝ} (ha : 0 ≤ a) (n : ℕ) (h : a ≤ n + 1) : |cfC a n| ≤ n.factorial := by
  induction n with
  | zero => simp [cfC]
  | succ n ih =>
    rcases le_or_gt a (n + 1) with h1 | h1
    · rw [cfC_succ, abs_mul, Nat.factorial_succ, mul_comm]
      push_cast
      refine mul_le_mul ?_ (ih h1) (abs_nonneg _) (by positivity)
      rw [abs_of_nonneg (by linarith)]; linarith
    · push_cast at h
      rw [cfC, ← prod_range_reflect, abs_prod, ← prod_range_add_one_eq_factorial]
      push_cast
      refine prod_le_prod (fun _ _ => abs_nonneg _) fun k hk => ?_
      have hk1 : k ≤ n := by have := mem_range.1 hk; omega
      have e : ((n - k : ℕ) : ℝ) = n - k := Nat.cast_sub hk1
      rw [e, abs_le]
      constructor <;> linarith [Nat.cast_nonneg (α := ℝ) k]

theorem cfT_pos {a x : ℝ} (ha : 0 < a) (hax : a ≤ x) : 0 < cfK x 0 (a - 1) := by
  have hx : 0 < x := by linarith
  have h1 := cfT_eq a hx
  have h2 : cfJ a x 0 ≤ cfK x 0 (a - 1) := by
    have := cfK_add hx 0 (a - 2)
    rw [show a - 2 + 1 = a - 1 by ring] at this
    rw [cfJ, Nat.cast_zero, sub_zero]
    linarith [cfK_nonneg x (0 + 1) (a - 2)]
  have h3 := cfJ_nonneg a x 0
  rcases le_or_gt 1 a with h | h
  · have : 1 ≤ x * cfK x 0 (a - 1) := by nlinarith
    by_contra hc; push Not at hc; nlinarith
  · by_contra hc; push Not at hc
    nlinarith

theorem cfT_le_one {a x : ℝ} (hx1 : 1 ≤ x) (hax : a ≤ x) : cfK x 0 (a - 1) ≤ 1 := by
  have hx : 0 < x := by linarith
  have h1 : cfK x 0 (a - 1) ≤ ∫ s in Set.Ioi (0 : ℝ), exp (-s) := by
    refine MeasureTheory.setIntegral_mono_on (cfKern_integrableOn hx _ _) ?_ measurableSet_Ioi
      fun s hs => ?_
    · simpa using integrableOn_exp_neg_Ioi 0
    · have hs0 : (0 : ℝ) < s := hs
      have h2 : (1 + s) ^ (a - 1) ≤ exp ((x - 1) * s) := by
        calc (1 + s) ^ (a - 1) ≤ (1 + s) ^ (x - 1) :=
              rpow_le_rpow_of_exponent_le (by linarith) (by linarith)
          _ ≤ (exp s) ^ (x - 1) :=
              rpow_le_rpow (by linarith) (by linarith [add_one_le_exp s]) (by linarith)
          _ = _ := by rw [← exp_mul, mul_comm]
      simp only [cfKern, pow_zero, mul_one]
      refine (mul_le_mul_of_nonneg_left h2 (exp_pos _).le).trans ?_
      rw [← exp_add]
      exact exp_le_exp.2 (by ring_nf; exact le_rfl)
  refine h1.trans ?_
  rw [integral_exp_neg_Ioi_zero]

/-- Once `n + 1 ≥ a` the error of the convergents is small. -/
theorem cf_small {a x : ℝ} (ha : 0 < a) (hax : a ≤ x) (hx1 : 1 ≤ x) (n : ℕ) (hn : a ≤ n + 2)
    (hn2 : n ≤ 2001) :
    |cfK x 0 (a - 1) - cfr a x n| ≤ 0.9785 ^ n * cfK x 0 (a - 1) := by
  have hx : 0 < x := by linarith
  have hT := cfT_pos ha hax
  have hJ : ∀ m ≤ n, cfJ a x m ≤ 0.9785 ^ m * cfK x 0 (a - 1) := by
    intro m
    induction m with
    | zero =>
      intro _
      have := cfK_add hx 0 (a - 2)
      rw [show a - 2 + 1 = a - 1 by ring] at this
      rw [cfJ, Nat.cast_zero, sub_zero, pow_zero, one_mul]
      linarith [cfK_nonneg x (0 + 1) (a - 2)]
    | succ m ih =>
      intro hm
      have h1 := ih (by omega)
      have h2 := cfJ_ratio ha hax m
      have hsx : 1 ≤ √x := one_le_sqrt.2 hx1
      have hsn : √((m : ℝ) + 1) ≤ 44.74 := by
        refine sqrt_le_iff.2 ⟨by norm_num, ?_⟩
        have : (m : ℝ) + 1 ≤ 2001 := by exact_mod_cast hm.trans hn2
        norm_num; linarith
      have hsn0 : 0 < √((m : ℝ) + 1) := sqrt_pos.2 (by positivity)
      have hJ1 := cfJ_nonneg a x (m + 1)
      have hJ0 := cfJ_nonneg a x m
      have h3 : cfJ a x (m + 1) ≤ 0.9785 * cfJ a x m := by
        have h4 : (√((m : ℝ) + 1) + 1) * cfJ a x (m + 1) ≤ √(m + 1) * cfJ a x m :=
          le_trans (mul_le_mul_of_nonneg_right (by linarith) hJ1) h2
        have h5 : √((m : ℝ) + 1) ≤ 0.9785 * (√((m : ℝ) + 1) + 1) := by
          norm_num at hsn ⊢; linarith
        have h6 : (√((m : ℝ) + 1) + 1) * cfJ a x (m + 1) ≤
            (√((m : ℝ) + 1) + 1) * (0.9785 * cfJ a x m) := by
          refine h4.trans ((mul_le_mul_of_nonneg_right h5 hJ0).trans ?_)
          apply le_of_eq; ring
        exact le_of_mul_le_mul_left h6 (by linarith)
      refine h3.trans ?_
      rw [pow_succ]
      nlinarith
  rw [cf_err ha hax, abs_div, abs_neg, abs_mul, abs_of_nonneg (cfJ_nonneg a x n),
    abs_of_pos (cfB_pos ha hax n), div_le_iff₀ (cfB_pos ha hax n)]
  have h1 := cfC_le ha.le (n + 1) (by push_cast; linarith)
  have h2 := cfB_ge ha hax n
  have h3 : ((n + 1).factorial : ℝ) ≤ cfB a x n := by
    refine le_trans ?_ h2
    exact le_mul_of_one_le_left (by positivity) hx1
  have h4 := hJ n le_rfl
  have h5 := cfJ_nonneg a x n
  calc |cfC a (n + 1)| * cfJ a x n ≤ cfB a x n * (0.9785 ^ n * cfK x 0 (a - 1)) :=
        mul_le_mul (h1.trans h3) h4 h5 (cfB_pos ha hax n).le
    _ = _ := mul_comm _ _

end Verif.Special
