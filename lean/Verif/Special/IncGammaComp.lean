import Verif.Special.IncGammaSeries

/-!
# The power series regimes of `gammaincc` (C101)
-/

open Real Filter Topology Finset MeasureTheory

namespace Verif.Special

/-- What the loop of `igamc_series` returns. -/
theorem igamcSeriesLoop_spec (eps a x : ℝ) (fuel m : ℕ) :
    ∃ N, m ≤ N ∧ N ≤ m + fuel ∧
      igamcSeriesLoop eps a x fuel (m + 1) ((-x) ^ m / m.factorial)
        (∑ k ∈ range m, altTerm a x (k + 1)) = ∑ k ∈ range N, altTerm a x (k + 1) ∧
      (N = m + fuel ∨
        m < N ∧ |altTerm a x N| ≤ eps * |∑ k ∈ range N, altTerm a x (k + 1)|) := by
  induction fuel generalizing m with
  | zero => exact ⟨m, le_rfl, le_rfl, by rw [igamcSeriesLoop], Or.inl rfl⟩
  | succ fuel ih =>
    have e1 : (-x) ^ m / (m.factorial : ℝ) * (-x / ((m + 1 : ℕ) : ℝ)) =
        (-x) ^ (m + 1) / ((m + 1).factorial : ℝ) := by
      rw [Nat.factorial_succ]; push_cast; field_simp; ring
    have e2 : (-x) ^ (m + 1) / ((m + 1).factorial : ℝ) / (a + ((m + 1 : ℕ) : ℝ)) =
        altTerm a x (m + 1) := rfl
    rw [igamcSeriesLoop]
    simp only [e1, e2, ← sum_range_succ]
    split_ifs with h
    · exact ⟨m + 1, by omega, by omega, rfl, Or.inr ⟨by omega, h⟩⟩
    · obtain ⟨N, h1, h2, h3, h4⟩ := ih (m + 1)
      refine ⟨N, by omega, by omega, h3, ?_⟩
      rcases h4 with h4 | h4
      · left; omega
      · exact Or.inr ⟨by omega, h4.2⟩

theorem exp_1_1 : exp (1.1 : ℝ) ≤ 3.01 := by
  refine le_of_pow_le_pow_left₀ (n := 10) (by norm_num) (by norm_num) ?_
  rw [← exp_nat_mul, show ((10 : ℕ) : ℝ) * 1.1 = ((11 : ℕ) : ℝ) * 1 by norm_num, exp_nat_mul]
  have h := pow_le_pow_left₀ (exp_pos 1).le exp_one_lt_d9.le 11
  refine h.trans ?_
  norm_num

theorem exp_2_1 : exp (2.1 : ℝ) ≤ 8.2 := by
  refine le_of_pow_le_pow_left₀ (n := 10) (by norm_num) (by norm_num) ?_
  rw [← exp_nat_mul, show ((10 : ℕ) : ℝ) * 2.1 = ((21 : ℕ) : ℝ) * 1 by norm_num, exp_nat_mul]
  have h := pow_le_pow_left₀ (exp_pos 1).le exp_one_lt_d9.le 21
  refine h.trans ?_
  norm_num

theorem abs_altTerm_le {a x : ℝ} (ha : 0 < a) (hx : 0 ≤ x) (k : ℕ) :
    |altTerm a x (k + 1)| ≤ x ^ (k + 1) / (k + 1).factorial := by
  rw [altTerm, abs_div, abs_div, abs_pow, abs_neg, abs_of_nonneg hx,
    abs_of_nonneg (a := ((k + 1).factorial : ℝ)) (by positivity),
    abs_of_pos (a := a + ((k + 1 : ℕ) : ℝ)) (by positivity)]
  refine div_le_self (by positivity) ?_
  push_cast
  have : (0 : ℝ) ≤ k := by positivity
  linarith

/-- The truncated sum of `igamc_series`. -/
theorem igamcSeries_sum {eps a x : ℝ} (ha : 0 < a) (hx : 0 < x) (hx1 : x ≤ 1.1)
    (he : 1 / 2 ^ 52 ≤ eps) :
    |(∑' n, altTerm a x (n + 1)) - igamcSeriesLoop eps a x (MAXITER - 1) 1 1 0| ≤ 2.5 * eps := by
  obtain ⟨N, -, hN2, e, hstop⟩ := igamcSeriesLoop_spec eps a x (MAXITER - 1) 0
  simp only [pow_zero, Nat.factorial_zero, Nat.cast_one, div_one, range_zero, sum_empty,
    zero_add] at e
  have heps : 0 < eps := lt_of_lt_of_le (by positivity) he
  have hs := (hasSum_altTerm ha hx).summable
  have hN1 : 1 ≤ N := by
    rcases hstop with h | h
    · rw [h]; unfold MAXITER; norm_num
    · exact h.1
  have hN1' : (1 : ℝ) ≤ N := by exact_mod_cast hN1
  rw [e]
  have e1 : (∑' n, altTerm a x (n + 1)) - ∑ k ∈ range N, altTerm a x (k + 1) =
      (∑' n, altTerm a x n) - ∑ n ∈ range (N + 1), altTerm a x n := by
    have h1 := hs.sum_add_tsum_nat_add 1
    rw [sum_range_one] at h1
    rw [← h1, sum_range_succ']; ring
  rw [e1]
  have ht := altTerm_tail ha hx N (by norm_num at hx1; linarith)
  refine ht.trans ?_
  have hr : x / (N + 1 - x) ≤ 1.2223 := by
    have : 0 < (N : ℝ) + 1 - x := by norm_num at hx1; linarith
    rw [div_le_iff₀ this]
    norm_num at hx1 ⊢; linarith
  have hl : |altTerm a x N| ≤ 2.01 * eps := by
    rcases hstop with h | ⟨-, h⟩
    · have hb : ∀ n : ℕ, |altTerm a x (n + 1)| ≤ 1.1 * 0.55 ^ n := by
        intro n
        induction n with
        | zero =>
          refine (abs_altTerm_le ha hx.le 0).trans ?_
          norm_num at hx1 ⊢; exact hx1
        | succ n ih =>
          refine (abs_altTerm_succ ha hx.le (n + 1)).trans ?_
          rw [pow_succ, ← mul_assoc]
          refine mul_le_mul ih ?_ (by positivity) (by positivity)
          rw [div_le_iff₀ (by positivity)]
          push_cast
          have : (0 : ℝ) ≤ n := by positivity
          norm_num at hx1 ⊢; linarith
      have h2 := hb 1998
      have h3 : N = 1998 + 1 := by rw [h]; unfold MAXITER; norm_num
      rw [h3]
      refine h2.trans ?_
      have h4 : (0.55 : ℝ) ^ 1998 ≤ 0.55 ^ 100 :=
        pow_le_pow_of_le_one (by norm_num) (by norm_num) (by norm_num)
      have h5 : 1.1 * (0.55 : ℝ) ^ 100 ≤ 2.01 * (1 / 2 ^ 52) := by norm_num
      calc 1.1 * (0.55 : ℝ) ^ 1998 ≤ 1.1 * 0.55 ^ 100 := mul_le_mul_of_nonneg_left h4 (by norm_num)
        _ ≤ 2.01 * (1 / 2 ^ 52) := h5
        _ ≤ 2.01 * eps := mul_le_mul_of_nonneg_left he (by norm_num)
    · refine h.trans ?_
      rw [mul_comm]
      refine mul_le_mul_of_nonneg_right ?_ heps.le
      have h2 : ∑ k ∈ range (N + 1), x ^ k / (k.factorial : ℝ) ≤ exp x :=
        Real.sum_le_exp_of_nonneg hx.le _
      rw [sum_range_succ'] at h2
      simp only [pow_zero, Nat.factorial_zero, Nat.cast_one, div_one] at h2
      have h3 : exp x ≤ 3.01 := (exp_le_exp.2 hx1).trans exp_1_1
      have h4 : |∑ k ∈ range N, altTerm a x (k + 1)| ≤
          ∑ k ∈ range N, x ^ (k + 1) / ((k + 1).factorial : ℝ) :=
        (abs_sum_le_sum_abs _ _).trans (sum_le_sum fun k _ => abs_altTerm_le ha hx.le k)
      norm_num at h3 ⊢
      linarith
  calc |altTerm a x N| * (x / (N + 1 - x)) ≤ 2.01 * eps * 1.2223 :=
        mul_le_mul hl hr (div_nonneg hx.le (by norm_num at hx1; linarith)) (by positivity)
    _ ≤ 2.5 * eps := by nlinarith

theorem igamcSeries_eq {eps a x : ℝ} (ha : 0 < a) (hx : 0 < x) :
    igamcSeries eps a x = 1 - x ^ a / Gamma (a + 1) -
      x ^ a / Gamma a * igamcSeriesLoop eps a x (MAXITER - 1) 1 1 0 := by
  have hG := Gamma_pos_of_pos ha
  have hG1 : 0 < Gamma (a + 1) := Gamma_pos_of_pos (by linarith)
  have e1 : exp (a * log x - lgam1p a) = x ^ a / Gamma (a + 1) := by
    rw [lgam1p, lgamma, add_comm 1 a, abs_of_pos hG1, exp_sub, exp_log hG1, rpow_def_of_pos hx,
      mul_comm]
  have e2 : exp (a * log x - lgamma a) = x ^ a / Gamma a := by
    rw [lgamma, abs_of_pos hG, exp_sub, exp_log hG, rpow_def_of_pos hx, mul_comm]
  unfold igamcSeries
  simp only [e1, e2]
  ring

theorem incQ_lower {a x : ℝ} (ha : 0 < a) (hx : 0 < x) (hx1 : x ≤ 1.1) :
    1 / 17.22 / Gamma a ≤ incQ a x := by
  have hG := Gamma_pos_of_pos ha
  unfold incQ
  refine div_le_div_of_nonneg_right ?_ hG.le
  have hint : IntegrableOn (fun t : ℝ => t ^ (a - 1) * exp (-t)) (Set.Ioi x) :=
    (gammaKernel_integrableOn ha).mono_set (Set.Ioi_subset_Ioi hx.le)
  have hsub : Set.Ioc (1.1 : ℝ) 2.1 ⊆ Set.Ioi x := fun t ht => lt_of_le_of_lt hx1 ht.1
  have h1 : ∫ t in Set.Ioc (1.1 : ℝ) 2.1, t ^ (a - 1) * exp (-t) ≤
      ∫ t in Set.Ioi x, t ^ (a - 1) * exp (-t) := by
    refine setIntegral_mono_set hint ?_ hsub.eventuallyLE
    filter_upwards [ae_restrict_mem measurableSet_Ioi] with t ht
    have := rpow_nonneg (hx.trans ht).le (a - 1)
    positivity
  have h2 : ∫ t in Set.Ioc (1.1 : ℝ) 2.1, (1 / 17.22 : ℝ) ≤
      ∫ t in Set.Ioc (1.1 : ℝ) 2.1, t ^ (a - 1) * exp (-t) := by
    refine setIntegral_mono_on (integrable_const _) (hint.mono_set hsub) measurableSet_Ioc ?_
    intro t ht
    have ht1 : 1 ≤ t := by have := ht.1; norm_num at this; linarith
    have ht0 : 0 < t := by linarith
    have h3 : 1 / 2.1 ≤ t ^ (a - 1) := by
      have h4 : t ^ (-1 : ℝ) ≤ t ^ (a - 1) := rpow_le_rpow_of_exponent_le ht1 (by linarith)
      rw [rpow_neg_one, ← one_div] at h4
      exact (one_div_le_one_div_of_le ht0 ht.2).trans h4
    have h5 : 1 / 8.2 ≤ exp (-t) := by
      rw [exp_neg, ← one_div]
      exact one_div_le_one_div_of_le (exp_pos _) ((exp_le_exp.2 ht.2).trans exp_2_1)
    calc (1 / 17.22 : ℝ) = 1 / 2.1 * (1 / 8.2) := by norm_num
      _ ≤ _ := mul_le_mul h3 h5 (by norm_num) (rpow_nonneg ht0.le _)
  refine le_trans ?_ (h2.trans h1)
  rw [setIntegral_const]
  norm_num

theorem igamcSeries_spec {eps a x : ℝ} (ha : 0 < a) (ha2 : a ≤ 1.21) (hx : 0 < x) (hx1 : x ≤ 1.1)
    (he : 1 / 2 ^ 52 ≤ eps) :
    |igamcSeries eps a x - incQ a x| ≤ 60 * eps * incQ a x := by
  have hG := Gamma_pos_of_pos ha
  have heps : 0 < eps := lt_of_lt_of_le (by positivity) he
  have hxa := rpow_pos_of_pos hx a
  have h1 := igamcSeries_sum ha hx hx1 he
  have hl := incQ_lower ha hx hx1
  rw [igamcSeries_eq ha hx]
  set L := igamcSeriesLoop eps a x (MAXITER - 1) 1 1 0
  have e : 1 - x ^ a / Gamma (a + 1) - x ^ a / Gamma a * L - incQ a x =
      x ^ a / Gamma a * ((∑' n, altTerm a x (n + 1)) - L) := by
    rw [incQ_series ha hx]; ring
  have hp : x ^ a ≤ 1.21 := by
    rcases le_or_gt x 1 with h | h
    · have := rpow_le_one hx.le h ha.le
      norm_num; linarith
    · calc x ^ a ≤ x ^ (2 : ℝ) := rpow_le_rpow_of_exponent_le h.le (by norm_num at ha2; linarith)
        _ = x ^ 2 := by norm_cast
        _ ≤ 1.1 ^ 2 := pow_le_pow_left₀ hx.le hx1 2
        _ = 1.21 := by norm_num
  rw [e, abs_mul, abs_of_pos (by positivity)]
  have h2 : x ^ a / Gamma a * |(∑' n, altTerm a x (n + 1)) - L| ≤ x ^ a / Gamma a * (2.5 * eps) :=
    mul_le_mul_of_nonneg_left h1 (by positivity)
  have h3 : x ^ a / Gamma a ≤ 1.21 / Gamma a := div_le_div_of_nonneg_right hp hG.le
  calc _ ≤ x ^ a / Gamma a * (2.5 * eps) := h2
    _ ≤ 1.21 / Gamma a * (2.5 * eps) := mul_le_mul_of_nonneg_right h3 (by positivity)
    _ = 1.21 * 2.5 * 17.22 * eps * (1 / 17.22 / Gamma a) := by ring
    _ ≤ 60 * eps * (1 / 17.22 / Gamma a) := by
        refine mul_le_mul_of_nonneg_right ?_ (by positivity)
        refine mul_le_mul_of_nonneg_right (by norm_num) heps.le
    _ ≤ _ := mul_le_mul_of_nonneg_left hl (by positivity)

/-- The part of the domain on which `gammaincc` sums the alternating series of the lower
function. -/
def altRegime (a x : ℝ) : Prop :=
  x ≤ 0.5 ∧ a ≤ -0.4 / log x ∨ 0.5 < x ∧ x ≤ 1.1 ∧ a ≤ x * 1.1

/-- **C101.** Outside the band around `x = a` and the continued-fraction regime (that is, for
`x ≤ 1.1` or `x < a`), for `10⁻²⁰⁰ ≤ a ≤ 50000`, `gammaincc` returns `Q(a,x)` to within an absolute
`10⁻¹⁴ + 100 eps`, and where it sums the alternating series, to a relative `60 eps` whatever `a`. -/
theorem C101_gammaincc_series {eps a x : ℝ} (d : ℕ → ℕ → ℝ) (ha : 1 / 10 ^ 200 ≤ a)
    (ha2 : a ≤ 50000) (hx : 0 < x) (he : 1 / 2 ^ 52 ≤ eps) (he1 : eps ≤ 1)
    (has : ¬ asymRegime a x) (h : x ≤ 1.1 ∨ x < a) :
    ∃ v, gammaincc eps d a x = some v ∧ |v - incQ a x| ≤ 1 / 10 ^ 14 + 100 * eps ∧
      (altRegime a x → |v - incQ a x| ≤ 60 * eps * incQ a x) := by
  have ha0 : 0 < a := lt_of_lt_of_le (by positivity) ha
  have heps : 0 < eps := lt_of_lt_of_le (by positivity) he
  have hQ1 := incQ_le_one ha0 hx.le
  have hQ0 := incQ_nonneg ha0 hx.le
  have hPQ := incP_add_incQ ha0 hx.le
  have hser : (x ≤ 1 ∨ x ≤ a) → ¬ altRegime a x → ∃ v, (igamSeries eps a x).map (1 - ·) = some v ∧
      |v - incQ a x| ≤ 1 / 10 ^ 14 + 100 * eps ∧
      (altRegime a x → |v - incQ a x| ≤ 60 * eps * incQ a x) := by
    intro h1 hna
    obtain ⟨v, hv, hv2⟩ := igamSeries_spec ha ha2 hx he he1 has h1
    rw [hv]
    refine ⟨1 - v, rfl, ?_, fun h2 => absurd h2 hna⟩
    have e : 1 - v - incQ a x = -(v - incP a x) := by linarith
    rw [e, abs_neg]
    rcases hv2 with hv2 | ⟨hv0, hv2⟩
    · refine hv2.trans ?_
      refine mul_le_of_le_one_right (by positivity) (by linarith)
    · have hP0 := incP_nonneg ha0 hx.le
      rw [hv0, zero_sub, abs_neg, abs_of_nonneg hP0]
      refine hv2.trans ?_
      have : (1 : ℝ) / 10 ^ 90 ≤ 1 / 10 ^ 14 := by norm_num
      linarith
  have halt : altRegime a x → a ≤ 1.21 → x ≤ 1.1 → ∃ v, some (igamcSeries eps a x) = some v ∧
      |v - incQ a x| ≤ 1 / 10 ^ 14 + 100 * eps ∧
      (altRegime a x → |v - incQ a x| ≤ 60 * eps * incQ a x) := by
    intro _ h1 h2
    have h3 := igamcSeries_spec ha0 h1 hx h2 he
    refine ⟨_, rfl, h3.trans ?_, fun _ => h3⟩
    nlinarith [mul_nonneg heps.le hQ0, mul_le_mul_of_nonneg_left hQ1 heps.le]
  unfold gammaincc
  rw [if_neg (by push Not; exact ⟨hx.le, ha0.le⟩), if_neg ha0.ne', if_neg hx.ne', if_neg has]
  by_cases h1 : 1.1 < x
  · have h2 : x < a := by
      rcases h with h | h
      · exact absurd h1 (not_lt.2 h)
      · exact h
    rw [if_pos h1, if_pos h2]
    refine hser (Or.inr h2.le) ?_
    rintro (h3 | h3)
    · have := h3.1; norm_num at this h1; linarith
    · exact absurd h1 (not_lt.2 h3.2.1)
  · rw [if_neg h1]
    push Not at h1
    by_cases h2 : x ≤ 0.5
    · rw [if_pos h2]
      by_cases h3 : -0.4 / log x < a
      · rw [if_pos h3]
        refine hser (Or.inl (by norm_num at h2; linarith)) ?_
        rintro (h4 | h4)
        · exact absurd h3 (not_lt.2 h4.2)
        · exact absurd h2 (not_le.2 h4.1)
      · rw [if_neg h3]
        push Not at h3
        refine halt (Or.inl ⟨h2, h3⟩) (h3.trans ?_) h1
        have hl : log x ≤ -0.69 := by
          have h4 : log x ≤ log (0.5) := log_le_log hx h2
          have h5 : log (0.5 : ℝ) = -log 2 := by
            rw [show (0.5 : ℝ) = 2⁻¹ by norm_num, log_inv]
          have := log_two_gt_d9
          rw [h5] at h4
          norm_num at this ⊢
          linarith
        rw [div_le_iff_of_neg (by norm_num at hl; linarith)]
        norm_num at hl ⊢
        linarith
    · rw [if_neg h2]
      push Not at h2
      by_cases h3 : x * 1.1 < a
      · rw [if_pos h3]
        refine hser (Or.inr (by norm_num at h3; linarith)) ?_
        rintro (h4 | h4)
        · exact absurd h4.1 (not_le.2 h2)
        · exact absurd h3 (not_lt.2 h4.2.2)
      · rw [if_neg h3]
        push Not at h3
        exact halt (Or.inr ⟨h2, h1, h3⟩) (h3.trans (by norm_num at h1 ⊢; linarith)) h1

/-- Both parts of the regime are inhabited. -/
example : ¬ asymRegime 1 1 ∧ altRegime 1 1 ∧ ¬ asymRegime 5 3 ∧ (3 : ℝ) < 5 := by
  unfold asymRegime altRegime; norm_num

/-- **C101, values at the edges.** At `a = 0` the code returns 0, the limit of `Q(a,x)`. -/
theorem C101_gammaincc_edge (eps : ℝ) (d : ℕ → ℕ → ℝ) :
    (∀ a x, x < 0 ∨ a < 0 → gammaincc eps d a x = none) ∧
    (∀ a, 0 < a → gammaincc eps d a 0 = some 1) ∧
    (∀ x, 0 < x → gammaincc eps d 0 x = some 0) ∧ gammaincc eps d 0 0 = none := by
  refine ⟨fun a x h => ?_, fun a h => ?_, fun x h => ?_, ?_⟩
  · rw [gammaincc, if_pos h]
  · rw [gammaincc, if_neg (by push Not; exact ⟨le_rfl, h.le⟩), if_neg h.ne', if_pos rfl]
  · rw [gammaincc, if_neg (by push Not; exact ⟨h.le, le_rfl⟩), if_pos rfl, if_pos h]
  · rw [gammaincc, if_neg (by push Not; exact ⟨le_rfl, le_rfl⟩), if_pos rfl, if_neg (lt_irrefl _)]

end Verif.Special
