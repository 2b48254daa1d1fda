import Verif.Special.DigammaLim
import Verif.Special.GammaProps
import Mathlib.Analysis.SpecialFunctions.Gamma.Deriv

/-!
# C108: `digamma` returns `ψ = Γ'/Γ`
-/

open Complex Filter Topology Finset

namespace Verif.Special

theorem sums_tendsto (l : List ℚ) (k : ℕ) (z : ℂ) :
    Tendsto (fun n : ℕ => (digammaSums (z + n) k l).1) atTop (𝓝 0) ∧
      Tendsto (fun n : ℕ => (digammaSums (z + n) k l).2) atTop (𝓝 0) := by
  induction l generalizing k with
  | nil => simp [digammaSums]
  | cons c l ih =>
    obtain ⟨h1, h2⟩ := ih (k + 1)
    have h3 : Tendsto (fun n : ℕ => 1 / (z + n + k)) atTop (𝓝 0) := by
      refine (tendsto_one_div_add (z + k)).congr fun n => ?_
      congr 1; ring
    have h4 := h3.const_mul (c : ℂ)
    have h5 := h1.add h4
    have h6 := h2.sub (h4.mul h3)
    simp only [mul_zero, add_zero, sub_zero] at h5 h6
    exact ⟨h5, h6⟩

theorem digammaRight_sub_log (z : ℂ) :
    Tendsto (fun n : ℕ => digammaRight (z + n) - log (z + n)) atTop (𝓝 0) := by
  obtain ⟨h1, h2⟩ := sums_tendsto digammaC 0 z
  set c : ℂ := ((polygammaG - polygammaH : ℚ) : ℂ) with hc
  have hq : Tendsto (fun n : ℕ => (digammaSums (z + n) 0 digammaC).2 /
      ((digammaSums (z + n) 0 digammaC).1 + digammaC0)) atTop (𝓝 0) := by
    have h3 := h2.div (h1.add_const (digammaC0 : ℂ)) (by
      rw [zero_add, digammaC0]; norm_num)
    rw [zero_div] at h3
    exact h3
  have hg : Tendsto (fun n : ℕ => (polygammaG : ℂ) / (z + n + c)) atTop (𝓝 0) := by
    have := (tendsto_one_div_add (z + c)).const_mul (polygammaG : ℂ)
    rw [mul_zero] at this
    refine this.congr fun n => ?_
    rw [mul_one_div]; congr 1; ring
  have hl : Tendsto (fun n : ℕ => log (1 + c * (1 / (z + n)))) atTop (𝓝 0) := by
    have h3 : Tendsto (fun n : ℕ => 1 + c * (1 / (z + n))) atTop (𝓝 1) := by
      have := ((tendsto_one_div_add z).const_mul c).const_add 1
      simpa using this
    have := (continuousAt_clog (x := 1) (by simp)).tendsto.comp h3
    rwa [log_one] at this
  have hall := hl.add (hq.sub hg)
  rw [sub_zero, add_zero] at hall
  obtain ⟨n₀, hn₀⟩ := exists_nat_gt (-z.re)
  have hc' : c = ((607/128 - 1/2 : ℝ) : ℂ) := by
    rw [hc, polygammaG, polygammaH]; push_cast; norm_num
  refine hall.congr' (eventually_atTop.2 ⟨n₀, fun n hn => ?_⟩)
  have hn' : (n₀ : ℝ) ≤ n := by exact_mod_cast hn
  have hw : 0 < (z + n).re := by simp; linarith
  have hw0 : z + (n : ℂ) ≠ 0 := by intro e; rw [e] at hw; simp at hw
  have hwc : 0 < (z + n + c).re := by rw [add_re, hc', ofReal_re]; linarith
  have h1c : 0 < (1 + c * (1 / (z + n))).re := by
    rw [add_re, one_re, hc', re_ofReal_mul]
    have := re_inv_nonneg hw
    have : (0 : ℝ) ≤ (607/128 - 1/2) * (1 / (z + n)).re := by
      exact mul_nonneg (by norm_num) this
    linarith
  have he := log_sub_log_eq hwc hw h1c (d := 1) (by simp) (by field_simp)
  rw [log_one, sub_zero] at he
  show _ = digammaRight (z + n) - log (z + n)
  rw [← he]
  simp only [digammaRight]
  ring

/-- Telescoping. -/
theorem digamma_telescope {t : ℂ} (ht : 0 ≤ t.re) (N : ℕ) :
    digammaRight (t + 1/2 + N) - Complex.digamma (t + 1/2 + N) =
      digammaRight (t + 1/2) - Complex.digamma (t + 1/2) + ∑ n ∈ range N, digE (t + n) := by
  induction N with
  | zero => simp
  | succ N ih =>
    have hp : 0 < (t + 1/2 + N).re := by
      have : (0 : ℝ) ≤ N := by positivity
      simp; linarith
    have h := Complex.digamma_apply_add_one (t + 1/2 + N) (notPole_of_re hp)
    rw [sum_range_succ, ← add_assoc, ← ih, digE]
    push_cast
    rw [show t + 1/2 + ((N : ℂ) + 1) = t + 1/2 + N + 1 by ring, h,
      show t + N + 1 + 1/2 = t + 1/2 + N + 1 by ring, show t + N + 1/2 = t + 1/2 + (N : ℂ) by ring,
      one_div]
    ring

theorem digammaRight_of_defect {t : ℂ} (ht : 0 ≤ t.re) {K : ℝ}
    (h : ∀ n : ℕ, ‖digE (t + n)‖ ≤ K / (‖pev dF (t + n)‖ * ‖pev dF1 (t + n)‖)) :
    ‖digammaRight (t + 1/2) - Complex.digamma (t + 1/2)‖ ≤ K / (607/128) := by
  have hK : 0 ≤ K := by
    have h0 := h 0
    by_contra hneg
    push Not at hneg
    have h1 : K / (‖pev dF (t + (0 : ℕ))‖ * ‖pev dF1 (t + (0 : ℕ))‖) ≤ 0 :=
      div_nonpos_of_nonpos_of_nonneg hneg.le (by positivity)
    have hF : pev dF (t + (0 : ℕ)) ≠ 0 := by
      intro e; have := congrArg re e; rw [dF_eq] at this; simp at this; linarith
    have hF1 : pev dF1 (t + (0 : ℕ)) ≠ 0 := by
      intro e; have := congrArg re e; rw [dF1_eq] at this; simp at this; linarith
    have h2 : K / (‖pev dF (t + (0 : ℕ))‖ * ‖pev dF1 (t + (0 : ℕ))‖) < 0 :=
      div_neg_of_neg_of_pos hneg (mul_pos (norm_pos_iff.2 hF) (norm_pos_iff.2 hF1))
    exact absurd ((norm_nonneg _).trans h0) (not_le.2 h2)
  set δ := digammaRight (t + 1/2) - Complex.digamma (t + 1/2) with hδ
  have hlim : Tendsto (fun N : ℕ => ∑ n ∈ range N, digE (t + n)) atTop (𝓝 (-δ)) := by
    have h1 := (digammaRight_sub_log (t + 1/2)).sub (digamma_sub_log (t + 1/2))
    have h2 := h1.sub_const δ
    rw [sub_zero, zero_sub] at h2
    refine h2.congr fun N => ?_
    have := digamma_telescope ht N
    rw [← hδ] at this
    linear_combination this
  have hb : ∀ N : ℕ, ‖∑ n ∈ range N, digE (t + n)‖ ≤ K / (607/128) := by
    intro N
    refine (norm_sum_le _ _).trans ?_
    have h3 : ∀ n ∈ range N, ‖digE (t + n)‖ ≤ K * (1 / (607/128 + n) - 1 / (607/128 + (n + 1 : ℕ)) : ℝ) := by
      intro n _
      refine (h n).trans ?_
      have hn : (0 : ℝ) ≤ n := by positivity
      have hF : 607/128 + (n : ℝ) ≤ ‖pev dF (t + n)‖ := by
        refine le_trans ?_ ((le_abs_self _).trans (abs_re_le_norm _))
        rw [dF_eq]; simp; linarith
      have hF1 : 607/128 + (n : ℝ) + 1 ≤ ‖pev dF1 (t + n)‖ := by
        refine le_trans ?_ ((le_abs_self _).trans (abs_re_le_norm _))
        rw [dF1_eq]; simp; linarith
      have e : (1 / (607/128 + n) - 1 / (607/128 + (n + 1 : ℕ)) : ℝ) =
          1 / ((607/128 + n) * (607/128 + n + 1)) := by
        push_cast
        field_simp
        ring
      rw [e, mul_one_div]
      gcongr
    refine (sum_le_sum h3).trans ?_
    rw [← mul_sum, sum_range_sub' (fun n : ℕ => (1 / (607/128 + n) : ℝ)) N]
    have : (0 : ℝ) ≤ 1 / (607/128 + N) := by positivity
    rw [div_eq_mul_one_div K]
    refine mul_le_mul_of_nonneg_left ?_ hK
    simp only [Nat.cast_zero, add_zero]
    linarith
  have := le_of_tendsto hlim.norm (Eventually.of_forall hb)
  rwa [norm_neg] at this

/-- Accuracy of the right half-plane formula. -/
theorem digammaRight_accuracy {z : ℂ} (hz : 1/2 ≤ z.re) :
    ‖digammaRight z - Complex.digamma z‖ ≤ 8 / 10 ^ 14 ∧
      (z.im = 0 → ‖digammaRight z - Complex.digamma z‖ ≤ 3 / 10 ^ 15) := by
  obtain ⟨t, rfl⟩ : ∃ t, z = t + 1/2 := ⟨z - 1/2, by ring⟩
  have ht : 0 ≤ t.re := by simp at hz; linarith
  have htn : ∀ n : ℕ, 0 ≤ (t + n).re := fun n => by
    have : (0 : ℝ) ≤ n := by positivity
    simp; linarith
  have gen : ∀ κ : ℝ, (∀ n : ℕ, ‖pev dP (t + n) / pev dQ (t + n)‖ ≤ κ) →
      ‖digammaRight (t + 1/2) - Complex.digamma (t + 1/2)‖ ≤ (κ + 1 / 10 ^ 16) / (607/128) := by
    intro κ hκ
    refine digammaRight_of_defect ht fun n => ?_
    obtain ⟨r, he, hr⟩ := digE_eq (htn n)
    rw [he, add_div]
    refine (norm_add_le _ _).trans (add_le_add ?_ hr)
    rw [norm_div, norm_mul]
    gcongr
    exact hκ n
  constructor
  · refine (gen (3.7 / 10 ^ 13) fun n => ?_).trans (by norm_num)
    have h1 := one_le_norm_dQ (htn n)
    rw [norm_div, div_le_iff₀ (by linarith)]
    exact dPQ_bound (htn n)
  · intro him
    refine (gen (1 / 10 ^ 14) fun n => ?_).trans (by norm_num)
    have e : t + (n : ℂ) = ((t.re + n : ℝ) : ℂ) := by
      apply Complex.ext
      · simp
      · simp at him ⊢; exact him
    rw [e]
    exact dPQ_real (by have := htn n; simpa using this)

/-- Reflection. -/
theorem digamma_reflection {z : ℂ} (hz : NotPole z) (hz1 : NotPole (1 - z)) :
    Complex.digamma (1 - z) - Real.pi / tan (Real.pi * z) = Complex.digamma z := by
  have hG := Gamma_ne_zero hz
  have hG1 := Gamma_ne_zero hz1
  have hs : sin (Real.pi * z) ≠ 0 := by
    intro e
    have := Complex.Gamma_mul_Gamma_one_sub z
    rw [e, div_zero] at this
    exact mul_ne_zero hG hG1 this
  have d1 := (differentiableAt_Gamma z hz).hasDerivAt
  have d2 : HasDerivAt (fun z => Gamma (1 - z)) (-deriv Gamma (1 - z)) z := by
    have := (differentiableAt_Gamma (1 - z) hz1).hasDerivAt.comp z ((hasDerivAt_id z).const_sub 1)
    rw [mul_neg_one] at this
    exact this
  have d3 : HasDerivAt (fun z : ℂ => sin (Real.pi * z)) (cos (Real.pi * z) * Real.pi) z := by
    have := ((hasDerivAt_id z).const_mul (Real.pi : ℂ)).csin
    rw [mul_one] at this
    exact this
  have hprod := (d1.mul d2).mul d3
  have hconst : HasDerivAt (fun z => Gamma z * Gamma (1 - z) * sin (Real.pi * z)) 0 z := by
    refine (hasDerivAt_const z (Real.pi : ℂ)).congr_of_eventuallyEq ?_
    filter_upwards [d3.continuousAt.eventually_ne hs] with w hw
    rw [Complex.Gamma_mul_Gamma_one_sub, div_mul_cancel₀ _ hw]
  have key := hprod.unique hconst
  have hp := Complex.Gamma_mul_Gamma_one_sub z
  rw [Complex.digamma_def, logDeriv_apply, logDeriv_apply, tan]
  simp only [Pi.mul_apply] at key
  by_cases hc : cos (Real.pi * z) = 0
  · rw [hc] at key ⊢
    rw [div_zero, div_zero, sub_zero, div_eq_div_iff hG1 hG]
    have : (deriv Gamma z * Gamma (1 - z) - deriv Gamma (1 - z) * Gamma z) * sin (Real.pi * z) = 0 := by
      linear_combination key
    have := (mul_eq_zero.1 this).resolve_right hs
    linear_combination -this
  · generalize sin (Real.pi * z) = s at *
    generalize cos (Real.pi * z) = c at *
    field_simp
    linear_combination -key

/-- **C108.** `digamma` reports a pole exactly on real `z ≤ 0` within `100·eps` of an integer. -/
theorem C108_digamma_poles (eps : ℝ) (z : ℂ) :
    digamma eps z = none ↔
      z.im = 0 ∧ z.re ≤ 0 ∧ |(round z.re : ℝ) - z.re| < 100 * eps := by
  have right : ∀ w : ℂ, 1/2 ≤ w.re → digamma eps w = some (digammaRight w) := by
    intro w hw
    have h1 : ¬ atPole eps w := fun h => by have := h.2.2; linarith
    rw [digamma, if_neg h1, if_neg (by norm_num; linarith)]
  have key : digamma eps z = none ↔ atPole eps z := by
    by_cases h : atPole eps z
    · rw [digamma, if_pos h]; simp [h]
    · by_cases h2 : z.re < 0.5
      · rw [digamma, if_neg h, if_pos h2, right (1 - z) (by norm_num at h2 ⊢; linarith)]
        simp [h]
      · rw [right z (by norm_num at h2; linarith)]
        simp [h]
  rw [key, atPole]
  tauto

/-- **C108.** `digamma` returns `ψ(z) = Γ'(z)/Γ(z)` to `10⁻¹³` (in exact arithmetic) wherever it
does not report a pole, and to `3·10⁻¹⁵` for real `z`. -/
theorem C108_digamma_value {eps : ℝ} (he : 0 < eps) {z d : ℂ} (h : digamma eps z = some d) :
    ‖d - deriv Gamma z / Gamma z‖ ≤ 1 / 10 ^ 13 ∧
      (z.im = 0 → ‖d - deriv Gamma z / Gamma z‖ ≤ 3 / 10 ^ 15) := by
  have hdef : deriv Gamma z / Gamma z = Complex.digamma z := rfl
  rw [hdef]
  have hp : ¬ atPole eps z := fun hp => by rw [digamma, if_pos hp] at h; simp at h
  have hn := notPole_of_not_atPole he hp
  rw [digamma, if_neg hp] at h
  by_cases h2 : z.re < 0.5
  · have hre : 1/2 ≤ (1 - z).re := by norm_num at h2 ⊢; linarith
    have hp1 : ¬ atPole eps (1 - z) := fun h => by have := h.2.2; linarith
    rw [if_pos h2, digamma, if_neg hp1, if_neg (by norm_num at hre ⊢; linarith), Option.map_some,
      Option.some.injEq] at h
    have hr := digamma_reflection hn (notPole_of_re (by linarith))
    rw [← h, ← hr, sub_sub_sub_cancel_right]
    obtain ⟨a1, a2⟩ := digammaRight_accuracy hre
    refine ⟨a1.trans (by norm_num), fun him => a2 (by simp [him])⟩
  · rw [if_neg h2, Option.some.injEq] at h
    rw [← h]
    obtain ⟨a1, a2⟩ := digammaRight_accuracy (z := z) (by norm_num at h2; linarith)
    exact ⟨a1.trans (by norm_num), a2⟩

/-- The hypothesis is met: at `z = -1/3 + 2i` (reflection) a value is returned. -/
example : ∃ d, digamma (1 / 2 ^ 52) (-1/3 + 2 * I) = some d := by
  rw [← Option.ne_none_iff_exists']
  rw [Ne, C108_digamma_poles]
  simp

/-- At `z = 1` the value is Euler's constant: the bound separates it from its neighbours. -/
example : ∃ d, digamma (1 / 2 ^ 52) 1 = some d ∧ ‖d + Real.eulerMascheroniConstant‖ ≤ 3 / 10 ^ 15 := by
  have h1 : digamma (1 / 2 ^ 52) 1 ≠ none := by
    rw [Ne, C108_digamma_poles]; simp
  obtain ⟨d, hd⟩ := Option.ne_none_iff_exists'.1 h1
  refine ⟨d, hd, ?_⟩
  have := (C108_digamma_value (by positivity) hd).2 (by simp)
  rwa [show deriv Gamma 1 / Gamma 1 = Complex.digamma 1 from rfl, Complex.digamma_one,
    sub_neg_eq_add] at this

end Verif.Special
