import Verif.Special.IncGammaUpper

/-!
# `gammainc + gammaincc = 1` (C103)
-/

open Real MeasureTheory

namespace Verif.Special

theorem erfc_neg (z : ℝ) : erfc (-z) + erfc z = 2 := by
  have hi : Integrable (fun t : ℝ => exp (-t ^ 2)) := by
    simpa using integrable_exp_neg_mul_sq (b := 1) one_pos
  have h1 : ∫ t in Set.Ioi (-z), exp (-t ^ 2) = ∫ t in Set.Iic z, exp (-t ^ 2) := by
    have := integral_comp_neg_Ioi (-z) (fun t : ℝ => exp (-t ^ 2))
    rw [neg_neg] at this
    rw [← this]
    refine setIntegral_congr_fun measurableSet_Ioi fun t _ => ?_
    simp only [neg_sq]
  have h2 : (∫ t in Set.Iic z, exp (-t ^ 2)) + ∫ t in Set.Ioi z, exp (-t ^ 2) = √π := by
    have h3 := integral_gaussian 1
    rw [div_one] at h3
    rw [← h3, intervalIntegral.integral_Iic_add_Ioi hi.integrableOn hi.integrableOn]
    simp
  have hp : 0 < √π := sqrt_pos.2 pi_pos
  rw [erfc, erfc, ← mul_add, h1, h2]
  field_simp

/-- The exceptional set on which the two functions are computed by unrelated expansions. -/
def compExcept (a x : ℝ) : Prop :=
  ¬ asymRegime a x ∧ (altRegime a x ∧ (x ≤ 1 ∨ x ≤ a) ∨ 1.1 < x ∧ x = a)

/-- **C103.** For all `a, x > 0`, any tolerance and any coefficient table, outside the exceptional
set `gammainc + gammaincc = 1` exactly (one is computed from the other, or both from the same
expansion). -/
theorem C103_complementary {a x : ℝ} (eps : ℝ) (d : ℕ → ℕ → ℝ) (ha : 0 < a) (hx : 0 < x)
    (h : ¬ compExcept a x) :
    ∃ p q, gammainc eps d a x = some p ∧ gammaincc eps d a x = some q ∧ p + q = 1 := by
  have h0 : ¬ (x < 0 ∨ a < 0) := by push Not; exact ⟨hx.le, ha.le⟩
  obtain ⟨f, hf, -⟩ := C99_igam_fac ha hx
  have hser : ∃ s, igamSeries eps a x = some s := ⟨_, by rw [igamSeries, hf]; rfl⟩
  have hcf : ∃ s, igamcCF eps a x = some s := ⟨_, by rw [igamcCF, hf]; rfl⟩
  obtain ⟨s, hs⟩ := hser
  obtain ⟨c, hc⟩ := hcf
  by_cases has : asymRegime a x
  · unfold gammainc gammaincc
    simp only [if_neg h0, if_neg ha.ne', if_neg hx.ne', if_pos has]
    refine ⟨_, _, rfl, rfl, ?_⟩
    unfold asymptoticSeries
    simp only
    have := erfc_neg (asymEta a x * √(a / 2))
    rw [show -1 * asymEta a x * √(a / 2) = -(asymEta a x * √(a / 2)) by ring,
      show 1 * asymEta a x * √(a / 2) = asymEta a x * √(a / 2) by ring]
    linear_combination this / 2
  have hcc : ∃ q, gammaincc eps d a x = some q := by
    unfold gammaincc
    simp only [if_neg h0, if_neg ha.ne', if_neg hx.ne', if_neg has, hs, hc]
    split_ifs <;> exact ⟨_, rfl⟩
  by_cases hup : 1 < x ∧ a < x
  · obtain ⟨q, hq⟩ := hcc
    refine ⟨1 - q, q, ?_, hq, by ring⟩
    unfold gammainc
    rw [if_neg h0, if_neg ha.ne', if_neg hx.ne', if_neg has, if_pos hup, hq]
    rfl
  · refine ⟨s, 1 - s, ?_, ?_, by ring⟩
    · unfold gammainc
      rw [if_neg h0, if_neg ha.ne', if_neg hx.ne', if_neg has, if_neg hup, hs]
    · have hle : x ≤ 1 ∨ x ≤ a := by
        rcases le_or_gt x 1 with h1 | h1
        · exact Or.inl h1
        · right; by_contra h2; push Not at h2; exact hup ⟨h1, h2⟩
      have hna : ¬ altRegime a x := fun h1 => h ⟨has, Or.inl ⟨h1, hle⟩⟩
      have hne : ¬ (1.1 < x ∧ x = a) := fun h1 => h ⟨has, Or.inr h1⟩
      unfold gammaincc
      rw [if_neg h0, if_neg ha.ne', if_neg hx.ne', if_neg has]
      by_cases h1 : 1.1 < x
      · have h2 : x < a := by
          rcases hle with h3 | h3
          · norm_num at h1; linarith
          · exact lt_of_le_of_ne h3 fun h4 => hne ⟨h1, h4⟩
        rw [if_pos h1, if_pos h2, hs]; rfl
      · rw [if_neg h1]
        push Not at h1
        by_cases h2 : x ≤ 0.5
        · rw [if_pos h2, if_pos, hs]
          · rfl
          · by_contra h3; push Not at h3
            exact hna (Or.inl ⟨h2, h3⟩)
        · rw [if_neg h2, if_pos, hs]
          · rfl
          · push Not at h2
            by_contra h3; push Not at h3
            exact hna (Or.inr ⟨h2, h1, h3⟩)

/-- Both sides of the exceptional set are inhabited. -/
example : ¬ compExcept 5 3 ∧ ¬ compExcept 30 31 ∧ compExcept 1 1 := by
  unfold compExcept asymRegime altRegime
  norm_num

/-- **C103, exceptional set.** There the sum is 1 up to `3·10⁻¹⁴ + 200 eps`
(`10⁻²⁰⁰ ≤ a ≤ 2000`). -/
theorem C103_complementary_approx {eps a x : ℝ} (d : ℕ → ℕ → ℝ) (ha : 1 / 10 ^ 200 ≤ a)
    (ha2 : a ≤ 2000) (hx : 0 < x) (he : 1 / 2 ^ 52 ≤ eps) (he1 : eps ≤ 1 / 100)
    (h : compExcept a x) :
    ∃ p q, gammainc eps d a x = some p ∧ gammaincc eps d a x = some q ∧
      |p + q - 1| ≤ 3 / 10 ^ 14 + 200 * eps := by
  have ha0 : 0 < a := lt_of_lt_of_le (by positivity) ha
  have heps : 0 < eps := lt_of_lt_of_le (by positivity) he
  have hP0 := incP_nonneg ha0 hx.le
  have hP1 := incP_le_one ha0 hx.le
  have hQ0 := incQ_nonneg ha0 hx.le
  have hQ1 := incQ_le_one ha0 hx.le
  have hPQ := incP_add_incQ ha0 hx.le
  obtain ⟨has, h⟩ := h
  have hle : x ≤ 1 ∨ x ≤ a := by
    rcases h with h | h
    · exact h.2
    · exact Or.inr h.2.le
  obtain ⟨p, hp, hp2⟩ := C100_gammainc_series d ha (by linarith) hx he (by linarith) has hle
  have hp3 : |p - incP a x| ≤ 1 / 10 ^ 14 + 100 * eps := by
    rcases hp2 with h1 | ⟨h1, h2⟩
    · exact h1.trans (mul_le_of_le_one_right (by positivity) hP1)
    · rw [h1, zero_sub, abs_neg, abs_of_nonneg hP0]
      refine h2.trans ?_
      have : (1 : ℝ) / 10 ^ 90 ≤ 1 / 10 ^ 14 := by norm_num
      linarith
  have key : ∃ v, gammaincc eps d a x = some v ∧ |v - incQ a x| ≤ 2 / 10 ^ 14 + 100 * eps := by
    rcases h with h | h
    · have hx11 : x ≤ 1.1 := by
        rcases h.1 with h1 | h1
        · have := h1.1; norm_num at this ⊢; linarith
        · exact h1.2.1
      obtain ⟨v, hv, h1, -⟩ := C101_gammaincc_series d ha (by linarith) hx he (by linarith) has
        (Or.inl hx11)
      refine ⟨v, hv, h1.trans ?_⟩
      have : (1 : ℝ) / 10 ^ 14 ≤ 2 / 10 ^ 14 := by norm_num
      linarith
    · obtain ⟨v, hv, h1⟩ := C102_gammaincc_cf d ha0 ha2 h.1 h.2.ge he he1 has
      refine ⟨v, hv, ?_⟩
      rcases h1 with h1 | ⟨h1, h2⟩
      · exact h1.trans (mul_le_of_le_one_right (by positivity) hQ1)
      · rw [h1, zero_sub, abs_neg, abs_of_nonneg hQ0]
        refine h2.trans ?_
        have : (1 : ℝ) / 10 ^ 300 ≤ 2 / 10 ^ 14 := by
          refine (one_div_le_one_div_of_le (by positivity)
            (pow_le_pow_right₀ (by norm_num) (by norm_num : 14 ≤ 300))).trans ?_
          norm_num
        linarith
  obtain ⟨q, hq, hq2⟩ := key
  refine ⟨p, q, hp, hq, ?_⟩
  have e : p + q - 1 = (p - incP a x) + (q - incQ a x) := by linarith
  rw [e]
  refine (abs_add_le _ _).trans ?_
  norm_num at hp3 hq2 ⊢
  linarith

end Verif.Special
