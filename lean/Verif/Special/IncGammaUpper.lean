import Verif.Special.IncGammaCF

/-!
# Accuracy of the continued fraction regime (C102) and complementarity (C103)
-/

open Real Finset

namespace Verif.Special

/-- The state of the loop after `i` iterations. -/
def CFInv (a x : ℝ) (i : ℕ) (s : CFState) : Prop :=
  s.y = i + 1 - a ∧ s.z = x + 2 - a + 2 * i ∧ s.c = i ∧ s.ans = cfr a x (i + 1) ∧
    ∃ κ : ℝ, 0 < κ ∧ s.pkm2 = κ * cfA a x i ∧ s.qkm2 = κ * cfB a x i ∧
      s.pkm1 = κ * cfA a x (i + 1) ∧ s.qkm1 = κ * cfB a x (i + 1)

/-- The stopping test at the convergent `n + 1`. -/
def cfTest (eps a x : ℝ) (n : ℕ) : Prop :=
  cfr a x (n + 1) ≠ 0 ∧ |(cfr a x n - cfr a x (n + 1)) / cfr a x (n + 1)| ≤ eps

theorem cfInit_inv (a x : ℝ) : CFInv a x 0 (cfInit a x) := by
  have e : x + (1 - a) + 1 = x + 2 - a := by ring
  refine ⟨by simp [cfInit], by simp [cfInit, e], by simp [cfInit], ?_, 1, one_pos, ?_⟩
  · simp [cfInit, cfr, cfA, cfB, e]
  · simp [cfInit, cfA, cfB, e]

theorem cfStep_inv {a x : ℝ} (ha : 0 < a) (hax : a ≤ x) (eps : ℝ) {i : ℕ} {s : CFState}
    (h : CFInv a x i s) :
    CFInv a x (i + 1) (cfStep eps s).1 ∧ ((cfStep eps s).2 ↔ cfTest eps a x (i + 1)) := by
  obtain ⟨hy, hz, hc, hans, κ, hκ, h1, h2, h3, h4⟩ := h
  have hB := cfB_pos ha hax (i + 2)
  have epk : s.pkm1 * (s.z + 2) - s.pkm2 * ((s.y + 1) * (s.c + 1)) = κ * cfA a x (i + 2) := by
    rw [h3, h1, hz, hy, hc, cfA]; ring
  have eqk : s.qkm1 * (s.z + 2) - s.qkm2 * ((s.y + 1) * (s.c + 1)) = κ * cfB a x (i + 2) := by
    rw [h4, h2, hz, hy, hc, cfB]; ring
  have hq : κ * cfB a x (i + 2) ≠ 0 := (mul_pos hκ hB).ne'
  have er : κ * cfA a x (i + 2) / (κ * cfB a x (i + 2)) = cfr a x (i + 1 + 1) := by
    rw [mul_div_mul_left _ _ hκ.ne', cfr]
  unfold cfStep
  simp only [epk, eqk, if_pos hq, er, hans]
  refine ⟨⟨?_, ?_, ?_, rfl, ?_⟩, Iff.rfl⟩
  · rw [hy]; push_cast; ring
  · rw [hz]; push_cast; ring
  · rw [hc]; push_cast; ring
  · obtain ⟨k, hk, hk0⟩ : ∃ k : ℝ, (if BIG < |κ * cfA a x (i + 2)| then BIGINV else 1) = k ∧ 0 < k := by
      refine ⟨_, rfl, ?_⟩
      split
      · unfold BIGINV; norm_num
      · exact one_pos
    rw [hk]
    refine ⟨κ * k, by positivity, ?_, ?_, ?_, ?_⟩
    · rw [h3]; ring
    · rw [h4]; ring
    · ring
    · ring

/-- What the loop returns: a convergent at which the test holds, or the last one. -/
theorem cfLoop_spec {a x : ℝ} (ha : 0 < a) (hax : a ≤ x) (eps : ℝ) (fuel i : ℕ) {s : CFState}
    (h : CFInv a x i s) :
    ∃ n, i ≤ n ∧ n ≤ i + fuel ∧ cfLoop eps fuel s = cfr a x (n + 1) ∧
      (n = i + fuel ∧ (0 < fuel → ¬ cfTest eps a x n) ∨ i < n ∧ cfTest eps a x n) := by
  induction fuel generalizing i s with
  | zero =>
    exact ⟨i, le_rfl, le_rfl, by rw [cfLoop]; exact h.2.2.2.1, Or.inl ⟨rfl, fun h => by omega⟩⟩
  | succ fuel ih =>
    obtain ⟨hi, ht⟩ := cfStep_inv ha hax eps h
    rw [cfLoop]
    by_cases hc : (cfStep eps s).2
    · rw [if_pos hc]
      exact ⟨i + 1, by omega, by omega, hi.2.2.2.1, Or.inr ⟨by omega, ht.1 hc⟩⟩
    · rw [if_neg hc]
      obtain ⟨n, h1, h2, h3, h4⟩ := ih (i + 1) hi
      refine ⟨n, by omega, by omega, h3, ?_⟩
      rcases h4 with ⟨h4, h5⟩ | ⟨h4, h5⟩
      · left
        refine ⟨by omega, fun _ => ?_⟩
        rcases Nat.eq_zero_or_pos fuel with h6 | h6
        · have : n = i + 1 := by omega
          rw [this]; exact fun h7 => hc (ht.2 h7)
        · exact h5 h6
      · exact Or.inr ⟨by omega, h5⟩

theorem cfTest_final {eps a x : ℝ} (ha : 0 < a) (ha2 : a ≤ 2000) (hax : a ≤ x) (hx1 : 1 ≤ x)
    (he : 1 / 2 ^ 52 ≤ eps) : cfTest eps a x 2000 := by
  have hT := cfT_pos ha hax
  have h1 := cf_small ha hax hx1 2000 (by norm_num; linarith) (by norm_num)
  have h2 := cf_small ha hax hx1 2001 (by norm_num; linarith) (by norm_num)
  have hp : (0.9785 : ℝ) ^ 2000 ≤ 1 / 2 ^ 55 := by
    have e : (0.9785 : ℝ) ^ 2000 ≤ (0.9785 ^ 46) ^ 43 := by
      rw [← pow_mul]; exact pow_le_pow_of_le_one (by norm_num) (by norm_num) (by norm_num)
    have e2 : ((0.9785 : ℝ) ^ 46) ≤ 0.37 := by norm_num
    refine e.trans ((pow_le_pow_left₀ (by positivity) e2 43).trans ?_)
    norm_num
  have hp2 : (0.9785 : ℝ) ^ 2001 ≤ 1 / 2 ^ 55 :=
    (pow_le_pow_of_le_one (by norm_num) (by norm_num) (by norm_num)).trans hp
  set T := cfK x 0 (a - 1)
  have h3 : |T - cfr a x 2000| ≤ 1 / 2 ^ 55 * T := h1.trans (mul_le_mul_of_nonneg_right hp hT.le)
  have h4 : |T - cfr a x 2001| ≤ 1 / 2 ^ 55 * T := h2.trans (mul_le_mul_of_nonneg_right hp2 hT.le)
  have h5 := abs_le.1 h4
  have hr : T / 2 ≤ cfr a x 2001 := by norm_num at h5; linarith [h5.2]
  have hr0 : 0 < cfr a x 2001 := by linarith
  refine ⟨hr0.ne', ?_⟩
  rw [abs_div, abs_of_pos hr0, div_le_iff₀ hr0]
  have e : cfr a x 2000 - cfr a x (2000 + 1) = (T - cfr a x 2001) - (T - cfr a x 2000) := by ring
  rw [e]
  refine (abs_sub _ _).trans ?_
  have h6 : 1 / 2 ^ 52 * (T / 2) ≤ eps * cfr a x 2001 :=
    mul_le_mul he hr (by positivity) (le_trans (by positivity) he)
  norm_num at h3 h4 h6 ⊢
  linarith

/-- The value of the loop when the test fires. -/
theorem cf_accurate {eps a x : ℝ} (ha : 0 < a) (hax : a ≤ x) (hx1 : 1 ≤ x) (he1 : eps ≤ 1 / 100)
    {n : ℕ} (hn : n ≤ 2000) (ht : cfTest eps a x n) :
    |cfr a x (n + 1) - cfK x 0 (a - 1)| ≤ 83 * eps * cfK x 0 (a - 1) ∧
      |cfr a x (n + 1)| ≤ 1.83 * cfK x 0 (a - 1) := by
  obtain ⟨hr, ht⟩ := ht
  have hT := cfT_pos ha hax
  have hs := cf_stop ha hax n
  set T := cfK x 0 (a - 1)
  set r := cfr a x (n + 1)
  have hr0 : 0 < |r| := abs_pos.2 hr
  rw [abs_div, div_le_iff₀ hr0, abs_sub_comm] at ht
  have he0 : 0 ≤ eps := by
    by_contra hc
    push Not at hc
    have := mul_neg_of_neg_of_pos hc hr0
    linarith [abs_nonneg (r - cfr a x n)]
  have hm : max 1 (√((n : ℝ) + 1) / √x) ≤ 45 := by
    refine max_le (by norm_num) ?_
    have hsx : 1 ≤ √x := one_le_sqrt.2 hx1
    have hsn : √((n : ℝ) + 1) ≤ 45 := by
      refine sqrt_le_iff.2 ⟨by norm_num, ?_⟩
      have : (n : ℝ) ≤ 2000 := by exact_mod_cast hn
      norm_num; linarith
    rw [div_le_iff₀ (by linarith)]
    linarith
  have h1 : |T - r| ≤ 45 * (eps * |r|) :=
    hs.trans (mul_le_mul hm ht (abs_nonneg _) (by norm_num))
  have h2 : |r| ≤ T + |T - r| := by
    have := abs_sub_abs_le_abs_sub r T
    rw [abs_of_pos hT, abs_sub_comm] at this
    linarith
  have h3 : eps * |r| ≤ 1 / 100 * |r| := mul_le_mul_of_nonneg_right he1 hr0.le
  have h4 : |r| ≤ 1.83 * T := by norm_num; linarith
  refine ⟨?_, h4⟩
  rw [abs_sub_comm]
  refine h1.trans ?_
  have := mul_le_mul_of_nonneg_left h4 he0
  norm_num at this ⊢
  nlinarith [mul_nonneg he0 hT.le]

theorem igamcCF_spec {eps a x : ℝ} (ha : 0 < a) (hax : a ≤ x) (hx1 : 1 ≤ x)
    (he : 1 / 2 ^ 52 ≤ eps) (he1 : eps ≤ 1 / 100) (ha2 : a ≤ 2000) :
    ∃ v, igamcCF eps a x = some v ∧
      (|v - incQ a x| ≤ (2 / 10 ^ 14 + 100 * eps) * incQ a x ∨ v = 0 ∧ incQ a x ≤ 1 / 10 ^ 300) := by
  have hx : 0 < x := by linarith
  have hG := Gamma_pos_of_pos ha
  have heps : 0 < eps := lt_of_lt_of_le (by positivity) he
  obtain ⟨f, hf, hf2⟩ := C99_igam_fac ha hx
  have hT := cfT_pos ha hax
  have hQ := incQ_eq_cfK (a := a) hx
  obtain ⟨F, hF⟩ : ∃ F, F = x ^ a * exp (-x) / Gamma a := ⟨_, rfl⟩
  have hF0 : 0 < F := by rw [hF]; positivity
  rw [← hF] at hf2 hQ
  rw [igamcCF, hf]
  refine ⟨if f = 0 then 0 else cfLoop eps MAXITER (cfInit a x) * f, rfl, ?_⟩
  by_cases h0 : f = 0
  · right
    rw [if_pos h0]
    refine ⟨rfl, ?_⟩
    rcases hf2 with h | ⟨-, h⟩
    · exfalso
      rw [h0, zero_sub, abs_neg, abs_of_pos hF0] at h
      have h5 : 0 < F * (1 - 1 / 10 ^ 14) := mul_pos hF0 (by norm_num)
      linarith
    · rw [hQ]
      have := cfT_le_one hx1 hax
      calc F * cfK x 0 (a - 1) ≤ F * 1 := mul_le_mul_of_nonneg_left this hF0.le
        _ ≤ 1 / 10 ^ 300 := by rw [mul_one]; exact h.le.trans exp_underflow
  · left
    rw [if_neg h0]
    have h1 : |f - F| ≤ 1 / 10 ^ 14 * F := by
      rcases hf2 with h | ⟨h, -⟩
      · exact h
      · exact absurd h h0
    obtain ⟨n, -, hn2, e, hstop⟩ := cfLoop_spec ha hax eps MAXITER 0 (cfInit_inv a x)
    have hn : n ≤ 2000 := by simpa [MAXITER] using hn2
    have hacc : |cfr a x (n + 1) - cfK x 0 (a - 1)| ≤ 83 * eps * cfK x 0 (a - 1) ∧
      |cfr a x (n + 1)| ≤ 1.83 * cfK x 0 (a - 1) := by
      rcases hstop with ⟨h, h'⟩ | ⟨-, h⟩
      · exfalso
        have h3 : n = 2000 := by simpa [MAXITER] using h
        rw [h3] at h'
        exact h' (by norm_num [MAXITER]) (cfTest_final ha ha2 hax hx1 he)
      · exact cf_accurate ha hax hx1 he1 hn h
    rw [e, hQ]
    set T := cfK x 0 (a - 1)
    set r := cfr a x (n + 1)
    have e2 : r * f - F * T = (f - F) * r + F * (r - T) := by ring
    rw [e2]
    refine (abs_add_le _ _).trans ?_
    rw [abs_mul, abs_mul, abs_of_pos hF0]
    have h2 : |f - F| * |r| ≤ 1 / 10 ^ 14 * F * (1.83 * T) :=
      mul_le_mul h1 hacc.2 (abs_nonneg _) (by positivity)
    have h3 : F * |r - T| ≤ F * (83 * eps * T) := mul_le_mul_of_nonneg_left hacc.1 hF0.le
    have h4 : 0 < F * T := mul_pos hF0 hT
    have h5 : 0 < eps * (F * T) := mul_pos heps h4
    norm_num at h2 ⊢
    nlinarith

/-- **C102.** In its continued-fraction regime (`x > 1.1`, `x ≥ a`, outside the band around
`x = a`), for every `0 < a ≤ 2000`, the loop ends by its own test within `MAXITER` steps and
`gammaincc` returns `Q(a,x)` with relative error at most `2·10⁻¹⁴ + 100 eps`; the only exception is
an underflow to 0 when `Q(a,x) ≤ 10⁻³⁰⁰`. -/
theorem C102_gammaincc_cf {eps a x : ℝ} (d : ℕ → ℕ → ℝ) (ha : 0 < a) (ha2 : a ≤ 2000)
    (hx : 1.1 < x) (hax : a ≤ x) (he : 1 / 2 ^ 52 ≤ eps) (he1 : eps ≤ 1 / 100)
    (has : ¬ asymRegime a x) :
    ∃ v, gammaincc eps d a x = some v ∧
      (|v - incQ a x| ≤ (2 / 10 ^ 14 + 100 * eps) * incQ a x ∨
        v = 0 ∧ incQ a x ≤ 1 / 10 ^ 300) := by
  have hx1 : 1 ≤ x := by norm_num at hx; linarith
  have e : gammaincc eps d a x = igamcCF eps a x := by
    unfold gammaincc
    rw [if_neg (by push Not; exact ⟨by linarith, ha.le⟩), if_neg ha.ne',
      if_neg (by linarith : x ≠ 0), if_neg has, if_pos hx, if_neg (not_lt.2 hax)]
  rw [e]
  exact igamcCF_spec ha hax hx1 he he1 ha2

example : ¬ asymRegime 3 4 ∧ (1.1 : ℝ) < 4 := by unfold asymRegime; norm_num

/-- **C102, soundness of the stopping rule for every `a`.** Whenever two consecutive convergents of
the continued fraction agree to a relative `eps`, the later one is within a relative `83 eps` of the
limit `Q(a,x) Γ(a) e^x / x^a` (`A n / B n` are the convergents computed by the loop, up to the
common rescaling by `BIGINV`). -/
theorem C102_stop_sound {eps a x : ℝ} (ha : 0 < a) (hax : a ≤ x) (hx1 : 1 ≤ x)
    (he1 : eps ≤ 1 / 100) {n : ℕ} (hn : n ≤ 2000) (hr : cfA a x (n + 1) ≠ 0)
    (ht : |cfA a x n / cfB a x n - cfA a x (n + 1) / cfB a x (n + 1)| ≤
      eps * |cfA a x (n + 1) / cfB a x (n + 1)|) :
    |cfA a x (n + 1) / cfB a x (n + 1) * (x ^ a * exp (-x) / Gamma a) - incQ a x| ≤
      83 * eps * incQ a x := by
  have hx : 0 < x := by linarith
  have hG := Gamma_pos_of_pos ha
  have hB := cfB_pos ha hax (n + 1)
  have hr' : cfr a x (n + 1) ≠ 0 := div_ne_zero hr hB.ne'
  have h := (cf_accurate ha hax hx1 he1 hn
    ⟨hr', by rw [abs_div, div_le_iff₀ (abs_pos.2 hr')]; exact ht⟩).1
  rw [incQ_eq_cfK hx]
  have hF0 : 0 < x ^ a * exp (-x) / Gamma a := by positivity
  have e : cfA a x (n + 1) / cfB a x (n + 1) * (x ^ a * exp (-x) / Gamma a) -
      x ^ a * exp (-x) / Gamma a * cfK x 0 (a - 1) =
      x ^ a * exp (-x) / Gamma a * (cfr a x (n + 1) - cfK x 0 (a - 1)) := by rw [cfr]; ring
  rw [e, abs_mul, abs_of_pos hF0]
  calc _ ≤ x ^ a * exp (-x) / Gamma a * (83 * eps * cfK x 0 (a - 1)) :=
        mul_le_mul_of_nonneg_left h hF0.le
    _ = _ := by ring

/-- **C102, `gammainc` above the diagonal.** For `x > 1`, `x > a`, `10⁻²⁰⁰ ≤ a ≤ 2000`, `gammainc`
is within an absolute `2·10⁻¹⁴ + 100 eps` of `P(a,x)`. -/
theorem C102_gammainc_upper {eps a x : ℝ} (d : ℕ → ℕ → ℝ) (ha : 1 / 10 ^ 200 ≤ a) (ha2 : a ≤ 2000)
    (hx : 1 < x) (hax : a < x) (he : 1 / 2 ^ 52 ≤ eps) (he1 : eps ≤ 1 / 100)
    (has : ¬ asymRegime a x) :
    ∃ v, gammainc eps d a x = some v ∧ |v - incP a x| ≤ 2 / 10 ^ 14 + 100 * eps := by
  have ha0 : 0 < a := lt_of_lt_of_le (by positivity) ha
  have hx0 : 0 < x := by linarith
  have heps : 0 < eps := lt_of_lt_of_le (by positivity) he
  have hPQ := incP_add_incQ ha0 hx0.le
  have hQ1 := incQ_le_one ha0 hx0.le
  have hQ0 := incQ_nonneg ha0 hx0.le
  have e : gammainc eps d a x = (gammaincc eps d a x).map (1 - ·) := by
    unfold gammainc
    rw [if_neg (by push Not; exact ⟨hx0.le, ha0.le⟩), if_neg ha0.ne', if_neg hx0.ne', if_neg has,
      if_pos ⟨hx, hax⟩]
  rw [e]
  have key : ∃ v, gammaincc eps d a x = some v ∧ |v - incQ a x| ≤ 2 / 10 ^ 14 + 100 * eps := by
    rcases le_or_gt x 1.1 with h | h
    · obtain ⟨v, hv, h1, -⟩ := C101_gammaincc_series d ha (by linarith) hx0 he (by linarith) has
        (Or.inl h)
      refine ⟨v, hv, h1.trans ?_⟩
      have : (1 : ℝ) / 10 ^ 14 ≤ 2 / 10 ^ 14 := by norm_num
      linarith
    · obtain ⟨v, hv, h1⟩ := C102_gammaincc_cf d ha0 ha2 h hax.le he he1 has
      refine ⟨v, hv, ?_⟩
      rcases h1 with h1 | ⟨h1, h2⟩
      · exact h1.trans (mul_le_of_le_one_right (by positivity) hQ1)
      · rw [h1, zero_sub, abs_neg, abs_of_nonneg hQ0]
        refine h2.trans ?_
        have : (1 : ℝ) / 10 ^ 300 ≤ 2 / 10 ^ 14 := by
          refine (one_div_le_one_div_of_le (by positivity)
            (pow_le_pow_right₀ (by norm_num) (by norm_num : 14 ≤ 300))).trans ?_
          norm_num
        linarith
  obtain ⟨v, hv, h⟩ := key
  rw [hv]
  refine ⟨1 - v, rfl, ?_⟩
  have e2 : 1 - v - incP a x = -(v - incQ a x) := by linarith
  rw [e2, abs_neg]
  exact h

end Verif.Special
