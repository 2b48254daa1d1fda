import Verif.Ellred.ComplexZero

/-! # Arguments on different sides of the cut -/

namespace Verif.Ellred

open MeasureTheory Set Filter Topology Verif.Carlson

theorem csqrt_self_mul {a : ℂ} (ha : 0 < a.re) : csqrt (a * a) = a := by
  rw [csqrt_mul_of_re ha ha, csqrt_sq]

/-- The integral for arguments just above and just below -1. -/
theorem RCc_cut_large {s : ℝ} (hs : 0 < s) (hs1 : s ≤ 1 / 2) :
    1 / (20 * √s) ≤ ‖RCc (((s : ℂ) + Complex.I) * ((s : ℂ) + Complex.I)) (((s : ℂ) - Complex.I) * ((s : ℂ) - Complex.I))‖ := by
  set a : ℂ := (s : ℂ) + Complex.I with ha
  set b : ℂ := (s : ℂ) - Complex.I with hb
  have har : 0 < a.re := by simp [ha, hs]
  have hbr : 0 < b.re := by simp [hb, hs]
  have hd := RFc_dup (slit_mul_of_re har har) (slit_mul_of_re hbr hbr) (slit_mul_of_re hbr hbr)
  rw [dup_factor, dup_factor2, csqrt_self_mul har, csqrt_self_mul hbr] at hd
  have e1 : (a + b) * (a + b) / 4 = ((s ^ 2 : ℝ) : ℂ) := by simp only [ha, hb]; push_cast; ring
  have e2 : (a + b) * (b + b) / 4 = ((s ^ 2 : ℝ) : ℂ) - (s : ℂ) * Complex.I := by simp only [ha, hb]; push_cast; ring
  rw [e1, e2] at hd
  rw [RCc_eq_RFc, ← hd, ← RCc_eq_RFc, RCc]
  set w : ℂ := ((s ^ 2 : ℝ) : ℂ) - (s : ℂ) * Complex.I with hw
  have hwre : w.re = s ^ 2 := by simp [hw, ← Complex.ofReal_pow]
  have hwim : w.im = -s := by simp [hw, ← Complex.ofReal_pow]
  have hu : ((s ^ 2 : ℝ) : ℂ) ∈ Complex.slitPlane := re_slit (by rw [Complex.ofReal_re]; positivity)
  have hws : w ∈ Complex.slitPlane := re_slit (by rw [hwre]; positivity)
  have hint := (RC_dec hu hws).integrable (by norm_num)
  rw [norm_mul, show ‖(1 / 2 : ℂ)‖ = 1 / 2 by norm_num]
  have hre : ∀ t : ℝ, 0 < t → (1 / (csqrt ((t : ℂ) + ((s ^ 2 : ℝ) : ℂ)) * ((t : ℂ) + w))).re = √(t + s ^ 2) / ((t + s ^ 2) ^ 2 + s ^ 2) := by
    intro t ht
    have hp : 0 < t + s ^ 2 := by positivity
    have hsp : 0 < √(t + s ^ 2) := Real.sqrt_pos.mpr hp
    rw [← Complex.ofReal_add, csqrt_ofReal hp.le, ← one_div_mul_one_div, ← Complex.ofReal_one, ← Complex.ofReal_div, Complex.re_ofReal_mul,
      Complex.ofReal_one, one_div ((t : ℂ) + w), Complex.inv_re, Complex.normSq_apply, Complex.add_re, Complex.add_im, Complex.ofReal_re, Complex.ofReal_im,
      hwre, hwim]
    have hsq : √(t + s ^ 2) * √(t + s ^ 2) = t + s ^ 2 := Real.mul_self_sqrt hp.le
    field_simp
    rw [show √(t + s ^ 2) ^ 2 = t + s ^ 2 by rw [sq]; exact hsq]
    ring
  have h1 : 1 / (10 * √s) ≤ (∫ t in Ioi (0 : ℝ), 1 / (csqrt ((t : ℂ) + ((s ^ 2 : ℝ) : ℂ)) * ((t : ℂ) + w))).re := by
    have e : (∫ t in Ioi (0 : ℝ), 1 / (csqrt ((t : ℂ) + ((s ^ 2 : ℝ) : ℂ)) * ((t : ℂ) + w))).re =
        ∫ t in Ioi (0 : ℝ), (1 / (csqrt ((t : ℂ) + ((s ^ 2 : ℝ) : ℂ)) * ((t : ℂ) + w))).re := (integral_re hint).symm
    rw [e]
    have hint' : IntegrableOn (fun t : ℝ => (1 / (csqrt ((t : ℂ) + ((s ^ 2 : ℝ) : ℂ)) * ((t : ℂ) + w))).re) (Ioi 0) := hint.re
    have hsub : Ioc s (2 * s) ⊆ Ioi (0 : ℝ) := fun t ht => lt_trans hs ht.1
    calc 1 / (10 * √s) ≤ ∫ t in Ioc s (2 * s), √s / (10 * s ^ 2) := by
          rw [setIntegral_const, Measure.real, Real.volume_Ioc, ENNReal.toReal_ofReal (by linarith), smul_eq_mul]
          have hss : √s * √s = s := Real.mul_self_sqrt hs.le
          have : 0 < √s := Real.sqrt_pos.mpr hs
          rw [show (2 * s - s) * (√s / (10 * s ^ 2)) = √s / (10 * s) by field_simp; ring, div_le_div_iff₀ (by positivity) (by positivity)]
          nlinarith
      _ ≤ ∫ t in Ioc s (2 * s), (1 / (csqrt ((t : ℂ) + ((s ^ 2 : ℝ) : ℂ)) * ((t : ℂ) + w))).re := by
          refine setIntegral_mono_on (integrableOn_const (by simp)) (hint'.mono_set hsub) measurableSet_Ioc fun t ht => ?_
          have ht0 : 0 < t := lt_trans hs ht.1
          rw [hre t ht0]
          apply div_le_div₀ (Real.sqrt_nonneg _) (Real.sqrt_le_sqrt (by nlinarith [ht.1])) (by positivity)
          have h2 : t + s ^ 2 ≤ 3 * s := by nlinarith [ht.2]
          have h3 : 0 ≤ t + s ^ 2 := by positivity
          nlinarith
      _ ≤ _ := by
          refine setIntegral_mono_set hint' ?_ (HasSubset.Subset.eventuallyLE hsub)
          rw [EventuallyLE, ae_restrict_iff' measurableSet_Ioi]
          refine Eventually.of_forall fun t ht => ?_
          rw [hre t ht]
          have : 0 < t := ht
          simp only [Pi.zero_apply]
          positivity
  have h2 := h1.trans (Complex.re_le_norm _)
  have e : 1 / (20 * √s) = 1 / 2 * (1 / (10 * √s)) := by
    have : 0 < √s := Real.sqrt_pos.mpr hs
    field_simp; norm_num
  rw [e]
  linarith

/-- C145: without the condition on the angles the claim is false. For arguments just above and just below -1, `elliprc(x, y)` and
`elliprf(x, y, y)` return a number of modulus at most 2, whatever the size of the integral. -/
theorem C145_straddle {eps : ℝ} (h0 : 0 < eps) (h1 : eps ≤ 1) (M : ℝ) :
    ∃ x y : ℂ, x ∈ Complex.slitPlane ∧ y ∈ Complex.slitPlane ∧ ∃ v, elliprc eps x y = .val v ∧ elliprf eps x y y = .val v ∧ ‖v‖ ≤ 2 ∧
      M ≤ ‖RCc x y‖ ∧ M ≤ ‖RFc x y y‖ := by
  have hE : 0 < EPS eps := by unfold EPS; positivity
  have hE1 : EPS eps ≤ 1 / 1000000 := by unfold EPS; linarith
  obtain ⟨ε, hε0, hε4, hε6, hκ⟩ := tolerance (b := 3 * EPS eps) (by positivity) (by linarith)
  obtain ⟨s, hs, hs1, hsM⟩ : ∃ s : ℝ, 0 < s ∧ s ≤ ε / 4 ∧ M ≤ 1 / (20 * √s) := by
    refine ⟨min (ε / 4) (1 / (20 * (|M| + 1)) ^ 2), by positivity, min_le_left _ _, ?_⟩
    have hp : 0 < min (ε / 4) (1 / (20 * (|M| + 1)) ^ 2) := by positivity
    have h2 : √(min (ε / 4) (1 / (20 * (|M| + 1)) ^ 2)) ≤ 1 / (20 * (|M| + 1)) := by
      rw [← Real.sqrt_sq (show 0 ≤ 1 / (20 * (|M| + 1)) by positivity), div_pow, one_pow]
      exact Real.sqrt_le_sqrt (min_le_right _ _)
    have h3 := Real.sqrt_pos.mpr hp
    rw [le_div_iff₀ (by positivity)]
    have h4 : M * (20 * √(min (ε / 4) (1 / (20 * (|M| + 1)) ^ 2))) ≤ (|M| + 1) * (20 * (1 / (20 * (|M| + 1)))) := by
      apply mul_le_mul (by linarith [le_abs_self M]) (by linarith) (by positivity) (by positivity)
    refine h4.trans (le_of_eq ?_)
    have : |M| + 1 ≠ 0 := by positivity
    field_simp
  have hs2 : s ≤ 1 / 16 := by linarith
  set a : ℂ := (s : ℂ) + Complex.I with ha
  set b : ℂ := (s : ℂ) - Complex.I with hb
  have har : 0 < a.re := by simp [ha, hs]
  have hbr : 0 < b.re := by simp [hb, hs]
  have hlarge := hsM.trans (RCc_cut_large hs (by linarith))
  have hx := slit_mul_of_re har har
  have hy := slit_mul_of_re hbr hbr
  refine ⟨a * a, b * b, hx, hy, ?_⟩
  have hA : cA0 (a * a) (b * b) = ((s ^ 2 - 1 : ℝ) : ℂ) + ((-(2 / 3 * s) : ℝ) : ℂ) * Complex.I := by
    simp only [cA0, ha, hb]
    push_cast
    linear_combination Complex.I_sq
  have hAn : 3 / 4 ≤ ‖cA0 (a * a) (b * b)‖ := by
    have hre : (cA0 (a * a) (b * b)).re = s ^ 2 - 1 := by rw [hA]; simp [← Complex.ofReal_pow]
    have := Complex.abs_re_le_norm (cA0 (a * a) (b * b))
    rw [hre, abs_of_nonpos (by nlinarith)] at this
    nlinarith
  have hAx : ‖cA0 (a * a) (b * b) - a * a‖ = 8 / 3 * s := by
    have e : cA0 (a * a) (b * b) - a * a = ((-(8 / 3 * s) : ℝ) : ℂ) * Complex.I := by
      simp only [cA0, ha, hb]
      push_cast
      ring
    rw [e, norm_mul, Complex.norm_I, Complex.norm_real, mul_one, Real.norm_eq_abs, abs_neg, abs_of_pos (by positivity)]
  have hAy : ‖b * b - cA0 (a * a) (b * b)‖ = 4 / 3 * s := by
    have e : b * b - cA0 (a * a) (b * b) = ((-(4 / 3 * s) : ℝ) : ℂ) * Complex.I := by
      simp only [cA0, ha, hb]
      push_cast
      ring
    rw [e, norm_mul, Complex.norm_I, Complex.norm_real, mul_one, Real.norm_eq_abs, abs_neg, abs_of_pos (by positivity)]
  have hQ0 : cQ eps (a * a) (b * b) ≤ ‖cA0 (a * a) (b * b)‖ := by
    rw [cQ, hκ, hAx]
    have : 1 / ε * (8 / 3 * s) ≤ 2 / 3 := by
      rw [div_mul_eq_mul_div, one_mul, div_le_iff₀ hε0]; linarith
    linarith
  have hcore : elliprc eps (a * a) (b * b) = elliprcCore eps (a * a) (b * b) := by
    rw [elliprc, if_neg (Complex.slitPlane_ne_zero hy), if_neg (Complex.slitPlane_ne_zero hx), if_neg]
    rintro ⟨e1, e2⟩
    rcases Complex.mem_slitPlane_iff.mp hy with hh | hh
    · exact absurd hh (not_lt.mpr e2.le)
    · exact hh e1
  have hF : elliprf eps (a * a) (b * b) (b * b) = elliprc eps (a * a) (b * b) := by rw [elliprf, if_pos rfl]
  obtain ⟨k, hk, -, hmin⟩ := loopWhile_spec (cond := fun st : CState => st.pow4 * cQ eps (a * a) (b * b) > ‖st.A‖)
    (step := cStep) (s := ⟨a * a, b * b, cA0 (a * a) (b * b), 1⟩) ⟨0, by simpa using hQ0⟩
  have hk0 : k = 0 := by
    by_contra hne
    have := hmin 0 (Nat.pos_of_ne_zero hne)
    simp only [Function.iterate_zero, id, one_mul] at this
    exact absurd this (not_lt.mpr hQ0)
  subst hk0
  rw [hF, hcore, elliprcCore, hk]
  refine ⟨_, rfl, rfl, ?_, hlarge, by rw [← RCc_eq_RFc]; exact hlarge⟩
  simp only [Function.iterate_zero, id, Complex.ofReal_one, mul_one]
  set σ : ℂ := (b * b - cA0 (a * a) (b * b)) / cA0 (a * a) (b * b) with hσ
  have bσ : ‖σ‖ ≤ 1 / 8 := by
    rw [hσ, norm_div, hAy, div_le_iff₀ (by linarith)]
    linarith
  have bP : ‖cPoly σ‖ ≤ 5 / 4 := by
    have e : cPoly σ = 1 + (3 / 10 * σ ^ 2 + 1 / 7 * σ ^ 3 + 3 / 8 * σ ^ 4 + 9 / 22 * σ ^ 5 + 159 / 208 * σ ^ 6 + 9 / 8 * σ ^ 7) := by
      simp only [cPoly]; ring
    have hpow : ∀ (c : ℂ) (n : ℕ), ‖c‖ ≤ 2 → ‖c * σ ^ (n + 2)‖ ≤ 1 / 32 := by
      intro c n hc
      rw [norm_mul, norm_pow]
      have : ‖σ‖ ^ (n + 2) ≤ (1 / 8) ^ 2 :=
        (pow_le_pow_of_le_one (norm_nonneg _) (by linarith) (by omega : 2 ≤ n + 2)).trans (pow_le_pow_left₀ (norm_nonneg _) bσ 2)
      calc _ ≤ 2 * (1 / 8 : ℝ) ^ 2 := by gcongr
        _ = _ := by norm_num
    rw [e]
    refine (norm_add_le _ _).trans ?_
    rw [norm_one]
    have := hpow (3 / 10) 0 (by norm_num)
    have := hpow (1 / 7) 1 (by norm_num)
    have := hpow (3 / 8) 2 (by norm_num)
    have := hpow (9 / 22) 3 (by norm_num)
    have := hpow (159 / 208) 4 (by norm_num)
    have := hpow (9 / 8) 5 (by norm_num)
    have hn : ‖3 / 10 * σ ^ 2 + 1 / 7 * σ ^ 3 + 3 / 8 * σ ^ 4 + 9 / 22 * σ ^ 5 + 159 / 208 * σ ^ 6 + 9 / 8 * σ ^ 7‖ ≤
        1 / 32 + 1 / 32 + 1 / 32 + 1 / 32 + 1 / 32 + 1 / 32 := by
      refine (norm_add_le _ _).trans (add_le_add ((norm_add_le _ _).trans (add_le_add ((norm_add_le _ _).trans (add_le_add
        ((norm_add_le _ _).trans (add_le_add ((norm_add_le _ _).trans (add_le_add ?_ ?_)) ?_)) ?_)) ?_)) ?_) <;> assumption
    linarith
  rw [norm_div, norm_csqrt]
  have hr : 3 / 4 ≤ ‖cA0 (a * a) (b * b)‖ ^ (1 / 2 : ℝ) := by
    rw [← Real.sqrt_eq_rpow]
    apply Real.le_sqrt_of_sq_le
    linarith
  rw [div_le_iff₀ (by linarith)]
  linarith

end Verif.Ellred
