import Verif.Special.TGammaThree

/-!
# `Tgamma(3, a, x)` as the step tends to zero (C111)
-/

open Filter Topology Complex

namespace Verif.Special

/-! ### Bounds on rising factorials -/

theorem rising_le {x : ℂ} {r : ℝ} (h : ∀ k : ℕ, ‖x + k‖ ≤ r * (k + 1)) (n : ℕ) :
    ‖rising x n‖ ≤ r ^ n * n.factorial := by
  induction n with
  | zero => simp [rising]
  | succ n ih =>
    rw [rising_succ, norm_mul, Nat.factorial_succ]
    have h0 : 0 ≤ r ^ n * n.factorial := (norm_nonneg _).trans ih
    calc _ ≤ r ^ n * n.factorial * (r * (n + 1)) := mul_le_mul ih (h n) (norm_nonneg _) h0
      _ = _ := by push_cast; ring

theorem rising_ge {x : ℂ} {r : ℝ} (hr : 0 ≤ r) (h : ∀ k : ℕ, r * (k + 1) ≤ ‖x + k‖) (n : ℕ) :
    r ^ n * n.factorial ≤ ‖rising x n‖ := by
  induction n with
  | zero => simp [rising]
  | succ n ih =>
    rw [rising_succ, norm_mul, Nat.factorial_succ]
    calc _ = r ^ n * n.factorial * (r * (n + 1)) := by push_cast; ring
      _ ≤ _ := mul_le_mul ih (h n) (by positivity) (norm_nonneg _)

/-- `(x)_n` is small with `x`. -/
theorem rising_small {x : ℂ} (hx : ‖x‖ ≤ 1) {n : ℕ} (hn : 1 ≤ n) : ‖rising x n‖ ≤ ‖x‖ * n.factorial := by
  induction n, hn using Nat.le_induction with
  | base => simp [rising]
  | succ n hn ih =>
    rw [rising_succ, norm_mul, Nat.factorial_succ]
    have h1 : ‖x + n‖ ≤ n + 1 := (norm_add_le _ _).trans (by
      rw [Complex.norm_natCast]; linarith)
    calc _ ≤ ‖x‖ * n.factorial * (n + 1) := mul_le_mul ih h1 (norm_nonneg _) (by positivity)
      _ = _ := by push_cast; ring

/-- A number that is not a pole stays away from all poles, in proportion. -/
theorem away_from_poles {c : ℂ} (hc : ∀ k : ℕ, c ≠ -(k : ℂ)) :
    ∃ r : ℝ, 0 < r ∧ ∀ w : ℂ, ‖w‖ ≤ r → ∀ k : ℕ, r * (k + 1) ≤ ‖c + w + k‖ := by
  have hne : ∀ k : ℕ, c + k ≠ 0 := fun k e => hc k (eq_neg_of_add_eq_zero_left e)
  have ht : Tendsto (fun k : ℕ => ((1 : ℂ) + 1 * k) / (c + 1 * k)) atTop (𝓝 (1 / 1)) :=
    tendsto_add_mul_div_add_mul_atTop_nhds (𝕜 := ℂ) 1 c 1 one_ne_zero
  obtain ⟨B, hB⟩ := ht.norm.bddAbove_range
  have hB' : ∀ k : ℕ, (k + 1 : ℝ) ≤ B * ‖c + k‖ := by
    intro k
    have := hB ⟨k, rfl⟩
    simp only [one_mul, norm_div] at this
    rw [div_le_iff₀ (norm_pos_iff.2 (hne k))] at this
    rw [show (1 : ℂ) + k = ((k + 1 : ℝ) : ℂ) by push_cast; ring, norm_real, Real.norm_eq_abs,
      abs_of_nonneg (by positivity)] at this
    exact this
  have hB0 : 0 < B := by
    have h0 := hB' 0
    have := norm_nonneg (c + (0 : ℕ))
    by_contra hcon
    push Not at hcon
    have := mul_nonpos_of_nonpos_of_nonneg hcon this
    simp only [Nat.cast_zero] at h0 this
    linarith
  refine ⟨1 / (2 * B), by positivity, fun w hw k => ?_⟩
  have h1 : 1 / B * (k + 1) ≤ ‖c + k‖ := by
    rw [div_mul_eq_mul_div, one_mul, div_le_iff₀ hB0, mul_comm]; exact hB' k
  have h2 : ‖c + k‖ ≤ ‖c + w + k‖ + ‖w‖ := by
    have := norm_sub_le (c + w + k) w
    rwa [show c + w + k - w = c + k by ring] at this
  have hk : (0 : ℝ) ≤ k := by positivity
  have h3 : 1 / (2 * B) ≤ 1 / (2 * B) * (k + 1) := le_mul_of_one_le_right (by positivity) (by linarith)
  have h4 : 1 / B = 1 / (2 * B) + 1 / (2 * B) := by field_simp; norm_num
  rw [h4, add_mul] at h1
  linarith

/-! ### The series with two small upper parameters -/

theorem hypTerm_two (u v s t z : ℂ) (n : ℕ) : hypTerm [u, v] [s, t] z n =
    rising u n * rising v n / (rising s n * rising t n) * z ^ n / n.factorial := by
  simp [hypTerm]

/-- `₂F₂(u, v; s, t; z) = 1 + O(u v)`. -/
theorem hyp_small {u v s t z : ℂ} {r : ℝ} (hr : 0 < r) (hu : ‖u‖ ≤ 1) (hv : ‖v‖ ≤ 1)
    (hs : ∀ k : ℕ, r * (k + 1) ≤ ‖s + k‖) (ht : ∀ k : ℕ, r * (k + 1) ≤ ‖t + k‖) :
    ‖(∑' n, hypTerm [u, v] [s, t] z n) - 1‖ ≤ ‖u‖ * ‖v‖ * Real.exp (‖z‖ / r ^ 2) := by
  have hb : ∀ n : ℕ, 1 ≤ n → ‖hypTerm [u, v] [s, t] z n‖ ≤
      ‖u‖ * ‖v‖ * ((‖z‖ / r ^ 2) ^ n / n.factorial) := by
    intro n hn
    rw [hypTerm_two, norm_div, norm_mul, norm_div, norm_mul, norm_mul, norm_pow, Complex.norm_natCast]
    have h1 := rising_small hu hn
    have h2 := rising_small hv hn
    have h3 := rising_ge hr.le hs n
    have h4 := rising_ge hr.le ht n
    have hf : (0 : ℝ) < n.factorial := by positivity
    calc _ ≤ (‖u‖ * n.factorial) * (‖v‖ * n.factorial) /
          ((r ^ n * n.factorial) * (r ^ n * n.factorial)) * ‖z‖ ^ n / n.factorial := by gcongr
      _ = _ := by
        rw [div_pow, ← pow_mul, mul_comm 2 n, pow_mul]
        field_simp
  have hsum : Summable fun n : ℕ => ‖u‖ * ‖v‖ * ((‖z‖ / r ^ 2) ^ n / n.factorial) :=
    (Real.summable_pow_div_factorial _).mul_left _
  have hs1 : Summable fun n => hypTerm [u, v] [s, t] z (n + 1) :=
    Summable.of_norm_bounded ((summable_nat_add_iff 1).2 hsum) fun n => hb (n + 1) (by omega)
  have hs0 : Summable (hypTerm [u, v] [s, t] z) := (summable_nat_add_iff 1).1 hs1
  rw [hs0.tsum_eq_zero_add, hypTerm_zero, add_sub_cancel_left]
  have h1 : ‖∑' n, hypTerm [u, v] [s, t] z (n + 1)‖ ≤
      ∑' n : ℕ, ‖u‖ * ‖v‖ * ((‖z‖ / r ^ 2) ^ (n + 1) / (n + 1).factorial) :=
    tsum_of_norm_bounded ((summable_nat_add_iff 1).2 hsum).hasSum fun n => hb (n + 1) (by omega)
  refine h1.trans ?_
  have h2 := hsum.tsum_eq_zero_add
  have h3 : ∑' n : ℕ, ‖u‖ * ‖v‖ * ((‖z‖ / r ^ 2) ^ n / n.factorial) =
      ‖u‖ * ‖v‖ * Real.exp (‖z‖ / r ^ 2) := by
    rw [tsum_mul_left, Real.exp_eq_exp_ℝ, NormedSpace.exp_eq_tsum_div]
  rw [← h3, h2]
  have : 0 ≤ ‖u‖ * ‖v‖ * ((‖z‖ / r ^ 2) ^ 0 / (Nat.factorial 0)) := by positivity
  linarith

/-- `(₂F₂(p h, q h; c + w h, 1 + y h; z) - 1) / h → 0`. -/
theorem hyp_small_tendsto {c : ℂ} (hc : ∀ k : ℕ, c ≠ -(k : ℂ)) (p q w y : ℝ) (z : ℂ) :
    Tendsto (fun h : ℝ => ((∑' n, hypTerm [p * (h : ℂ), q * h] [c + w * h, 1 + y * h] z n) - 1) / (h : ℂ))
      (𝓝[>] 0) (𝓝 0) := by
  obtain ⟨r, hr, hr1⟩ := away_from_poles hc
  obtain ⟨r', hr', hr1'⟩ := away_from_poles (c := 1) fun k e => by
    have := congrArg re e; simp at this; have h : (0 : ℝ) ≤ k := by positivity
    linarith
  have small : ∀ (s : ℝ) {t : ℝ}, 0 < t → ∀ᶠ h : ℝ in 𝓝[>] 0, ‖(s : ℂ) * h‖ ≤ t := by
    intro s t ht
    have h1 : Tendsto (fun h : ℝ => ‖(s : ℂ) * h‖) (𝓝[>] 0) (𝓝 0) := by
      have : Continuous fun h : ℝ => ‖(s : ℂ) * h‖ := by fun_prop
      have h2 := this.tendsto 0
      simp only [ofReal_zero, mul_zero, norm_zero] at h2
      exact h2.mono_left nhdsWithin_le_nhds
    exact h1.eventually (ge_mem_nhds ht)
  set m := min r r' with hm
  have hm0 : 0 < m := lt_min hr hr'
  rw [tendsto_zero_iff_norm_tendsto_zero]
  have hlim : Tendsto (fun h : ℝ => |p| * |q| * h * Real.exp (‖z‖ / m ^ 2)) (𝓝[>] 0) (𝓝 0) := by
    have : Continuous fun h : ℝ => |p| * |q| * h * Real.exp (‖z‖ / m ^ 2) := by fun_prop
    have h2 := this.tendsto 0
    simp only [mul_zero, zero_mul] at h2
    exact h2.mono_left nhdsWithin_le_nhds
  refine squeeze_zero' (Eventually.of_forall fun h => norm_nonneg _) ?_ hlim
  filter_upwards [small p one_pos, small q one_pos, small w hr, small y hr', self_mem_nhdsWithin]
    with h hp hq hw hy h0
  have h0 : 0 < h := h0
  have := hyp_small (z := z) hm0 hp hq (fun k => le_trans (by gcongr; exact min_le_left _ _) (hr1 _ hw k))
    (fun k => le_trans (by gcongr; exact min_le_right _ _) (hr1' _ hy k))
  rw [norm_div, norm_real, Real.norm_eq_abs, abs_of_pos h0, div_le_iff₀ h0]
  refine this.trans (le_of_eq ?_)
  rw [norm_mul, norm_mul, norm_real, norm_real, norm_real, Real.norm_eq_abs, Real.norm_eq_abs,
    Real.norm_eq_abs, abs_of_pos h0]
  ring

/-! ### The first term -/

theorem rising_pos_norm {y : ℝ} (hy : 0 < y) (n : ℕ) :
    ‖rising (y : ℂ) n‖ = ∏ k ∈ Finset.range n, (y + k) := by
  rw [rising, norm_prod]
  refine Finset.prod_congr rfl fun k _ => ?_
  rw [← ofReal_natCast, ← ofReal_add, norm_real, Real.norm_eq_abs, abs_of_pos (by positivity)]

theorem rising_ratio_le {y w : ℝ} (hy : 0 < y) (hw : y ≤ w) (n : ℕ) :
    ‖rising (y : ℂ) n‖ ≤ ‖rising (w : ℂ) n‖ := by
  rw [rising_pos_norm hy, rising_pos_norm (hy.trans_le hw)]
  refine Finset.prod_le_prod (fun k _ => by positivity) fun k _ => by linarith

theorem rising_continuous (n : ℕ) : Continuous fun x => rising x n := by
  unfold rising
  exact continuous_finsetProd _ fun k _ => by fun_prop

theorem rising_ne_zero {y : ℝ} (hy : 0 < y) (n : ℕ) : rising (y : ℂ) n ≠ 0 := by
  rw [← norm_ne_zero_iff, rising_pos_norm hy]
  exact (Finset.prod_pos fun k _ => by positivity).ne'

theorem rising_quot_real {a : ℝ} (ha : 0 < a) (n : ℕ) :
    rising (a : ℂ) n / rising ((a : ℂ) + 1) n = a / (a + n) := by
  have hne : ∀ k : ℕ, (a : ℂ) + k ≠ 0 := fun k e => by
    have := congrArg re e
    simp at this
    have h : (0 : ℝ) ≤ k := by positivity
    linarith
  induction n with
  | zero => simp [rising, ofReal_ne_zero.2 ha.ne']
  | succ n ih =>
    rw [rising_succ, rising_succ, mul_div_mul_comm, ih]
    have h1 := hne n
    have h2 := hne (n + 1)
    push_cast at h2 ⊢
    have h3 : (a : ℂ) + 1 + n ≠ 0 := by rwa [show (a : ℂ) + 1 + n = a + (n + 1) by ring]
    field_simp
    ring

theorem hyp_first_tendsto {a x : ℝ} (ha : 0 < a) (hx : 0 < x) :
    Tendsto (fun h : ℝ => ∑' n, hypTerm [(a : ℂ) + 2 * h, a + h] [(a : ℂ) + 1 - h, a + 1 - 2 * h] (-(x : ℂ)) n)
      (𝓝[>] 0) (𝓝 ((a ^ 2 * ∑' n, sqTerm a x n : ℝ) : ℂ)) := by
  have hlim : ∀ n, Tendsto (fun h : ℝ =>
      hypTerm [(a : ℂ) + 2 * h, a + h] [(a : ℂ) + 1 - h, a + 1 - 2 * h] (-(x : ℂ)) n) (𝓝[>] 0)
      (𝓝 ((a ^ 2 * sqTerm a x n : ℝ) : ℂ)) := by
    intro n
    have hc : ContinuousAt (fun h : ℝ =>
        hypTerm [(a : ℂ) + 2 * h, a + h] [(a : ℂ) + 1 - h, a + 1 - 2 * h] (-(x : ℂ)) n) 0 := by
      simp only [hypTerm_two]
      refine ContinuousAt.div_const (ContinuousAt.mul (ContinuousAt.div ?_ ?_ ?_) continuousAt_const) _
      · exact (((rising_continuous n).comp (by fun_prop : Continuous fun h : ℝ => (a : ℂ) + 2 * h)).mul
          ((rising_continuous n).comp (by fun_prop : Continuous fun h : ℝ => (a : ℂ) + h))).continuousAt
      · exact (((rising_continuous n).comp (by fun_prop : Continuous fun h : ℝ => (a : ℂ) + 1 - h)).mul
          ((rising_continuous n).comp (by fun_prop : Continuous fun h : ℝ => (a : ℂ) + 1 - 2 * h))).continuousAt
      · have : rising ((a : ℂ) + 1) n ≠ 0 := by
          have := rising_ne_zero (y := a + 1) (by linarith) n
          push_cast at this
          exact this
        simpa using this
    have h1 := hc.tendsto.mono_left (nhdsWithin_le_nhds (s := Set.Ioi 0))
    convert h1 using 2
    rw [hypTerm_two]
    simp only [ofReal_zero, mul_zero, add_zero, sub_zero]
    rw [mul_div_mul_comm, rising_quot_real ha, sqTerm]
    push_cast
    have hn0 : (a : ℂ) + n ≠ 0 := fun e => by
      have := congrArg re e
      simp at this
      have h : (0 : ℝ) ≤ n := by positivity
      linarith
    field_simp
  have hT := tendsto_tsum_of_dominated_convergence (β := ℕ) (𝓕 := 𝓝[>] (0 : ℝ))
    (f := fun (h : ℝ) n => hypTerm [(a : ℂ) + 2 * h, a + h] [(a : ℂ) + 1 - h, a + 1 - 2 * h] (-(x : ℂ)) n)
    (g := fun n => ((a ^ 2 * sqTerm a x n : ℝ) : ℂ)) (bound := fun n : ℕ => x ^ n / n.factorial)
    (Real.summable_pow_div_factorial x) hlim ?_
  · convert hT using 2
    rw [← tsum_mul_left, ofReal_tsum]
  · have h1 : ∀ᶠ h : ℝ in 𝓝[>] 0, h ≤ 1 / 3 :=
      (ge_mem_nhds (by norm_num : (0 : ℝ) < 1 / 3)).filter_mono nhdsWithin_le_nhds
    filter_upwards [h1, self_mem_nhdsWithin] with h hh h0 n
    have h0 : 0 < h := h0
    rw [hypTerm_two, norm_div, norm_mul, norm_pow, norm_neg, norm_real, Real.norm_eq_abs, abs_of_pos hx,
      Complex.norm_natCast]
    have e1 := rising_ratio_le (y := a + 2 * h) (w := a + 1 - h) (by linarith) (by linarith) n
    have e2 := rising_ratio_le (y := a + h) (w := a + 1 - 2 * h) (by linarith) (by linarith) n
    push_cast at e1 e2
    have : ‖rising ((a : ℂ) + 2 * h) n * rising ((a : ℂ) + h) n /
        (rising ((a : ℂ) + 1 - h) n * rising ((a : ℂ) + 1 - 2 * h) n)‖ ≤ 1 := by
      rw [norm_div, norm_mul, norm_mul]
      exact div_le_one_of_le₀ (mul_le_mul e1 e2 (norm_nonneg _) (norm_nonneg _)) (by positivity)
    calc _ ≤ 1 * x ^ n / n.factorial := by gcongr
      _ = _ := by rw [one_mul]

/-! ### The other two terms -/

theorem gamma_diff {y : ℝ} (hy : 0 < y) : HasDerivAt Real.Gamma (deriv Real.Gamma y) y :=
  (Real.differentiableAt_Gamma fun m e => by
    have : (0 : ℝ) ≤ m := by positivity
    linarith).hasDerivAt

theorem gamma_lin_diff {y : ℝ} (hy : 0 < y) (s : ℝ) :
    HasDerivAt (fun h => Real.Gamma (y + s * h)) (deriv Real.Gamma y * s) 0 := by
  have h1 : HasDerivAt (fun h : ℝ => y + s * h) s 0 := by
    simpa using ((hasDerivAt_id (0 : ℝ)).const_mul s).const_add y
  have h2 : HasDerivAt Real.Gamma (deriv Real.Gamma y) (y + s * 0) := by
    rw [mul_zero, add_zero]; exact gamma_diff hy
  exact h2.comp 0 h1

/-- `Γ(a+s h) Γ(1+t h) / (Γ(1+u h) Γ(1+v h)) x^(w h - 1)` -/
noncomputable def prefac (a x s t u v w h : ℝ) : ℝ :=
  Real.Gamma (a + s * h) * Real.Gamma (1 + t * h) / (Real.Gamma (1 + u * h) * Real.Gamma (1 + v * h)) *
    x ^ (w * h - 1)

theorem prefac_deriv {a x : ℝ} (ha : 0 < a) (hx : 0 < x) (s t u v w : ℝ) :
    HasDerivAt (prefac a x s t u v w)
      ((deriv Real.Gamma a * s + Real.Gamma a * (deriv Real.Gamma 1 * (t - u - v) + w * Real.log x)) / x) 0 := by
  have hg := gamma_lin_diff ha s
  have ht := gamma_lin_diff one_pos t
  have hu := gamma_lin_diff one_pos u
  have hv := gamma_lin_diff one_pos v
  have hw : HasDerivAt (fun h : ℝ => w * h - 1) w 0 := by
    simpa using ((hasDerivAt_id (0 : ℝ)).const_mul w).sub_const 1
  have h := ((hg.mul ht).div (hu.mul hv) (by simp)).mul (hw.const_rpow hx)
  refine h.congr_deriv ?_
  simp only [Pi.mul_apply, mul_zero, add_zero, Real.Gamma_one, zero_sub, Real.rpow_neg_one, mul_one, one_mul,
    one_pow, div_one, Pi.div_apply]
  field_simp
  ring

theorem prefac_zero (a x s t u v w : ℝ) : prefac a x s t u v w 0 = Real.Gamma a / x := by
  simp [prefac, Real.rpow_neg_one, div_eq_mul_inv]

theorem prefac_cast (x : ℝ) (hx : 0 < x) (a s t u v w h : ℝ) : ((prefac a x s t u v w h : ℝ) : ℂ) =
    Gamma ((a : ℂ) + s * h) * Gamma (1 + t * h) / (Gamma (1 + u * h) * Gamma (1 + v * h)) *
      (x : ℂ) ^ ((w : ℂ) * h - 1) := by
  rw [prefac, ofReal_mul, ofReal_div, ofReal_mul, ofReal_mul, ← Gamma_ofReal, ← Gamma_ofReal,
    ← Gamma_ofReal, ← Gamma_ofReal, ofReal_cpow hx.le]
  push_cast
  rfl

/-- Specification: exact gamma function and exact hypergeometric series. -/
noncomputable def exactGam (z : ℂ) : Option ℂ := some (Gamma z)

/-- Specification: the sum of the hypergeometric series. -/
noncomputable def exactHyp (as bs : List ℂ) (z : ℂ) : Option ℂ := some (∑' n, hypTerm as bs z n)

/-- **C111 (m = 3), partial.** With exact gamma functions and series, the value of `Tgamma(3, a, x)` tends
to `T(3, a, x)` as the step of the perturbation tends to `0`. -/
theorem C111_Tgamma_three_partial (eps : ℝ) {a x : ℝ} (ha : 0 < a) (hn : ∀ n : ℕ, a ≠ n) (hx : 0 < x) :
    ∃ V : ℝ → ℂ, (∀ h > 0, TgammaWith exactGam exactHyp eps h 3 a x = .ok (some (V h))) ∧
      Tendsto V (𝓝[>] 0) (𝓝 (TInt 3 a x)) := by
  have hgv : gv exactGam = Gamma := by funext z; simp [gv, exactGam]
  set F0 : ℝ → ℂ := fun h => ∑' n, hypTerm [(a : ℂ) + 2 * h, a + h] [(a : ℂ) + 1 - h, a + 1 - 2 * h] (-(x : ℂ)) n with hF0
  set F1 : ℝ → ℂ := fun h => ∑' n, hypTerm [3 * (h : ℂ), 2 * h] [1 - (a : ℂ) + h, 1 - h] (-(x : ℂ)) n with hF1
  set F2 : ℝ → ℂ := fun h => ∑' n, hypTerm [4 * (h : ℂ), 3 * h] [1 - (a : ℂ) + 2 * h, 1 + h] (-(x : ℂ)) n with hF2
  set G0 : ℝ → ℂ := fun h => Gamma (-(a : ℂ) + h) * Gamma (-a + 2 * h) /
    (Gamma (1 - a - 2 * h) * Gamma (1 - a - h)) * (x : ℂ) ^ ((a : ℂ) - 1 + 3 * h) with hG0
  set P1 : ℝ → ℝ := prefac a x (-1) 1 (-3) (-2) 4 with hP1
  set P2 : ℝ → ℝ := prefac a x (-2) (-1) (-4) (-3) 5 with hP2
  have hc : ∀ k : ℕ, 1 - (a : ℂ) ≠ -(k : ℂ) := fun k e => by
    have := congrArg re e
    simp at this
    refine hn (k + 1) ?_
    push_cast
    linarith
  -- the limit of the first term
  have hna : ∀ k : ℕ, -(a : ℂ) ≠ -(k : ℂ) := fun k e => by
    have := congrArg re e
    simp at this
    exact hn k this
  have hGa1 : Gamma (1 - (a : ℂ)) ≠ 0 := Gamma_ne_zero hc
  have l0 : Tendsto G0 (𝓝[>] 0) (𝓝 (((a ^ 2)⁻¹ * x ^ (a - 1) : ℝ) : ℂ)) := by
    have hcont : ContinuousAt G0 0 := by
      have d : ∀ (f : ℝ → ℂ) (y : ℂ), Continuous f → f 0 = y → (∀ k : ℕ, y ≠ -(k : ℂ)) →
          ContinuousAt (fun h => Gamma (f h)) 0 := by
        intro f y hf hy hk
        refine ContinuousAt.comp (g := Gamma) ?_ hf.continuousAt
        rw [hy]
        exact (differentiableAt_Gamma _ hk).continuousAt
      refine ContinuousAt.mul (ContinuousAt.div (ContinuousAt.mul ?_ ?_) (ContinuousAt.mul ?_ ?_) ?_) ?_
      · exact d _ _ (by fun_prop) (by simp) hna
      · exact d _ _ (by fun_prop) (by simp) hna
      · exact d _ _ (by fun_prop) (by simp) hc
      · exact d _ _ (by fun_prop) (by simp) hc
      · simpa using hGa1
      · refine ContinuousAt.const_cpow (by fun_prop) (Or.inl (ofReal_ne_zero.2 hx.ne'))
    have h1 := hcont.tendsto.mono_left (nhdsWithin_le_nhds (s := Set.Ioi 0))
    convert h1 using 2
    simp only [hG0, ofReal_zero, mul_zero, add_zero, sub_zero]
    have ha0 : (a : ℂ) ≠ 0 := ofReal_ne_zero.2 ha.ne'
    have hadd := Gamma_add_one (-(a : ℂ)) (neg_ne_zero.2 ha0)
    rw [show -(a : ℂ) + 1 = 1 - a by ring] at hadd
    have hGna : Gamma (-(a : ℂ)) ≠ 0 := Gamma_ne_zero hna
    rw [hadd, ofReal_mul, ofReal_cpow hx.le]
    push_cast
    congr 1
    field_simp
  have hf0 := hyp_first_tendsto ha hx
  have hf1 := hyp_small_tendsto hc 3 2 1 (-1) (-(x : ℂ))
  have hf2 := hyp_small_tendsto hc 4 3 2 1 (-(x : ℂ))
  have hf1' : Tendsto (fun h : ℝ => (F1 h - 1) / (h : ℂ)) (𝓝[>] 0) (𝓝 0) := by
    refine hf1.congr fun h => ?_
    simp only [hF1]
    push_cast
    rw [one_mul, neg_one_mul, ← sub_eq_add_neg]
  have hf2' : Tendsto (fun h : ℝ => (F2 h - 1) / (h : ℂ)) (𝓝[>] 0) (𝓝 0) := by
    refine hf2.congr fun h => ?_
    simp only [hF2]
    push_cast
    rw [one_mul]
  have d1 := prefac_deriv ha hx (-1) 1 (-3) (-2) 4
  have d2 := prefac_deriv ha hx (-2) (-1) (-4) (-3) 5
  have lp : ∀ {P : ℝ → ℝ} {d : ℝ}, HasDerivAt P d 0 → Tendsto (fun h => ((P h : ℝ) : ℂ)) (𝓝[>] 0) (𝓝 (P 0 : ℝ)) :=
    fun hd => ((continuous_ofReal.tendsto _).comp hd.continuousAt.tendsto).mono_left nhdsWithin_le_nhds
  have ls : Tendsto (fun h : ℝ => (((P1 h - P2 h) / h : ℝ) : ℂ)) (𝓝[>] 0)
      (𝓝 (((deriv Real.Gamma a - Real.Gamma a * Real.log x) / x : ℝ) : ℂ)) := by
    refine (continuous_ofReal.tendsto _).comp ?_
    have h1 := (hasDerivAt_iff_tendsto_slope_zero.1 (d1.sub d2)).mono_left
      (nhdsWithin_mono 0 (fun y hy => ne_of_gt hy : Set.Ioi (0 : ℝ) ⊆ {0}ᶜ))
    refine (h1.congr fun h => ?_).trans (le_of_eq ?_)
    · simp only [Pi.sub_apply, zero_add, prefac_zero, sub_self, sub_zero, smul_eq_mul]
      rw [hP1, hP2, div_eq_inv_mul]
    · congr 1
      ring
  refine ⟨fun h => F0 h * G0 h + F1 h * (P1 h / h) - F2 h * (P2 h / h), fun h h0 => ?_, ?_⟩
  · rw [Tgamma_three_eq, threeTerms]
    have hh : (h : ℂ) ≠ 0 := ofReal_ne_zero.2 h0.ne'
    refine congrArg _ ((combSum_three _ _ _ _ _).2 ⟨_, _, _,
      value_eq (v := F0 h) rfl ?_ ?_, value_eq (v := F1 h) rfl ?_ ?_, value_eq (v := F2 h) rfl ?_ ?_, ?_⟩)
    iterate 6 exact fun y _ => by simp [exactGam]
    rw [hgv]
    simp only [List.zip_cons_cons, List.zip_nil_right, List.map_cons, List.map_nil, List.prod_cons,
      List.prod_nil, mul_one]
    have g1 : Gamma (h : ℂ) = Gamma (1 + h) / h := by
      rw [add_comm, Gamma_add_one _ hh]; field_simp
    have g2 : Gamma (-(h : ℂ)) = -(Gamma (1 - h) / h) := by
      rw [show 1 - (h : ℂ) = -h + 1 by ring, Gamma_add_one _ (neg_ne_zero.2 hh)]; field_simp
    rw [hP1, hP2, prefac_cast x hx, prefac_cast x hx, g1, g2]
    push_cast
    rw [show (a : ℂ) + -1 * h = a - h by ring, show (1 : ℂ) + 1 * h = 1 + h by ring,
      show (1 : ℂ) + -3 * h = 1 - 3 * h by ring, show (1 : ℂ) + -2 * h = 1 - 2 * h by ring,
      show (4 : ℂ) * h - 1 = -1 + 4 * h by ring, show (a : ℂ) + -2 * h = a - 2 * h by ring,
      show (1 : ℂ) + -1 * h = 1 - h by ring, show (1 : ℂ) + -4 * h = 1 - 4 * h by ring,
      show (5 : ℂ) * h - 1 = -1 + 5 * h by ring]
    simp only [hG0]
    ring
  · have htot := (hf0.mul l0).add (((hf1'.mul (lp d1)).sub (hf2'.mul (lp d2))).add ls)
    have e : ((TInt 3 a x : ℝ) : ℂ) = ((a ^ 2 * ∑' n, sqTerm a x n : ℝ) : ℂ) *
        (((a ^ 2)⁻¹ * x ^ (a - 1) : ℝ) : ℂ) + (0 * ((P1 0 : ℝ) : ℂ) - 0 * ((P2 0 : ℝ) : ℂ) +
          (((deriv Real.Gamma a - Real.Gamma a * Real.log x) / x : ℝ) : ℂ)) := by
      have h3 := TInt_three ha hx
      have : TInt 3 a x = a ^ 2 * (∑' n, sqTerm a x n) * ((a ^ 2)⁻¹ * x ^ (a - 1)) +
          (deriv Real.Gamma a - Real.Gamma a * Real.log x) / x := by
        rw [Real.rpow_sub_one hx.ne']
        field_simp
        linarith
      rw [this]
      push_cast
      ring
    rw [e]
    refine htot.congr' ?_
    filter_upwards [self_mem_nhdsWithin] with h h0
    have hh : (h : ℂ) ≠ 0 := ofReal_ne_zero.2 (ne_of_gt h0)
    simp only [hF0, hP1, hP2]
    push_cast
    field_simp
    ring

/-- The hypotheses hold for `a = 1/2`, `x = 1`. -/
example : ∃ V : ℝ → ℂ, (∀ h > 0, TgammaWith exactGam exactHyp 0 h 3 (1 / 2 : ℝ) (1 : ℝ) = .ok (some (V h))) ∧
    Tendsto V (𝓝[>] 0) (𝓝 (TInt 3 (1 / 2) 1)) :=
  C111_Tgamma_three_partial 0 (by norm_num) (fun n e => by
    have h2 : (2 * n : ℝ) = 1 := by rw [← e]; norm_num
    have : 2 * n = 1 := by exact_mod_cast h2
    omega) one_pos

end Verif.Special
