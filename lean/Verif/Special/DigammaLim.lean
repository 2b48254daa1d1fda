import Verif.Special.DigammaPoly
import Verif.Special.DigammaAsym
import Mathlib.Analysis.Complex.PhragmenLindelof
import Mathlib.Analysis.SpecialFunctions.Complex.LogBounds

/-!
# The defect of the approximation of `digamma.h`

Nothing here models the code.
-/

open Complex Filter Topology Finset

namespace Verif.Special

theorem pev_pder (l : List ℚ) (w : ℂ) : HasDerivAt (pev l) (pev (pder l) w) w := by
  induction l with
  | nil => simpa [pder, pev] using hasDerivAt_const w (0 : ℂ)
  | cons c l ih =>
    have h := ((hasDerivAt_id w).mul ih).const_add (c : ℂ)
    simp only [id_eq, one_mul] at h
    refine h.congr_deriv ?_
    simp only [pder, pev_add, pev]; push_cast; ring

theorem pev_shift (l : List ℚ) (w : ℂ) : pev (pshift l) w = pev l (w + 1) := by
  induction l with
  | nil => rfl
  | cons c l ih => simp only [pshift, pev_add, pev_mul, pev, ih]; push_cast; ring

theorem pev_lin (a : ℚ) (t : ℂ) : pev [a, 1] t = t + a := by simp [pev]; ring

/-- The Lanczos sum times the product is the numerator. -/
theorem dNu_eq (l : List ℚ) (k : ℕ) {t : ℂ} (ht : -1/2 < t.re) :
    pev (dPi k l) t * (digammaSums (t + 1/2) k l).1 = pev (dNu k l) t := by
  induction l generalizing k with
  | nil => simp [dPi, dNu, digammaSums, pev]
  | cons c l ih =>
    have h0 : t + 1/2 + (k : ℂ) ≠ 0 := by
      intro e; have := congrArg re e; simp at this
      have hk : (0 : ℝ) ≤ k := by positivity
      linarith
    simp only [dPi, dNu, digammaSums, pev_add, pev_mul, pev_smul, pev_lin, ← ih]
    push_cast
    rw [show t + ((k : ℂ) + 1/2) = t + 1/2 + k by ring]
    generalize t + 1/2 + (k : ℂ) = b at h0
    field_simp
    ring

theorem dPi_ne (l : List ℚ) (k : ℕ) {t : ℂ} (ht : 0 ≤ t.re) : pev (dPi k l) t ≠ 0 := by
  induction l generalizing k with
  | nil => simp [dPi, pev]
  | cons c l ih =>
    simp only [dPi, pev_mul, pev_lin]
    refine mul_ne_zero ?_ (ih _)
    intro e; have := congrArg re e
    rw [add_re, ratCast_re] at this
    push_cast at this
    have hk : (0 : ℝ) ≤ k := by positivity
    rw [zero_re] at this
    linarith

/-- The second accumulator is the derivative of the first. -/
theorem digammaSums_deriv (l : List ℚ) (k : ℕ) {z : ℂ} (hz : 0 < z.re) :
    HasDerivAt (fun z => (digammaSums z k l).1) (digammaSums z k l).2 z := by
  induction l generalizing k with
  | nil => simpa [digammaSums] using hasDerivAt_const z (0 : ℂ)
  | cons c l ih =>
    have h0 : z + (k : ℂ) ≠ 0 := by
      intro e; have := congrArg re e; simp at this
      have hk : (0 : ℝ) ≤ k := by positivity
      linarith
    have h1 : HasDerivAt (fun z : ℂ => 1 / (z + k)) (-(1 / (z + k)) ^ 2) z := by
      have := ((hasDerivAt_id z).add_const (k : ℂ)).inv h0
      simp only [one_div]
      refine this.congr_deriv ?_
      simp [inv_pow, neg_div]
    refine ((ih (k + 1)).add (h1.const_mul (c : ℂ))).congr_deriv ?_
    simp only [digammaSums]
    ring

/-- `∑ 1/(t + 1/2 + j)`. -/
noncomputable def piS (t : ℂ) : ℕ → List ℚ → ℂ
  | _, [] => 0
  | k, _ :: l => 1 / (t + 1/2 + k) + piS t (k + 1) l

theorem dPi_deriv (l : List ℚ) (k : ℕ) {t : ℂ} (ht : 0 ≤ t.re) :
    pev (pder (dPi k l)) t = pev (dPi k l) t * piS t k l := by
  refine (pev_pder (dPi k l) t).unique ?_
  induction l generalizing k with
  | nil =>
    have : pev (dPi k []) = fun _ => 1 := by funext w; simp [dPi, pev]
    rw [this]; simpa [piS] using hasDerivAt_const t (1 : ℂ)
  | cons c l ih =>
    have h0 : t + 1/2 + (k : ℂ) ≠ 0 := by
      intro e; have := congrArg re e; simp at this
      have hk : (0 : ℝ) ≤ k := by positivity
      linarith
    have e : pev (dPi k (c :: l)) = fun t => (t + ((k : ℚ) + 1/2 : ℚ)) * pev (dPi (k + 1) l) t := by
      funext w; simp only [dPi, pev_mul, pev_lin]
    have h := ((hasDerivAt_id t).add_const ((((k : ℚ) + 1/2 : ℚ) : ℂ))).mul (ih (k + 1))
    rw [e]
    refine h.congr_deriv ?_
    simp only [piS, id]
    push_cast
    rw [show t + ((k : ℂ) + 1/2) = t + 1/2 + k by ring]
    generalize t + 1/2 + (k : ℂ) = b at h0
    field_simp

theorem piS_succ (l : List ℚ) (k : ℕ) (t : ℂ) :
    piS t (k + 1) l - piS t k l = 1 / (t + 1/2 + (k + l.length : ℕ)) - 1 / (t + 1/2 + k) := by
  induction l generalizing k with
  | nil => simp [piS]
  | cons c l ih =>
    have := ih (k + 1)
    simp only [piS, List.length_cons]
    rw [show k + (l.length + 1) = k + 1 + l.length by ring]
    linear_combination this

theorem piS_shift (l : List ℚ) (k : ℕ) (t : ℂ) : piS (t + 1) k l = piS t (k + 1) l := by
  induction l generalizing k with
  | nil => rfl
  | cons c l ih =>
    simp only [piS, ih]; push_cast
    rw [show t + 1 + 1/2 + (k : ℂ) = t + 1/2 + (k + 1) by ring]

/-- The quotient `n/d` of `digamma.h`. -/
theorem quot_eq {t : ℂ} (ht : 0 ≤ t.re) :
    (digammaSums (t + 1/2) 0 digammaC).2 / ((digammaSums (t + 1/2) 0 digammaC).1 + digammaC0) =
      pev (pder digN) t / pev digN t - piS t 0 digammaC := by
  set s := digammaSums (t + 1/2) 0 digammaC with hs
  have hN : pev digN t = pev (dPi 0 digammaC) t * (s.1 + digammaC0) := by
    rw [digN, pev_add, pev_smul, ← dNu_eq _ _ (by linarith)]; ring
  have hPi := dPi_ne digammaC 0 ht
  have hN0 : pev digN t ≠ 0 := fun e => by
    have := one_le_norm_digN ht; rw [e, norm_zero] at this; linarith
  have hd : s.1 + digammaC0 ≠ 0 := fun e => hN0 (by rw [hN, e, mul_zero])
  -- derivative of the numerator
  have hder : pev (pder digN) t =
      pev (dPi 0 digammaC) t * piS t 0 digammaC * (s.1 + digammaC0) + pev (dPi 0 digammaC) t * s.2 := by
    rw [← dPi_deriv _ _ ht]
    -- both sides are polynomials: use the derivative of the product on the open half-plane
    have key : ∀ u : ℂ, 0 ≤ u.re → 
        HasDerivAt (fun v => pev (dPi 0 digammaC) v * ((digammaSums (v + 1/2) 0 digammaC).1 + digammaC0))
          (pev (pder (dPi 0 digammaC)) u * ((digammaSums (u + 1/2) 0 digammaC).1 + digammaC0) +
            pev (dPi 0 digammaC) u * (digammaSums (u + 1/2) 0 digammaC).2) u := by
      intro u hu
      have h1 : HasDerivAt (fun v => (digammaSums (v + 1/2) 0 digammaC).1)
          (digammaSums (u + 1/2) 0 digammaC).2 u := by
        have hp : 0 < (u + 1/2).re := by simp; linarith
        have := (digammaSums_deriv digammaC 0 hp).comp u ((hasDerivAt_id u).add_const (1/2 : ℂ))
        rw [mul_one] at this
        exact this
      exact (pev_pder _ u).mul (h1.add_const _)
    refine (pev_pder digN t).unique ((key t ht).congr_of_eventuallyEq ?_)
    have ho : IsOpen {v : ℂ | -1/2 < v.re} := isOpen_lt continuous_const continuous_re
    filter_upwards [ho.mem_nhds (show -1/2 < t.re by linarith)] with v hv
    rw [digN, pev_add, pev_smul, ← dNu_eq _ _ hv]; ring
  rw [hder, hN]
  field_simp
  ring

theorem dW_eq (t : ℂ) : pev dW t = 2 * (t + 607/128) + 1 := by simp [dW, pev]; ring
theorem dF_eq (t : ℂ) : pev dF t = t + 607/128 := by rw [dF, pev_lin]; push_cast; ring
theorem dF1_eq (t : ℂ) : pev dF1 t = t + 607/128 + 1 := by rw [dF1, pev_lin]; push_cast; ring
theorem dA_eq (t : ℂ) : pev dA t = t + 1/2 + 14 := by rw [dA, pev_lin]; push_cast; ring

theorem one_le_norm_dQ {t : ℂ} (ht : 0 ≤ t.re) : 1 ≤ ‖pev dQ t‖ := by
  have h1 := one_le_norm_digN ht
  have h2 : 1 ≤ ‖pev digN1 t‖ := by
    rw [digN1, pev_shift]; exact one_le_norm_digN (by simp; linarith)
  have h3 : 1 ≤ ‖pev dA t‖ := by
    rw [dA_eq]
    refine le_trans ?_ ((le_abs_self _).trans (abs_re_le_norm _))
    simp; linarith
  have h4 : 1 ≤ ‖pev dW t‖ := by
    rw [dW_eq]
    refine le_trans ?_ ((le_abs_self _).trans (abs_re_le_norm _))
    simp; linarith
  rw [dQ, dNN, pev_mul, pev_mul, pev_mul, pev_pow, norm_mul, norm_mul, norm_mul, norm_pow]
  have h5 : 1 ≤ ‖pev dW t‖ ^ 15 := one_le_pow₀ h4
  exact one_le_mul_of_one_le_of_one_le
    (one_le_mul_of_one_le_of_one_le (one_le_mul_of_one_le_of_one_le h1 h2) h3) h5

theorem norm_pev_growth (l : List ℚ) : ∃ C : ℝ, 0 ≤ C ∧ ∀ w : ℂ, ‖pev l w‖ ≤ C * Real.exp (l.length * ‖w‖) := by
  induction l with
  | nil => exact ⟨0, le_rfl, fun w => by simp [pev]⟩
  | cons c l ih =>
    obtain ⟨C, hC, h⟩ := ih
    refine ⟨‖(c : ℂ)‖ + C, by positivity, fun w => ?_⟩
    simp only [pev, List.length_cons]
    refine (norm_add_le _ _).trans ?_
    rw [norm_mul]
    have h1 : ‖w‖ ≤ Real.exp ‖w‖ := by linarith [Real.add_one_le_exp ‖w‖]
    have h2 : ‖w‖ * ‖pev l w‖ ≤ C * Real.exp ((l.length + 1) * ‖w‖) := by
      calc ‖w‖ * ‖pev l w‖ ≤ Real.exp ‖w‖ * (C * Real.exp (l.length * ‖w‖)) := by
            gcongr; exact h w
        _ = _ := by rw [add_mul, one_mul, Real.exp_add]; ring
    have h3 : ‖(c : ℂ)‖ ≤ ‖(c : ℂ)‖ * Real.exp ((l.length + 1) * ‖w‖) :=
      le_mul_of_one_le_right (norm_nonneg _) (Real.one_le_exp (by positivity))
    push_cast
    rw [add_mul]
    linarith

/-- The ratio of the certificates on the real axis. -/
theorem dPQ_real {x : ℝ} (hx : 0 ≤ x) : ‖pev dP (x : ℂ) / pev dQ (x : ℂ)‖ ≤ 1 / 10 ^ 14 := by
  have h := abs_rev_le dP_domR hx
  have hq := one_le_norm_dQ (t := (x : ℂ)) (by simpa using hx)
  rw [norm_div, div_le_iff₀ (by linarith), pev_ofReal, pev_ofReal, norm_real, norm_real,
    Real.norm_eq_abs, Real.norm_eq_abs]
  rw [rev_smul] at h
  push_cast at h
  exact h.trans (mul_le_mul_of_nonneg_left (le_abs_self _) (by positivity))

/-- The ratio of the certificates is small on the whole right half-plane. -/
theorem dPQ_bound {t : ℂ} (ht : 0 ≤ t.re) : ‖pev dP t‖ ≤ 3.7 / 10 ^ 13 * ‖pev dQ t‖ := by
  have hQ0 : ∀ w : ℂ, 0 ≤ w.re → pev dQ w ≠ 0 := fun w hw e => by
    have := one_le_norm_dQ hw; rw [e, norm_zero] at this; linarith
  obtain ⟨C, hC, hgrow⟩ := norm_pev_growth dP
  have main : ‖pev dP t / pev dQ t‖ ≤ 3.7 / 10 ^ 13 := by
    refine PhragmenLindelof.right_half_plane_of_bounded_on_real (f := fun w => pev dP w / pev dQ w)
      ?_ ⟨1, by norm_num, dP.length, ?_⟩ ?_ ?_ ht
    · refine DifferentiableOn.diffContOnCl fun w hw => ?_
      have hw' : 0 ≤ w.re := by
        have : w ∈ {w : ℂ | 0 ≤ w.re} := closure_minimal (fun v hv => le_of_lt hv)
          (isClosed_le continuous_const continuous_re) hw
        exact this
      exact ((pev_pder dP w).differentiableAt.div (pev_pder dQ w).differentiableAt
        (hQ0 w hw')).differentiableWithinAt
    · refine Asymptotics.IsBigO.of_bound C ?_
      filter_upwards [mem_inf_of_right (mem_principal_self _)] with w hw
      rw [norm_div, Real.rpow_one, Real.norm_eq_abs, abs_of_pos (Real.exp_pos _)]
      exact (div_le_self (norm_nonneg _) (one_le_norm_dQ (le_of_lt hw))).trans (hgrow w)
    · refine isBoundedUnder_of_eventually_le (a := 1 / 10 ^ 14) ?_
      filter_upwards [eventually_ge_atTop 0] with x hx
      exact dPQ_real hx
    · intro y
      have h := abs_rev_le dP_dom (sq_nonneg y)
      rw [rev_smul, ← normSq_pev, ← normSq_pev, abs_of_nonneg (by positivity)] at h
      have hq := one_le_norm_dQ (t := y * I) (by simp)
      rw [norm_div, div_le_iff₀ (by linarith)]
      refine le_of_sq_le_sq ?_ (by positivity)
      refine h.trans (le_of_eq ?_)
      push_cast; ring
  rw [norm_div, div_le_iff₀ (by linarith [one_le_norm_dQ ht])] at main
  exact main

theorem dS_eq (n : ℕ) {t : ℂ} (hw : pev dW t ≠ 0) :
    pev (dS n) t / pev dW t ^ (2 * n) * pev dW t =
      ∑ k ∈ range n, 2 / (2 * (k : ℂ) + 1) * (1 / pev dW t) ^ (2 * k + 1) := by
  induction n with
  | zero => simp [dS, pev]
  | succ n ih =>
    rw [sum_range_succ, ← ih, dS, pev_add, pev_mul, pev_pow]
    have e : pev [2 / (2 * (n : ℚ) + 1)] t = 2 / (2 * (n : ℂ) + 1) := by simp [pev]
    rw [e, one_div_pow, mul_add, mul_one, pow_add, pow_succ (pev dW t) (2 * n)]
    field_simp

theorem log_im_lt {a : ℂ} (ha : 0 < a.re) : |(log a).im| < Real.pi / 2 := by
  rw [log_im]; exact abs_arg_lt_pi_div_two_iff.2 (Or.inl ha)

theorem log_sub_log_eq {a b c d : ℂ} (ha : 0 < a.re) (hb : 0 < b.re) (hc : 0 < c.re) (hd : 0 < d.re)
    (h : a * d = c * b) : log a - log b = log c - log d := by
  have ne : ∀ {x : ℂ}, 0 < x.re → x ≠ 0 := fun hx e => by rw [e] at hx; simp at hx
  have la := abs_lt.1 (log_im_lt ha)
  have lb := abs_lt.1 (log_im_lt hb)
  have lc := abs_lt.1 (log_im_lt hc)
  have ld := abs_lt.1 (log_im_lt hd)
  refine exp_inj_of_neg_pi_lt_of_le_pi ?_ ?_ ?_ ?_ ?_
  · rw [sub_im]; linarith
  · rw [sub_im]; linarith
  · rw [sub_im]; linarith
  · rw [sub_im]; linarith
  · rw [exp_sub, exp_sub, exp_log (ne ha), exp_log (ne hb), exp_log (ne hc), exp_log (ne hd),
      div_eq_div_iff (ne hb) (ne hd), h]

/-- The series of `log (1 + 1/F)` after eight terms. -/
theorem logc_tail {F : ℂ} (hF : 607/128 ≤ F.re) :
    ‖log (F + 1) - log F - ∑ k ∈ range 8, 2 / (2 * (k : ℂ) + 1) * (1 / (2 * F + 1)) ^ (2 * k + 1)‖ ≤
      1 / 10 ^ 16 / (‖F‖ * ‖F + 1‖) := by
  set W := 2 * F + 1 with hW
  have hWre : W.re = 2 * F.re + 1 := by simp [hW]
  have hWn : 10 ≤ ‖W‖ := by
    refine le_trans ?_ ((le_abs_self _).trans (abs_re_le_norm _)); rw [hWre]; linarith
  have hW0 : W ≠ 0 := by rw [← norm_pos_iff]; linarith
  have hF0 : F ≠ 0 := by rintro rfl; norm_num at hF
  have hF1 : F + 1 ≠ 0 := by intro e; have := congrArg re e; simp at this; linarith
  set u := 1 / W with hu
  have hun : ‖u‖ ≤ 1 / 10 := by
    rw [hu, norm_div, norm_one]; exact one_div_le_one_div_of_le (by norm_num) hWn
  have e1 : 1 + u = (F + 1) * (2 / W) := by rw [hu]; field_simp; rw [hW]; ring
  have e2 : 1 + -u = F * (2 / W) := by rw [hu]; field_simp; rw [hW]; ring
  have hlog : log (F + 1) - log F = log (1 + u) - log (1 + -u) := by
    have hre1 : 0 < (1 + u).re := by
      have := (abs_le.1 ((abs_re_le_norm u).trans hun)).1; simp; linarith
    have hre2 : 0 < (1 + -u).re := by
      have := (abs_le.1 ((abs_re_le_norm u).trans hun)).2; simp; linarith
    refine log_sub_log_eq (by simp; linarith) (by linarith) hre1 hre2 ?_
    rw [e1, e2]; ring
  have t1 := norm_log_sub_logTaylor_le 16 (z := u) (by linarith)
  have t2 := norm_log_sub_logTaylor_le 16 (z := -u) (by rw [norm_neg]; linarith)
  rw [norm_neg] at t2
  have es : ∑ k ∈ range 8, 2 / (2 * (k : ℂ) + 1) * u ^ (2 * k + 1) =
      logTaylor 17 u - logTaylor 17 (-u) := by
    simp only [logTaylor, sum_range_succ, sum_range_zero]
    push_cast
    ring
  rw [hlog, es]
  have e3 : log (1 + u) - log (1 + -u) - (logTaylor 17 u - logTaylor 17 (-u)) =
      (log (1 + u) - logTaylor 17 u) - (log (1 + -u) - logTaylor 17 (-u)) := by ring
  rw [e3]
  refine (norm_sub_le _ _).trans ((add_le_add t1 t2).trans ?_)
  have hFn : ‖F‖ ≤ ‖W‖ := by
    have : F = (W - 1) / 2 := by rw [hW]; ring
    rw [this, norm_div]
    have := norm_sub_le W 1
    norm_num at this ⊢; linarith
  have hF1n : ‖F + 1‖ ≤ ‖W‖ := by
    have : F + 1 = (W + 1) / 2 := by rw [hW]; ring
    rw [this, norm_div]
    have := norm_add_le W 1
    norm_num at this ⊢; linarith
  have hu0 : 0 < ‖u‖ := norm_pos_iff.2 (one_div_ne_zero hW0)
  have hWu : ‖W‖ = 1 / ‖u‖ := by rw [hu, norm_div, norm_one, one_div_one_div]
  have h5 : 1 / 10 ^ 16 * ‖u‖ ^ 2 ≤ 1 / 10 ^ 16 / (‖F‖ * ‖F + 1‖) := by
    rw [le_div_iff₀ (mul_pos (norm_pos_iff.2 hF0) (norm_pos_iff.2 hF1))]
    have h6 : ‖F‖ * ‖F + 1‖ ≤ ‖W‖ * ‖W‖ := mul_le_mul hFn hF1n (norm_nonneg _) (norm_nonneg _)
    rw [hWu] at h6
    calc 1 / 10 ^ 16 * ‖u‖ ^ 2 * (‖F‖ * ‖F + 1‖) ≤ 1 / 10 ^ 16 * ‖u‖ ^ 2 * (1 / ‖u‖ * (1 / ‖u‖)) := by
          gcongr
      _ = 1 / 10 ^ 16 := by field_simp
  refine le_trans ?_ h5
  have h7 : ‖u‖ ^ 15 ≤ (10/104) ^ 15 := pow_le_pow_left₀ hu0.le (by
    have : 10.4 ≤ ‖W‖ := by
      refine le_trans ?_ ((le_abs_self _).trans (abs_re_le_norm _)); rw [hWre]; linarith
    rw [hu, norm_div, norm_one]
    calc 1 / ‖W‖ ≤ 1 / 10.4 := one_div_le_one_div_of_le (by norm_num) this
      _ = _ := by norm_num) 15
  have h8 : (1 - ‖u‖)⁻¹ ≤ 10 / 9 := by
    rw [inv_le_comm₀ (by linarith) (by norm_num)]; norm_num; linarith
  have e4 : ‖u‖ ^ (16 + 1) = ‖u‖ ^ 15 * ‖u‖ ^ 2 := by ring
  rw [e4]
  have h80 : 0 ≤ (1 - ‖u‖)⁻¹ := inv_nonneg.2 (by linarith)
  have h9 : ‖u‖ ^ 15 * ‖u‖ ^ 2 * (1 - ‖u‖)⁻¹ / ((16 : ℕ) + 1) ≤
      (10/104) ^ 15 * ‖u‖ ^ 2 * (10 / 9) / ((16 : ℕ) + 1) := by gcongr
  refine (add_le_add h9 h9).trans ?_
  have e5 : (10/104 : ℝ) ^ 15 * ‖u‖ ^ 2 * (10 / 9) / ((16 : ℕ) + 1) + (10/104) ^ 15 * ‖u‖ ^ 2 * (10 / 9) / ((16 : ℕ) + 1)
     = ((10/104 : ℝ) ^ 15 * (10 / 9) / 17 * 2) * ‖u‖ ^ 2 := by push_cast; ring
  rw [e5]
  refine mul_le_mul_of_nonneg_right ?_ (by positivity)
  norm_num

/-- `digamma.h`, as a function of `t = z - 1/2`. -/
theorem digammaRight_eq {t : ℂ} (ht : 0 ≤ t.re) :
    digammaRight (t + 1/2) = log (pev dF t) + pev (pder digN) t / pev digN t - piS t 0 digammaC -
      607/128 / pev dF t := by
  have e : t + 1/2 + ((polygammaG - polygammaH : ℚ) : ℂ) = pev dF t := by
    rw [dF_eq, polygammaG, polygammaH]; push_cast; ring
  simp only [digammaRight]
  rw [e, quot_eq ht, polygammaG]
  push_cast
  ring

/-- The defect of the approximation under `z ↦ z + 1`. -/
noncomputable def digE (t : ℂ) : ℂ :=
  digammaRight (t + 1 + 1/2) - digammaRight (t + 1/2) - 1 / (t + 1/2)

theorem digE_eq {t : ℂ} (ht : 0 ≤ t.re) :
    ∃ r : ℂ, digE t = pev dP t / pev dQ t / (pev dF t * pev dF1 t) + r ∧
      ‖r‖ ≤ 1 / 10 ^ 16 / (‖pev dF t‖ * ‖pev dF1 t‖) := by
  have hF : 607/128 ≤ (pev dF t).re := by rw [dF_eq]; simp; linarith
  have hlog := logc_tail hF
  have hF1 : pev dF1 t = pev dF t + 1 := by rw [dF_eq, dF1_eq]
  have hW : pev dW t = 2 * pev dF t + 1 := by rw [dF_eq, dW_eq]
  have nz : ∀ {x : ℂ}, 0 < x.re → x ≠ 0 := fun hx e => by rw [e] at hx; simp at hx
  have hF0 : pev dF t ≠ 0 := nz (by linarith)
  have hF10 : pev dF1 t ≠ 0 := nz (by rw [hF1]; simp; linarith)
  have hW0 : pev dW t ≠ 0 := nz (by rw [hW]; simp; linarith)
  have hA0 : pev dA t ≠ 0 := nz (by rw [dA_eq]; simp; linarith)
  have hN0 : pev digN t ≠ 0 := fun e => by
    have := one_le_norm_digN ht; rw [e, norm_zero] at this; linarith
  have ht1 : 0 ≤ (t + 1).re := by simp; linarith
  have hN10 : pev digN1 t ≠ 0 := fun e => by
    rw [digN1, pev_shift] at e
    have := one_le_norm_digN ht1; rw [e, norm_zero] at this; linarith
  rw [← hW, ← hF1, ← dS_eq 8 hW0] at hlog
  refine ⟨_, ?_, hlog⟩
  have hsh : pev (pder digN) (t + 1) = pev (pder digN1) t := by
    refine HasDerivAt.unique ?_ (pev_pder digN1 t)
    have e : pev digN1 = fun w => pev digN (w + 1) := by funext w; rw [digN1, pev_shift]
    rw [e]
    have := (pev_pder digN (t + 1)).comp t ((hasDerivAt_id t).add_const (1 : ℂ))
    rw [mul_one] at this
    exact this
  have hFs : pev dF (t + 1) = pev dF1 t := by rw [dF_eq, dF1_eq]; ring
  have hpi := piS_succ digammaC 0 t
  have hlen : digammaC.length = 14 := rfl
  rw [hlen, show t + 1/2 + ((0 + 14 : ℕ) : ℂ) = pev dA t by rw [dA_eq]; push_cast; ring] at hpi
  rw [Nat.cast_zero, add_zero] at hpi
  rw [digE, digammaRight_eq ht1, digammaRight_eq ht, hFs, hsh, show pev digN (t + 1) = pev digN1 t by
    rw [digN1, pev_shift], piS_shift]
  have hP : pev dP t = (pev (pder digN1) t * pev digN t - pev (pder digN) t * pev digN1 t) * pev dA t *
      (pev dF t * pev dF1 t * pev dW t ^ 15) - pev digN t * pev digN1 t * (pev dF t * pev dF1 t * pev dW t ^ 15) +
      pev digN t * pev digN1 t * pev dA t * (pev dF t * pev dF1 t * pev (dS 8) t) +
      607/128 * (pev digN t * pev digN1 t * pev dA t * pev dW t ^ 15) := by
    simp only [dP, dNN, dFF, pev_add, pev_mul, pev_smul, pev_pow]
    push_cast; ring
  have hQ : pev dQ t = pev digN t * pev digN1 t * pev dA t * pev dW t ^ 15 := by
    simp only [dQ, dNN, pev_mul, pev_pow]
  have hpi' : piS t 0 digammaC = piS t (0 + 1) digammaC - 1 / pev dA t + 1 / (t + 1/2) := by
    linear_combination -hpi
  rw [hpi', hP, hQ]
  generalize pev dA t = A at *
  generalize pev dW t = W at *
  generalize pev (dS 8) t = S at *
  generalize pev digN t = N at *
  generalize pev digN1 t = N1 at *
  generalize pev (pder digN) t = dN at *
  generalize pev (pder digN1) t = dN1 at *
  have hd : 607/128 / pev dF t - 607/128 / pev dF1 t = 607/128 / (pev dF t * pev dF1 t) := by
    rw [hF1] at hF10 ⊢
    field_simp
    ring
  generalize pev dF1 t = F1 at *
  generalize pev dF t = F at *
  have e1 : ((dN1 * N - dN * N1) * A * (F * F1 * W ^ 15) - N * N1 * (F * F1 * W ^ 15) +
      N * N1 * A * (F * F1 * S) + 607/128 * (N * N1 * A * W ^ 15)) / (N * N1 * A * W ^ 15) / (F * F1) =
      dN1 / N1 - dN / N - 1 / A + S / W ^ (2 * 8) * W + 607/128 / (F * F1) := by
    field_simp
    ring
  rw [e1, ← hd]
  ring

end Verif.Special
