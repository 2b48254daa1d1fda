import Verif.Special.LanczosReal
import Mathlib.Analysis.SpecialFunctions.Log.Base

/-!
# Accuracy of the Lanczos sum: the limit at infinity and the final bound
-/

open Real Filter Topology Finset

namespace Verif.Special

theorem tendsto_rev (l : List ℚ) (c : ℚ) :
    Tendsto (fun x : ℝ => rev (l ++ [c]) x / x ^ l.length) atTop (𝓝 (c : ℝ)) := by
  induction l with
  | nil => simp [rev]
  | cons a l ih =>
    have h1 : Tendsto (fun x : ℝ => (a : ℝ) / x ^ (l.length + 1)) atTop (𝓝 0) :=
      tendsto_const_nhds.div_atTop (tendsto_pow_atTop (by omega))
    have h2 := h1.add ih
    rw [zero_add] at h2
    refine h2.congr' ?_
    filter_upwards [eventually_gt_atTop 0] with x hx
    rw [List.cons_append, rev, List.length_cons, add_div, pow_succ', mul_div_mul_left _ _ hx.ne']

theorem tendsto_lanN : Tendsto (fun x : ℝ => rev lanN x / x ^ 12) atTop
    (𝓝 ((0.006061842346248906525783753964555936883222 : ℚ) : ℝ)) :=
  tendsto_rev (lanN.take 12) _

theorem tendsto_lanD : Tendsto (fun x : ℝ => rev lanD x / x ^ 12) atTop (𝓝 ((1 : ℚ) : ℝ)) :=
  tendsto_rev (lanD.take 12) _

theorem tendsto_lFac_div (c : ℝ) : Tendsto (fun x : ℝ => (x + c) / x) atTop (𝓝 1) := by
  have h : Tendsto (fun x : ℝ => 1 + c / x) atTop (𝓝 (1 + 0)) :=
    tendsto_const_nhds.add (tendsto_const_nhds.div_atTop tendsto_id)
  rw [add_zero] at h
  refine h.congr' ?_
  filter_upwards [eventually_gt_atTop 0] with x hx
  field_simp

theorem tendsto_lFac : Tendsto lFac atTop atTop := by
  have : lFac = fun a => a + (lanczosG - 1 / 2) := by funext a; unfold lFac; ring
  rw [this]; exact tendsto_atTop_add_const_right _ _ tendsto_id

/-- `x log (1 + t/x) → t`. -/
theorem tendsto_mul_log (t : ℝ) : Tendsto (fun x : ℝ => x * log (1 + t / x)) atTop (𝓝 t) :=
  Real.tendsto_mul_log_one_add_div_atTop t

theorem lanE_tendsto : Tendsto lanE atTop (𝓝 0) := by
  have hc : ((0.006061842346248906525783753964555936883222 : ℚ) : ℝ) ≠ 0 := by norm_num
  have h1 : Tendsto (fun x : ℝ => log (rev lanN (x + 1) / rev lanN x)) atTop (𝓝 (log 1)) := by
    refine (continuousAt_log one_ne_zero).tendsto.comp ?_
    have h2 := tendsto_lanN.comp (tendsto_atTop_add_const_right atTop (1 : ℝ) tendsto_id)
    have h3 := (h2.div tendsto_lanN hc).mul ((tendsto_lFac_div 1).pow 12)
    rw [div_self hc, one_pow, one_mul] at h3
    refine h3.congr' ?_
    filter_upwards [eventually_gt_atTop 0] with x hx
    have := rev_lanN_pos hx.le
    simp only [Pi.div_apply, Function.comp_apply, id_eq]
    field_simp
  have h4 : Tendsto (fun x : ℝ => log ((x + 12) / lFac x)) atTop (𝓝 (log 1)) := by
    refine (continuousAt_log one_ne_zero).tendsto.comp ?_
    have h5 := (tendsto_lFac_div 12).div (tendsto_lFac_div (lanczosG - 1 / 2)) one_ne_zero
    rw [div_one] at h5
    refine h5.congr' ?_
    filter_upwards [eventually_gt_atTop 0] with x hx
    simp only [Pi.div_apply]
    rw [div_div_div_cancel_right₀ hx.ne', lFac]; congr 1; ring
  have h6 : Tendsto (fun x : ℝ => (x + 1 / 2) * log (1 + 1 / lFac x)) atTop (𝓝 1) := by
    have h7 := (tendsto_mul_log 1).comp tendsto_lFac
    have h8 : Tendsto (fun x : ℝ => log (1 + 1 / lFac x)) atTop (𝓝 (log (1 + 0))) := by
      refine (continuousAt_log (by norm_num)).tendsto.comp ?_
      exact tendsto_const_nhds.add (tendsto_const_nhds.div_atTop tendsto_lFac)
    rw [add_zero, log_one] at h8
    have h9 := h7.add (h8.const_mul (1 - lanczosG))
    rw [mul_zero, add_zero] at h9
    refine h9.congr fun x => ?_
    simp only [Function.comp_apply, lFac]; ring
  have h := ((h1.sub h4).add h6).sub_const 1
  rw [log_one, sub_zero, zero_add, sub_self] at h
  refine h.congr' ?_
  filter_upwards [eventually_gt_atTop 0] with x hx
  have hF := lFac_ge hx.le
  have hF0 : 0 < lFac x := by norm_num at hF; linarith
  have hN := rev_lanN_pos hx.le
  have hN1 := rev_lanN_pos (x := x + 1) (by linarith)
  have e : 1 + 1 / lFac x = (lFac x + 1) / lFac x := by field_simp
  rw [lanE, e, log_div hN1.ne' hN.ne', log_div (by linarith) hF0.ne', log_div (by linarith) hF0.ne']
  ring

theorem lanE_bound {a : ℝ} (ha : 0 ≤ a) :
    |lanE a| ≤ 1.88 / 10 ^ 14 / (lFac a * (lFac a + 1)) := by
  -- `G = C/(F(F+1))`, `G ± lanE` are decreasing and tend to 0
  have hG : ∀ x, 0 ≤ x → HasDerivAt (fun x => (1.88 / 10 ^ 14 : ℝ) / (lFac x * (lFac x + 1)))
      (-(1.88 / 10 ^ 14 * (2 * lFac x + 1) / (lFac x * (lFac x + 1)) ^ 2)) x := by
    intro x hx
    have hF := lFac_ge hx
    have hF0 : 0 < lFac x := by norm_num at hF; linarith
    have hl : HasDerivAt lFac 1 x := by
      unfold lFac; simpa using ((hasDerivAt_id x).add_const lanczosG).sub_const (1 / 2)
    have h := (hasDerivAt_const x (1.88 / 10 ^ 14 : ℝ)).div (hl.mul (hl.add_const 1))
      (by show lFac x * (lFac x + 1) ≠ 0; positivity)
    refine h.congr_deriv ?_
    simp only [Pi.mul_apply]
    field_simp
    ring
  have hGt : Tendsto (fun x => (1.88 / 10 ^ 14 : ℝ) / (lFac x * (lFac x + 1))) atTop (𝓝 0) :=
    tendsto_const_nhds.div_atTop (tendsto_lFac.atTop_mul_atTop₀
      (tendsto_atTop_add_const_right _ _ tendsto_lFac))
  have key : ∀ s : ℝ, |s| = 1 → 0 ≤ (1.88 / 10 ^ 14 : ℝ) / (lFac a * (lFac a + 1)) + s * lanE a := by
    intro s hs
    have hd : ∀ x, 0 ≤ x → HasDerivAt
        (fun x => (1.88 / 10 ^ 14 : ℝ) / (lFac x * (lFac x + 1)) + s * lanE x)
        (-(1.88 / 10 ^ 14 * (2 * lFac x + 1) / (lFac x * (lFac x + 1)) ^ 2) + s * lanE' x) x :=
      fun x hx => (hG x hx).add ((lanE_hasDerivAt hx).const_mul s)
    have hanti : AntitoneOn (fun x => (1.88 / 10 ^ 14 : ℝ) / (lFac x * (lFac x + 1)) + s * lanE x)
        (Set.Ici 0) := by
      refine antitoneOn_of_deriv_nonpos (convex_Ici 0)
        (fun x hx => (hd x hx).continuousAt.continuousWithinAt)
        (fun x hx => (hd x (by simpa using (interior_subset hx))).differentiableAt.differentiableWithinAt)
        fun x hx => ?_
      have hx0 : 0 ≤ x := interior_subset hx
      rw [(hd x hx0).deriv]
      have h1 := lanE'_bound hx0
      have h2 : |s * lanE' x| = |lanE' x| := by rw [abs_mul, hs, one_mul]
      have := le_abs_self (s * lanE' x)
      linarith
    have hlim := hGt.add (lanE_tendsto.const_mul s)
    rw [mul_zero, add_zero] at hlim
    refine le_of_tendsto hlim ?_
    filter_upwards [eventually_ge_atTop a] with x hx
    exact hanti ha (ha.trans hx) hx
  rw [abs_le]
  have h1 := key 1 (by simp)
  have h2 := key (-1) (by simp)
  constructor <;> linarith

/-- The logarithm of the relative error of the Lanczos approximation. -/
noncomputable def lanF (a : ℝ) : ℝ :=
  log (rev lanN a) - log (rev lanD a) + (a - 1 / 2) * (log (lFac a) - 1) - log (Gamma a)

theorem lanF_succ {a : ℝ} (ha : 0 < a) : lanF (a + 1) = lanF a + lanE a := by
  have hD := rev_lanD_pos ha
  have hD1 := rev_lanD_pos (x := a + 1) (by linarith)
  have h1 : log a + log (rev lanD (a + 1)) = log (a + 12) + log (rev lanD a) := by
    rw [← log_mul ha.ne' hD1.ne', ← log_mul (by linarith) hD.ne', rev_lanD_succ]
  have h2 : log (Gamma (a + 1)) = log a + log (Gamma a) := by
    rw [Gamma_add_one ha.ne', log_mul ha.ne' (Gamma_pos_of_pos ha).ne']
  have h3 : lFac (a + 1) = lFac a + 1 := by unfold lFac; ring
  rw [lanF, lanF, lanE, h2, h3]
  linear_combination -h1

theorem lanF_add_nat {a : ℝ} (ha : 0 < a) (n : ℕ) :
    |lanF (a + n) - lanF a| ≤ 1.88 / 10 ^ 14 / lFac a := by
  have hF := lFac_ge ha.le
  have hF0 : 0 < lFac a := by norm_num at hF; linarith
  have key : |lanF (a + n) - lanF a| ≤ 1.88 / 10 ^ 14 * (1 / lFac a - 1 / (lFac a + n)) := by
    induction n with
    | zero => simp
    | succ n ih =>
      have h1 := lanF_succ (a := a + n) (by positivity)
      have h2 := lanE_bound (a := a + n) (by positivity)
      have h3 : lFac (a + n) = lFac a + n := by unfold lFac; ring
      rw [h3] at h2
      have e : lanF (a + (n + 1 : ℕ)) - lanF a = (lanF (a + n) - lanF a) + lanE (a + n) := by
        push_cast; rw [← add_assoc, h1]; ring
      rw [e]
      refine (abs_add_le _ _).trans ((add_le_add ih h2).trans (le_of_eq ?_))
      push_cast
      have : 0 < lFac a + n := by positivity
      field_simp
      ring
  refine key.trans ?_
  have : 0 ≤ 1 / (lFac a + (n : ℝ)) := by positivity
  rw [div_eq_mul_one_div (1.88 / 10 ^ 14 : ℝ)]
  exact mul_le_mul_of_nonneg_left (by linarith) (by norm_num)

/-- The leading coefficient of the Lanczos numerator. -/
def lanC0 : ℚ := 0.006061842346248906525783753964555936883222

theorem lanC_num : (let S := expSum ((lanG - 0.91893853320467274178) / 8) 22
    1 - 1 / 10 ^ 16 ≤ S ^ 8 * lanC0 ∧ S ^ 8 * lanC0 ≤ 1 + 1 / 10 ^ 16 ∧ 1 ≤ S ∧ S ≤ 2) := by
  decide +kernel

theorem lanC_log : |log (lanC0 : ℝ) + lanczosG - LOGSQRT2PI| ≤ 5 / 10 ^ 16 := by
  set t : ℚ := (lanG - 0.91893853320467274178) / 8 with ht
  have hq : (t : ℝ) = (lanczosG - LOGSQRT2PI) / 8 := by
    rw [ht]; push_cast; rw [lanG_eq]; unfold LOGSQRT2PI; norm_num
  have ht1 : |(t : ℝ)| ≤ 64 / 100 := by
    rw [hq]; unfold lanczosG LOGSQRT2PI; rw [abs_of_pos] <;> norm_num
  have hb := Real.exp_bound (x := (t : ℝ)) (by linarith) (n := 22) (by norm_num)
  rw [← expSum_eq] at hb
  obtain ⟨h1, h2, h3, h4⟩ := lanC_num
  rw [← ht] at h1 h2 h3 h4
  generalize expSum t 22 = S at *
  have h1' : ((1 - 1 / 10 ^ 16 : ℚ) : ℝ) ≤ (S : ℝ) ^ 8 * lanC0 := by exact_mod_cast h1
  have h2' : (S : ℝ) ^ 8 * lanC0 ≤ ((1 + 1 / 10 ^ 16 : ℚ) : ℝ) := by exact_mod_cast h2
  have h3' : (1 : ℝ) ≤ S := by exact_mod_cast h3
  have h4' : (S : ℝ) ≤ 2 := by exact_mod_cast h4
  have hr : |(t : ℝ)| ^ 22 * ((Nat.succ 22 : ℝ) / ((Nat.factorial 22 : ℝ) * (22 : ℕ))) ≤
      1 / 10 ^ 18 := by
    have : |(t : ℝ)| ^ 22 ≤ (64 / 100) ^ 22 := by gcongr
    norm_num [Nat.factorial] at this ⊢; linarith
  have hb' := abs_le.1 (hb.trans hr)
  have hc : (0 : ℝ) < lanC0 := by unfold lanC0; norm_num
  have hS0 : (0 : ℝ) < S := by linarith
  -- log S ≈ t
  have hl1 : log (S : ℝ) ≤ t + 1 / 10 ^ 17 := by
    rw [log_le_iff_le_exp hS0, exp_add]
    have h5 := add_one_le_exp (1 / 10 ^ 17 : ℝ)
    have h6 := exp_pos (t : ℝ)
    have h7 : (S : ℝ) ≤ rexp t * (1 + 1 / 10 ^ 17) := by
      have : (1 : ℝ) / 2 ≤ rexp t := by linarith [hb'.1]
      nlinarith [hb'.1]
    refine h7.trans (mul_le_mul_of_nonneg_left (by linarith) h6.le)
  have hl2 : t - 1 / 10 ^ 17 ≤ log (S : ℝ) := by
    rw [le_log_iff_exp_le hS0, exp_sub, div_le_iff₀ (exp_pos _)]
    have h5 := add_one_le_exp (1 / 10 ^ 17 : ℝ)
    have h7 : rexp t ≤ S * (1 + 1 / 10 ^ 17) := by nlinarith [hb'.2]
    refine h7.trans (mul_le_mul_of_nonneg_left (by linarith) hS0.le)
  have hl3 : log ((S : ℝ) ^ 8 * lanC0) = 8 * log S + log lanC0 := by
    rw [log_mul (by positivity) hc.ne', log_pow]; push_cast; ring
  have hP : 0 < (S : ℝ) ^ 8 * lanC0 := by positivity
  have hl4 : log ((S : ℝ) ^ 8 * lanC0) ≤ 1 / 10 ^ 16 := by
    have := log_le_sub_one_of_pos hP
    push_cast at h2'; linarith
  have hl5 : -(2 / 10 ^ 16) ≤ log ((S : ℝ) ^ 8 * lanC0) := by
    have := one_sub_inv_le_log_of_pos hP
    have h6 : ((S : ℝ) ^ 8 * lanC0)⁻¹ ≤ 1 + 2 / 10 ^ 16 := by
      rw [inv_le_comm₀ hP (by norm_num)]
      refine le_trans ?_ h1'
      push_cast
      rw [inv_le_comm₀ (by norm_num) (by norm_num)]
      norm_num
    linarith
  have e8 : 8 * (t : ℝ) = lanczosG - LOGSQRT2PI := by rw [hq]; ring
  rw [abs_le]
  norm_num at hl1 hl2 hl4 hl5 ⊢
  constructor <;> linarith

/-- `log Γ` on the real axis, from Stirling's series. -/
theorem log_Gamma_stirling {x : ℝ} (hx : 14 ≤ x) :
    |log (Gamma x) - ((x - 1 / 2) * log x - x + log (2 * π) / 2)| ≤
      1 / 10 ^ 15 + ‖pev binetL (1 / (x : ℂ))‖ := by
  have hx0 : 0 < x := by linarith
  have hre : 14 ≤ (x : ℂ).re := by simpa using hx
  have h1 := (isLogGamma_right hre).exp_eq (notPole_of_re_pos (by simpa using hx0))
  have h2 := lgRight_sub hre
  have h3 : log (Gamma x) = (lgRight x).re := by
    have h4 : ‖Complex.exp (lgRight x)‖ = Gamma x := by
      rw [h1, Complex.Gamma_ofReal, Complex.norm_real, norm_of_nonneg (Gamma_pos_of_pos hx0).le]
    rw [Complex.norm_exp] at h4
    rw [← h4, log_exp]
  have h5 : (binetM x).re = (x - 1 / 2) * log x - x + log (2 * π) / 2 +
      (pev binetL (1 / (x : ℂ))).re := by
    rw [binetM, ← Complex.ofReal_log hx0.le]
    have e : ((x : ℂ) - 1 / 2) * (log x : ℝ) - x + (log (2 * π) : ℝ) / 2 =
        (((x - 1 / 2) * log x - x + log (2 * π) / 2 : ℝ) : ℂ) := by push_cast; ring
    rw [e, Complex.add_re, Complex.ofReal_re]
  rw [h3]
  have e : (lgRight x).re - ((x - 1 / 2) * log x - x + log (2 * π) / 2) =
      (lgRight x - binetM x).re + (pev binetL (1 / (x : ℂ))).re := by
    rw [Complex.sub_re, h5]; ring
  rw [e]
  exact (abs_add_le _ _).trans (add_le_add ((Complex.abs_re_le_norm _).trans h2)
    (Complex.abs_re_le_norm _))

theorem tendsto_pev_zero : Tendsto (fun x : ℝ => ‖pev binetL (1 / (x : ℂ))‖) atTop (𝓝 0) := by
  have hc : Continuous (pev binetL) := by
    have : ∀ l : List ℚ, Continuous (pev l) := by
      intro l
      induction l with
      | nil => exact continuous_const
      | cons c l ih => exact continuous_const.add (continuous_id.mul ih)
    exact this _
  have h1 : Tendsto (fun x : ℝ => 1 / (x : ℂ)) atTop (𝓝 0) := by
    rw [tendsto_zero_iff_norm_tendsto_zero]
    have : Tendsto (fun x : ℝ => |1 / x|) atTop (𝓝 |0|) :=
      (tendsto_const_nhds.div_atTop tendsto_id).abs
    rw [abs_zero] at this
    refine this.congr fun x => ?_
    rw [norm_div, norm_one, Complex.norm_real, norm_eq_abs, abs_div, abs_one]
  have h2 := (hc.tendsto 0).comp h1
  have h0 : pev binetL 0 = 0 := by simp [binetL, pev]
  rw [h0] at h2
  simpa using h2.norm

/-- The main part of `lanF` at infinity. -/
theorem lanF_lim : Tendsto (fun x : ℝ => log (rev lanN x / rev lanD x) +
    ((x - 1 / 2) * (log (lFac x) - 1) - ((x - 1 / 2) * log x - x + log (2 * π) / 2))) atTop
    (𝓝 (log (lanC0 : ℝ) + lanczosG - log (2 * π) / 2)) := by
  have hc : (lanC0 : ℝ) ≠ 0 := by unfold lanC0; norm_num
  have h1 : Tendsto (fun x : ℝ => log (rev lanN x / rev lanD x)) atTop (𝓝 (log (lanC0 : ℝ))) := by
    refine (continuousAt_log hc).tendsto.comp ?_
    have h := tendsto_lanN.div tendsto_lanD (by norm_num)
    rw [Rat.cast_one, div_one] at h
    refine h.congr' ?_
    filter_upwards [eventually_gt_atTop 0] with x hx
    simp only [Pi.div_apply]
    rw [div_div_div_cancel_right₀ (by positivity)]
  have h2 := tendsto_mul_log (lanczosG - 1 / 2)
  have h3 : Tendsto (fun x : ℝ => log (1 + (lanczosG - 1 / 2) / x)) atTop (𝓝 (log (1 + 0))) := by
    refine (continuousAt_log (by norm_num)).tendsto.comp ?_
    exact tendsto_const_nhds.add (tendsto_const_nhds.div_atTop tendsto_id)
  rw [add_zero, log_one] at h3
  have h := h1.add (((h2.sub (h3.const_mul (1 / 2))).add_const (1 / 2)).sub_const (log (2 * π) / 2))
  have e : log (lanC0 : ℝ) + (lanczosG - 1 / 2 - 1 / 2 * 0 + 1 / 2 - log (2 * π) / 2) =
      log (lanC0 : ℝ) + lanczosG - log (2 * π) / 2 := by ring
  rw [e] at h
  refine h.congr' ?_
  filter_upwards [eventually_gt_atTop 0] with x hx
  have hF := lFac_ge hx.le
  have hF0 : 0 < lFac x := by norm_num at hF; linarith
  have e2 : 1 + (lanczosG - 1 / 2) / x = lFac x / x := by unfold lFac; field_simp; ring
  rw [e2, log_div hF0.ne' hx.ne']
  ring

/-- The Lanczos approximation to `log Γ`, for every `a > 0`. -/
theorem lanF_bound {a : ℝ} (ha : 0 < a) : |lanF a| ≤ 6 / 10 ^ 15 := by
  have hF := lFac_ge ha.le
  have hF0 : 0 < lFac a := by norm_num at hF; linarith
  have hN : Tendsto (fun n : ℕ => a + (n : ℝ)) atTop atTop :=
    tendsto_atTop_add_const_left _ _ tendsto_natCast_atTop_atTop
  have h1 := (lanF_lim.comp hN).abs
  have h2 := tendsto_pev_zero.comp hN
  have h3 := (h1.add h2).add_const (1 / 10 ^ 15 + 1.88 / 10 ^ 14 / lFac a)
  rw [add_zero] at h3
  have h4 : |lanF a| ≤ |log (lanC0 : ℝ) + lanczosG - log (2 * π) / 2| +
      (1 / 10 ^ 15 + 1.88 / 10 ^ 14 / lFac a) := by
    refine ge_of_tendsto h3 ?_
    filter_upwards [hN.eventually_ge_atTop 14] with n hn
    have h5 := lanF_add_nat ha n
    have h6 := log_Gamma_stirling hn
    have h7 := rev_lanN_pos (x := a + n) (by linarith)
    have h8 := rev_lanD_pos (x := a + n) (by linarith)
    simp only [Function.comp_apply]
    have e : lanF a = (log (rev lanN (a + n) / rev lanD (a + n)) +
        ((a + n - 1 / 2) * (log (lFac (a + n)) - 1) -
          ((a + n - 1 / 2) * log (a + n) - (a + n) + log (2 * π) / 2))) -
        (log (Gamma (a + n)) - ((a + n - 1 / 2) * log (a + n) - (a + n) + log (2 * π) / 2)) -
        (lanF (a + n) - lanF a) := by
      rw [log_div h7.ne' h8.ne', lanF, lanF]; ring
    rw [e]
    refine (abs_sub _ _).trans ?_
    refine (add_le_add (abs_sub _ _) le_rfl).trans ?_
    push_cast at h6 ⊢
    linarith
  have h9 : |log (lanC0 : ℝ) + lanczosG - log (2 * π) / 2| ≤ 7 / 10 ^ 16 := by
    have e : log (lanC0 : ℝ) + lanczosG - log (2 * π) / 2 =
        (log (lanC0 : ℝ) + lanczosG - LOGSQRT2PI) + (LOGSQRT2PI - log (2 * π) / 2) := by ring
    rw [e]
    refine (abs_add_le _ _).trans ((add_le_add lanC_log logsqrt2pi_approx).trans ?_)
    norm_num
  have h10 : (1.88 / 10 ^ 14 : ℝ) / lFac a ≤ 1.88 / 10 ^ 14 / 5.5 :=
    div_le_div_of_nonneg_left (by norm_num) (by norm_num) hF
  norm_num at h4 h9 h10 ⊢
  linarith

end Verif.Special
