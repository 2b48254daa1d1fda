import Verif.Special.Binet
import Mathlib.Analysis.SpecialFunctions.Gamma.Digamma
import Mathlib.Analysis.Complex.Liouville

/-!
# `ψ(z) - log z → 0`

Nothing here models the code.
-/

open Complex Filter Topology Finset

namespace Verif.Special

/-- The tail of the sum of steps, for growing real part. -/
theorem binetStep_bound_re {z : ℂ} (hz : 14 ≤ z.re) (k : ℕ) :
    ‖binetStep (z + k)‖ ≤ 1 / (z.re - 1 + k) - 1 / (z.re + k) := by
  have hre : (z + k).re = z.re + k := by simp
  have hk : (0 : ℝ) ≤ k := by positivity
  have h := binetStep_bound (z := z + k) (by rw [hre]; linarith)
  have hn : z.re + (k : ℝ) ≤ ‖z + k‖ := by
    have := (le_abs_self _).trans (abs_re_le_norm (z + k)); rwa [hre] at this
  have hx : 0 < z.re + k := by linarith
  have hx1 : 0 < z.re - 1 + k := by linarith
  have h1 : ‖1 / (z + k)‖ ≤ 1 / (z.re + k) := by
    rw [norm_div, norm_one]; exact one_div_le_one_div_of_le hx hn
  have h2 : ‖1 / (z + k)‖ ^ 14 ≤ (1 / (z.re + k)) ^ 2 := by
    have h3 : ‖1 / (z + k)‖ ≤ 1 := h1.trans (by rw [div_le_one hx]; linarith)
    calc ‖1 / (z + k)‖ ^ 14 ≤ ‖1 / (z + k)‖ ^ 2 :=
          pow_le_pow_of_le_one (norm_nonneg _) h3 (by norm_num)
      _ ≤ _ := pow_le_pow_left₀ (norm_nonneg _) h1 2
  have h3 : (1 / (z.re + k)) ^ 2 / 8 ≤ 1 / (z.re - 1 + k) - 1 / (z.re + k) := by
    rw [div_sub_div _ _ hx1.ne' hx.ne', div_pow, div_div, div_le_div_iff₀ (by positivity) (by positivity)]
    nlinarith [mul_pos hx hx1]
  exact (h.trans (div_le_div_of_nonneg_right h2 (by norm_num))).trans h3

theorem hasSum_tele {x : ℝ} (hx : 1 < x) :
    HasSum (fun k : ℕ => 1 / (x - 1 + k) - 1 / (x + k)) (1 / (x - 1)) := by
  rw [hasSum_iff_tendsto_nat_of_nonneg]
  · have h : ∀ n : ℕ, ∑ k ∈ range n, (1 / (x - 1 + k) - 1 / (x + k)) = 1 / (x - 1) - 1 / (x - 1 + n) := by
      intro n
      induction n with
      | zero => simp
      | succ n ih =>
        rw [sum_range_succ, ih]; push_cast
        rw [show x - 1 + (n + 1) = x + (n : ℝ) by ring]; ring
    simp_rw [h]
    have h2 : Tendsto (fun n : ℕ => 1 / (x - 1 + n)) atTop (𝓝 0) := by
      simp_rw [one_div]
      exact tendsto_inv_atTop_zero.comp
        (tendsto_atTop_add_const_left _ _ tendsto_natCast_atTop_atTop)
    simpa using h2.const_sub (1 / (x - 1))
  · intro k
    have hk : (0 : ℝ) ≤ k := by positivity
    rw [sub_nonneg]
    exact one_div_le_one_div_of_le (by linarith) (by linarith)

theorem lgRight_sub_re {z : ℂ} (hz : 14 ≤ z.re) : ‖lgRight z - binetM z‖ ≤ 1 / (z.re - 1) := by
  rw [lgRight, add_sub_cancel_left]
  exact tsum_of_norm_bounded (hasSum_tele (by linarith)) (binetStep_bound_re hz)

/-- `Γ` divided by Stirling's approximation. -/
noncomputable def gRatio (z : ℂ) : ℂ := Gamma z * exp (-binetM z)

theorem notPole_of_re {z : ℂ} (hz : 0 < z.re) : ∀ m : ℕ, z ≠ -m := by
  rintro m rfl; simp at hz; linarith [Nat.cast_nonneg (α := ℝ) m]

theorem gRatio_sub {z : ℂ} (hz : 14 ≤ z.re) : ‖gRatio z - 1‖ ≤ 2 * (1 / (z.re - 1)) := by
  have hL := isLogGamma_right hz
  have e : gRatio z = exp (lgRight z - binetM z) := by
    rw [gRatio, ← hL.exp_eq (notPole_of_re (by linarith)), ← exp_add, sub_eq_add_neg]
  have hb := lgRight_sub_re hz
  have h1 : 1 / (z.re - 1) ≤ 1 := by rw [div_le_one (by linarith)]; linarith
  rw [e]
  refine (norm_exp_sub_one_le (hb.trans h1)).trans ?_
  linarith

theorem pev_differentiable (l : List ℚ) : Differentiable ℂ (pev l) := by
  induction l with
  | nil => exact differentiable_const 0
  | cons c l ih => exact (differentiable_const _).add (differentiable_id.mul ih)

theorem pev_hasDerivAt (l : List ℚ) (w : ℂ) : HasDerivAt (pev l) (deriv (pev l) w) w :=
  (pev_differentiable l w).hasDerivAt

theorem binetM_hasDerivAt {z : ℂ} (hz : 0 < z.re) :
    HasDerivAt binetM (log z - 1 / 2 * (1 / z) - (1 / z) ^ 2 * deriv (pev binetL) (1 / z)) z := by
  have h0 : z ≠ 0 := by rintro rfl; simp at hz
  have h1 : HasDerivAt log z⁻¹ z := hasDerivAt_log (Or.inl hz)
  have h2 : HasDerivAt (fun z : ℂ => 1 / z) (-(1 / z) ^ 2) z := by
    have := hasDerivAt_inv h0
    simpa [one_div] using this
  have h3 := (pev_hasDerivAt binetL (1 / z)).comp z h2
  have h4 := (((((hasDerivAt_id z).sub_const (1/2)).mul h1).sub (hasDerivAt_id z)).add_const
    ((Real.log (2 * Real.pi) / 2 : ℂ))).add h3
  refine h4.congr_deriv ?_
  simp only [id]
  field_simp
  ring

theorem tendsto_one_div_add (z : ℂ) : Tendsto (fun n : ℕ => 1 / (z + n)) atTop (𝓝 0) := by
  simp_rw [one_div]
  refine tendsto_inv₀_cobounded.comp ?_
  rw [← tendsto_norm_atTop_iff_cobounded]
  refine tendsto_atTop_mono (fun n => ?_) (tendsto_atTop_add_const_left atTop (-‖z‖)
    (tendsto_natCast_atTop_atTop (R := ℝ)))
  have := norm_sub_norm_le (n : ℂ) (-z)
  rw [norm_neg, sub_neg_eq_add, add_comm (n : ℂ), norm_natCast] at this
  linarith

/-- `ψ(z + n) - log(z + n) → 0`. -/
theorem digamma_sub_log (z : ℂ) :
    Tendsto (fun n : ℕ => Complex.digamma (z + n) - log (z + n)) atTop (𝓝 0) := by
  have hre : ∀ n : ℕ, (z + n).re = z.re + n := by intro n; simp
  obtain ⟨n₀, hn₀⟩ := exists_nat_ge (20 - z.re)
  have hr : ∀ n : ℕ, n₀ ≤ n → 20 ≤ (z + n).re := by
    intro n hn; rw [hre]
    have : (n₀ : ℝ) ≤ n := by exact_mod_cast hn
    linarith
  -- the derivative of the ratio
  have hdiff : ∀ w : ℂ, 0 < w.re → DifferentiableAt ℂ gRatio w := fun w hw =>
    (differentiableAt_Gamma w (notPole_of_re hw)).mul
      ((binetM_hasDerivAt hw).differentiableAt.neg.cexp)
  have hder : ∀ n : ℕ, n₀ ≤ n → ‖deriv gRatio (z + n)‖ ≤ 2 * (1 / ((z + n).re - 2)) := by
    intro n hn
    have h20 := hr n hn
    have h1 : ‖deriv (fun w => gRatio w - 1) (z + n)‖ ≤ 2 * (1 / ((z + n).re - 2)) / 1 := by
      refine norm_deriv_le_of_forall_mem_sphere_norm_le one_pos ?_ ?_
      · refine DifferentiableOn.diffContOnCl fun w hw => ?_
        rw [closure_ball _ one_ne_zero, Metric.mem_closedBall, dist_eq] at hw
        have := (abs_le.1 ((abs_re_le_norm _).trans hw)).1
        rw [sub_re] at this
        exact ((hdiff w (by linarith)).sub_const 1).differentiableWithinAt
      · intro w hw
        rw [mem_sphere_iff_norm] at hw
        have := (abs_le.1 ((abs_re_le_norm _).trans hw.le)).1
        rw [sub_re] at this
        refine (gRatio_sub (by linarith)).trans ?_
        gcongr ?_ * ?_
        exact one_div_le_one_div_of_le (by linarith) (by linarith)
    rwa [div_one, deriv_sub_const] at h1
  have hlim1 : Tendsto (fun n : ℕ => 2 * (1 / ((z + n).re - 2))) atTop (𝓝 0) := by
    have h2 : Tendsto (fun n : ℕ => 1 / ((z.re - 2) + n)) atTop (𝓝 0) := by
      simp_rw [one_div]
      exact tendsto_inv_atTop_zero.comp
        (tendsto_atTop_add_const_left _ _ tendsto_natCast_atTop_atTop)
    have := h2.const_mul 2
    rw [mul_zero] at this
    refine this.congr fun n => ?_
    rw [hre]; congr 2; ring
  have hd0 : Tendsto (fun n : ℕ => deriv gRatio (z + n)) atTop (𝓝 0) :=
    squeeze_zero_norm' (eventually_atTop.2 ⟨n₀, hder⟩) hlim1
  have hg1 : Tendsto (fun n : ℕ => gRatio (z + n)) atTop (𝓝 1) := by
    rw [tendsto_iff_norm_sub_tendsto_zero]
    refine squeeze_zero_norm' (eventually_atTop.2 ⟨n₀, fun n hn => ?_⟩) hlim1
    have h20 := hr n hn
    rw [norm_norm]
    refine (gRatio_sub (by linarith)).trans ?_
    gcongr ?_ * ?_
    exact one_div_le_one_div_of_le (by linarith) (by linarith)
  have hq : Tendsto (fun n : ℕ => deriv gRatio (z + n) / gRatio (z + n)) atTop (𝓝 0) := by
    have := hd0.div hg1 one_ne_zero
    rw [zero_div] at this
    exact this
  have h1z := tendsto_one_div_add z
  have hpev : Tendsto (fun n : ℕ => deriv (pev binetL) (1 / (z + n))) atTop
      (𝓝 (deriv (pev binetL) 0)) := by
    have hc : ContDiff ℂ 1 (pev binetL) := (pev_differentiable binetL).contDiff
    exact ((hc.continuous_deriv le_rfl).tendsto 0).comp h1z
  have hfin : Tendsto (fun n : ℕ => deriv gRatio (z + n) / gRatio (z + n) -
      1 / 2 * (1 / (z + n)) - (1 / (z + n)) ^ 2 * deriv (pev binetL) (1 / (z + n))) atTop (𝓝 0) := by
    have := (hq.sub (h1z.const_mul (1 / 2))).sub ((h1z.pow 2).mul hpev)
    simpa using this
  refine hfin.congr' (eventually_atTop.2 ⟨n₀, fun n hn => ?_⟩)
  have hw : 0 < (z + n).re := by linarith [hr n hn]
  set w := z + (n : ℂ)
  have hG : HasDerivAt gRatio (deriv gRatio w) w := (hdiff w hw).hasDerivAt
  have hB := binetM_hasDerivAt hw
  have e : Gamma = fun w => gRatio w * exp (binetM w) := by
    funext v; rw [gRatio, mul_assoc, ← exp_add, neg_add_cancel, exp_zero, mul_one]
  have hGa := hG.mul hB.cexp
  have hne : Gamma w ≠ 0 := Gamma_ne_zero (notPole_of_re hw)
  have hg0 : gRatio w ≠ 0 := mul_ne_zero hne (exp_ne_zero _)
  have : Complex.digamma w = deriv gRatio w / gRatio w +
      (log w - 1 / 2 * (1 / w) - (1 / w) ^ 2 * deriv (pev binetL) (1 / w)) := by
    rw [Complex.digamma_def, logDeriv_apply]
    have h2 := hGa.deriv
    rw [show (gRatio * fun x => exp (binetM x)) = Gamma from e.symm] at h2
    rw [h2]
    have h3 : Gamma w = gRatio w * exp (binetM w) := congrFun e w
    rw [h3]
    have := exp_ne_zero (binetM w)
    field_simp
  show _ = Complex.digamma w - log w
  rw [this]; ring

end Verif.Special
