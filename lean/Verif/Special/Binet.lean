import Verif.Special.ListPoly
import Verif.Special.LogGammaSpec

/-!
# Stirling's series for `log Γ` with an explicit error

`binetM z = (z−½) log z − z + ½ log 2π + Σ_{k≤6} B_{2k}/(2k(2k−1) z^{2k−1})` (the six exact
rational coefficients) is within `10⁻¹⁵` of `log Γ(z)` for `Re z ≥ 14`.  This is mathematics used
in the accuracy proofs of `gamma.h` and `loggamma.h`; nothing here models the code.
-/

open Complex Filter Topology Finset

namespace Verif.Special

/-- `(1+w)ⁿ · l(w/(1+w))` as a polynomial in `w`. -/
def phom : List ℚ → ℕ → List ℚ
  | [], _ => []
  | [c], n => psmul c (ppow [1, 1] n)
  | c :: l, 0 => c :: l
  | c :: l, n + 1 => padd (psmul c (ppow [1, 1] (n + 1))) (0 :: phom l n)

theorem pev_one_one (w : ℂ) : pev [1, 1] w = 1 + w := by simp [pev]

theorem pev_phom (l : List ℚ) (n : ℕ) (h : l.length ≤ n + 1) {w : ℂ} (hw : 1 + w ≠ 0) :
    pev (phom l n) w = (1 + w) ^ n * pev l (w / (1 + w)) := by
  induction l generalizing n with
  | nil => simp [phom, pev]
  | cons c l ih =>
    cases l with
    | nil => simp [phom, pev_smul, pev_pow, pev_one_one, pev, mul_comm]
    | cons d l =>
      cases n with
      | zero => simp at h
      | succ n =>
        have := ih n (by simpa using h)
        simp only [phom, pev_add, pev_smul, pev_pow, pev_one_one]
        have e : pev (c :: d :: l) (w / (1 + w)) =
            c + w / (1 + w) * pev (d :: l) (w / (1 + w)) := rfl
        rw [e, pev, this]
        generalize pev (d :: l) (w / (1 + w)) = X
        push_cast
        field_simp
        ring

/-- The six coefficients of Stirling's series, as a polynomial in `1/z`. -/
def binetL : List ℚ :=
  [0, 1/12, 0, -1/360, 0, 1/1260, 0, -1/1680, 0, 1/1188, 0, -691/360360]

/-- The first fifteen coefficients of `log (1+w)/w`. -/
def logL : List ℚ :=
  [1, -1/2, 1/3, -1/4, 1/5, -1/6, 1/7, -1/8, 1/9, -1/10, 1/11, -1/12, 1/13, -1/14, 1/15]

/-- The combination that vanishes to order 14. -/
def binetH : List ℚ :=
  padd (pmul (ppow [1, 1] 11) (padd (pmul [1, 1/2] logL) [-1]))
    (padd (phom binetL 11) (psmul (-1) (pmul (ppow [1, 1] 11) binetL)))

theorem binetH_low : (binetH.take 14).all (· = 0) = true := by decide +kernel
theorem binetH_high : pabs (binetH.drop 14) (1/14) ≤ 12/100 := by decide +kernel

/-- Stirling's approximation to `log Γ`. -/
noncomputable def binetM (z : ℂ) : ℂ :=
  (z - 1/2) * log z - z + Real.log (2 * Real.pi) / 2 + pev binetL (1 / z)

theorem logTaylor_eq (w : ℂ) : logTaylor 16 w = w * pev logL w := by
  simp only [logTaylor, sum_range_succ, sum_range_zero, pev, logL]
  push_cast
  ring

theorem log_add_one {z : ℂ} (hz : 0 < z.re) : log (z + 1) = log z + log (1 + 1 / z) := by
  have h0 : z ≠ 0 := by rintro rfl; simp at hz
  have h1 : 0 < (1 + 1 / z).re := by
    rw [add_re, one_re, one_div, inv_re]
    have : 0 < normSq z := normSq_pos.2 h0
    positivity
  have h2 : 1 + 1 / z ≠ 0 := by intro e; rw [e] at h1; simp at h1
  have e : z + 1 = z * (1 + 1 / z) := by field_simp
  rw [e, log_mul h0 h2]
  have a1 := abs_lt.1 (abs_arg_lt_pi_div_two_iff.2 (Or.inl hz))
  have a2 := abs_lt.1 (abs_arg_lt_pi_div_two_iff.2 (Or.inl h1))
  constructor <;> linarith [a1.1, a1.2, a2.1, a2.2]

/-- One step of the telescoping sum. -/
noncomputable def binetStep (z : ℂ) : ℂ := binetM (z + 1) - binetM z - log z

theorem re_inv_nonneg {z : ℂ} (hz : 0 < z.re) : 0 ≤ (1 / z).re := by
  rw [one_div, inv_re]; have := normSq_nonneg z; positivity

theorem binetStep_bound {z : ℂ} (hz : 14 ≤ z.re) : ‖binetStep z‖ ≤ ‖1 / z‖ ^ 14 / 8 := by
  have hre : 0 < z.re := by linarith
  have h0 : z ≠ 0 := by rintro rfl; simp at hre
  set w := 1 / z with hw
  have hw0 : w ≠ 0 := by rw [hw]; exact one_div_ne_zero h0
  have hzn : 14 ≤ ‖z‖ := hz.trans ((le_abs_self _).trans (abs_re_le_norm z))
  have hwn : ‖w‖ ≤ ((1/14 : ℚ) : ℝ) := by
    rw [hw, norm_div, norm_one]
    push_cast
    exact one_div_le_one_div_of_le (by norm_num) hzn
  have hwn' : ‖w‖ ≤ 1/14 := by simpa using hwn
  have hwp : 0 < ‖w‖ := norm_pos_iff.2 hw0
  have hwre : 0 ≤ w.re := re_inv_nonneg hre
  have h1w : 1 ≤ ‖1 + w‖ := by
    have := (le_abs_self _).trans (abs_re_le_norm (1 + w))
    rw [add_re, one_re] at this; linarith
  have h1w0 : 1 + w ≠ 0 := by intro e; rw [e] at h1w; simp at h1w; linarith
  have hz1 : 1 / (z + 1) = w / (1 + w) := by
    have : z = 1 / w := by rw [hw]; simp
    rw [this]; field_simp
  set R := log (1 + w) - logTaylor (15 + 1) w with hR
  have hRn : ‖R‖ ≤ ‖w‖ ^ 16 * (14/13) / 16 := by
    refine (norm_log_sub_logTaylor_le 15 (by linarith : ‖w‖ < 1)).trans ?_
    have : (1 - ‖w‖)⁻¹ ≤ 14/13 := by
      rw [inv_le_comm₀ (by linarith) (by norm_num)]; linarith
    norm_num
    gcongr
  have key : (1 + w) ^ 11 * binetStep z =
      pev binetH w + (1 + w) ^ 11 * ((1 / w + 1/2) * R) := by
    have hzw : z = 1 / w := by rw [hw]; simp
    have e1 : log (1 + w) = w * pev logL w + R := by
      rw [hR, logTaylor_eq]; ring
    rw [binetStep, binetM, binetM, log_add_one hre, ← hw, hz1, e1]
    simp only [binetH, pev_add, pev_mul, pev_pow, pev_one_one, pev_smul,
      pev_phom binetL 11 (by simp [binetL]) h1w0]
    have e2 : pev [1, 1/2] w = 1 + w / 2 := by simp only [pev]; push_cast; ring
    have e3 : pev [-1] w = -1 := by simp [pev]
    rw [e2, e3, hzw]
    generalize pev binetL (w / (1 + w)) = X
    generalize pev binetL w = Y
    generalize pev logL w = Z
    push_cast
    field_simp
    ring
  have hH : ‖pev binetH w‖ ≤ ‖w‖ ^ 14 * (12/100) := by
    refine (norm_pev_le_pow _ 14 binetH_low hwn).trans ?_
    have : ((pabs (binetH.drop 14) (1/14) : ℚ) : ℝ) ≤ ((12/100 : ℚ) : ℝ) := by
      exact_mod_cast binetH_high
    push_cast at this
    exact mul_le_mul_of_nonneg_left this (by positivity)
  have hS : ‖(1 / w + 1/2) * R‖ ≤ ‖w‖ ^ 14 * (5/1000) := by
    have e : (1 / w + 1/2) = (1 + w / 2) / w := by field_simp
    rw [e, norm_mul, norm_div]
    have n1 : ‖1 + w / 2‖ ≤ 29/28 := by
      refine (norm_add_le _ _).trans ?_
      rw [norm_one, norm_div]; norm_num; linarith
    calc ‖1 + w / 2‖ / ‖w‖ * ‖R‖ ≤ (29/28) / ‖w‖ * (‖w‖ ^ 16 * (14/13) / 16) := by gcongr
      _ = ‖w‖ ^ 14 * (‖w‖ * ((29/28) * (14/13) / 16)) := by field_simp
      _ ≤ ‖w‖ ^ 14 * (5/1000) := by
        refine mul_le_mul_of_nonneg_left ?_ (by positivity); linarith
  have hn : ‖binetStep z‖ * ‖(1 + w) ^ 11‖ ≤
      ‖w‖ ^ 14 * (12/100) + ‖(1 + w) ^ 11‖ * (‖w‖ ^ 14 * (5/1000)) := by
    rw [← norm_mul, mul_comm, key]
    refine (norm_add_le _ _).trans (add_le_add hH ?_)
    rw [norm_mul]
    exact mul_le_mul_of_nonneg_left hS (norm_nonneg _)
  have h11 : 1 ≤ ‖(1 + w) ^ 11‖ := by rw [norm_pow]; exact one_le_pow₀ h1w
  have hp : 0 < ‖w‖ ^ 14 := by positivity
  generalize ‖(1 + w) ^ 11‖ = q at *
  generalize ‖w‖ ^ 14 = p at *
  by_contra hc
  push Not at hc
  nlinarith

/-- Stirling's formula in the form needed to start the telescoping sum. -/
theorem binetM_tendsto (z : ℂ) :
    Tendsto (fun n : ℕ => z * log n + log (n.factorial : ℂ) - binetM (z + (n + 1 : ℕ))) atTop
      (𝓝 0) := by
  have hst : Tendsto (fun n : ℕ => ((Real.log (Stirling.stirlingSeq n) : ℝ) : ℂ)) atTop
      (𝓝 ((Real.log (√Real.pi) : ℝ) : ℂ)) := by
    refine (continuous_ofReal.tendsto _).comp ?_
    exact ((Real.continuousAt_log (by positivity)).tendsto).comp
      Stirling.tendsto_stirlingSeq_sqrt_pi
  have hl := log_add_nat (z + 1)
  have hnl : Tendsto (fun n : ℕ => (n : ℂ) * log (1 + (z + 1) / n)) atTop (𝓝 (z + 1)) := by
    apply tendsto_nat_mul_log_one_add_of_tendsto
    refine tendsto_const_nhds.congr' ?_
    filter_upwards [eventually_ne_atTop 0] with n hn
    have hn' : (n : ℂ) ≠ 0 := Nat.cast_ne_zero.2 hn
    field_simp
  have hB : Tendsto (fun n : ℕ => pev binetL (1 / (z + (n + 1 : ℕ)))) atTop (𝓝 0) := by
    have hcont : Continuous (pev binetL) := by
      unfold binetL; simp only [pev]; fun_prop
    have h1 : Tendsto (fun n : ℕ => 1 / (z + (n + 1 : ℕ))) atTop (𝓝 0) := by
      have : Tendsto (fun n : ℕ => ‖z + (n + 1 : ℕ)‖) atTop atTop := by
        have h3 : Tendsto (fun n : ℕ => ((n + 1 : ℕ) : ℝ) - ‖z‖) atTop atTop :=
          tendsto_atTop_add_const_right _ _
            (tendsto_natCast_atTop_atTop.comp (tendsto_add_atTop_nat 1))
        refine tendsto_atTop_mono (fun n => ?_) h3
        have := norm_sub_norm_le ((n + 1 : ℕ) : ℂ) (-z)
        rw [norm_neg, Complex.norm_natCast, sub_neg_eq_add, add_comm _ z] at this
        exact this
      simp only [one_div]
      exact tendsto_inv₀_cobounded.comp (tendsto_norm_atTop_iff_cobounded.1 this)
    have := (hcont.tendsto 0).comp h1
    have e : pev binetL 0 = 0 := by simp [binetL, pev]
    rw [e] at this
    exact this
  have hall := ((hst.sub ((hl.const_mul (z + 1/2)).add hnl)).sub hB).add
    (tendsto_const_nhds (x := z + 1 + (Real.log 2 : ℂ) / 2 - Real.log (2 * Real.pi) / 2))
  have e0 : ((Real.log (√Real.pi) : ℝ) : ℂ) - ((z + 1/2) * 0 + (z + 1)) - 0 +
      (z + 1 + (Real.log 2 : ℂ) / 2 - Real.log (2 * Real.pi) / 2) = 0 := by
    rw [Real.log_sqrt Real.pi_pos.le, Real.log_mul (by norm_num) Real.pi_pos.ne']
    push_cast; ring
  rw [e0] at hall
  refine hall.congr' ?_
  filter_upwards [eventually_ne_atTop 0, eventually_one_add_ne (z + 1)] with n hn hw
  have hnr : (0 : ℝ) < n := by positivity
  have e1 : z + ((n + 1 : ℕ) : ℂ) = (z + 1) + n := by push_cast; ring
  rw [binetM, e1, log_nat_mul hn hw, Stirling.log_stirlingSeq_formula,
    Real.log_mul (by norm_num) hnr.ne', Real.log_div hnr.ne' (Real.exp_ne_zero 1), Real.log_exp]
  push_cast
  ring

theorem binet_sum (z : ℂ) (n : ℕ) :
    binetM (z + n) = binetM z + ∑ k ∈ range n, (log (z + k) + binetStep (z + k)) := by
  induction n with
  | zero => simp
  | succ n ih =>
    rw [sum_range_succ, ← add_assoc, ← ih, binetStep]
    push_cast
    rw [← add_assoc]; ring

theorem logGammaSeq_eq (z : ℂ) (n : ℕ) :
    logGammaSeq z n = (z * log n + log (n.factorial : ℂ) - binetM (z + (n + 1 : ℕ))) +
      (binetM z + ∑ k ∈ range (n + 1), binetStep (z + k)) := by
  rw [logGammaSeq, binet_sum z (n + 1), sum_add_distrib]; ring

/-- The summable bound of the steps. -/
theorem binetStep_bound' {z : ℂ} (hz : 14 ≤ z.re) (k : ℕ) :
    ‖binetStep (z + k)‖ ≤ 1 / 14 ^ 12 / 8 * (1 / (13 + k) - 1 / (14 + k) : ℝ) := by
  have hre : (z + k).re = z.re + k := by simp
  have hk : (0 : ℝ) ≤ k := by positivity
  have h := binetStep_bound (z := z + k) (by rw [hre]; linarith)
  have hn : 14 + (k : ℝ) ≤ ‖z + k‖ := by
    have := (le_abs_self _).trans (abs_re_le_norm (z + k)); rw [hre] at this; linarith
  have hw : ‖1 / (z + k)‖ ≤ 1 / (14 + k : ℝ) := by
    rw [norm_div, norm_one]; exact one_div_le_one_div_of_le (by positivity) hn
  have hw2 : ‖1 / (z + k)‖ ≤ 1 / 14 := hw.trans (one_div_le_one_div_of_le (by norm_num) (by linarith))
  calc ‖binetStep (z + k)‖ ≤ ‖1 / (z + k)‖ ^ 14 / 8 := h
    _ = ‖1 / (z + k)‖ ^ 12 * ‖1 / (z + k)‖ ^ 2 / 8 := by ring
    _ ≤ (1 / 14) ^ 12 * (1 / (14 + k : ℝ)) ^ 2 / 8 := by gcongr
    _ = 1 / 14 ^ 12 / 8 * (1 / (14 + k : ℝ)) ^ 2 := by ring
    _ ≤ _ := by
      refine mul_le_mul_of_nonneg_left ?_ (by positivity)
      rw [div_sub_div _ _ (by positivity) (by positivity), div_pow,
        div_le_div_iff₀ (by positivity) (by positivity)]
      nlinarith

theorem hasSum_telescope :
    HasSum (fun k : ℕ => 1 / 14 ^ 12 / 8 * (1 / (13 + k) - 1 / (14 + k) : ℝ))
      (1 / 14 ^ 12 / 8 * (1 / 13)) := by
  apply HasSum.mul_left
  rw [hasSum_iff_tendsto_nat_of_nonneg]
  · have h : ∀ n : ℕ, ∑ k ∈ range n, (1 / (13 + k) - 1 / (14 + k) : ℝ) = 1 / 13 - 1 / (13 + n) := by
      intro n
      induction n with
      | zero => simp
      | succ n ih => rw [sum_range_succ, ih]; push_cast; ring
    simp only [h]
    have : Tendsto (fun n : ℕ => (1 : ℝ) / (13 + n)) atTop (𝓝 0) := by
      simp only [one_div]
      exact tendsto_inv_atTop_zero.comp
        (tendsto_atTop_add_const_left _ _ tendsto_natCast_atTop_atTop)
    simpa using (tendsto_const_nhds (x := (1 : ℝ) / 13)).sub this
  · intro k
    have hk : (0 : ℝ) ≤ k := by positivity
    have : (1 : ℝ) / (14 + k) ≤ 1 / (13 + k) := one_div_le_one_div_of_le (by positivity) (by linarith)
    linarith

theorem binet_summable {z : ℂ} (hz : 14 ≤ z.re) : Summable fun k : ℕ => binetStep (z + k) :=
  Summable.of_norm_bounded hasSum_telescope.summable (binetStep_bound' hz)

/-- `log Γ` in the right half-plane `Re z ≥ 14`. -/
noncomputable def lgRight (z : ℂ) : ℂ := binetM z + ∑' k : ℕ, binetStep (z + k)

theorem isLogGamma_right {z : ℂ} (hz : 14 ≤ z.re) : IsLogGamma z (lgRight z) := by
  unfold IsLogGamma lgRight
  have h := (binetM_tendsto z).add ((tendsto_const_nhds (x := binetM z)).add
    ((binet_summable hz).hasSum.tendsto_sum_nat.comp (tendsto_add_atTop_nat 1)))
  rw [zero_add] at h
  refine h.congr fun n => ?_
  rw [logGammaSeq_eq]; rfl

/-- Stirling's series with its error. -/
theorem lgRight_sub {z : ℂ} (hz : 14 ≤ z.re) : ‖lgRight z - binetM z‖ ≤ 1 / 10 ^ 15 := by
  rw [lgRight, add_sub_cancel_left]
  refine (tsum_of_norm_bounded hasSum_telescope (binetStep_bound' hz)).trans ?_
  norm_num

/-- `log Γ` exists off the poles. -/
theorem exists_isLogGamma (z : ℂ) : ∃ L, IsLogGamma z L := by
  obtain ⟨n, hn⟩ := exists_nat_ge (14 - z.re)
  exact ⟨_, (isLogGamma_right (z := z + n) (by simp; linarith)).of_add_nat n⟩

end Verif.Special
