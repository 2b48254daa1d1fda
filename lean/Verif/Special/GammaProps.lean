import Verif.Special.Binet
import Verif.Special.EulerConst
import Verif.Special.GammaModel
import Mathlib.Analysis.Real.Pi.Bounds

/-!
# `gamma` is the Gamma function (C97)

For every complex `z`, `gamma` either reports a pole (exactly for real `z ≤ 0` within `100·eps` of
an integer) or returns `Γ(z)` with a relative error of at most `10⁻¹³` in exact arithmetic.
-/

open Complex Filter Topology Finset

namespace Verif.Special

/-- The coefficients of `stirling` as a polynomial in `1/z`. -/
def stirlingL : List ℚ :=
  [1, 8.33333333333333333333E-2, 3.47222222222222222222e-3, -2.68132716049382716049e-3,
   -2.29472093621399176955e-4, 7.84039221720066627474e-4, 6.97281375836585777429e-5,
   -5.92166437353693882865e-4]

/-- `exp` of the series of `log Γ`, truncated, minus the polynomial of `stirling`. -/
def stirlingD : List ℚ :=
  padd (psmul (-1) stirlingL)
    (padd [1] (padd binetL (padd (psmul (1/2) (ppow binetL 2)) (padd (psmul (1/6) (ppow binetL 3))
      (padd (psmul (1/24) (ppow binetL 4)) (padd (psmul (1/120) (ppow binetL 5))
        (psmul (1/720) (ppow binetL 6))))))))

theorem stirlingD_bound : pabs stirlingD (1/18) ≤ 9/10^15 := by decide +kernel
theorem binetL_bound : pabs binetL (1/18) ≤ 47/10000 := by decide +kernel

theorem stirling_eq {z : ℂ} (hz : z ≠ 0) :
    stirling z = SQRT2PI * exp ((z - 1/2) * log z - z) * pev stirlingL (1 / z) := by
  rw [stirling, cpow_def_of_ne_zero hz, sub_eq_add_neg _ z, exp_add]
  have : log z * (z - 0.5) = (z - 1/2) * log z := by norm_num; ring
  simp only [this, stirlingL, pev]
  push_cast
  ring

theorem sqrt2pi_approx : |SQRT2PI - √(2 * Real.pi)| ≤ 1 / 10 ^ 15 := by
  have h1 := Real.pi_gt_d20
  have h2 := Real.pi_lt_d20
  have hs : √(2 * Real.pi) ^ 2 = 2 * Real.pi := Real.sq_sqrt (by positivity)
  have hs0 : 0 ≤ √(2 * Real.pi) := Real.sqrt_nonneg _
  unfold SQRT2PI
  rw [abs_le]
  constructor
  · by_contra hc; push Not at hc
    nlinarith
  · by_contra hc; push Not at hc
    nlinarith

/-- `stirling` on `Re z ≥ 18`. -/
theorem stirling_accuracy {z : ℂ} (hz : 18 ≤ z.re) :
    ‖stirling z - Gamma z‖ ≤ 2 / 10 ^ 14 * ‖Gamma z‖ := by
  have hre : 0 < z.re := by linarith
  have h0 : z ≠ 0 := by rintro rfl; simp at hre
  set w := 1 / z with hw
  have hzn : 18 ≤ ‖z‖ := hz.trans ((le_abs_self _).trans (abs_re_le_norm z))
  have hwn : ‖w‖ ≤ ((1/18 : ℚ) : ℝ) := by
    rw [hw, norm_div, norm_one]
    push_cast
    exact one_div_le_one_div_of_le (by norm_num) hzn
  set e := lgRight z - binetM z with he
  have hen : ‖e‖ ≤ 1 / 10 ^ 15 := lgRight_sub (by linarith)
  have hG : Gamma z = exp ((z - 1/2) * log z - z) *
      ((√(2 * Real.pi) : ℝ) * exp (pev binetL w) * exp e) := by
    rw [← (isLogGamma_right (by linarith : 14 ≤ z.re)).exp_eq (notPole_of_re_pos hre)]
    have : lgRight z = ((z - 1/2) * log z - z) +
        (((Real.log (√(2 * Real.pi)) : ℝ) : ℂ) + pev binetL w + e) := by
      rw [Real.log_sqrt (by positivity), he, binetM, ← hw]; push_cast; ring
    rw [this, exp_add, exp_add, exp_add, ← ofReal_exp, Real.exp_log (by positivity)]
  rw [stirling_eq h0, hG, ← hw]
  set A := exp ((z - 1/2) * log z - z)
  set s := √(2 * Real.pi) with hs
  set X := exp (pev binetL w)
  set S := pev stirlingL w with hS
  have hBn : ‖pev binetL w‖ ≤ 47/10000 := by
    have := norm_pev_le binetL hwn
    have h2 : ((pabs binetL (1/18) : ℚ) : ℝ) ≤ ((47/10000 : ℚ) : ℝ) := by
      exact_mod_cast binetL_bound
    push_cast at h2; linarith
  have hX1 : ‖X - 1‖ ≤ 94/10000 := by
    have := norm_exp_sub_one_le (x := pev binetL w) (by linarith); linarith
  have hE1 : ‖exp e - 1‖ ≤ 2 / 10 ^ 15 := by
    have := norm_exp_sub_one_le (x := e) (by linarith); linarith
  have hSX : ‖S - X‖ ≤ 1 / 10 ^ 14 := by
    have hexp := Complex.exp_bound (x := pev binetL w) (by linarith) (n := 7) (by norm_num)
    have hD := norm_pev_le stirlingD hwn
    have h2 : ((pabs stirlingD (1/18) : ℚ) : ℝ) ≤ ((9/10^15 : ℚ) : ℝ) := by
      exact_mod_cast stirlingD_bound
    push_cast at h2
    have hDe : pev stirlingD w = (∑ m ∈ range 7, pev binetL w ^ m / (m.factorial : ℂ)) - S := by
      simp only [stirlingD, pev_add, pev_smul, pev_pow, sum_range_succ, sum_range_zero,
        Nat.factorial]
      rw [show pev [1] w = 1 by simp [pev]]
      push_cast
      ring
    have h3 : ‖pev binetL w‖ ^ 7 * ((Nat.succ 7 : ℝ) * ((Nat.factorial 7 : ℝ) * (7 : ℕ))⁻¹) ≤
        1 / 10 ^ 18 := by
      have : ‖pev binetL w‖ ^ 7 ≤ (47/10000) ^ 7 := by gcongr
      norm_num [Nat.factorial] at this ⊢; linarith
    have h4 : S - X = -(pev stirlingD w) - (X - ∑ m ∈ range 7, pev binetL w ^ m / (m.factorial : ℂ)) := by
      rw [hDe]; ring
    rw [h4]
    refine (norm_sub_le _ _).trans ?_
    rw [norm_neg]
    have h5 := hexp.trans h3
    norm_num at h5 hD h2 ⊢
    linarith
  have hs0 : 0 < s := Real.sqrt_pos.2 (by positivity)
  have hs2 : 2 ≤ s := by
    rw [hs]; apply Real.le_sqrt_of_sq_le; nlinarith [Real.pi_gt_three]
  have hsa : ‖((SQRT2PI : ℝ) : ℂ) - (s : ℂ)‖ ≤ 1 / 10 ^ 15 := by
    rw [← ofReal_sub, norm_real]; exact sqrt2pi_approx
  have hXu : ‖X‖ ≤ 1 + 94/10000 := by
    have := norm_sub_norm_le X 1; rw [norm_one] at this; linarith
  have hXl : 1 - 94/10000 ≤ ‖X‖ := by
    have := norm_sub_norm_le 1 X; rw [norm_one, norm_sub_rev] at this; linarith
  have hEl : 1 - 2/10^15 ≤ ‖exp e‖ := by
    have := norm_sub_norm_le 1 (exp e); rw [norm_one, norm_sub_rev] at this; linarith
  have hSu : ‖S‖ ≤ 102/100 := by
    have := norm_sub_norm_le S X; linarith
  have hsplit : (SQRT2PI : ℂ) * A * S - A * (s * X * exp e) =
      A * ((SQRT2PI - s) * S + s * (S - X) + s * X * (1 - exp e)) := by ring
  rw [hsplit, norm_mul, norm_mul]
  have hb : ‖((SQRT2PI : ℂ) - s) * S + s * (S - X) + s * X * (1 - exp e)‖ ≤
      1 / 10 ^ 15 * (102/100) + s * (1 / 10 ^ 14) + s * (1 + 94/10000) * (2 / 10 ^ 15) := by
    refine (norm_add_le _ _).trans (add_le_add ((norm_add_le _ _).trans (add_le_add ?_ ?_)) ?_)
    · rw [norm_mul]; gcongr
    · rw [norm_mul, norm_real, Real.norm_of_nonneg hs0.le]; gcongr
    · rw [norm_mul, norm_mul, norm_real, Real.norm_of_nonneg hs0.le, norm_sub_rev]; gcongr
  have hl : s * (1 - 94/10000) * (1 - 2/10^15) ≤ ‖(s : ℂ) * X * exp e‖ := by
    rw [norm_mul, norm_mul, norm_real, Real.norm_of_nonneg hs0.le]
    gcongr
  rw [mul_left_comm]
  refine mul_le_mul_of_nonneg_left (hb.trans ?_) (norm_nonneg _)
  have := mul_le_mul_of_nonneg_left hl (by norm_num : (0:ℝ) ≤ 2 / 10 ^ 14)
  refine le_trans ?_ this
  nlinarith

/-- The expansion used next to the pole at zero. -/
theorem nearZero_accuracy {z : ℂ} (h0 : z ≠ 0) (hz : ‖z‖ < 1e-9) :
    ‖1 / ((1 + 0.5772156649015329 * z) * z) - Gamma z‖ ≤ 2 / 10 ^ 14 * ‖Gamma z‖ := by
  have hzp : 0 < ‖z‖ := norm_pos_iff.2 h0
  have hz' : ‖z‖ ≤ 1 / 10 ^ 9 := by norm_num at hz ⊢; exact hz.le
  obtain ⟨L, hL⟩ := exists_isLogGamma (z + 1)
  have hnp : NotPole (z + 1) := by
    apply notPole_of_re_pos
    have := (neg_abs_le z.re).trans' (neg_le_neg (abs_re_le_norm z))
    rw [add_re, one_re]; linarith
  have hLE := logGamma_near_one (by linarith) hL
  have hG : Gamma z * z = exp L := by rw [hL.exp_eq hnp, Gamma_add_one z h0, mul_comm]
  set γ := Real.eulerMascheroniConstant with hγ
  have hγ1 := euler_approx
  rw [← hγ] at hγ1
  have hγ2 : |γ| ≤ 2/3 := by
    rw [abs_le]; constructor
    · linarith [Real.one_half_lt_eulerMascheroniConstant]
    · exact Real.eulerMascheroniConstant_lt_two_thirds.le
  have hLn : ‖L‖ ≤ ‖z‖ := by
    have h1 : L = (L + γ * z) - γ * z := by ring
    rw [h1]
    refine (norm_sub_le _ _).trans ?_
    have h2 : ‖(γ : ℂ) * z‖ ≤ 2/3 * ‖z‖ := by
      rw [norm_mul, norm_real]; exact mul_le_mul_of_nonneg_right hγ2 hzp.le
    nlinarith
  set p : ℂ := 1 + 0.5772156649015329 * z with hp
  have hgz : ‖(0.5772156649015329 : ℂ) * z‖ ≤ ‖z‖ := by
    rw [norm_mul]
    have : ‖(0.5772156649015329 : ℂ)‖ ≤ 1 := by
      rw [show (0.5772156649015329 : ℂ) = ((0.5772156649015329 : ℝ) : ℂ) by push_cast; rfl,
        norm_real]; norm_num
    nlinarith
  have hpn : 99/100 ≤ ‖p‖ := by
    have := norm_sub_norm_le (1 : ℂ) (-(0.5772156649015329 * z))
    rw [norm_one, norm_neg, sub_neg_eq_add, ← hp] at this
    linarith
  have hp0 : p ≠ 0 := by intro e; rw [e, norm_zero] at hpn; linarith
  have hdiff : ‖exp (-L) - p‖ ≤ 2 / 10 ^ 15 := by
    have h1 : exp (-L) - p = (exp (-L) - 1 - (-L)) - (L + γ * z) +
        ((γ - 0.5772156649015329 : ℝ) : ℂ) * z := by
      rw [hp]; push_cast; ring
    rw [h1]
    have e1 := norm_exp_sub_one_sub_id_le (x := -L) (by rw [norm_neg]; linarith)
    rw [norm_neg] at e1
    have e2 : ‖((γ - 0.5772156649015329 : ℝ) : ℂ) * z‖ ≤ 1 / 10 ^ 6 * ‖z‖ := by
      rw [norm_mul, norm_real]; exact mul_le_mul_of_nonneg_right hγ1 hzp.le
    refine (norm_add_le _ _).trans ?_
    have := norm_sub_le (exp (-L) - 1 - (-L)) (L + γ * z)
    have e3 : ‖L‖ ^ 2 ≤ ‖z‖ ^ 2 := by gcongr
    have e4 : ‖z‖ ^ 2 ≤ (1 / 10 ^ 9) ^ 2 := by gcongr
    have e5 : 3 * (1 / 10 ^ 9 : ℝ) ^ 2 + 1 / 10 ^ 6 * (1 / 10 ^ 9) ≤ 2 / 10 ^ 15 := by norm_num
    have e6 : 1 / 10 ^ 6 * ‖z‖ ≤ 1 / 10 ^ 6 * (1 / 10 ^ 9) := by gcongr
    linarith
  have hGz : Gamma z = exp L / z := by rw [← hG]; field_simp
  have hmain : 1 / (p * z) - Gamma z = Gamma z * ((exp (-L) - p) / p) := by
    rw [hGz, exp_neg]
    have := exp_ne_zero L
    field_simp
  rw [hmain, norm_mul, mul_comm, norm_div]
  refine mul_le_mul_of_nonneg_right ?_ (norm_nonneg _)
  rw [div_le_iff₀ (by linarith)]
  nlinarith

/-- The loop of `gamma.h:28-35`. -/
theorem gammaLoop_accuracy (z c : ℂ) (hz : NotPole z) (hc : c ≠ 0) :
    ‖gammaLoop z c * c - Gamma z‖ ≤ 2 / 10 ^ 14 * ‖Gamma z‖ := by
  induction z, c using gammaLoop.induct with
  | case1 z c h1 h2 =>
    have h0 : z ≠ 0 := by simpa using hz 0
    rw [gammaLoop, if_pos h1, if_pos h2]
    have : 1 / (((1 + 0.5772156649015329 * z) * z) * c) * c =
        1 / ((1 + 0.5772156649015329 * z) * z) := by
      rw [← div_div]; field_simp
    rw [this]
    exact nearZero_accuracy h0 h2
  | case2 z c h1 h2 ih =>
    have h0 : z ≠ 0 := by simpa using hz 0
    have := ih hz.succ (mul_ne_zero hc h0)
    rw [gammaLoop, if_pos h1, if_neg h2]
    rw [Gamma_add_one z h0] at this
    have e : gammaLoop (z + 1) (c * z) * (c * z) - z * Gamma z =
        z * (gammaLoop (z + 1) (c * z) * c - Gamma z) := by ring
    rw [e, norm_mul, norm_mul, mul_left_comm] at this
    exact le_of_mul_le_mul_left this (norm_pos_iff.2 h0)
  | case3 z c h1 =>
    rw [gammaLoop, if_neg h1, div_mul_cancel₀ _ hc]
    exact stirling_accuracy (not_lt.1 h1)

/-- A non-pole according to the code's test is not a pole. -/
theorem notPole_of_not_atPole {eps : ℝ} (he : 0 < eps) {z : ℂ} (h : ¬ atPole eps z) :
    NotPole z := by
  intro m e
  apply h
  have him : z.im = 0 := by rw [e]; simp
  have hre : z.re = ((-(m : ℤ) : ℤ) : ℝ) := by rw [e]; simp
  refine ⟨⟨him, ?_⟩, him, ?_⟩
  · rw [hre, round_intCast]; simpa using he
  · rw [hre]; push_cast; simp

/-- **C97.** `gamma` reports a pole exactly on real `z ≤ 0` within `100·eps` of an integer. -/
theorem C97_gamma_poles (eps : ℝ) (z : ℂ) :
    gamma eps z = none ↔
      z.im = 0 ∧ z.re ≤ 0 ∧ |(round z.re : ℝ) - z.re| < 100 * eps := by
  have key : gamma eps z = none ↔ atPole eps z := by
    rw [gamma]
    by_cases h : atPole eps z
    · simp [h]
    · rw [if_neg h]
      by_cases h1 : 18 ≤ |z.re|
      · rw [if_pos h1]
        by_cases h2 : z.re < 0
        · rw [if_pos h2]
          have h3 : gamma eps (1 - z) = some (stirling (1 - z)) := by
            have hr : (1 - z).re = 1 - z.re := by simp
            rw [abs_of_neg h2] at h1
            rw [gamma, if_neg, if_pos, if_neg]
            · rw [hr]; linarith
            · rw [hr, abs_of_pos (by linarith)]; linarith
            · intro hp; have := hp.2.2; rw [hr] at this; linarith
          simp [h3, h]
        · simp [h2, h]
      · simp [h1, h]
  rw [key, atPole]
  tauto

/-- **C97.** `gamma` returns `Γ(z)` to a relative `10⁻¹³` (in exact arithmetic) wherever it does
not report a pole. -/
theorem C97_gamma_value {eps : ℝ} (he : 0 < eps) {z g : ℂ} (h : gamma eps z = some g) :
    ‖g - Gamma z‖ ≤ 1 / 10 ^ 13 * ‖Gamma z‖ := by
  rw [gamma] at h
  by_cases hp : atPole eps z
  · simp [hp] at h
  rw [if_neg hp] at h
  have hn := notPole_of_not_atPole he hp
  have weaken : ∀ {u : ℂ}, ‖u - Gamma z‖ ≤ 2 / 10 ^ 14 * ‖Gamma z‖ →
      ‖u - Gamma z‖ ≤ 1 / 10 ^ 13 * ‖Gamma z‖ := fun hu =>
    hu.trans (mul_le_mul_of_nonneg_right (by norm_num) (norm_nonneg _))
  by_cases h1 : 18 ≤ |z.re|
  · rw [if_pos h1] at h
    by_cases h2 : z.re < 0
    · rw [if_pos h2] at h
      have hr : (1 - z).re = 1 - z.re := by simp
      rw [abs_of_neg h2] at h1
      have h3 : gamma eps (1 - z) = some (stirling (1 - z)) := by
        rw [gamma, if_neg, if_pos, if_neg]
        · rw [hr]; linarith
        · rw [hr, abs_of_pos (by linarith)]; linarith
        · intro hp; have := hp.2.2; rw [hr] at this; linarith
      rw [h3, Option.map_some, Option.some.injEq] at h
      have hacc := stirling_accuracy (z := 1 - z) (by rw [hr]; linarith)
      have hG1 : Gamma (1 - z) ≠ 0 := Gamma_ne_zero_of_re_pos (by rw [hr]; linarith)
      have hG : Gamma z = Real.pi / sin (Real.pi * z) / Gamma (1 - z) := by
        rw [← Gamma_mul_Gamma_one_sub, mul_div_cancel_right₀ _ hG1]
      have hpos : 0 < ‖Gamma (1 - z)‖ := norm_pos_iff.2 hG1
      have hst : (1 - 2/10^14) * ‖Gamma (1 - z)‖ ≤ ‖stirling (1 - z)‖ := by
        have := norm_sub_norm_le (Gamma (1 - z)) (stirling (1 - z))
        rw [norm_sub_rev] at this; linarith
      have hst0 : stirling (1 - z) ≠ 0 := by
        intro e; rw [e, norm_zero] at hst; nlinarith
      have e : g - Gamma z = Gamma z * ((Gamma (1 - z) - stirling (1 - z)) / stirling (1 - z)) := by
        rw [← h, hG]; field_simp
      rw [e, norm_mul, mul_comm, norm_div, norm_sub_rev]
      refine mul_le_mul_of_nonneg_right ?_ (norm_nonneg _)
      rw [div_le_iff₀ (norm_pos_iff.2 hst0)]
      nlinarith
    · rw [if_neg h2, Option.some.injEq] at h
      rw [← h]
      push Not at h2
      rw [abs_of_nonneg h2] at h1
      exact weaken (stirling_accuracy h1)
  · rw [if_neg h1, Option.some.injEq] at h
    rw [← h]
    simpa using weaken (by simpa using gammaLoop_accuracy z 1 hn one_ne_zero)

/-- The hypotheses of `C97_gamma_value` are met on every branch: left half-plane, next to a pole,
and far right. -/
example : (∃ g, gamma (1 / 10 ^ 15) (-20.5) = some g) ∧ (∃ g, gamma (1 / 10 ^ 15) (5 * I) = some g) ∧
    (∃ g, gamma (1 / 10 ^ 15) (-3 + 1e-10 * I) = some g) ∧
    gamma (1 / 10 ^ 15) (-3) = none := by
  have key : ∀ z, ¬ (z.im = 0 ∧ z.re ≤ 0 ∧ |(round z.re : ℝ) - z.re| < 100 * (1 / 10 ^ 15)) →
      ∃ g, gamma (1 / 10 ^ 15) z = some g := fun z h =>
    Option.ne_none_iff_exists'.1 fun e => h ((C97_gamma_poles _ _).1 e)
  refine ⟨key _ ?_, key _ ?_, key _ ?_, (C97_gamma_poles _ _).2 ?_⟩
  · rintro ⟨-, -, h⟩
    have hr : (-20.5 : ℂ).re = -20.5 := by
      rw [show (-20.5 : ℂ) = ((-20.5 : ℝ) : ℂ) by push_cast; rfl, ofReal_re]
    rw [hr] at h
    have : round (-20.5 : ℝ) = -20 := by
      rw [round_eq, Int.floor_eq_iff]; norm_num
    rw [this] at h
    norm_num [abs_of_pos] at h
  · simp
  · rintro ⟨h, -⟩
    norm_num at h
  · have hr : (-3 : ℂ).re = -3 := by simp
    refine ⟨by simp, by simp, ?_⟩
    rw [hr]
    have : round (-3 : ℝ) = -3 := by
      rw [round_eq, Int.floor_eq_iff]; norm_num
    rw [this]; norm_num

end Verif.Special
