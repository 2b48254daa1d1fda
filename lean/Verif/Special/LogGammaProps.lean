import Verif.Special.LogGammaRefl
import Verif.Special.LogConsts
import Verif.Special.GammaProps

/-!
# `loggamma` is the standard branch of `log Γ` (C98)

Wherever it does not report a pole, `loggamma z` is within `10⁻¹⁴` of `log Γ(z)` if
`|z| ≤ 9.9·10⁷`, and within `10⁻⁸` everywhere (where `|log Γ|` itself is of order `10⁹` or more);
in exact arithmetic.  `log Γ` is Euler's limit with principal logarithms (`IsLogGamma`).
-/

open Complex Filter Topology Finset

namespace Verif.Special

/-- The coefficients of `loggamma` as a polynomial in `1/z`. -/
def loggL : List ℚ :=
  [0, 8.3333333333333333333333333333333333333333e-2, 0,
   -2.7777777777777777777777777777777777777778e-3, 0,
   7.9365079365079365079365079365079365079365e-4, 0,
   -5.9523809523809523809523809523809523809524e-4, 0,
   8.4175084175084175084175084175084175084175E-4, 0,
   -1.9175269175269175269175269175269175269175e-3]

theorem loggL_bound : pabs (padd loggL (psmul (-1) binetL)) (1/14) ≤ 1/10^17 := by decide +kernel

theorem binetL_big : pabs (binetL.drop 1) (1/14) ≤ 1/11 := by decide +kernel

/-- What `loggammaTail` approximates. -/
theorem loggammaTail_accuracy {z : ℂ} (hz : 14 ≤ z.re) (c : ℂ) (a : ℝ) :
    ‖loggammaTail z c a - (lgRight z - (Real.log ‖c‖ + a * I))‖ ≤ 1 / 10 ^ 9 ∧
    (‖z‖ < 1e8 → ‖loggammaTail z c a - (lgRight z - (Real.log ‖c‖ + a * I))‖ ≤ 3 / 10 ^ 15) := by
  have hre : 0 < z.re := by linarith
  have h0 : z ≠ 0 := by rintro rfl; simp at hre
  have hzn : 14 ≤ ‖z‖ := hz.trans ((le_abs_self _).trans (abs_re_le_norm z))
  set w := 1 / z with hw
  have hwn : ‖w‖ ≤ ((1/14 : ℚ) : ℝ) := by
    rw [hw, norm_div, norm_one]
    push_cast
    exact one_div_le_one_div_of_le (by norm_num) hzn
  have he := lgRight_sub hz
  have hc : ‖((LOGSQRT2PI - Real.log (2 * Real.pi) / 2 : ℝ) : ℂ)‖ ≤ 2 / 10 ^ 16 := by
    rw [norm_real]; exact logsqrt2pi_approx
  have hd : ‖pev loggL w - pev binetL w‖ ≤ 1 / 10 ^ 17 := by
    have h := norm_pev_le (padd loggL (psmul (-1) binetL)) hwn
    rw [pev_add, pev_smul] at h
    have h2 : ((pabs (padd loggL (psmul (-1) binetL)) (1/14) : ℚ) : ℝ) ≤ ((1/10^17 : ℚ) : ℝ) := by
      exact_mod_cast loggL_bound
    push_cast at h2
    have e : pev loggL w - pev binetL w = pev loggL w + ((-1 : ℚ) : ℂ) * pev binetL w := by
      push_cast; ring
    rw [e]; linarith
  have case1 : ‖z‖ < 1e8 →
      ‖loggammaTail z c a - (lgRight z - (Real.log ‖c‖ + a * I))‖ ≤ 3 / 10 ^ 15 := by
    intro hz8
    have e : loggammaTail z c a - (lgRight z - (Real.log ‖c‖ + a * I)) =
        ((LOGSQRT2PI - Real.log (2 * Real.pi) / 2 : ℝ) : ℂ) + (pev loggL w - pev binetL w) -
          (lgRight z - binetM z) := by
      have hww : 1 / (z * z) = w * w := by rw [hw]; field_simp
      have hdiv : ∀ u : ℂ, u / z = u * w := fun u => by rw [hw]; field_simp
      simp only [loggammaTail, if_pos hz8, hww, hdiv]
      rw [binetM, ← hw]
      simp only [loggL, pev]
      push_cast
      ring
    rw [e]
    refine (norm_sub_le _ _).trans ?_
    have := norm_add_le ((LOGSQRT2PI - Real.log (2 * Real.pi) / 2 : ℝ) : ℂ)
      (pev loggL w - pev binetL w)
    norm_num at hc hd he this ⊢
    linarith
  refine ⟨?_, case1⟩
  by_cases hz8 : ‖z‖ < 1e8
  · exact (case1 hz8).trans (by norm_num)
  · have e : loggammaTail z c a - (lgRight z - (Real.log ‖c‖ + a * I)) =
        ((LOGSQRT2PI - Real.log (2 * Real.pi) / 2 : ℝ) : ℂ) - pev binetL w -
          (lgRight z - binetM z) := by
      simp only [loggammaTail, if_neg hz8]
      rw [binetM, ← hw]
      push_cast
      ring
    have hb : ‖pev binetL w‖ ≤ 1 / 10 ^ 8 * (1/11) := by
      have h := norm_pev_le_pow binetL 1 (by decide +kernel) hwn
      have h2 : ((pabs (binetL.drop 1) (1/14) : ℚ) : ℝ) ≤ ((1/11 : ℚ) : ℝ) := by
        exact_mod_cast binetL_big
      push_cast at h2
      have hw8 : ‖w‖ ≤ 1 / 10 ^ 8 := by
        rw [hw, norm_div, norm_one]
        refine one_div_le_one_div_of_le (by norm_num) ?_
        push Not at hz8; norm_num at hz8 ⊢; exact hz8
      rw [pow_one] at h
      exact h.trans (mul_le_mul hw8 h2 ((norm_nonneg _).trans (by
        simpa using norm_pev_le (binetL.drop 1) hwn)) (by norm_num))
    rw [e]
    refine (norm_sub_le _ _).trans ?_
    have := norm_sub_le ((LOGSQRT2PI - Real.log (2 * Real.pi) / 2 : ℝ) : ℂ) (pev binetL w)
    norm_num at hc hb he this ⊢
    linarith

/-- The loop adds up logarithms. -/
theorem loggammaLoop_eq (z c : ℂ) (a : ℝ) :
    ∃ n : ℕ, loggammaLoop z c a =
        (z + n, c * ∏ k ∈ range n, (z + k), a + ∑ k ∈ range n, arg (z + k)) ∧
      14 ≤ (z + n).re ∧ (n = 0 ∨ (z + n).re < 15) := by
  induction z, c, a using loggammaLoop.induct with
  | case1 z c a h ih =>
    obtain ⟨n, e, h1, h2⟩ := ih
    have hz : z + 1 + n = z + (n + 1 : ℕ) := by push_cast; ring
    refine ⟨n + 1, ?_, ?_, ?_⟩
    · rw [loggammaLoop, if_pos h, e, prod_range_succ', sum_range_succ', hz]
      have hk : ∀ k : ℕ, z + 1 + (k : ℂ) = z + (k + 1 : ℕ) := fun k => by push_cast; ring
      simp only [hk]
      refine Prod.ext rfl (Prod.ext ?_ ?_)
      · simp only [Nat.cast_zero, add_zero]; ring
      · simp only [Nat.cast_zero, add_zero]; ring
    · rw [← hz]; exact h1
    · right
      rw [← hz]
      rcases h2 with h2 | h2
      · rw [h2] at h1 ⊢; simp at h1 ⊢; linarith
      · exact h2
  | case2 z c a h =>
    refine ⟨0, ?_, ?_, Or.inl rfl⟩
    · rw [loggammaLoop, if_neg h]; simp
    · simpa using h

theorem log_prod {z : ℂ} (hz : NotPole z) (n : ℕ) :
    ((Real.log ‖1 * ∏ k ∈ range n, (z + k)‖ : ℝ) : ℂ) +
      ((0 + ∑ k ∈ range n, arg (z + k) : ℝ) : ℂ) * I = ∑ k ∈ range n, log (z + k) := by
  rw [one_mul, zero_add, norm_prod, Real.log_prod fun k _ => norm_ne_zero_iff.2 (hz.add_ne k)]
  push_cast
  rw [sum_mul, ← sum_add_distrib]
  refine sum_congr rfl fun k _ => ?_
  rw [log]

/-- The branch without reflection. -/
theorem loggamma_loop_accuracy {z L : ℂ} (hz : NotPole z) (hre : -14 ≤ z.re)
    (hL : IsLogGamma z L) :
    let s := loggammaLoop z 1 0
    ‖loggammaTail s.1 s.2.1 s.2.2 - L‖ ≤ 1 / 10 ^ 9 ∧
    (‖z‖ ≤ 99999900 → ‖loggammaTail s.1 s.2.1 s.2.2 - L‖ ≤ 3 / 10 ^ 15) := by
  obtain ⟨n, e, h1, h2⟩ := loggammaLoop_eq z 1 0
  have hLe : L = lgRight (z + n) - ∑ k ∈ range n, log (z + k) :=
    hL.unique ((isLogGamma_right h1).of_add_nat n)
  have h := loggammaTail_accuracy h1 (1 * ∏ k ∈ range n, (z + k)) (0 + ∑ k ∈ range n, arg (z + k))
  rw [log_prod hz n, ← hLe] at h
  simp only [e]
  refine ⟨h.1, fun hn => h.2 ?_⟩
  have hn29 : (n : ℝ) ≤ 29 := by
    rcases h2 with h2 | h2
    · rw [h2]; norm_num
    · simp at h2; linarith
  have := norm_add_le z (n : ℂ)
  rw [Complex.norm_natCast] at this
  norm_num
  linarith

/-- The logarithm of the sine far from the real axis. -/
theorem log_sin_far {z : ℂ} (hz : z ∈ strip) (hy : 36.7 < z.im) :
    ‖Real.pi * z.im - 0.6931471805599453094 + Real.pi * (0.5 - z.re) * I -
      log (sin (Real.pi * z))‖ ≤ 1 / 10 ^ 15 := by
  have hp := Real.pi_pos
  have hp3 := Real.pi_gt_three
  obtain ⟨hx0, hx1⟩ := strip_re hz
  set q := exp (2 * Real.pi * I * z) with hq
  have hqn : ‖q‖ ≤ 1 / 10 ^ 30 := by
    rw [hq, norm_exp]
    have : (2 * Real.pi * I * z).re = -(2 * Real.pi * z.im) := by simp
    rw [this]
    norm_num at hy
    calc Real.exp (-(2 * Real.pi * z.im)) ≤ Real.exp (-((200 : ℕ) * 1)) := by
          apply Real.exp_le_exp.2; push_cast; nlinarith
      _ = (Real.exp 1 ^ 200)⁻¹ := by rw [Real.exp_neg, Real.exp_nat_mul]
      _ ≤ ((2 : ℝ) ^ 200)⁻¹ := by
          have := Real.add_one_le_exp (1 : ℝ)
          gcongr; linarith
      _ ≤ 1 / 10 ^ 30 := by norm_num
  set ε := log (1 + -q) with hε
  have hεn : ‖ε‖ ≤ 3 / 2 * ‖q‖ := by
    have := norm_log_one_add_half_le_self (z := -q) (by rw [norm_neg]; linarith)
    rwa [norm_neg] at this
  have h1q : (1 : ℂ) + -q ≠ 0 := by
    intro h
    have : q = 1 := by linear_combination -h
    rw [this, norm_one] at hqn; norm_num at hqn
  set Y : ℂ := Real.pi * z.im - Real.log 2 + Real.pi * (1/2 - z.re) * I + ε with hY
  have hexp : exp Y = sin (Real.pi * z) := by
    rw [hY, exp_add, hε, exp_log h1q]
    have e1 : (Real.pi * z.im - Real.log 2 + Real.pi * (1/2 - z.re) * I : ℂ) =
        -(Real.pi * z * I) + Real.pi / 2 * I - Real.log 2 := by
      conv_rhs => rw [← re_add_im z]
      ring_nf
      rw [I_sq]; ring
    rw [e1, exp_sub, exp_add, exp_pi_div_two_mul_I, ← ofReal_exp, Real.exp_log (by norm_num), sin,
      hq]
    have e2 : exp (Real.pi * z * I) = exp (-(Real.pi * z * I)) * exp (2 * Real.pi * I * z) := by
      rw [← exp_add]; congr 1; ring
    rw [e2, neg_mul]
    push_cast
    ring
  have him : |ε.im| ≤ 1 := (abs_im_le_norm ε).trans (by norm_num at hqn hεn ⊢; linarith)
  have hYim : Y.im = Real.pi * (1/2 - z.re) + ε.im := by
    rw [hY]
    have : (Real.pi * z.im - Real.log 2 + Real.pi * (1/2 - z.re) * I + ε : ℂ) =
      ((Real.pi * z.im - Real.log 2 : ℝ) : ℂ) + ((Real.pi * (1/2 - z.re) : ℝ) : ℂ) * I + ε := by
      push_cast; ring
    rw [this, add_im, add_im, ofReal_im, mul_im, ofReal_re, ofReal_im, I_re, I_im]; ring
  have him' := abs_le.1 him
  have hlog : log (sin (Real.pi * z)) = Y := by
    rw [← hexp, log_exp]
    · rw [hYim]; nlinarith
    · rw [hYim]; nlinarith
  rw [hlog, hY]
  have e3 : (Real.pi * z.im - 0.6931471805599453094 + Real.pi * (0.5 - z.re) * I -
      (Real.pi * z.im - Real.log 2 + Real.pi * (1/2 - z.re) * I + ε) : ℂ) =
      -((0.6931471805599453094 - Real.log 2 : ℝ) : ℂ) - ε := by
    push_cast; norm_num; ring
  rw [e3]
  refine (norm_sub_le _ _).trans ?_
  rw [norm_neg, norm_real]
  have := log2_approx
  rw [Real.norm_eq_abs]
  norm_num at this hqn hεn ⊢
  linarith

theorem conj_notPole {z : ℂ} (h : NotPole z) : NotPole (starRingEnd ℂ z) := by
  intro m e
  refine h m ?_
  have := congrArg (starRingEnd ℂ) e
  simpa using this

/-- `loggamma` on `Re z ≥ −14`. -/
theorem loggamma_right {eps : ℝ} (he : 0 < eps) {z L : ℂ} (hp : ¬ atPole eps z)
    (hre : -14 ≤ z.re) (hL : IsLogGamma z L) :
    ∃ l, loggamma eps z = some l ∧ ‖l - L‖ ≤ 1 / 10 ^ 9 ∧
      (‖z‖ ≤ 99999900 → ‖l - L‖ ≤ 3 / 10 ^ 15) := by
  have hn := notPole_of_not_atPole he hp
  have hcond : ¬ ((toUpper z).re < -14 ∨ (toUpper z).im < -14) := by
    rw [toUpper_re]
    have := toUpper_im z
    push Not
    constructor <;> linarith
  rw [loggamma, if_neg hp]
  simp only [if_neg hcond]
  by_cases him : z.im < 0
  · have e : toUpper z = starRingEnd ℂ z := by rw [toUpper, if_pos him]
    simp only [if_pos him, e, Option.map_some]
    have h := loggamma_loop_accuracy (conj_notPole hn) (by simpa using hre) (hL.conj him.ne)
    refine ⟨_, rfl, ?_⟩
    have hnorm : ∀ t : ℂ, ‖starRingEnd ℂ t - L‖ = ‖t - starRingEnd ℂ L‖ := by
      intro t
      rw [← norm_conj, map_sub, conj_conj]
    rw [hnorm]
    rw [norm_conj] at h
    exact h
  · have e : toUpper z = z := by rw [toUpper, if_neg him]
    simp only [if_neg him, e]
    exact ⟨_, rfl, loggamma_loop_accuracy hn hre hL⟩

/-- The reflected branch, for an argument in the closed upper half-plane. -/
theorem loggamma_refl_accuracy {eps : ℝ} (he : 0 < eps) {z L : ℂ} (hn : NotPole z)
    (hre : z.re < -14) (him : 0 ≤ z.im) (hL : IsLogGamma z L) :
    ∃ l, loggamma eps (1 - z) = some l ∧
      ‖LOGPI - l - loggammaLogSin z - L‖ ≤ 1 / 10 ^ 8 ∧
      (‖z‖ ≤ 99000000 → ‖LOGPI - l - loggammaLogSin z - L‖ ≤ 1 / 10 ^ 14) := by
  obtain ⟨L1, hL1⟩ := exists_isLogGamma (1 - z)
  have hr1 : (1 - z).re = 1 - z.re := by simp
  have hp1 : ¬ atPole eps (1 - z) := by
    intro h; have := h.2.2; rw [hr1] at this; linarith
  obtain ⟨l, hl, hb1, hb2⟩ := loggamma_right he hp1 (by rw [hr1]; linarith) hL1
  refine ⟨l, hl, ?_⟩
  obtain ⟨m, hm⟩ : ∃ m : ℕ, ⌊z.re⌋ = -(m : ℤ) := by
    have : ⌊z.re⌋ ≤ 0 := by
      have := Int.floor_le z.re
      have h2 : (⌊z.re⌋ : ℝ) < 0 := by linarith
      exact_mod_cast h2.le
    exact ⟨(-⌊z.re⌋).toNat, by omega⟩
  have hmr : (⌊z.re⌋ : ℝ) = -(m : ℝ) := by rw [hm]; push_cast; rfl
  have hmc : ((⌊z.re⌋ : ℤ) : ℂ) = -(m : ℂ) := by rw [hm]; push_cast; rfl
  set z' := z + m with hz'
  have hz'z : z = z' - m := by rw [hz']; ring
  have hre' : z'.re = z.re + m := by rw [hz']; simp
  have him' : z'.im = z.im := by rw [hz']; simp
  have h0 : 0 ≤ z'.re := by
    have := Int.floor_le z.re; rw [hmr] at this; rw [hre']; linarith
  have h1 : z'.re < 1 := by
    have := Int.lt_floor_add_one z.re; rw [hmr] at this; rw [hre']; linarith
  have hstrip : z' ∈ strip := by
    rcases eq_or_lt_of_le him with hi | hi
    · left
      refine ⟨lt_of_le_of_ne h0 fun e => hn m ?_, h1, by rw [him', ← hi]⟩
      have h00 : z' = 0 := by
        apply Complex.ext
        · rw [← e]; rfl
        · rw [him', ← hi]; rfl
      rw [hz'z, h00]; ring
    · right; exact ⟨h0, h1, by rw [him']; exact hi⟩
  rw [hz'z] at hL hL1
  have hLe := hL.unique (refl_left hstrip m hL1)
  have hsin : ‖loggammaLogSin z - (log (sin (Real.pi * z')) + Real.pi * m * I)‖ ≤ 1 / 10 ^ 15 := by
    unfold loggammaLogSin
    split_ifs with hi
    · have hi' : 36.7 < z'.im := by
        rw [him']
        rcases hi with hi | hi
        · exact hi
        · norm_num at hi; linarith
      have := log_sin_far hstrip hi'
      have e : (Real.pi * z.im - 0.6931471805599453094 + Real.pi * (0.5 - z.re) * I -
          (log (sin (Real.pi * z')) + Real.pi * m * I) : ℂ) =
          Real.pi * z'.im - 0.6931471805599453094 + Real.pi * (0.5 - z'.re) * I -
          log (sin (Real.pi * z')) := by
        rw [him', hre']; push_cast; ring
      rw [e]; exact this
    · rw [hmc, sub_neg_eq_add, ← hz']
      have e : log (sin (Real.pi * z')) - Real.pi * -(m : ℂ) * I -
          (log (sin (Real.pi * z')) + Real.pi * m * I) = 0 := by ring
      rw [e, norm_zero]; norm_num
  have hlp : ‖((LOGPI - Real.log Real.pi : ℝ) : ℂ)‖ ≤ 1 / 10 ^ 16 := by
    rw [norm_real]; exact logpi_approx
  have split : LOGPI - l - loggammaLogSin z - L =
      ((LOGPI - Real.log Real.pi : ℝ) : ℂ) - (l - L1) -
        (loggammaLogSin z - (log (sin (Real.pi * z')) + Real.pi * m * I)) := by
    rw [hLe]; push_cast; ring
  have tri : ‖LOGPI - l - loggammaLogSin z - L‖ ≤ 1 / 10 ^ 16 + ‖l - L1‖ + 1 / 10 ^ 15 := by
    rw [split]
    refine (norm_sub_le _ _).trans (add_le_add ((norm_sub_le _ _).trans ?_) hsin)
    exact add_le_add hlp le_rfl
  refine ⟨?_, fun hz => ?_⟩
  · norm_num at tri hb1 ⊢; linarith
  · have hb := hb2 (by
      have := norm_sub_le (1 : ℂ) z
      rw [norm_one] at this; linarith)
    norm_num at tri hb ⊢; linarith

/-- **C98.** `loggamma` returns the standard branch of `log Γ` wherever it does not report a
pole. -/
theorem C98_loggamma_value {eps : ℝ} (he : 0 < eps) {z l L : ℂ} (h : loggamma eps z = some l)
    (hL : IsLogGamma z L) :
    ‖l - L‖ ≤ 1 / 10 ^ 8 ∧ (‖z‖ ≤ 99000000 → ‖l - L‖ ≤ 1 / 10 ^ 14) := by
  by_cases hp : atPole eps z
  · rw [loggamma, if_pos hp] at h; simp at h
  have hn := notPole_of_not_atPole he hp
  by_cases hre : -14 ≤ z.re
  · obtain ⟨l', e, h1, h2⟩ := loggamma_right he hp hre hL
    rw [e, Option.some.injEq] at h
    rw [← h]
    refine ⟨h1.trans (by norm_num), fun hz => (h2 (hz.trans (by norm_num))).trans (by norm_num)⟩
  · push Not at hre
    rw [loggamma, if_neg hp] at h
    have hcond : (toUpper z).re < -14 ∨ (toUpper z).im < -14 := by
      left; rw [toUpper_re]; exact hre
    simp only [if_pos hcond] at h
    by_cases him : z.im < 0
    · have e : toUpper z = starRingEnd ℂ z := by rw [toUpper, if_pos him]
      simp only [if_pos him, e] at h
      obtain ⟨l', e', h1, h2⟩ := loggamma_refl_accuracy he (conj_notPole hn) (by simpa using hre)
        (by simpa using him.le) (hL.conj him.ne)
      rw [e', Option.map_some, Option.map_some, Option.some.injEq] at h
      have hnorm : ‖l - L‖ = ‖LOGPI - l' - loggammaLogSin (starRingEnd ℂ z) - starRingEnd ℂ L‖ := by
        rw [← h, ← norm_conj, map_sub, conj_conj]
      rw [hnorm]
      rw [norm_conj] at h2
      exact ⟨h1, h2⟩
    · have e : toUpper z = z := by rw [toUpper, if_neg him]
      simp only [if_neg him, e] at h
      obtain ⟨l', e', h1, h2⟩ := loggamma_refl_accuracy he hn hre (not_lt.1 him) hL
      rw [e', Option.map_some, Option.some.injEq] at h
      rw [← h]
      exact ⟨h1, h2⟩

/-- **C98.** `loggamma` reports a pole exactly where `gamma` does. -/
theorem C98_loggamma_poles {eps : ℝ} (he : 0 < eps) (z : ℂ) :
    loggamma eps z = none ↔
      z.im = 0 ∧ z.re ≤ 0 ∧ |(round z.re : ℝ) - z.re| < 100 * eps := by
  have key : loggamma eps z = none ↔ atPole eps z := by
    constructor
    · intro h
      by_contra hp
      have hn := notPole_of_not_atPole he hp
      obtain ⟨L, hL⟩ := exists_isLogGamma z
      by_cases hre : -14 ≤ z.re
      · obtain ⟨l', e, -⟩ := loggamma_right he hp hre hL
        rw [e] at h; simp at h
      · push Not at hre
        rw [loggamma, if_neg hp] at h
        have hcond : (toUpper z).re < -14 ∨ (toUpper z).im < -14 := by
          left; rw [toUpper_re]; exact hre
        simp only [if_pos hcond] at h
        have hnu : NotPole (toUpper z) := by
          unfold toUpper; split
          · exact conj_notPole hn
          · exact hn
        obtain ⟨L', hL'⟩ := exists_isLogGamma (toUpper z)
        obtain ⟨l', e', -⟩ := loggamma_refl_accuracy he hnu (by rw [toUpper_re]; exact hre)
          (toUpper_im z) hL'
        rw [e'] at h
        split_ifs at h <;> simp at h
    · intro h; rw [loggamma, if_pos h]
  rw [key, atPole]
  tauto

/-- **C98.** The exponential of `loggamma` is `Γ`, whatever the branch. -/
theorem C98_exp_loggamma {eps : ℝ} (he : 0 < eps) {z l : ℂ} (h : loggamma eps z = some l)
    (hz : ‖z‖ ≤ 99000000) : ‖exp l - Gamma z‖ ≤ 2 / 10 ^ 14 * ‖Gamma z‖ := by
  obtain ⟨L, hL⟩ := exists_isLogGamma z
  have hn : NotPole z := by
    by_cases hp : atPole eps z
    · rw [loggamma, if_pos hp] at h; simp at h
    · exact notPole_of_not_atPole he hp
  have hb := (C98_loggamma_value he h hL).2 hz
  rw [← hL.exp_eq hn]
  have e : exp l - exp L = exp L * (exp (l - L) - 1) := by
    rw [mul_sub, ← exp_add, add_sub_cancel, mul_one]
  rw [e, norm_mul, mul_comm]
  refine mul_le_mul_of_nonneg_right ?_ (norm_nonneg _)
  have := norm_exp_sub_one_le (x := l - L) (by norm_num at hb ⊢; linarith)
  norm_num at hb this ⊢; linarith

/-- The hypotheses are met on each branch, and `log Γ` exists everywhere. -/
example : (∃ l, loggamma (1 / 10 ^ 15) (-20.5 + 40 * I) = some l) ∧
    (∃ l, loggamma (1 / 10 ^ 15) (-20 - 3 * I) = some l) ∧
    (∃ l, loggamma (1 / 10 ^ 15) (1/2) = some l) ∧ ∀ z, ∃ L, IsLogGamma z L := by
  have key : ∀ z, ¬ (z.im = 0 ∧ z.re ≤ 0 ∧ |(round z.re : ℝ) - z.re| < 100 * (1 / 10 ^ 15)) →
      ∃ g, loggamma (1 / 10 ^ 15) z = some g := fun z h =>
    Option.ne_none_iff_exists'.1 fun e => h ((C98_loggamma_poles (by norm_num) _).1 e)
  refine ⟨key _ ?_, key _ ?_, key _ ?_, exists_isLogGamma⟩
  · rintro ⟨h, -⟩; norm_num at h
  · rintro ⟨h, -⟩; norm_num at h
  · rintro ⟨-, h, -⟩; norm_num at h

end Verif.Special
