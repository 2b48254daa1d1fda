import Verif.Cosmo.CsincModel
import Verif.Common.Round
import Verif.Cosmo.Dist
import Mathlib.Analysis.Complex.Exponential
import Mathlib.Analysis.Real.Pi.Bounds
import Mathlib.Analysis.SpecialFunctions.Trigonometric.Bounds

/-! # C116: rounding in the comoving volume -/

namespace Verif.Cosmo.Flt

open Verif.Round

/-! ### Specification -/

/-- The exact `(1 - sin(y)/y)/y^2`, or `(sinh(y)/y - 1)/y^2` for an open universe. -/
noncomputable def csincExact : Curv → ℝ → ℝ
  | .closed, y => (1 - Real.sin y / y) / y ^ 2
  | .opened, y => (Real.sinh y / y - 1) / y ^ 2

/-! ### Lemmas -/

theorem sinh_bound {x : ℝ} (hx : |x| ≤ 1) : |Real.sinh x - (x + x ^ 3 / 6)| ≤ |x| ^ 4 * (5 / 96) := by
  have h1 := Real.exp_bound hx (n := 4) (by norm_num)
  have h2 := Real.exp_bound (x := -x) (by rwa [abs_neg]) (n := 4) (by norm_num)
  simp only [Finset.sum_range_succ, Finset.sum_range_zero, Nat.factorial] at h1 h2
  norm_num at h1 h2
  rw [Real.sinh_eq]
  have e : (Real.exp x - Real.exp (-x)) / 2 - (x + x ^ 3 / 6) =
      ((Real.exp x - (1 + x + x ^ 2 / 2 + x ^ 3 / 6)) - (Real.exp (-x) - (1 + -x + x ^ 2 / 2 + (-x) ^ 3 / 6))) / 2 := by ring
  rw [e, abs_div, abs_of_pos (by norm_num : (0 : ℝ) < 2)]
  rw [div_le_iff₀ (by norm_num)]
  refine (abs_sub _ _).trans ?_
  have e1 : |Real.exp x - (1 + x + x ^ 2 / 2 + x ^ 3 / 6)| ≤ |x| ^ 4 * (5 / 96) := h1
  have e2 : |Real.exp (-x) - (1 + -x + x ^ 2 / 2 + (-x) ^ 3 / 6)| ≤ |x| ^ 4 * (5 / 96) := h2
  linarith

theorem Curv.sgn_sq (c : Curv) : c.sgn * c.sgn = 1 := by cases c <;> norm_num [Curv.sgn]

theorem Curv.sgn_cases (c : Curv) : c.sgn = 1 ∨ c.sgn = -1 := by cases c <;> simp [Curv.sgn]

theorem Curv.abs_sgn (c : Curv) : |c.sgn| = 1 := by cases c <;> simp [Curv.sgn]

theorem trig_bound (c : Curv) {y : ℝ} (hy : |y| ≤ 1) : |c.trig y - (y - c.sgn * y ^ 3 / 6)| ≤ |y| ^ 4 * (5 / 96) := by
  cases c with
  | closed =>
    have h1 := Real.sin_bound hy
    have h2 : |y| ^ 5 ≤ |y| ^ 4 := pow_le_pow_of_le_one (abs_nonneg _) hy (by norm_num)
    have h3 : 0 ≤ |y| ^ 4 := by positivity
    simp only [Curv.trig, Curv.sgn, one_mul]
    linarith
  | opened =>
    have := sinh_bound hy
    simpa [Curv.trig, Curv.sgn, sub_neg_eq_add, neg_div] using this

theorem trig_sub (c : Curv) {y : ℝ} (hy : |y| ≤ 1) : |c.trig y - y| ≤ |y| ^ 3 / 4 := by
  have h1 := trig_bound c hy
  have h2 : c.trig y - y = (c.trig y - (y - c.sgn * y ^ 3 / 6)) + (-(c.sgn * y ^ 3 / 6)) := by ring
  rw [h2]
  refine (abs_add_le _ _).trans ?_
  rw [abs_neg, abs_div, abs_mul, c.abs_sgn, abs_pow, abs_of_pos (by norm_num : (0 : ℝ) < 6)]
  have h3 : |y| ^ 4 ≤ |y| ^ 3 := pow_le_pow_of_le_one (abs_nonneg _) hy (by norm_num)
  have h4 : 0 ≤ |y| ^ 3 := by positivity
  linarith

theorem csincExact_eq (c : Curv) (y : ℝ) : csincExact c y = (1 - c.trig y / y) / (c.sgn * y ^ 2) := by
  cases c with
  | closed => simp [csincExact, Curv.trig, Curv.sgn]
  | opened =>
    simp only [csincExact, Curv.trig, Curv.sgn]
    rw [neg_one_mul, div_neg, ← neg_div]; ring

theorem csincExact_near (c : Curv) {y : ℝ} (h0 : y ≠ 0) (hy : |y| ≤ 1) : |csincExact c y - 1 / 6| ≤ 5 / 96 * |y| := by
  have h1 := trig_bound c hy
  have hs := c.sgn_sq
  have hs0 : c.sgn ≠ 0 := by rintro h; rw [h] at hs; norm_num at hs
  have e : csincExact c y - 1 / 6 = -c.sgn * (c.trig y - (y - c.sgn * y ^ 3 / 6)) / y ^ 3 := by
    rw [csincExact_eq]
    rcases c.sgn_cases with h | h <;> rw [h] <;> field_simp <;> ring
  rw [e, abs_div, abs_mul, abs_neg, c.abs_sgn, one_mul, abs_pow, div_le_iff₀ (by positivity)]
  calc _ ≤ _ := h1
    _ = _ := by ring

variable {p : ℕ} {fl : ℝ → ℝ}

/-- Numbers of `p` bits that are at least 1/2 are multiples of `2^-p`. -/
theorem multiple_of_half_le {q : ℝ} (hq : IsFl p q) (h : 1 / 2 ≤ q) : ∃ n : ℤ, q = n / 2 ^ p := by
  obtain ⟨m, e, hm, rfl⟩ := hq
  have two : (0 : ℝ) < 2 := by norm_num
  have hE : (0 : ℝ) < 2 ^ e := zpow_pos two _
  have hm' : (m : ℝ) < 2 ^ p := by exact_mod_cast (le_abs_self m).trans_lt hm
  have h1 : (1 : ℝ) / 2 < 2 ^ p * 2 ^ e := h.trans_lt (by gcongr)
  have h2 : (2 : ℝ) ^ (-1 : ℤ) < 2 ^ ((p : ℤ) + e) := by
    rw [zpow_add₀ two.ne', zpow_natCast]
    norm_num at h1 ⊢
    exact h1
  have h3 : (-1 : ℤ) < p + e := (zpow_lt_zpow_iff_right₀ (by norm_num)).mp h2
  obtain ⟨k, hk⟩ := Int.eq_ofNat_of_zero_le (show 0 ≤ (p : ℤ) + e by omega)
  refine ⟨m * 2 ^ k, ?_⟩
  rw [eq_div_iff (by positivity), mul_assoc, mul_comm ((2 : ℝ) ^ e), ← zpow_natCast, ← zpow_add₀ two.ne', hk, zpow_natCast]
  push_cast; ring

/-! ### The claims -/

/-- If the argument is small enough for the rounded sinc to be 1, but above the threshold, the result is 0 instead of 1/6. -/
theorem csincF_zero (hf : Nearest p fl) (hp : 1 ≤ p) (c : Curv) (eps r : ℝ) (hr : eps < |r|) (h0 : timesPi fl r ≠ 0) (h : 2 ^ p * timesPi fl r ^ 2 < 2)
    : csincF fl c eps r = 0 := by
  set y := timesPi fl r with hy
  have hm : IsFl p y := hf.mem _
  have hpow : (2 : ℝ) ≤ 2 ^ p := by
    calc (2 : ℝ) = 2 ^ 1 := by norm_num
      _ ≤ 2 ^ p := pow_le_pow_right₀ (by norm_num) hp
  have hy1 : |y| ≤ 1 := by
    rw [← sq_le_one_iff_abs_le_one]
    nlinarith [sq_nonneg y]
  have h1 := trig_sub c hy1
  have hya : 0 < |y| := abs_pos.mpr h0
  have h2 : fl (c.trig y) = y := by
    apply hf.eq_of_close hm
    calc 2 * 2 ^ p * |c.trig y - y| ≤ 2 * 2 ^ p * (|y| ^ 3 / 4) := by gcongr
      _ = (2 ^ p * y ^ 2) / 2 * |y| := by rw [← sq_abs y]; ring
      _ < 2 / 2 * |y| := by gcongr
      _ = |y| := by ring
  have h3 : sincF fl c r = 1 := by
    unfold sincF
    rw [← hy, if_neg h0, h2, div_self h0, hf.self (isFl_one hp)]
  unfold csincF
  rw [if_pos hr, h3, sub_self, hf.self isFl_zero, zero_div, hf.self isFl_zero]

/-- The exact volume in terms of the exact `csinc`. -/
theorem volumeSpec_csinc (k d : ℝ) (hk : k ≠ 0) (hd : 0 < d) :
    volumeSpec k d = 8 * Real.pi * d ^ 3 * csincExact (if k < 0 then .closed else .opened) (2 * √|k| * d) := by
  unfold volumeSpec
  rw [if_neg hk]
  rcases lt_or_gt_of_ne hk with h | h
  · have hs : 0 < √(-k) := Real.sqrt_pos.mpr (by linarith)
    have hsq : k = -√(-k) ^ 2 := by rw [Real.sq_sqrt (by linarith)]; ring
    simp only [if_pos h, csincExact, transverse, if_neg (not_lt.mpr h.le), abs_of_neg h]
    rw [show √(-k) * (2 * d) = 2 * √(-k) * d by ring]
    generalize √(-k) = s at hs hsq
    subst hsq
    field_simp
    ring
  · have hs : 0 < √k := Real.sqrt_pos.mpr h
    have hsq : k = √k ^ 2 := by rw [Real.sq_sqrt h.le]
    simp only [if_neg (not_lt.mpr h.le), csincExact, transverse, if_pos h, abs_of_pos h]
    rw [show √k * (2 * d) = 2 * √k * d by ring]
    generalize √k = s at hs hsq
    subst hsq
    field_simp
    ring

theorem volumeSpec_ge (k d : ℝ) (hk : k ≠ 0) (hd : 0 < d) (h : 2 * √|k| * d ≤ 3e-4) : 4 * d ^ 3 ≤ volumeSpec k d := by
  have hs : 0 < √|k| := Real.sqrt_pos.mpr (abs_pos.mpr hk)
  have hy : 0 < 2 * √|k| * d := by positivity
  rw [volumeSpec_csinc k d hk hd]
  have := csincExact_near (if k < 0 then .closed else .opened) hy.ne' (by rw [abs_of_pos hy]; exact h.trans (by norm_num))
  rw [abs_of_pos hy] at this
  have h1 := (abs_le.mp this).1
  have h2 : 1.666e-1 - 1e-4 ≤ csincExact (if k < 0 then .closed else .opened) (2 * √|k| * d) := by
    norm_num at *; linarith
  have hpi := Real.pi_gt_d4
  have hd3 : 0 < d ^ 3 := by positivity
  calc 4 * d ^ 3 ≤ 8 * 3.1415 * d ^ 3 * (1.666e-1 - 1e-4) := by norm_num; linarith
    _ ≤ _ := by gcongr

/-- **C116** in single precision, the comoving volume of a slightly curved universe is returned as 0, although it is at least `4 d^3`. -/
theorem C116_single_zero (hf : Nearest 24 fl) (k d : ℝ) (hd : 0 < d) (h1 : 1e-7 ≤ 2 * √|k| * d) (h2 : 2 * √|k| * d ≤ 3e-4) :
    comovingVolumeF fl k d = 0 ∧ 4 * d ^ 3 ≤ volumeSpec k d := by
  refine ⟨?_, volumeSpec_ge k d (by rintro rfl; norm_num at h1) hd h2⟩
  have hp : 1 ≤ 24 := by norm_num
  have err : ∀ x : ℝ, 0 ≤ x → x * (1 - 1e-7) ≤ fl x ∧ fl x ≤ x * (1 + 1e-7) := fun x hx => by
    have h := hf.error hp x
    rw [abs_of_nonneg hx] at h
    have h' := abs_le.mp h
    have : x / 2 ^ 24 ≤ x * 1e-7 := by norm_num; linarith
    constructor <;> linarith [h'.1, h'.2]
  have hpi0 := Real.pi_gt_d4
  have hpi1 := Real.pi_lt_d4
  set s := √|k| with hs
  have hs0 : 0 ≤ s := Real.sqrt_nonneg _
  obtain ⟨a1, a2⟩ := err s hs0
  obtain ⟨b1, b2⟩ := err Real.pi (by positivity)
  have hflpi : 3.1414 ≤ fl Real.pi := by nlinarith
  have hflpi2 : fl Real.pi ≤ 3.1417 := by nlinarith
  have hfls : 0 ≤ fl s := le_trans (by nlinarith) a1
  obtain ⟨c1, c2⟩ := err (fl s / fl Real.pi) (by positivity)
  have hq0 : 0 ≤ fl (fl s / fl Real.pi) := le_trans (by positivity) c1
  obtain ⟨d1, d2⟩ := err (2 * fl (fl s / fl Real.pi)) (by positivity)
  have hq1 : 0 ≤ fl (2 * fl (fl s / fl Real.pi)) := le_trans (by positivity) d1
  obtain ⟨e1, e2⟩ := err (fl (2 * fl (fl s / fl Real.pi)) * d) (by positivity)
  set r := argF fl k d with hr
  have hr' : r = fl (fl (2 * fl (fl s / fl Real.pi)) * d) := rfl
  rw [← hr'] at e1 e2
  set P := fl Real.pi with hP
  have hP0 : 0 < P := by linarith
  -- bounds on r · P
  have f1 : fl s / P ≤ s * (1 + 1e-7) / P := by gcongr
  have f2 : s * (1 - 1e-7) / P ≤ fl s / P := by gcongr
  have up : r * P ≤ 2 * s * d * (1 + 1e-6) := by
    have g1 : fl (fl s / P) ≤ s / P * (1 + 1e-7) * (1 + 1e-7) := c2.trans (by
      have := mul_le_mul_of_nonneg_right f1 (show (0 : ℝ) ≤ 1 + 1e-7 by norm_num)
      calc _ ≤ _ := this
        _ = _ := by ring)
    have g2 : fl (2 * fl (fl s / P)) ≤ 2 * (s / P * (1 + 1e-7) * (1 + 1e-7)) * (1 + 1e-7) := d2.trans (by gcongr)
    have g3 : r ≤ 2 * (s / P * (1 + 1e-7) * (1 + 1e-7)) * (1 + 1e-7) * d * (1 + 1e-7) := e2.trans (by gcongr)
    calc r * P ≤ 2 * (s / P * (1 + 1e-7) * (1 + 1e-7)) * (1 + 1e-7) * d * (1 + 1e-7) * P := by gcongr
      _ = 2 * s * d * ((1 + 1e-7) ^ 4) := by field_simp
      _ ≤ _ := by gcongr; norm_num
  have lo : 2 * s * d * (1 - 1e-6) ≤ r * P := by
    have g1 : s / P * (1 - 1e-7) * (1 - 1e-7) ≤ fl (fl s / P) := le_trans (by
      have := mul_le_mul_of_nonneg_right f2 (show (0 : ℝ) ≤ 1 - 1e-7 by norm_num)
      calc _ = s * (1 - 1e-7) / P * (1 - 1e-7) := by ring
        _ ≤ _ := this) c1
    have g2 : 2 * (s / P * (1 - 1e-7) * (1 - 1e-7)) * (1 - 1e-7) ≤ fl (2 * fl (fl s / P)) := le_trans (by gcongr) d1
    have g3 : 2 * (s / P * (1 - 1e-7) * (1 - 1e-7)) * (1 - 1e-7) * d * (1 - 1e-7) ≤ r := le_trans (by gcongr) e1
    calc 2 * s * d * (1 - 1e-6) ≤ 2 * s * d * ((1 - 1e-7) ^ 4) := by gcongr; norm_num
      _ = 2 * (s / P * (1 - 1e-7) * (1 - 1e-7)) * (1 - 1e-7) * d * (1 - 1e-7) * P := by field_simp
      _ ≤ r * P := by gcongr
  have hrP : 0 < r * P := lt_of_lt_of_le (by nlinarith) lo
  have hr0 : 0 < r := (pos_iff_pos_of_mul_pos hrP).mpr hP0
  have hrb : 1e-8 < |r| := by
    rw [abs_of_pos hr0]
    by_contra hle
    rw [not_lt] at hle
    have : r * P ≤ 1e-8 * 3.1417 := by gcongr
    norm_num at *
    nlinarith
  obtain ⟨y1, y2⟩ := err (r * P) hrP.le
  have hy0 : 0 < timesPi fl r := lt_of_lt_of_le (by nlinarith) y1
  have hyb : timesPi fl r ≤ 3.1e-4 := by
    refine y2.trans ?_
    have up' : r * P ≤ 3e-4 * (1 + 1e-6) := up.trans (mul_le_mul_of_nonneg_right h2 (by norm_num))
    calc r * P * (1 + 1e-7) ≤ 3e-4 * (1 + 1e-6) * (1 + 1e-7) := mul_le_mul_of_nonneg_right up' (by norm_num)
      _ ≤ 3.1e-4 := by norm_num
  have hz := csincF_zero hf hp (if k < 0 then .closed else .opened) 1e-8 r hrb hy0.ne' (by
    have : timesPi fl r ^ 2 ≤ (3.1e-4) ^ 2 := by gcongr
    norm_num at this ⊢
    linarith)
  unfold comovingVolumeF
  rw [← hr, hz, mul_zero, hf.self isFl_zero]

/-- **C116** even in double precision, `csinc` just above the threshold is wrong by 20 %. -/
theorem csincF_loss (hf : Nearest p fl) (hp : 12 ≤ p) (c : Curv) (eps r : ℝ) (hr : eps < |r|) (h1 : 8.5 ≤ 2 ^ p * timesPi fl r ^ 2)
    (h2 : 2 ^ p * timesPi fl r ^ 2 ≤ 9.5) : 1 / 30 ≤ |csincF fl c eps r - csincExact c (timesPi fl r)| := by
  have hp1 : 1 ≤ p := by omega
  set y := timesPi fl r with hy
  have hm : IsFl p y := hf.mem _
  have hpow : (4096 : ℝ) ≤ 2 ^ p := by
    calc (4096 : ℝ) = 2 ^ 12 := by norm_num
      _ ≤ 2 ^ p := pow_le_pow_right₀ (by norm_num) hp
  have hP : (0 : ℝ) < 2 ^ p := by positivity
  have h0 : y ≠ 0 := by rintro h; rw [h] at h1; norm_num at h1
  have hya : 0 < |y| := abs_pos.mpr h0
  have hysq : y ^ 2 ≤ 0.0025 := by nlinarith [sq_nonneg y]
  have hy1 : |y| ≤ 0.05 := by
    rw [← sq_abs] at hysq
    nlinarith
  have ht := trig_sub c (hy1.trans (by norm_num))
  have hC := csincExact_near c h0 (hy1.trans (by norm_num))
  have err : ∀ x : ℝ, |fl x - x| ≤ |x| / 4096 := fun x => (hf.error hp1 x).trans (by gcongr)
  -- the quotient is close to 1
  have hq : |fl (fl (c.trig y) / y) - 1| ≤ 0.01 := by
    have hTy : |c.trig y / y - 1| ≤ 0.001 := by
      rw [div_sub_one h0, abs_div, div_le_iff₀ hya]
      refine ht.trans ?_
      have : |y| ^ 2 ≤ 0.0025 := by rwa [sq_abs]
      nlinarith
    have e1 := err (c.trig y)
    have hT : |fl (c.trig y) / y - 1| ≤ 0.002 := by
      have : fl (c.trig y) / y - 1 = (fl (c.trig y) - c.trig y) / y + (c.trig y / y - 1) := by field_simp; ring
      rw [this]
      refine (abs_add_le _ _).trans ?_
      have : |(fl (c.trig y) - c.trig y) / y| ≤ 0.0005 := by
        rw [abs_div, div_le_iff₀ hya]
        refine e1.trans ?_
        have : |c.trig y| ≤ 1.001 * |y| := by
          have h5 : |c.trig y| ≤ |c.trig y - y| + |y| := by
            have := abs_add_le (c.trig y - y) y
            rwa [sub_add_cancel] at this
          have : |y| ^ 2 ≤ 0.0025 := by rwa [sq_abs]
          nlinarith
        linarith
      linarith
    have e2 := err (fl (c.trig y) / y)
    have h6 := abs_le.mp hT
    have : |fl (c.trig y) / y| ≤ 1.1 := abs_le.mpr ⟨by linarith [h6.1], by linarith [h6.2]⟩
    have : fl (fl (c.trig y) / y) - 1 = (fl (fl (c.trig y) / y) - fl (c.trig y) / y) + (fl (c.trig y) / y - 1) := by ring
    rw [this]
    refine (abs_add_le _ _).trans ?_
    linarith
  have hsq : sincF fl c r = fl (fl (c.trig y) / y) := by unfold sincF; rw [← hy, if_neg h0]
  set q := sincF fl c r with hqd
  rw [← hsq] at hq
  have hqm : IsFl p q := by rw [hsq]; exact hf.mem _
  have hq' := abs_le.mp hq
  obtain ⟨n, hn⟩ := multiple_of_half_le hqm (by linarith [hq'.1])
  have hj : 1 - q = ((2 ^ p - n : ℤ) : ℝ) * 2 ^ (-(p : ℤ)) := by
    rw [hn, zpow_neg, zpow_natCast]; push_cast; field_simp
  have hN : fl (1 - q) = 1 - q := by
    apply hf.self
    refine ⟨2 ^ p - n, -(p : ℤ), ?_, hj⟩
    have h7 : |((2 ^ p - n : ℤ) : ℝ)| = |1 - q| * 2 ^ p := by
      rw [hj, abs_mul, zpow_neg, zpow_natCast, abs_of_pos (by positivity : (0 : ℝ) < (2 ^ p)⁻¹)]; field_simp
    have h8 : |((2 ^ p - n : ℤ) : ℝ)| < ((2 ^ p : ℤ) : ℝ) := by
      rw [h7, abs_sub_comm]; push_cast; nlinarith
    exact_mod_cast h8
  have hD := err (y ^ 2)
  rw [abs_of_nonneg (sq_nonneg y)] at hD
  have hD' := abs_le.mp hD
  set D := fl (y ^ 2) with hDd
  have hDlo : 8.4 ≤ 2 ^ p * D := by nlinarith [hD'.1]
  have hDhi : 2 ^ p * D ≤ 9.6 := by nlinarith [hD'.2]
  have hD0 : 0 < D := by
    by_contra hle
    rw [not_lt] at hle
    have : 2 ^ p * D ≤ 0 := mul_nonpos_of_nonneg_of_nonpos hP.le hle
    linarith
  obtain ⟨i, hi⟩ : ∃ i : ℤ, (1 - q) / (c.sgn * D) = i / (2 ^ p * D) := by
    rcases c.sgn_cases with h | h
    · refine ⟨2 ^ p - n, ?_⟩
      rw [h, hj, zpow_neg, zpow_natCast]; field_simp
    · refine ⟨-(2 ^ p - n), ?_⟩
      rw [h, hj, zpow_neg, zpow_natCast]; push_cast; field_simp
  have hres : csincF fl c eps r = fl (i / (2 ^ p * D)) := by
    unfold csincF
    rw [if_pos hr, ← hqd, ← hy, ← hDd, hN, hi]
  rw [hres]
  have hE := abs_le.mp (err ((i : ℝ) / (2 ^ p * D)))
  have hC' := abs_le.mp hC
  have hDD : 0 < 2 ^ p * D := by positivity
  rcases le_or_gt i 1 with hi1 | hi2
  · have hiR : (i : ℝ) ≤ 1 := by exact_mod_cast hi1
    rcases le_or_gt i 0 with hi0 | hi0
    · have hiR0 : (i : ℝ) ≤ 0 := by exact_mod_cast hi0
      have hx : (i : ℝ) / (2 ^ p * D) ≤ 0 := div_nonpos_of_nonpos_of_nonneg hiR0 hDD.le
      rw [abs_of_nonpos hx] at hE
      rw [abs_sub_comm]
      refine le_trans ?_ (le_abs_self _)
      linarith [hE.2, hC'.1]
    · have hx0 : 0 ≤ (i : ℝ) / (2 ^ p * D) := by
        have : (0 : ℝ) ≤ i := by exact_mod_cast hi0.le
        positivity
      have hx : (i : ℝ) / (2 ^ p * D) ≤ 0.1191 := by
        rw [div_le_iff₀ hDD]; linarith
      rw [abs_of_nonneg hx0] at hE
      rw [abs_sub_comm]
      refine le_trans ?_ (le_abs_self _)
      linarith [hE.2, hC'.1]
  · have hiR : (2 : ℝ) ≤ i := by exact_mod_cast hi2
    have hx : 0.2083 ≤ (i : ℝ) / (2 ^ p * D) := by
      rw [le_div_iff₀ hDD]; linarith
    rw [abs_of_nonneg (by linarith)] at hE
    refine le_trans ?_ (le_abs_self _)
    linarith [hE.1, hC'.2]

/-- **C116** in double precision, for every argument between 1.005e-8 and 1.02e-8 (just above the threshold 1e-8) `csinc` is off by at least 1/30,
a fifth of its value. -/
theorem C116_double_loss (hf : Nearest 53 fl) (c : Curv) (r : ℝ) (h1 : 1.005e-8 ≤ r) (h2 : r ≤ 1.02e-8) :
    1 / 30 ≤ |csincF fl c 1e-8 r - csincExact c (timesPi fl r)| := by
  have hp : 1 ≤ 53 := by norm_num
  have err : ∀ x : ℝ, 0 ≤ x → x * (1 - 1e-9) ≤ fl x ∧ fl x ≤ x * (1 + 1e-9) := fun x hx => by
    have h := hf.error hp x
    rw [abs_of_nonneg hx] at h
    have h' := abs_le.mp h
    have : x / 2 ^ 53 ≤ x * 1e-9 := by norm_num; linarith
    constructor <;> linarith [h'.1, h'.2]
  have hpi0 := Real.pi_gt_d4
  have hpi1 := Real.pi_lt_d4
  obtain ⟨b1, b2⟩ := err Real.pi (by positivity)
  have hr0 : 0 < r := lt_of_lt_of_le (by norm_num) h1
  have hP1 : 3.1414 ≤ fl Real.pi := by nlinarith
  have hP2 : fl Real.pi ≤ 3.1417 := by nlinarith
  obtain ⟨y1, y2⟩ := err (r * fl Real.pi) (by positivity)
  have l1 : 3.156e-8 ≤ timesPi fl r := by
    refine le_trans ?_ y1
    calc (3.156e-8 : ℝ) ≤ 1.005e-8 * 3.1414 * (1 - 1e-9) := by norm_num
      _ ≤ r * fl Real.pi * (1 - 1e-9) := by gcongr
  have l2 : timesPi fl r ≤ 3.205e-8 := by
    refine y2.trans ?_
    calc r * fl Real.pi * (1 + 1e-9) ≤ 1.02e-8 * 3.1417 * (1 + 1e-9) := by gcongr
      _ ≤ 3.205e-8 := by norm_num
  have hy0 : 0 ≤ timesPi fl r := le_trans (by norm_num) l1
  refine csincF_loss hf (by norm_num) c 1e-8 r (by rw [abs_of_pos hr0]; exact lt_of_lt_of_le (by norm_num) h1) ?_ ?_
  · calc (8.5 : ℝ) ≤ 2 ^ 53 * (3.156e-8) ^ 2 := by norm_num
      _ ≤ _ := by gcongr
  · calc _ ≤ 2 ^ 53 * (3.205e-8 : ℝ) ^ 2 := by gcongr
      _ ≤ 9.5 := by norm_num

/-- `C116_double_loss`: just above the threshold, in rounding to nearest. -/
example (c : Curv) := C116_double_loss (nearest_rnd (p := 53) (by norm_num)) c 1.01e-8 (by norm_num) (by norm_num)

theorem accuracy_aux {T w s d1 d2 d3 d4 d5 u : ℝ} (hw : 0 < w) (hs : |s| = 1) (hu0 : 0 < u) (hu : u ≤ 1 / 32) (b1 : |d1| ≤ u) (b2 : |d2| ≤ u)
    (b3 : |d3| ≤ u) (b4 : |d4| ≤ u) (b5 : |d5| ≤ u) :
    |(1 - T * (1 + d1) * (1 + d2)) * (1 + d3) / (s * (w * (1 + d4))) * (1 + d5) - (1 - T) / (s * w)| ≤
      (4 * (|T| / w) + 5 * |(1 - T) / (s * w)|) * u := by
  have hs0 : s ≠ 0 := by rintro rfl; norm_num at hs
  obtain ⟨l3, u3⟩ := abs_le.mp b3
  obtain ⟨l4, u4⟩ := abs_le.mp b4
  obtain ⟨l5, u5⟩ := abs_le.mp b5
  have h4 : 0 < 1 + d4 := by linarith
  obtain ⟨ρ, hρ⟩ : ∃ ρ, ρ = (1 + d3) * (1 + d5) / (1 + d4) := ⟨_, rfl⟩
  have key : (1 - T * (1 + d1) * (1 + d2)) * (1 + d3) / (s * (w * (1 + d4))) * (1 + d5) - (1 - T) / (s * w) =
      (1 - T) / (s * w) * (ρ - 1) + -(T / (s * w)) * ((d1 + d2 + d1 * d2) * ρ) := by
    rw [hρ]; field_simp; ring
  have hρ1 : |ρ - 1| ≤ 4 * u := by
    have : ρ - 1 = (d3 + d5 + d3 * d5 - d4) / (1 + d4) := by rw [hρ]; field_simp; ring
    rw [this, abs_div, abs_of_pos h4, div_le_iff₀ h4]
    have m : |d3 * d5| ≤ u * u := by rw [abs_mul]; gcongr
    have m' := abs_le.mp m
    rw [abs_le]
    constructor <;> nlinarith
  have hρ2 : |ρ| ≤ 9 / 8 := by
    have := abs_add_le (ρ - 1) 1
    rw [sub_add_cancel, abs_one] at this
    linarith
  have hε : |d1 + d2 + d1 * d2| ≤ 3 * u := by
    have m : |d1 * d2| ≤ u * u := by rw [abs_mul]; gcongr
    have := abs_add_le (d1 + d2) (d1 * d2)
    have := abs_add_le d1 d2
    nlinarith
  rw [key]
  refine (abs_add_le _ _).trans ?_
  rw [abs_mul, abs_mul, abs_neg, abs_mul, abs_div T, abs_mul, hs, one_mul, abs_of_pos hw]
  generalize hA : |(1 - T) / (s * w)| = A
  generalize hB : |T| / w = B
  have hA0 : 0 ≤ A := hA ▸ abs_nonneg _
  have hB0 : 0 ≤ B := by rw [← hB]; positivity
  generalize |d1 + d2 + d1 * d2| = e at hε ⊢
  generalize hR : |ρ| = R at hρ2 ⊢
  have hR0 : 0 ≤ R := hR ▸ abs_nonneg _
  generalize |ρ - 1| = g at hρ1 ⊢
  have t1 : A * g ≤ A * (4 * u) := mul_le_mul_of_nonneg_left hρ1 hA0
  have t2 : B * (e * R) ≤ B * (3 * u * (9 / 8)) :=
    mul_le_mul_of_nonneg_left (mul_le_mul hε hρ2 hR0 (by linarith)) hB0
  have a1 : 0 ≤ A * u := mul_nonneg hA0 hu0.le
  have a2 : 0 ≤ B * u := mul_nonneg hB0 hu0.le
  have r1 : A * (4 * u) = 4 * (A * u) := by ring
  have r2 : B * (3 * u * (9 / 8)) = 27 / 8 * (B * u) := by ring
  have r3 : (4 * B + 5 * A) * u = 4 * (B * u) + 5 * (A * u) := by ring
  rw [r3]; linarith

/-- **C116** what accuracy is left: above the threshold the absolute error of `csinc`, relative to the exact value at the rounded argument `y = fl(x π)`,
is at most `2^-p (4 |sin(y)/y| / y^2 + 5 |csinc|)`: harmless for `y` of order one, but of order `2^-p / y^2`, the more the smaller the curvature. What is
missing is accuracy uniform in `y`: it is false. -/
theorem C116_accuracy_partial (hf : Nearest p fl) (hp : 5 ≤ p) (c : Curv) (eps r : ℝ) (hr : eps < |r|) (h0 : timesPi fl r ≠ 0) :
    |csincF fl c eps r - csincExact c (timesPi fl r)| ≤
      (4 * (|c.trig (timesPi fl r) / timesPi fl r| / timesPi fl r ^ 2) + 5 * |csincExact c (timesPi fl r)|) / 2 ^ p := by
  have hp1 : 1 ≤ p := by omega
  have hu : ((2 : ℝ) ^ p)⁻¹ ≤ 1 / 32 := by
    rw [inv_eq_one_div]
    apply one_div_le_one_div_of_le (by norm_num)
    calc (32 : ℝ) = 2 ^ 5 := by norm_num
      _ ≤ 2 ^ p := pow_le_pow_right₀ (by norm_num) hp
  unfold csincF sincF
  rw [if_pos hr, if_neg h0, csincExact_eq]
  generalize timesPi fl r = y at h0
  obtain ⟨d1, b1, e1⟩ := hf.factor hp1 (c.trig y)
  obtain ⟨d2, b2, e2⟩ := hf.factor hp1 (fl (c.trig y) / y)
  obtain ⟨d3, b3, e3⟩ := hf.factor hp1 (1 - fl (fl (c.trig y) / y))
  obtain ⟨d4, b4, e4⟩ := hf.factor hp1 (y ^ 2)
  obtain ⟨d5, b5, e5⟩ := hf.factor hp1 (fl (1 - fl (fl (c.trig y) / y)) / (c.sgn * fl (y ^ 2)))
  rw [e5, e3, e2, e1, e4, show c.trig y * (1 + d1) / y = c.trig y / y * (1 + d1) by ring]
  refine (accuracy_aux (by positivity) c.abs_sgn (by positivity) hu b1 b2 b3 b4 b5).trans (le_of_eq ?_)
  rw [← div_eq_mul_inv]

/-- A rounding to single precision exists, and `Ok0 = 1e-8` at the distance 1 is in the range of `C116_single_zero`: the volume is 4.18..., not 0. -/
example : comovingVolumeF (rnd 24) 1e-8 1 = 0 ∧ 4 ≤ volumeSpec 1e-8 1 := by
  have hs : √|(1e-8 : ℝ)| = 1e-4 := by
    rw [abs_of_pos (by norm_num), show (1e-8 : ℝ) = 1e-4 ^ 2 by norm_num, Real.sqrt_sq (by norm_num)]
  have := C116_single_zero (nearest_rnd (p := 24) (by norm_num)) 1e-8 1 (by norm_num) (by rw [hs]; norm_num) (by rw [hs]; norm_num)
  simpa using this

/-- The argument of the comoving volume at `k = -2.53e-16`, `d = 1` lies in the range of `C116_double_loss`. -/
example : (1.005e-8 : ℝ) ≤ 1.01e-8 ∧ (1.01e-8 : ℝ) ≤ 1.02e-8 ∧ ∃ fl, Nearest 53 fl :=
  ⟨by norm_num, by norm_num, _, nearest_rnd (by norm_num)⟩

end Verif.Cosmo.Flt
