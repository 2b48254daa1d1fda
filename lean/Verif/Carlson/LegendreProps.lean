import Verif.Carlson.Legendre

/-! # The Legendre routines compute Legendre's integrals (C87); what they do outside `[0, π/2]` (C88) -/

namespace Verif.Carlson

open MeasureTheory Set Filter Topology Grad

variable {φ m : ℝ}

theorem csc2_real (h : 0 < Real.sin φ) : csc2 (φ : ℂ) = some ((1 / Real.sin φ ^ 2 : ℝ) : ℂ) := by
  have e : Complex.sin (φ : ℂ) = (Real.sin φ : ℝ) := (Complex.ofReal_sin φ).symm
  rw [csc2, e, if_neg (by exact_mod_cast h.ne')]
  push_cast
  rfl

theorem ofCsc2_real (h : 0 < Real.sin φ) (f : ℂ → Out) : ofCsc2 f (φ : ℂ) = f ((1 / Real.sin φ ^ 2 : ℝ) : ℂ) := by
  rw [ofCsc2, csc2_real h]

theorem cast_args (c m : ℝ) : ((c : ℂ) - 1 = ((c - 1 : ℝ) : ℂ)) ∧ ((c : ℂ) - m = ((c - m : ℝ) : ℂ)) := by
  constructor <;> push_cast <;> rfl

/-- C87: `ellipkinc(φ, m)` is `F(φ | m)` up to a relative error of `2 EPS`. -/
theorem C87_ellipkinc {eps : ℝ} (h0 : 0 < eps) (h1 : eps ≤ 1) (h : LArgs φ m) :
    ∃ v : ℝ, ellipkinc eps φ m = .val v ∧ |v - legF φ m| ≤ 2 * EPS eps * legF φ m := by
  rw [ellipkinc, ofCsc2_real h.sin_pos, ellipkinc_, (cast_args _ m).1, (cast_args _ m).2, h.F_eq]
  exact C32_elliprf h0 h1 h.args

theorem dinc_accurate {eps : ℝ} (h0 : 0 < eps) (h1 : eps ≤ 1) (h : LArgs φ m) :
    ∃ v : ℝ, ellipdinc_ eps ((1 / Real.sin φ ^ 2 : ℝ) : ℂ) m = .val v ∧ |v - legD φ m| ≤ 4 * EPS eps * legD φ m := by
  rw [ellipdinc_, (cast_args _ m).1, (cast_args _ m).2, h.D_eq]
  obtain ⟨v, hv, hb⟩ := C79_elliprd h0 h1 h.args h.c_pos
  refine ⟨v / 3, by rw [hv]; simp [Out.map, Out.bind], ?_⟩
  rw [← sub_div, abs_div, abs_of_pos (show (0 : ℝ) < 3 by norm_num)]
  linarith

/-- C87: `ellipdinc(φ, m)` is `D(φ | m)` up to a relative error of `4 EPS`. -/
theorem C87_ellipdinc {eps : ℝ} (h0 : 0 < eps) (h1 : eps ≤ 1) (h : LArgs φ m) :
    ∃ v : ℝ, ellipdinc eps φ m = .val v ∧ |v - legD φ m| ≤ 4 * EPS eps * legD φ m := by
  rw [ellipdinc, ofCsc2_real h.sin_pos]
  exact dinc_accurate h0 h1 h

/-- C87: `ellipeinc(φ, m)` is `E(φ | m)` up to `EPS (2 F + 4 |m| D)`. -/
theorem C87_ellipeinc {eps : ℝ} (h0 : 0 < eps) (h1 : eps ≤ 1) (h : LArgs φ m) :
    ∃ v : ℝ, ellipeinc eps φ m = .val v ∧ |v - legE φ m| ≤ EPS eps * (2 * legF φ m + 4 * |m| * legD φ m) := by
  obtain ⟨f, hf, hfe⟩ := C87_ellipkinc h0 h1 h
  obtain ⟨d, hd, hde⟩ := dinc_accurate h0 h1 h
  rw [ellipkinc, ofCsc2_real h.sin_pos, ellipkinc_] at hf
  rw [ellipeinc, ofCsc2_real h.sin_pos, ellipeinc_, if_neg ?_, hf, hd]
  · refine ⟨f - m * d, by simp [Out.map, Out.bind], ?_⟩
    rw [h.E_eq, show f - m * d - (legF φ m - m * legD φ m) = (f - legF φ m) + -(m * (d - legD φ m)) by ring]
    refine (abs_add_le _ _).trans ?_
    rw [abs_neg, abs_mul]
    have := mul_le_mul_of_nonneg_left hde (abs_nonneg m)
    linarith
  · rintro ⟨e1, e2⟩
    have e1 : 1 / Real.sin φ ^ 2 = 1 := by exact_mod_cast e1
    have e2 : m = 1 := by exact_mod_cast e2
    have := h.args.xy
    rw [e1, e2] at this
    norm_num at this

/-- C87: the end point `φ = π/2`, `m = 1`, where `F` and `D` are infinite and `E` is one. -/
theorem C87_ellipeinc_one (eps : ℝ) : ellipeinc eps (Real.pi / 2 : ℝ) 1 = .val (legE (Real.pi / 2) 1 : ℝ) := by
  have hs : 0 < Real.sin (Real.pi / 2) := by rw [Real.sin_pi_div_two]; norm_num
  rw [ellipeinc, ofCsc2_real hs, ellipeinc_, if_pos (by rw [Real.sin_pi_div_two]; simp)]
  have : legE (Real.pi / 2) 1 = 1 := by
    have e : legE (Real.pi / 2) 1 = ∫ θ in (0 : ℝ)..(Real.pi / 2), Real.cos θ := by
      rw [legE]
      apply intervalIntegral.integral_congr
      intro θ hθ
      rw [uIcc_of_le (by positivity)] at hθ
      simp only [one_mul]
      rw [← Real.cos_sq', Real.sqrt_sq (Real.cos_nonneg_of_mem_Icc ⟨by linarith [hθ.1, Real.pi_pos], hθ.2⟩)]
    rw [e, integral_cos, Real.sin_pi_div_two, Real.sin_zero, sub_zero]
  rw [this]
  simp

/-- C87: `ellippiinc(n, φ, m)` is `Π(n; φ | m)` for `n sin² φ < 1`, up to `2 EPS F + 4000 eps |Π - F|`, provided `n` is none of
`1`, `m` (there the routine returns a NaN, see `C35_elliprj_nan`). -/
theorem C87_ellippiinc_partial {eps : ℝ} (h0 : 0 < eps) (h1 : eps ≤ 1 / 2 ^ 20) (h : LArgs φ m) {n : ℝ} (hn : n * Real.sin φ ^ 2 < 1)
    (hn1 : n ≠ 1) (hnm : n ≠ m) :
    ∃ v : ℝ, ellippiinc eps n φ m = .val v ∧
      |v - legPi n φ m| ≤ 2 * EPS eps * legF φ m + 4000 * eps * |legPi n φ m - legF φ m| := by
  have h1' : eps ≤ 1 := h1.trans (by norm_num)
  obtain ⟨f, hf, hfe⟩ := C87_ellipkinc h0 h1' h
  rw [ellipkinc, ofCsc2_real h.sin_pos] at hf
  rw [ellippiinc, ofCsc2_real h.sin_pos, ellippiinc_]
  by_cases h00 : n = 0
  · subst h00
    rw [if_pos (by simp), hf]
    have : legPi 0 φ m = legF φ m := by rw [h.Pi_eq (by simp)]; simp
    rw [this]
    exact ⟨f, rfl, by simpa using hfe⟩
  · have hs := h.sin_pos
    have hp : 0 < 1 / Real.sin φ ^ 2 - n := by rw [sub_pos, lt_div_iff₀ (by positivity)]; exact hn
    rw [if_neg (by exact_mod_cast h00), hf, (cast_args _ m).1, (cast_args _ m).2, (cast_args _ n).2]
    obtain ⟨j, hj, hje⟩ := C80_elliprj_partial h0 h1 h.args hp (by intro e; apply hn1; linarith) (by intro e; apply hnm; linarith)
      (by intro e; apply h00; linarith)
    rw [hj]
    refine ⟨f + n / 3 * j, by simp [Out.map, Out.bind], ?_⟩
    have hPi := h.Pi_eq hn
    have hJ : 0 ≤ RJ (1 / Real.sin φ ^ 2 - 1) (1 / Real.sin φ ^ 2 - m) (1 / Real.sin φ ^ 2) (1 / Real.sin φ ^ 2 - n) := by
      by_contra hneg
      have : 4000 * eps * RJ (1 / Real.sin φ ^ 2 - 1) (1 / Real.sin φ ^ 2 - m) (1 / Real.sin φ ^ 2) (1 / Real.sin φ ^ 2 - n) < 0 :=
        mul_neg_of_pos_of_neg (by positivity) (not_le.mp hneg)
      linarith [abs_nonneg (j - RJ (1 / Real.sin φ ^ 2 - 1) (1 / Real.sin φ ^ 2 - m) (1 / Real.sin φ ^ 2) (1 / Real.sin φ ^ 2 - n))]
    generalize RJ (1 / Real.sin φ ^ 2 - 1) (1 / Real.sin φ ^ 2 - m) (1 / Real.sin φ ^ 2) (1 / Real.sin φ ^ 2 - n) = R at *
    rw [hPi, show f + n / 3 * j - (legF φ m + n / 3 * R) = (f - legF φ m) + n / 3 * (j - R) by ring,
      show legF φ m + n / 3 * R - legF φ m = n / 3 * R by ring]
    refine (abs_add_le _ _).trans ?_
    rw [abs_mul, abs_mul (n / 3) R, abs_of_nonneg hJ]
    have := mul_le_mul_of_nonneg_left hje (abs_nonneg (n / 3))
    linarith

/-! Complete integrals -/

theorem LArgs.half_pi (hm : m < 1) : LArgs (Real.pi / 2) m :=
  ⟨by positivity, le_rfl, by rw [Real.sin_pi_div_two]; linarith, fun _ => hm.ne⟩

theorem half_pi_args (m : ℝ) : 1 / Real.sin (Real.pi / 2) ^ 2 - 1 = 0 ∧ 1 / Real.sin (Real.pi / 2) ^ 2 - m = 1 - m ∧
    1 / Real.sin (Real.pi / 2) ^ 2 = 1 := by
  rw [Real.sin_pi_div_two]
  norm_num

/-- C87: `ellipk(m)` is `K(m) = F(π/2 | m)`, for every real `m < 1`, up to a relative error of `2 EPS`. -/
theorem C87_ellipk {eps : ℝ} (h0 : 0 < eps) (h1 : eps ≤ 1) (hm : m < 1) :
    ∃ v : ℝ, ellipk eps m = .val v ∧ |v - legF (Real.pi / 2) m| ≤ 2 * EPS eps * legF (Real.pi / 2) m := by
  obtain ⟨v, hv, hb⟩ := C87_ellipkinc h0 h1 (LArgs.half_pi hm)
  refine ⟨v, ?_, hb⟩
  rw [ellipkinc, ofCsc2_real (LArgs.half_pi hm).sin_pos, ellipkinc_, (half_pi_args m).2.2] at hv
  rw [← hv, ellipk]
  simp

/-- C87: `ellipd(m)` is `D(m)`. -/
theorem C87_ellipd {eps : ℝ} (h0 : 0 < eps) (h1 : eps ≤ 1) (hm : m < 1) :
    ∃ v : ℝ, ellipd eps m = .val v ∧ |v - legD (Real.pi / 2) m| ≤ 4 * EPS eps * legD (Real.pi / 2) m := by
  obtain ⟨v, hv, hb⟩ := C87_ellipdinc h0 h1 (LArgs.half_pi hm)
  refine ⟨v, ?_, hb⟩
  rw [ellipdinc, ofCsc2_real (LArgs.half_pi hm).sin_pos, ellipdinc_, (half_pi_args m).2.2] at hv
  rw [← hv, ellipd]
  simp

/-- The complete integrals in Carlson's form. -/
theorem complete_eq (hm : m < 1) : legF (Real.pi / 2) m = RF 0 (1 - m) 1 ∧ legD (Real.pi / 2) m = RD 0 (1 - m) 1 / 3 ∧
    legE (Real.pi / 2) m = 2 * RG 0 (1 - m) 1 := by
  have h := LArgs.half_pi hm
  obtain ⟨e1, e2, e3⟩ := half_pi_args m
  have hF := h.F_eq
  have hD := h.D_eq
  have hE := h.E_eq
  rw [e1, e2, e3] at hF hD
  refine ⟨hF, hD, ?_⟩
  have hargs : Args 0 (1 - m) 1 := ⟨le_rfl, by linarith, by norm_num, by linarith, by linarith, by norm_num⟩
  rw [hE, hF, hD, RG_formula hargs one_pos]
  simp
  ring

/-- C87: `ellipe(m)` is `E(m)` for `m < 1`, up to `2 EPS (K + 2 |m| D)`. -/
theorem C87_ellipe {eps : ℝ} (h0 : 0 < eps) (h1 : eps ≤ 1) (hm : m < 1) :
    ∃ v : ℝ, ellipe eps m = .val v ∧
      |v - legE (Real.pi / 2) m| ≤ 2 * EPS eps * (legF (Real.pi / 2) m + 2 * |m| * legD (Real.pi / 2) m) := by
  have hargs : Args 0 (1 - m) 1 := ⟨le_rfl, by linarith, by norm_num, by linarith, by linarith, by norm_num⟩
  obtain ⟨v, hv, hb⟩ := C82_elliprg h0 h1 hargs one_pos
  obtain ⟨eF, eD, eE⟩ := complete_eq hm
  refine ⟨2 * v, ?_, ?_⟩
  · have e : elliprg eps 0 (1 - (m : ℂ)) 1 = elliprg eps ((0 : ℝ) : ℂ) ((1 - m : ℝ) : ℂ) ((1 : ℝ) : ℂ) := by simp
    rw [ellipe, e, hv]
    simp [Out.map, Out.bind]
  · rw [eF, eD, eE, ← mul_sub, abs_mul, abs_two]
    have ea : |(0 - 1 : ℝ) * (1 - m - 1)| = |m| := by
      rw [show (0 - 1 : ℝ) * (1 - m - 1) = m by ring]
    rw [ea] at hb
    calc 2 * |v - RG 0 (1 - m) 1| ≤ 2 * (EPS eps * (1 * RF 0 (1 - m) 1 + 2 / 3 * |m| * RD 0 (1 - m) 1)) := by gcongr
      _ = _ := by ring

/-- C87: and at `m = 1`, where `E = 1`. -/
theorem C87_ellipe_one (eps : ℝ) : ellipe eps 1 = .val 1 := by
  simp [ellipe, elliprg, isZero, Out.map, Out.bind, csqrt]

/-- C87: `ellippi(n, m)` is `Π(n | m)` for `m < 1`, `n < 1`, `n ≠ m`. -/
theorem C87_ellippi_partial {eps : ℝ} (h0 : 0 < eps) (h1 : eps ≤ 1 / 2 ^ 20) (hm : m < 1) {n : ℝ} (hn : n < 1) (hnm : n ≠ m) :
    ∃ v : ℝ, ellippi eps n m = .val v ∧ |v - legPi n (Real.pi / 2) m| ≤
      2 * EPS eps * legF (Real.pi / 2) m + 4000 * eps * |legPi n (Real.pi / 2) m - legF (Real.pi / 2) m| := by
  have h := LArgs.half_pi hm
  obtain ⟨v, hv, hb⟩ := C87_ellippiinc_partial h0 h1 h (n := n) (by rw [Real.sin_pi_div_two]; linarith) hn.ne hnm
  refine ⟨v, ?_, hb⟩
  rw [ellippiinc, ofCsc2_real h.sin_pos, ellippiinc_, ellipkinc_, (half_pi_args m).2.2] at hv
  rw [← hv, ellippi, ellipk]
  simp

example : ∃ v : ℝ, ellipeinc (1 / 2 ^ 52) ((Real.pi / 2 : ℝ) : ℂ) ((1 / 2 : ℝ) : ℂ) = .val v ∧
    |v - legE (Real.pi / 2) (1 / 2)| ≤ EPS (1 / 2 ^ 52) * (2 * legF (Real.pi / 2) (1 / 2) + 4 * |1 / 2| * legD (Real.pi / 2) (1 / 2)) :=
  C87_ellipeinc (by norm_num) (by norm_num) (LArgs.half_pi (by norm_num))

/-! ### C88: outside `(0, π/2]` -/

theorem csc2_even (φ : ℂ) : csc2 (-φ) = csc2 φ := by
  simp [csc2, Complex.sin_neg]

theorem csc2_periodic (φ : ℂ) : csc2 (φ + Real.pi) = csc2 φ := by
  simp [csc2, Complex.sin_add_pi]

/-- C88: the incomplete integrals are computed from `csc² φ`: they are even in `φ` and have period `π`. -/
theorem C88_even_periodic (eps : ℝ) (n φ m : ℂ) :
    (ellipkinc eps (-φ) m = ellipkinc eps φ m ∧ ellipkinc eps (φ + Real.pi) m = ellipkinc eps φ m) ∧
    (ellipeinc eps (-φ) m = ellipeinc eps φ m ∧ ellipeinc eps (φ + Real.pi) m = ellipeinc eps φ m) ∧
    (ellipdinc eps (-φ) m = ellipdinc eps φ m ∧ ellipdinc eps (φ + Real.pi) m = ellipdinc eps φ m) ∧
    (ellippiinc eps n (-φ) m = ellippiinc eps n φ m ∧ ellippiinc eps n (φ + Real.pi) m = ellippiinc eps n φ m) := by
  simp only [ellipkinc, ellipeinc, ellipdinc, ellippiinc, ofCsc2, csc2_even, csc2_periodic, and_self]

theorem legF_neg (φ m : ℝ) : legF (-φ) m = -legF φ m := by
  have h := intervalIntegral.integral_comp_neg (a := 0) (b := φ) (fun θ : ℝ => 1 / √(1 - m * Real.sin θ ^ 2))
  simp only [Real.sin_neg, neg_sq, neg_zero] at h
  unfold legF
  rw [intervalIntegral.integral_symm, ← h]

theorem legF_pos (h : LArgs φ m) : 0 < legF φ m := by
  rw [h.F_eq, RF_eq_J]
  have := Grad.integral_pos (JI_one h.args) (fun t ht => by
    have := S_pos h.args ht
    positivity)
  have : 0 < J (1 / Real.sin φ ^ 2 - 1) (1 / Real.sin φ ^ 2 - m) (1 / Real.sin φ ^ 2) fun _ => 1 := this
  linarith

/-- C88: so for negative `φ` the value is off by nearly twice the integral, which is odd in `φ`. -/
theorem C88_negative {eps : ℝ} (h0 : 0 < eps) (h1 : eps ≤ 1) (h : LArgs φ m) :
    ∃ v : ℝ, ellipkinc eps ((-φ : ℝ) : ℂ) m = .val v ∧ legF (-φ) m < 0 ∧ |v - legF (-φ) m| ≥ 1.9 * |legF (-φ) m| := by
  obtain ⟨v, hv, hb⟩ := C87_ellipkinc h0 h1 h
  have hp := legF_pos h
  have hE : EPS eps ≤ 1 / 1000000 := by unfold EPS; linarith
  have hE0 : 0 < EPS eps := by unfold EPS; positivity
  have hEF : EPS eps * legF φ m ≤ 1 / 1000000 * legF φ m := by gcongr
  refine ⟨v, ?_, by rw [legF_neg]; linarith, ?_⟩
  · rw [Complex.ofReal_neg, (C88_even_periodic eps 0 φ m).1.1, hv]
  · rw [legF_neg, abs_neg, abs_of_pos hp]
    have := (abs_le.mp hb).1
    have h2 : v - -legF φ m ≤ |v - -legF φ m| := le_abs_self _
    linarith

theorem exLArgs {m : ℝ} (h : m < 1) : LArgs (Real.pi / 2) m := LArgs.half_pi h

/-- C87 and C88 in double precision: `C87_ellipkinc`, `C87_ellipdinc`, `C87_ellippiinc_partial`, `C87_ellipk`, `C87_ellipd`,
`C87_ellipe`, `C88_negative`. -/
example := C87_ellipkinc (eps := 1 / 2 ^ 52) (by norm_num) (by norm_num) (exLArgs (m := 1 / 2) (by norm_num))
example := C87_ellipdinc (eps := 1 / 2 ^ 52) (by norm_num) (by norm_num) (exLArgs (m := -3) (by norm_num))
example := C87_ellippiinc_partial (eps := 1 / 2 ^ 52) (by norm_num) (by norm_num) (exLArgs (m := 1 / 2) (by norm_num)) (n := 1 / 3)
  (by rw [Real.sin_pi_div_two]; norm_num) (by norm_num) (by norm_num)
example := C87_ellipk (eps := 1 / 2 ^ 52) (m := 1 / 2) (by norm_num) (by norm_num) (by norm_num)
example := C87_ellipd (eps := 1 / 2 ^ 52) (m := -3) (by norm_num) (by norm_num) (by norm_num)
example := C87_ellipe (eps := 1 / 2 ^ 52) (m := 1 / 2) (by norm_num) (by norm_num) (by norm_num)
example := C88_negative (eps := 1 / 2 ^ 52) (by norm_num) (by norm_num) (exLArgs (m := 1 / 2) (by norm_num))

end Verif.Carlson
