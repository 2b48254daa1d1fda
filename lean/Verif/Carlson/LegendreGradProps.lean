import Verif.Carlson.LegendreGrad

/-! # Gradients of Legendre's integrals: C89 (complete) and C90 (incomplete) -/

namespace Verif.Carlson

open MeasureTheory Set Filter Topology Grad SArgs

variable {φ m n : ℝ}

theorem rpow_quot {a b c : ℝ} (ha : 0 ≤ a) (hb : 0 ≤ b) : (a / b / c) ^ (1 / 2 : ℝ) = √a / (√b * √c) := by
  rw [pow_half, Real.sqrt_div (by positivity), Real.sqrt_div ha, div_div]

theorem R_half_pi (m : ℝ) : R (Real.pi / 2) m = 0 := by simp [R]

theorem Rn_half_pi (n m : ℝ) : Rn n (Real.pi / 2) m = 0 := by simp [Rn]

/-! ### The values at `m = 0` -/

theorem cos_eq (h : SArgs φ m) : √(1 / Real.sin φ ^ 2 - 1) = Real.cos φ / Real.sin φ := by
  have hs := h.largs.sin_pos
  have hk : 0 ≤ Real.cos φ := Real.cos_nonneg_of_mem_Icc ⟨by linarith [Real.pi_pos, h.pos], h.le⟩
  rw [show 1 / Real.sin φ ^ 2 - 1 = (Real.cos φ / Real.sin φ) ^ 2 by
    rw [div_pow, Real.cos_sq']; field_simp, Real.sqrt_sq (by positivity)]

theorem asin_eq (h : SArgs φ m) : Real.arcsin (1 / (1 / Real.sin φ ^ 2) ^ (1 / 2 : ℝ)) = φ := by
  have hs := h.largs.sin_pos
  rw [pow_half, Real.sqrt_div zero_le_one, Real.sqrt_one, Real.sqrt_sq hs.le, one_div_one_div,
    Real.arcsin_sin (by linarith [Real.pi_pos, h.pos]) h.le]

theorem sin_sq_integral (φ : ℝ) : ∫ θ in (0 : ℝ)..φ, Real.sin θ ^ 2 = (φ - Real.sin φ * Real.cos φ) / 2 := by
  rw [integral_sin_sq]
  simp
  ring

theorem sin_four_integral (φ : ℝ) :
    ∫ θ in (0 : ℝ)..φ, Real.sin θ ^ 4 = (3 * φ - 3 * Real.sin φ * Real.cos φ - 2 * Real.sin φ ^ 3 * Real.cos φ) / 8 := by
  have := integral_sin_pow (a := 0) (b := φ) 2
  norm_num at this
  rw [this]
  ring

theorem B_zero (h : SArgs φ 0) : B φ 0 = φ - Real.sin φ * Real.cos φ := by
  have := legendre_subst h.pos h.le rfl h.largs.m_le' fun s => s
  simp only [zero_mul, sub_zero, Real.sqrt_one, div_one] at this
  rw [sin_sq_integral] at this
  rw [B]
  simp only [sub_zero]
  linarith

theorem D_zero (h : SArgs φ 0) : legD φ 0 = (φ - Real.sin φ * Real.cos φ) / 2 := by
  rw [legD]
  simp only [zero_mul, sub_zero, Real.sqrt_one, div_one]
  exact sin_sq_integral φ

theorem DD_zero (h : SArgs φ 0) : (J (1 / Real.sin φ ^ 2 - 1) (1 / Real.sin φ ^ 2 - 0) (1 / Real.sin φ ^ 2) fun t =>
    1 / ((t + 1 / Real.sin φ ^ 2) * (t + (1 / Real.sin φ ^ 2 - 0)))) =
    (3 * φ - 3 * Real.sin φ * Real.cos φ - 2 * Real.sin φ ^ 3 * Real.cos φ) / 4 := by
  have := legendre_subst h.pos h.le rfl h.largs.m_le' fun s => s ^ 2
  simp only [zero_mul, sub_zero, Real.sqrt_one, div_one] at this
  have e : ∀ θ : ℝ, (Real.sin θ ^ 2) ^ 2 = Real.sin θ ^ 4 := fun θ => by ring
  simp only [e] at this
  rw [sin_four_integral] at this
  have e2 : ∀ t : ℝ, (1 / (t + 1 / Real.sin φ ^ 2)) ^ 2 = 1 / ((t + 1 / Real.sin φ ^ 2) * (t + 1 / Real.sin φ ^ 2)) := fun t => by
    rw [div_pow, one_pow, sq]
  simp only [e2] at this
  simp only [sub_zero]
  linarith

/-! ### C90: incomplete integrals -/

/-- C90: `ellipkinc`, gradient in `m`. -/
theorem C90_kinc_m (h : SArgs φ m) (h1 : m ≠ 1) :
    HasDerivAt (fun m => legF φ m) (kincGradM (some (1 / Real.sin φ ^ 2)) m (legF φ m) (legE φ m)) m := by
  refine h.F_deriv.congr_deriv ?_
  have hx := h.largs.args.x0
  have hy := h.y_pos
  simp only [kincGradM, atPhiZero, sel]
  by_cases h0 : m = 0
  · rw [if_neg (by simpa using h0), asin_eq h, pow_half, cos_eq h]
    subst h0
    have := h.largs.sin_pos
    rw [B_zero h]
    field_simp
  · rw [if_pos h0, h.largs.E_eq, rpow_quot hx hy.le]
    have := h.relation
    rw [R] at this
    have h1' : 1 - m ≠ 0 := fun e => h1 (by linarith)
    rw [show (legF φ m - m * legD φ m - (1 - m) * legF φ m) / m = legF φ m - legD φ m by field_simp; ring, eq_div_iff (by positivity)]
    linear_combination (1 / 2) * this

/-- C90: `ellipeinc`, gradient in `m`. -/
theorem C90_einc_m (h : SArgs φ m) :
    HasDerivAt (fun m => legE φ m) (eincGradM (some (1 / Real.sin φ ^ 2)) m (legE φ m) (legF φ m)) m := by
  refine h.E_deriv.congr_deriv ?_
  simp only [eincGradM, atPhiZero, sel]
  by_cases h0 : m = 0
  · rw [if_neg (by simpa using h0), asin_eq h, pow_half, cos_eq h]
    subst h0
    have := h.largs.sin_pos
    rw [D_zero h]
    field_simp
    ring
  · rw [if_pos h0, h.largs.E_eq]
    field_simp
    ring

/-- C90: `ellipdinc`, gradient in `m`. -/
theorem C90_dinc_m (h : SArgs φ m) (h1 : m ≠ 1) :
    HasDerivAt (fun m => legD φ m) (dincGradM (some (1 / Real.sin φ ^ 2)) m (legD φ m) (legF φ m)) m := by
  refine h.D_deriv.congr_deriv ?_
  have hx := h.largs.args.x0
  have hy := h.y_pos
  simp only [dincGradM, atPhiZero, sel]
  by_cases h0 : m = 0
  · rw [if_neg (by simpa using h0), asin_eq h, pow_half, cos_eq h]
    subst h0
    have := h.largs.sin_pos
    rw [DD_zero h]
    field_simp
    ring
  · rw [if_pos h0, rpow_quot hx hy.le]
    have k1 := h.relation
    have k2 := h.D_relation
    rw [R] at k1
    have h1' : 1 - m ≠ 0 := fun e => h1 (by linarith)
    rw [eq_div_iff (by positivity)]
    linear_combination (1 / 2) * k1 + (1 / 2) * (1 - m) * k2

/-- C90: `ellippiinc`, gradient in `m`. -/
theorem C90_piinc_m (h : SArgs φ m) (hn : SArgs φ n) (h1 : m ≠ 1) (hnm : n ≠ m) :
    HasDerivAt (fun m => legPi n φ m) (piincGradM n (some (1 / Real.sin φ ^ 2)) m (legPi n φ m) (legE φ m)) m := by
  refine (h.Pi_deriv_m hn).congr_deriv ?_
  have hx := h.largs.args.x0
  have hy := h.y_pos
  simp only [piincGradM, atPhiZero]
  have k1 := h.relation
  have k2 := h.Pi_relation_m hn
  rw [R] at k1
  have h1' : m - 1 ≠ 0 := fun e => h1 (by linarith)
  have h2' : n - m ≠ 0 := fun e => hnm (by linarith)
  rw [rpow_quot hx hy.le, eq_div_iff (by positivity), h.largs.E_eq]
  linear_combination (m / 2) * k1 - (1 / 2) * (m - 1) * k2

/-- C90: `ellippiinc`, gradient in `n`. -/
theorem C90_piinc_n (h : SArgs φ m) (hn : SArgs φ n) (h0 : n ≠ 0) (h1 : n ≠ 1) (hnm : n ≠ m) :
    HasDerivAt (fun n => legPi n φ m) (piincGradN n (some (1 / Real.sin φ ^ 2)) m (legPi n φ m) (legE φ m) (legF φ m)) n := by
  refine (h.Pi_deriv_n hn).congr_deriv ?_
  have hx := h.largs.args.x0
  have hy := h.y_pos
  have hp := hn.y_pos
  simp only [piincGradN, atPhiZero]
  have k1 := Pi_J h.largs hn.lt
  have k2 := h.Pi_relation_n hn
  have h1' : n - 1 ≠ 0 := fun e => h1 (by linarith)
  have h2' : m - n ≠ 0 := fun e => hnm (by linarith)
  have e : ((1 / Real.sin φ ^ 2 - 1) * (1 / Real.sin φ ^ 2 - m) / (1 / Real.sin φ ^ 2 - n) ^ 2 / (1 / Real.sin φ ^ 2)) ^ (1 / 2 : ℝ) =
      Rn n φ m := by
    rw [rpow_quot (mul_nonneg hx hy.le) (sq_nonneg _), Real.sqrt_mul hx, Real.sqrt_sq hp.le, Rn]
    congr 1
    ring
  rw [e, eq_div_iff (by positivity), h.largs.E_eq]
  generalize (J _ _ _ fun t => 1 / ((t + (1 / Real.sin φ ^ 2 - n)) * (t + (1 / Real.sin φ ^ 2 - n)))) = H at *
  generalize (J _ _ _ fun t => 1 / (t + (1 / Real.sin φ ^ 2 - n))) = G at *
  rw [k1] at k2 ⊢
  field_simp
  field_simp at k2
  linear_combination -k2

/-- C90: at `φ = 0` (`c` infinite) all gradients in `m` and `n` are 0, and so are the derivatives. -/
theorem C90_phi_zero (n m P E F : ℝ) :
    (kincGradM none m F E = 0 ∧ HasDerivAt (fun m => legF 0 m) 0 m) ∧
    (eincGradM none m E F = 0 ∧ HasDerivAt (fun m => legE 0 m) 0 m) ∧
    (dincGradM none m P F = 0 ∧ HasDerivAt (fun m => legD 0 m) 0 m) ∧
    (piincGradM n none m P E = 0 ∧ HasDerivAt (fun m => legPi n 0 m) 0 m) ∧
    (piincGradN n none m P E F = 0 ∧ HasDerivAt (fun n => legPi n 0 m) 0 n) := by
  refine ⟨⟨rfl, ?_⟩, ⟨rfl, ?_⟩, ⟨rfl, ?_⟩, ⟨rfl, ?_⟩, rfl, ?_⟩ <;>
  · simp only [legF, legE, legD, legPi, intervalIntegral.integral_same]
    exact hasDerivAt_const _ _

/-- The chain rule through `c = csc² φ`. -/
theorem chain (h : SArgs φ m) (hφ : φ < Real.pi / 2) (g : ℝ) :
    gradC g (1 / Real.sin φ ^ 2) * csc2Grad φ (1 / Real.sin φ ^ 2) = g := by
  have hs := h.largs.sin_pos
  have hk : 0 < Real.cos φ := Real.cos_pos_of_mem_Ioo ⟨by linarith [Real.pi_pos, h.pos], hφ⟩
  rw [gradC, csc2Grad, pow_half, cos_eq h, Real.tan_eq_sin_div_cos]
  field_simp

theorem sin_mono_sq (h : SArgs φ m) {θ : ℝ} (h0 : 0 ≤ θ) (h1 : θ ≤ φ) : Real.sin θ ^ 2 ≤ Real.sin φ ^ 2 := by
  have a := Real.sin_nonneg_of_nonneg_of_le_pi h0 (by linarith [Real.pi_pos, h.le])
  have b := Real.sin_le_sin_of_le_of_le_pi_div_two (by linarith [Real.pi_pos]) h.le h1
  gcongr

theorem one_sub_pos (h : SArgs φ m) {θ : ℝ} (h0 : 0 ≤ θ) (h1 : θ ≤ φ) : 0 < 1 - m * Real.sin θ ^ 2 := by
  have a := sin_mono_sq h h0 h1
  have := h.lt
  rcases le_total m 0 with hm | hm
  · nlinarith [sq_nonneg (Real.sin θ)]
  · nlinarith

theorem ftc (h : SArgs φ m) {f : ℝ → ℝ} (hf : ∀ θ, 0 ≤ θ → θ ≤ φ → ContinuousAt f θ) (hm : Measurable f) :
    HasDerivAt (fun φ => ∫ θ in (0 : ℝ)..φ, f θ) (f φ) φ := by
  refine intervalIntegral.integral_hasDerivAt_right ?_ hm.stronglyMeasurable.stronglyMeasurableAtFilter (hf φ h.pos.le le_rfl)
  refine ContinuousOn.intervalIntegrable ?_
  rw [uIcc_of_le h.pos.le]
  exact fun θ hθ => (hf θ hθ.1 hθ.2).continuousWithinAt

theorem div_c (h : SArgs φ m) (a : ℝ) : 1 - a / (1 / Real.sin φ ^ 2) = 1 - a * Real.sin φ ^ 2 := by
  have := h.largs.sin_pos
  field_simp

/-- C90: gradients in `φ`, through `csc² φ`, for `φ < π/2`. -/
theorem C90_phi (h : SArgs φ m) (hn : SArgs φ n) (hφ : φ < Real.pi / 2) :
    HasDerivAt (fun φ => legF φ m)
      (gradC (kincGradPhi (1 / Real.sin φ ^ 2) m) (1 / Real.sin φ ^ 2) * csc2Grad φ (1 / Real.sin φ ^ 2)) φ ∧
    HasDerivAt (fun φ => legE φ m)
      (gradC (eincGradPhi (1 / Real.sin φ ^ 2) m) (1 / Real.sin φ ^ 2) * csc2Grad φ (1 / Real.sin φ ^ 2)) φ ∧
    HasDerivAt (fun φ => legD φ m)
      (gradC (dincGradPhi (1 / Real.sin φ ^ 2) m) (1 / Real.sin φ ^ 2) * csc2Grad φ (1 / Real.sin φ ^ 2)) φ ∧
    HasDerivAt (fun φ => legPi n φ m)
      (gradC (piincGradPhi n (1 / Real.sin φ ^ 2) m) (1 / Real.sin φ ^ 2) * csc2Grad φ (1 / Real.sin φ ^ 2)) φ := by
  have hs := h.largs.sin_pos
  have hm := one_sub_pos h h.pos.le le_rfl
  have cs : ∀ a θ : ℝ, ContinuousAt (fun θ => 1 - a * Real.sin θ ^ 2) θ := fun a θ => by fun_prop
  have cr : ∀ θ : ℝ, ContinuousAt (fun θ => √(1 - m * Real.sin θ ^ 2)) θ := fun θ => by fun_prop
  have pr : ∀ θ : ℝ, 0 ≤ θ → θ ≤ φ → √(1 - m * Real.sin θ ^ 2) ≠ 0 := fun θ h0 h1 => (Real.sqrt_pos.mpr (one_sub_pos h h0 h1)).ne'
  rw [chain h hφ, chain h hφ, chain h hφ, chain h hφ, kincGradPhi, eincGradPhi, dincGradPhi, piincGradPhi, div_c h, div_c h,
    pow_neg_half hm, pow_half]
  refine ⟨ftc h (fun θ h0 h1 => ContinuousAt.div continuousAt_const (cr θ) (pr θ h0 h1)) (by fun_prop),
    ftc h (fun θ h0 h1 => cr θ) (by fun_prop), ?_, ?_⟩
  · refine (ftc h (f := fun θ => Real.sin θ ^ 2 / √(1 - m * Real.sin θ ^ 2)) (fun θ h0 h1 =>
      ContinuousAt.div (by fun_prop) (cr θ) (pr θ h0 h1)) (by fun_prop)).congr_deriv ?_
    have := pr φ h.pos.le le_rfl
    field_simp
  · refine (ftc h (f := fun θ => 1 / ((1 - n * Real.sin θ ^ 2) * √(1 - m * Real.sin θ ^ 2))) (fun θ h0 h1 =>
      ContinuousAt.div continuousAt_const ((cs n θ).mul (cr θ)) (mul_ne_zero (one_sub_pos hn h0 h1).ne' (pr θ h0 h1))) (by fun_prop)).congr_deriv ?_
    have := pr φ h.pos.le le_rfl
    rw [div_div, mul_comm]

/-! ### C89: complete integrals -/

theorem half_pi_zero : Real.sin (Real.pi / 2) * Real.cos (Real.pi / 2) = 0 := by simp

/-- C89: `ellipk`. -/
theorem C89_k (hm : m < 1) :
    HasDerivAt (fun m => legF (Real.pi / 2) m) (kGradM m (legF (Real.pi / 2) m) (legE (Real.pi / 2) m)) m := by
  refine (C90_kinc_m (SArgs.half_pi hm) hm.ne).congr_deriv ?_
  have h1' : 1 - m ≠ 0 := by linarith
  simp only [kincGradM, kGradM, atPhiZero, sel, Real.sin_pi_div_two]
  split
  · rename_i h0
    norm_num
    field_simp
  · norm_num
    ring

/-- C89: `ellipe`. -/
theorem C89_e (hm : m < 1) :
    HasDerivAt (fun m => legE (Real.pi / 2) m) (eGradM m (legE (Real.pi / 2) m) (legF (Real.pi / 2) m)) m := by
  refine (C90_einc_m (SArgs.half_pi hm)).congr_deriv ?_
  simp only [eincGradM, eGradM, atPhiZero, sel, Real.sin_pi_div_two]
  split
  · rename_i h0
    field_simp
  · norm_num
    ring

/-- C89: `ellipd`. -/
theorem C89_d (hm : m < 1) :
    HasDerivAt (fun m => legD (Real.pi / 2) m) (dGradM m (legD (Real.pi / 2) m) (legF (Real.pi / 2) m)) m := by
  refine (C90_dinc_m (SArgs.half_pi hm) hm.ne).congr_deriv ?_
  simp only [dincGradM, dGradM, atPhiZero, sel, Real.sin_pi_div_two]
  split
  · rename_i h0
    norm_num
  · norm_num
    ring

/-- C89: `ellippi`, gradient in `m`. -/
theorem C89_pi_m (hm : m < 1) (hn : n < 1) (hnm : n ≠ m) :
    HasDerivAt (fun m => legPi n (Real.pi / 2) m) (piGradM n m (legPi n (Real.pi / 2) m) (legE (Real.pi / 2) m)) m := by
  refine (C90_piinc_m (SArgs.half_pi hm) (SArgs.half_pi hn) hm.ne hnm).congr_deriv ?_
  have h1' : m - 1 ≠ 0 := by linarith
  have h2' : n - m ≠ 0 := fun e => hnm (by linarith)
  simp only [piincGradM, piGradM, atPhiZero, Real.sin_pi_div_two]
  norm_num
  field_simp

/-- C89: `ellippi`, gradient in `n`. -/
theorem C89_pi_n (hm : m < 1) (hn : n < 1) (h0 : n ≠ 0) (hnm : n ≠ m) :
    HasDerivAt (fun n => legPi n (Real.pi / 2) m)
      (piGradN n m (legPi n (Real.pi / 2) m) (legE (Real.pi / 2) m) (legF (Real.pi / 2) m)) n := by
  refine (C90_piinc_n (SArgs.half_pi hm) (SArgs.half_pi hn) h0 hn.ne hnm).congr_deriv ?_
  simp only [piincGradN, piGradN, atPhiZero, Real.sin_pi_div_two]
  norm_num

/-- At `n = 0`, `n = m` (and, incomplete, `n = 1` or `m = 1`) the derivative exists but the formula divides by zero. -/
theorem C89_excluded (hm : m < 1) (hn : n < 1) : ∃ g, HasDerivAt (fun n => legPi n (Real.pi / 2) m) g n :=
  ⟨_, (SArgs.half_pi hm).Pi_deriv_n (SArgs.half_pi hn)⟩

example : HasDerivAt (fun m => legF (Real.pi / 2) m) (Real.pi / 8) 0 := by
  have := C89_k (m := 0) (by norm_num)
  simpa [kGradM, sel] using this

example : SArgs (Real.pi / 4) 1 ∧ SArgs (Real.pi / 4) (-3) :=
  ⟨⟨by positivity, by linarith [Real.pi_pos], by rw [Real.sin_pi_div_four]; norm_num [div_pow]⟩,
   ⟨by positivity, by linarith [Real.pi_pos], by rw [Real.sin_pi_div_four]; norm_num [div_pow]⟩⟩

theorem exSArgs {m : ℝ} (h : m < 2) : SArgs (Real.pi / 4) m :=
  ⟨by positivity, by linarith [Real.pi_pos], by rw [Real.sin_pi_div_four]; norm_num [div_pow]; linarith⟩

/-- C90 at `φ = π/4`, `m = 1/2`, `n = 3/2`: `C90_kinc_m`, `C90_einc_m`, `C90_dinc_m`, `C90_piinc_m`, `C90_piinc_n`, `C90_phi`. -/
example := C90_kinc_m (exSArgs (m := 1 / 2) (by norm_num)) (by norm_num)
example := C90_einc_m (exSArgs (m := 1) (by norm_num))
example := C90_dinc_m (exSArgs (m := 1 / 2) (by norm_num)) (by norm_num)
example := C90_piinc_m (exSArgs (m := 1 / 2) (by norm_num)) (exSArgs (m := 3 / 2) (by norm_num)) (by norm_num) (by norm_num)
example := C90_piinc_n (exSArgs (m := 1 / 2) (by norm_num)) (exSArgs (m := 3 / 2) (by norm_num)) (by norm_num) (by norm_num) (by norm_num)
example := C90_phi (exSArgs (m := 1 / 2) (by norm_num)) (exSArgs (m := 3 / 2) (by norm_num)) (by linarith [Real.pi_pos])

/-- C89 at `m = 1/2`, `n = -1`: `C89_e`, `C89_d`, `C89_pi_m`, `C89_pi_n`. -/
example := C89_e (m := 1 / 2) (by norm_num)
example := C89_d (m := 1 / 2) (by norm_num)
example := C89_pi_m (m := 1 / 2) (n := -1) (by norm_num) (by norm_num) (by norm_num)
example := C89_pi_n (m := 1 / 2) (n := -1) (by norm_num) (by norm_num) (by norm_num) (by norm_num)

end Verif.Carlson
