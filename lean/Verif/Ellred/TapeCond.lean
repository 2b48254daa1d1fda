import Verif.Ellred.TapeVjp
import Verif.Ellred.DriverGradProps

/-! # The comoving distances as expressions -/

namespace Verif.Ellred

open MeasureTheory Set Filter Topology Verif.Carlson Verif.Cosmo ComplexConjugate

theorem sq_slit {w : ℂ} (h : 0 < w.re) : w ^ 2 ∈ Complex.slitPlane := by
  rw [Complex.mem_slitPlane_iff, sq, Complex.mul_re, Complex.mul_im]
  by_cases hi : w.im = 0
  · left
    rw [hi]
    nlinarith
  · right
    have := mul_ne_zero h.ne' hi
    intro e
    exact this (by linarith)

theorem csqrt_real {L : ℝ} (hL : 0 < L) : csqrt (L : ℂ) = ((L ^ (0.5 : ℝ) : ℝ) : ℂ) := by
  rw [csqrt, Complex.ofReal_cpow hL.le]
  norm_num

theorem slit_real {L : ℝ} (hL : 0 < L) : (L : ℂ) ∈ Complex.slitPlane := by simp [Complex.mem_slitPlane_iff, hL]

/-! ### The arguments of `elliprf` -/

section Cubic

variable {y z1 z2 b c d : ℝ} {r1 r2 r3 : ℂ}

theorem CubicOK.params_slit (h : CubicOK y r1 r2 r3 b c d) (h1 : y ≤ z1) (h2 : y ≤ z2) :
    let u := params3 r1 r2 r3 z1 z2
    u.1 ∈ Complex.slitPlane ∧ u.2.1 ∈ Complex.slitPlane ∧ u.2.2 ∈ Complex.slitPlane := by
  have key : ∀ {a b' : ℝ}, y ≤ a → a < b' → let u := params3 r1 r2 r3 a b'
      u.1 ∈ Complex.slitPlane ∧ u.2.1 ∈ Complex.slitPlane ∧ u.2.2 ∈ Complex.slitPlane := by
    intro a b' ha hab
    obtain ⟨-, -, -, -, V, W, K⟩ := (h.mono ha).kernel hab
    have m : b' ∈ Ioc a b' := ⟨hab, le_rfl⟩
    have hk : 0 < b' - a := sub_pos.mpr hab
    rw [CubicOK.params3_eq hab]
    refine ⟨sq_slit ?_, sq_slit ?_, sq_slit ?_⟩ <;> rw [Complex.re_ofReal_mul]
    · exact mul_pos hk (K.re1 _ m)
    · exact mul_pos hk (K.re2 _ m)
    · exact mul_pos hk (K.re3 _ m)
  rcases lt_trichotomy z1 z2 with hlt | rfl | hlt
  · exact key h1 hlt
  · have e := h.sqrt_eq (x := z1 + 1) (t := z1) (by linarith) ⟨h1, by linarith⟩
    have hs := Real.sqrt_pos.mpr (h.cpos h1)
    have e' : ∀ w : ℂ, w = 2 * (Xr r1 z1 * Xr r2 z1 * Xr r3 z1) → w ^ 2 ∈ Complex.slitPlane := by
      rintro w rfl
      rw [e]
      refine sq_slit ?_
      rw [show (2 : ℂ) * ((√(CubicOK.cubic b c d z1) : ℝ) : ℂ) = ((2 * √(CubicOK.cubic b c d z1) : ℝ) : ℂ) by push_cast; ring, Complex.ofReal_re]
      linarith
    exact ⟨e' _ (by ring), e' _ (by ring), e' _ (by ring)⟩
  · rw [CubicOK.params3_swap]
    exact key h2 hlt

/-- The value of the comoving distance for the roots in any order. -/
theorem CubicOK.comoving_value (h : CubicOK (min z1 z2) r1 r2 r3 b c d) {L : ℝ} (hL : 0 < L) :
    comoving3 L r1 r2 r3 z1 z2 = ∫ t in z1..z2, invEfunc (L * CubicOK.cubic b c d t) := by
  have hi : ∀ t, min z1 z2 ≤ t → invEfunc (L * CubicOK.cubic b c d t) = 1 / √(CubicOK.cubic b c d t) / L ^ (0.5 : ℝ) := fun t ht => by
    rw [invEfunc_eq hL (h.cpos ht)]
  rcases lt_trichotomy z1 z2 with hlt | hlt | hlt
  · rw [min_eq_left hlt.le] at h hi
    rw [comoving3_eq h hlt, integral_div_eq hlt fun t ht => hi t ht.1.le]
  · subst hlt
    simp [comoving3]
  · rw [min_eq_right hlt.le] at h hi
    rw [comoving3_swap, comoving3_eq h hlt, intervalIntegral.integral_symm, integral_div_eq hlt fun t ht => hi t ht.1.le]

end Cubic

section Quartic

variable {y z1 z2 b c d e : ℝ} {r1 r2 r3 r4 : ℂ}

/-- The condition passes to higher lower limits. -/
theorem QuarticOK.mono' (h : QuarticOK y r1 r2 r3 r4 b c d e) {y' : ℝ} (hy : y ≤ y') : QuarticOK y' r1 r2 r3 r4 b c d e :=
  ⟨h.vieta, fun t ht => h.pos t (hy.trans ht), fun ρ σ hρ hσ hv => by
    have := h.slope ρ σ hρ hσ hv
    have h1 := mul_nonneg hσ.le (sub_nonneg.mpr hy)
    have h2 := mul_nonneg hρ.le (sub_nonneg.mpr hy)
    nlinarith⟩

theorem QuarticOK.slit (h : QuarticOK y r1 r2 r3 r4 b c d e) {t : ℝ} (ht : y ≤ t) :
    (t : ℂ) - r1 ∈ Complex.slitPlane ∧ (t : ℂ) - r2 ∈ Complex.slitPlane ∧ (t : ℂ) - r3 ∈ Complex.slitPlane ∧ (t : ℂ) - r4 ∈ Complex.slitPlane := by
  obtain ⟨h1, h2, h3, h4, -⟩ := h.kernel (x := t + 1) (by linarith)
  have m : t ∈ Icc y (t + 1) := ⟨ht, by linarith⟩
  exact ⟨h1 t m, h2 t m, h3 t m, h4 t m⟩

theorem QuarticOK.params_slit (h : QuarticOK y r1 r2 r3 r4 b c d e) (h1 : y ≤ z1) (h2 : y ≤ z2) :
    let u := params4 r1 r2 r3 r4 z1 z2
    u.1 ∈ Complex.slitPlane ∧ u.2.1 ∈ Complex.slitPlane ∧ u.2.2 ∈ Complex.slitPlane := by
  have key : ∀ {a b' : ℝ}, y ≤ a → a < b' → let u := params4 r1 r2 r3 r4 a b'
      u.1 ∈ Complex.slitPlane ∧ u.2.1 ∈ Complex.slitPlane ∧ u.2.2 ∈ Complex.slitPlane := by
    intro a b' ha hab
    obtain ⟨-, -, -, -, -, V, W, K⟩ := (h.mono' ha).kernel hab
    have m : b' ∈ Ioc a b' := ⟨hab, le_rfl⟩
    have hk : 0 < b' - a := sub_pos.mpr hab
    rw [QuarticOK.params4_eq hab]
    refine ⟨sq_slit ?_, sq_slit ?_, sq_slit ?_⟩ <;> rw [Complex.re_ofReal_mul]
    · exact mul_pos hk (K.re1 _ m)
    · exact mul_pos hk (K.re2 _ m)
    · exact mul_pos hk (K.re3 _ m)
  rcases lt_trichotomy z1 z2 with hlt | rfl | hlt
  · exact key h1 hlt
  · have e0 := h.sqrt_eq h1
    have hs := Real.sqrt_pos.mpr (h.cpos h1)
    have e' : ∀ w : ℂ, w = 2 * (Xr r1 z1 * Xr r2 z1 * Xr r3 z1 * Xr r4 z1) → w ^ 2 ∈ Complex.slitPlane := by
      rintro w rfl
      rw [e0]
      refine sq_slit ?_
      rw [show (2 : ℂ) * ((√(quartic b c d e z1) : ℝ) : ℂ) = ((2 * √(quartic b c d e z1) : ℝ) : ℂ) by push_cast; ring, Complex.ofReal_re]
      linarith
    exact ⟨e' _ (by ring), e' _ (by ring), e' _ (by ring)⟩
  · rw [QuarticOK.params4_swap]
    exact key h2 hlt

theorem QuarticOK.comoving_value (h : QuarticOK (min z1 z2) r1 r2 r3 r4 b c d e) {L : ℝ} (hL : 0 < L) :
    comoving4 L r1 r2 r3 r4 z1 z2 = ∫ t in z1..z2, invEfunc (L * quartic b c d e t) := by
  have hi : ∀ t, min z1 z2 ≤ t → invEfunc (L * quartic b c d e t) = 1 / √(quartic b c d e t) / L ^ (0.5 : ℝ) := fun t ht => by
    rw [invEfunc_eq hL (h.cpos ht)]
  rcases lt_trichotomy z1 z2 with hlt | hlt | hlt
  · rw [min_eq_left hlt.le] at h hi
    rw [comoving4_eq h hlt, integral_div_eq hlt fun t ht => hi t ht.1.le]
  · subst hlt
    simp [comoving4]
  · rw [min_eq_right hlt.le] at h hi
    rw [comoving4_swap, comoving4_eq h hlt, intervalIntegral.integral_symm, integral_div_eq hlt fun t ht => hi t ht.1.le]

end Quartic

/-! ### The expressions -/

/-- The expression for three roots. -/
def ex3 : Ex (3 + 3) := Ex.comoving (.var 0) (.var 1) (.var 2) (Ex.params3 (.sub (.var 3) (.const 1)) (.sub (.var 4) (.const 1)) (.sub (.var 5) (.const 1)) (.var 1) (.var 2))

/-- The expression for four roots. -/
def ex4 : Ex (3 + 4) := Ex.comoving (.var 0) (.var 1) (.var 2)
      (Ex.params4 (.sub (.var 6) (.const 1)) (.sub (.var 5) (.const 1)) (.sub (.var 4) (.const 1)) (.sub (.var 3) (.const 1)) (.var 1) (.var 2))

theorem comovingEx_three : comovingEx 3 = some ex3 := rfl
theorem comovingEx_four : comovingEx 4 = some ex4 := rfl

variable {L z1 z2 : ℝ}

theorem inputs3 (r : Fin 3 → ℂ) : (inputs L z1 z2 r 0 = L ∧ inputs L z1 z2 r 1 = z1 ∧ inputs L z1 z2 r 2 = z2) ∧
    inputs L z1 z2 r 3 = r 0 ∧ inputs L z1 z2 r 4 = r 1 ∧ inputs L z1 z2 r 5 = r 2 :=
  ⟨⟨rfl, rfl, rfl⟩, rfl, rfl, rfl⟩

theorem inputs4 (r : Fin 4 → ℂ) : (inputs L z1 z2 r 0 = L ∧ inputs L z1 z2 r 1 = z1 ∧ inputs L z1 z2 r 2 = z2) ∧
    inputs L z1 z2 r 3 = r 0 ∧ inputs L z1 z2 r 4 = r 1 ∧ inputs L z1 z2 r 5 = r 2 ∧ inputs L z1 z2 r 6 = r 3 :=
  ⟨⟨rfl, rfl, rfl⟩, rfl, rfl, rfl, rfl⟩

/-- The expression has the value of the method. -/
theorem ex3_eval (hL : 0 < L) (r : Fin 3 → ℂ) : ex3.eval (inputs L z1 z2 r) = ((comoving3 L (r 0 - 1) (r 1 - 1) (r 2 - 1) z1 z2 : ℝ) : ℂ) := by
  obtain ⟨⟨e0, e1, e2⟩, e3, e4, e5⟩ := inputs3 (L := L) (z1 := z1) (z2 := z2) r
  simp only [ex3, Ex.comoving, Ex.params3, Ex.d, Ex.eval, e0, e1, e2, e3, e4, e5, csqrt_real hL, Complex.ofReal_re, comoving3, fixDimless, params3, Xr]
  push_cast
  ring

theorem ex4_eval (hL : 0 < L) (r : Fin 4 → ℂ) : ex4.eval (inputs L z1 z2 r) = ((comoving4 L (r 3 - 1) (r 2 - 1) (r 1 - 1) (r 0 - 1) z1 z2 : ℝ) : ℂ) := by
  obtain ⟨⟨e0, e1, e2⟩, e3, e4, e5, e6⟩ := inputs4 (L := L) (z1 := z1) (z2 := z2) r
  simp only [ex4, Ex.comoving, Ex.params4, Ex.d, Ex.eval, e0, e1, e2, e3, e4, e5, e6, csqrt_real hL, Complex.ofReal_re, comoving4, fixDimless, params4, Xr]
  push_cast
  ring

theorem ex3_ok (hL : 0 < L) (r : Fin 3 → ℂ) {b c d : ℝ} (h : CubicOK (min z1 z2) (r 0 - 1) (r 1 - 1) (r 2 - 1) b c d) : ex3.OK (inputs L z1 z2 r) := by
  obtain ⟨⟨e0, e1, e2⟩, e3, e4, e5⟩ := inputs3 (L := L) (z1 := z1) (z2 := z2) r
  have s1 := h.slit (min_le_left z1 z2)
  have s2 := h.slit (min_le_right z1 z2)
  have u := h.params_slit (min_le_left z1 z2) (min_le_right z1 z2)
  have hne := Real.rpow_pos_of_pos hL (0.5 : ℝ)
  simp only [params3, Xr] at u
  simp only [ex3, Ex.comoving, Ex.params3, Ex.d, Ex.OK, Ex.eval, e0, e1, e2, e3, e4, e5, csqrt_real hL, Complex.ofReal_re, true_and, and_true]
  simp only [s1.1, s1.2.1, s1.2.2, s2.1, s2.2.1, s2.2.2, u.1, u.2.1, u.2.2, slit_real hL, and_self, true_and]
  exact_mod_cast hne.ne'

theorem ex4_ok (hL : 0 < L) (r : Fin 4 → ℂ) {b c d e : ℝ} (h : QuarticOK (min z1 z2) (r 3 - 1) (r 2 - 1) (r 1 - 1) (r 0 - 1) b c d e) :
    ex4.OK (inputs L z1 z2 r) := by
  obtain ⟨⟨e0, e1, e2⟩, e3, e4, e5, e6⟩ := inputs4 (L := L) (z1 := z1) (z2 := z2) r
  have s1 := h.slit (min_le_left z1 z2)
  have s2 := h.slit (min_le_right z1 z2)
  have u := h.params_slit (min_le_left z1 z2) (min_le_right z1 z2)
  have hne := Real.rpow_pos_of_pos hL (0.5 : ℝ)
  simp only [params4, Xr] at u
  simp only [ex4, Ex.comoving, Ex.params4, Ex.d, Ex.OK, Ex.eval, e0, e1, e2, e3, e4, e5, e6, csqrt_real hL, Complex.ofReal_re, true_and, and_true]
  simp only [s1.1, s1.2.1, s1.2.2.1, s1.2.2.2, s2.1, s2.2.1, s2.2.2.1, s2.2.2.2, u.1, u.2.1, u.2.2, slit_real hL, and_self, true_and]
  exact_mod_cast hne.ne'

end Verif.Ellred
