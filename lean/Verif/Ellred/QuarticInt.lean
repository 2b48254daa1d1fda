import Verif.Ellred.Quartic
import Verif.Ellred.CubicAbs

/-! # The first integral of a quartic -/

namespace Verif.Ellred

open MeasureTheory Set Filter Topology Verif.Carlson ComplexConjugate

namespace QuarticOK

variable {y x t : ℝ} {r1 r2 r3 r4 : ℂ} {b c d e : ℝ}

theorem slope_aux {w a g p q : ℝ} (hw : 0 ≤ w) (hp : 0 < p) (hq : 0 < q) (hs : a + g < 0) (hag : g ≤ a)
    (h1 : a * (g ^ 2 + q ^ 2) + g * (a ^ 2 + p ^ 2) = 0) : 0 ≤ q * (w - a) + p * (w - g) := by
  rcases le_or_gt a w with h | h
  · have : 0 ≤ q * (w - a) := mul_nonneg hq.le (by linarith)
    have : 0 ≤ p * (w - g) := mul_nonneg hp.le (by linarith)
    linarith
  · -- the roots with positive real part are further from the real axis
    obtain ⟨γ, rfl⟩ : ∃ γ, g = -γ := ⟨-g, by ring⟩
    have ha : 0 < a := by linarith
    have hγ : a < γ := by linarith
    have hγ0 : 0 < γ := by linarith
    have k1 : a * q ^ 2 ≤ γ * p ^ 2 := by
      have : 0 ≤ a * γ * (γ - a) := mul_nonneg (by positivity) (by linarith)
      nlinarith
    have k2 : γ * (a - w) ^ 2 ≤ a * (w + γ) ^ 2 := by
      have : 0 ≤ (γ - a) * (a * γ - w ^ 2) := mul_nonneg (by linarith) (by nlinarith)
      have : 0 ≤ 4 * (a * γ * w) := by positivity
      nlinarith
    have k3 : (q * (a - w)) ^ 2 ≤ (p * (w + γ)) ^ 2 := by
      have e1 : a * γ * (q * (a - w)) ^ 2 = (a * q ^ 2) * (γ * (a - w) ^ 2) := by ring
      have e2 : (γ * p ^ 2) * (a * (w + γ) ^ 2) = a * γ * (p * (w + γ)) ^ 2 := by ring
      have : a * γ * (q * (a - w)) ^ 2 ≤ a * γ * (p * (w + γ)) ^ 2 := by
        rw [e1, ← e2]
        exact mul_le_mul k1 k2 (by positivity) (by positivity)
      exact le_of_mul_le_mul_left this (by positivity)
    have := abs_le_of_sq_le_sq k3 (by positivity)
    have := le_abs_self (q * (a - w))
    nlinarith [this.trans ‹_›]

/-- The condition on two conjugate pairs holds for the polynomial of a universe with matter, radiation, curvature and a constant. -/
theorem slope_of (hy : -1 ≤ y) (hb : 4 < b) (hd : -4 + 3 * b - 2 * c + d = 0) (ρ σ : ℂ) (h1 : 0 < ρ.im) (h2 : 0 < σ.im)
    (h : ∀ z : ℂ, (z - ρ) * (z - conj ρ) * (z - σ) * (z - conj σ) = z ^ 4 + b * z ^ 3 + c * z ^ 2 + d * z + e) :
    0 ≤ σ.im * (y - ρ.re) + ρ.im * (y - σ.re) := by
  have hr : ∀ w : ℝ, ((w - ρ.re) ^ 2 + ρ.im ^ 2) * ((w - σ.re) ^ 2 + σ.im ^ 2) = w ^ 4 + b * w ^ 3 + c * w ^ 2 + d * w + e := by
    intro w
    have := h w
    have k : ∀ r : ℂ, ((w : ℂ) - r) * (w - conj r) = (((w - r.re) ^ 2 + r.im ^ 2 : ℝ) : ℂ) := fun r => by
      have : (w : ℂ) - conj r = conj ((w : ℂ) - r) := by simp
      rw [this, Complex.mul_conj, Complex.normSq_apply]
      simp
      ring
    rw [k, mul_assoc, k] at this
    exact_mod_cast this
  have e0 := hr 0
  have e1 := hr 1
  have e2 := hr (-1)
  have e3 := hr 2
  have e4 := hr (-2)
  have hs : (ρ.re + 1) + (σ.re + 1) < 0 := by nlinarith
  have hl : (ρ.re + 1) * ((σ.re + 1) ^ 2 + σ.im ^ 2) + (σ.re + 1) * ((ρ.re + 1) ^ 2 + ρ.im ^ 2) = 0 := by
    have v1 : -2 * (ρ.re + σ.re) = b := by linarith
    have v2 : ρ.re ^ 2 + ρ.im ^ 2 + σ.re ^ 2 + σ.im ^ 2 + 4 * ρ.re * σ.re = c := by linarith
    have v3 : -2 * ρ.re * (σ.re ^ 2 + σ.im ^ 2) - 2 * σ.re * (ρ.re ^ 2 + ρ.im ^ 2) = d := by linarith
    rw [← v1, ← v2, ← v3] at hd
    linarith
  rcases le_total (σ.re + 1) (ρ.re + 1) with k | k
  · have := slope_aux (w := y + 1) (by linarith) h1 h2 hs k hl
    linarith
  · have := slope_aux (w := y + 1) (by linarith) h2 h1 (by linarith) k (by linarith)
    linarith

theorem quartic_cont : Continuous (quartic b c d e) := by unfold quartic; fun_prop

theorem quartic_deriv (t : ℝ) : HasDerivAt (quartic b c d e) (4 * t ^ 3 + 3 * b * t ^ 2 + 2 * c * t + d) t := by
  unfold quartic
  have := ((((hasDerivAt_pow 4 t).add ((hasDerivAt_pow 3 t).const_mul b)).add ((hasDerivAt_pow 2 t).const_mul c)).add
    ((hasDerivAt_id t).const_mul d)).add_const e
  refine this.congr_deriv ?_
  simp
  ring

theorem params4_eq (hlt : y < x) : params4 r1 r2 r3 r4 y x =
    ((((x - y : ℝ) : ℂ) * U y (Xr r1) (Xr r2) (Xr r3) (Xr r4) x) ^ 2, (((x - y : ℝ) : ℂ) * U y (Xr r1) (Xr r3) (Xr r2) (Xr r4) x) ^ 2,
      (((x - y : ℝ) : ℂ) * U y (Xr r1) (Xr r4) (Xr r2) (Xr r3) x) ^ 2) := by
  have hk : (x : ℂ) - y ≠ 0 := sub_ne_zero.mpr (by exact_mod_cast hlt.ne')
  have e : ∀ r1 r2 r3 r4, ((x - y : ℝ) : ℂ) * U y (Xr r1) (Xr r2) (Xr r3) (Xr r4) x =
      Xr r1 x * Xr r2 x * (Xr r3 y * Xr r4 y) + Xr r1 y * Xr r2 y * (Xr r3 x * Xr r4 x) := by
    intro r1 r2 r3 r4
    rw [U]
    push_cast
    field_simp
  rw [e, e, e, params4]
  simp only [Prod.mk.injEq]
  refine ⟨by ring, by ring, by ring⟩

theorem params4_swap (y x : ℝ) (r1 r2 r3 r4 : ℂ) : params4 r1 r2 r3 r4 y x = params4 r1 r2 r3 r4 x y := by
  simp only [params4, Prod.mk.injEq]
  exact ⟨by ring, by ring, by ring⟩

variable (h : QuarticOK y r1 r2 r3 r4 b c d e)
include h

theorem cpos (ht : y ≤ t) : 0 < quartic b c d e t := h.pos t ht

theorem s_deriv (ht : y ≤ t) :
    HasDerivAt (fun t => √(quartic b c d e t)) ((4 * t ^ 3 + 3 * b * t ^ 2 + 2 * c * t + d) / (2 * √(quartic b c d e t))) t :=
  (quartic_deriv t).sqrt (h.cpos ht).ne'

omit h in
theorem s_cont : ContinuousOn (fun t => √(quartic b c d e t)) (Icc y x) := (Real.continuous_sqrt.comp quartic_cont).continuousOn

theorem s_pos (ht : y ≤ t) : 0 < √(quartic b c d e t) := Real.sqrt_pos.mpr (h.cpos ht)

theorem cs_ne (ht : y ≤ t) : ((√(quartic b c d e t) : ℝ) : ℂ) ≠ 0 := by exact_mod_cast (h.s_pos ht).ne'

/-- The kernel with the square root of the quartic. -/
theorem kernel' (hlt : y < x) : ∃ V W, Kernel y x (fun t => √(quartic b c d e t)) (U y (Xr r1) (Xr r2) (Xr r3) (Xr r4))
    (U y (Xr r1) (Xr r3) (Xr r2) (Xr r4)) (U y (Xr r1) (Xr r4) (Xr r2) (Xr r3)) V W := by
  obtain ⟨-, -, -, -, -, V, W, K⟩ := h.kernel hlt
  have e' : ∀ t ∈ Ioc y x, (Xr r1 t * Xr r2 t * Xr r3 t * Xr r4 t).re = √(quartic b c d e t) := fun t ht => by
    rw [h.sqrt_eq ht.1.le, Complex.ofReal_re]
  refine ⟨V, W, K.lt, fun t ht => h.s_pos ht.1.le, s_cont, K.re1, K.re2, K.re3,
    K.prod, K.W_pos, K.sq1, K.sq2, K.sq3, fun t ht => ?_, K.lim⟩
  have := K.deriv t ht
  simp only [e' t ht] at this
  exact this

/-- The first integral. -/
theorem rf_eq (hlt : y < x) : let u := params4 r1 r2 r3 r4 y x
    2 * ((x - y : ℝ) : ℂ) * RFc u.1 u.2.1 u.2.2 = ((∫ t in Ioc y x, 1 / √(quartic b c d e t) : ℝ) : ℂ) := by
  obtain ⟨V, W, K⟩ := h.kernel' hlt
  intro u
  have := K.rf (sub_pos.mpr hlt)
  rw [show u = _ from params4_eq hlt]
  simp only
  rw [this, ← integral_complex_ofReal, ← integral_Ioc_eq_integral_Ioo]
  simp only [Complex.ofReal_div, Complex.ofReal_one]

theorem inv_s_integrable (hlt : y < x) : IntegrableOn (fun t => 1 / √(quartic b c d e t)) (Ioc y x) := by
  apply IntegrableOn.mono_set _ Ioc_subset_Icc_self
  apply ContinuousOn.integrableOn_Icc
  exact ContinuousOn.div continuousOn_const s_cont fun t ht => (h.s_pos ht.1).ne'

theorem X_ne (ht : y ≤ t) : Xr r1 t ≠ 0 ∧ Xr r2 t ≠ 0 ∧ Xr r3 t ≠ 0 ∧ Xr r4 t ≠ 0 := by
  obtain ⟨-, -, -, -, p, -⟩ := h.kernel (x := t + 1) (by linarith)
  have := (p t ⟨ht, by linarith⟩).ne
  refine ⟨?_, ?_, ?_, ?_⟩ <;> (intro e0; simp [e0] at this)

theorem mono {y' : ℝ} (hy : y ≤ y') : QuarticOK y' r1 r2 r3 r4 b c d e :=
  ⟨h.vieta, fun t ht => h.pos t (hy.trans ht), fun ρ σ h1 h2 hv => by
    have := h.slope ρ σ h1 h2 hv
    have : 0 ≤ σ.im * (y' - y) := mul_nonneg h2.le (by linarith)
    have : 0 ≤ ρ.im * (y' - y) := mul_nonneg h1.le (by linarith)
    nlinarith⟩

end QuarticOK

end Verif.Ellred
