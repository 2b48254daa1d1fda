import Verif.Ellred.Spec
import Verif.Carlson.Run
import Mathlib.MeasureTheory.Function.Jacobian
import Mathlib.Analysis.SpecialFunctions.Pow.Deriv
import Mathlib.Analysis.Calculus.Deriv.MeanValue
import Mathlib.Analysis.Complex.RealDeriv

/-! # Carlson's substitution

For fixed lower limit `y` the three functions `U` of the upper limit `t` satisfy `dU_i²/dt = -U₁ U₂ U₃ / s(t)`, the differences
of their squares are constant, and they tend to infinity at `y`. So `σ = (x-y)² (U_i(t)² - U_i(x)²)` turns Carlson's integrals
into integrals over `t` from `y` to `x`. -/

namespace Verif.Ellred

open MeasureTheory Set Filter Topology Verif.Carlson

theorem csqrt_of_sq {u : ℂ} (h : 0 < u.re) : csqrt (u ^ 2) = u := by
  have := Complex.sq_cpow_two_inv h
  rw [csqrt, show (1 / 2 : ℂ) = 2⁻¹ by norm_num]
  exact_mod_cast this

/-- The system of the three functions. -/
structure Kernel (y x : ℝ) (s : ℝ → ℝ) (U1 U2 U3 : ℝ → ℂ) (V W : ℝ → ℝ) : Prop where
  lt : y < x
  s_pos : ∀ t ∈ Ioc y x, 0 < s t
  s_cont : ContinuousOn s (Icc y x)
  re1 : ∀ t ∈ Ioc y x, 0 < (U1 t).re
  re2 : ∀ t ∈ Ioc y x, 0 < (U2 t).re
  re3 : ∀ t ∈ Ioc y x, 0 < (U3 t).re
  prod : ∀ t ∈ Ioc y x, U1 t * U2 t * U3 t = W t
  W_pos : ∀ t ∈ Ioc y x, 0 < W t
  sq1 : ∀ t ∈ Ioc y x, U1 t ^ 2 = U1 x ^ 2 + V t
  sq2 : ∀ t ∈ Ioc y x, U2 t ^ 2 = U2 x ^ 2 + V t
  sq3 : ∀ t ∈ Ioc y x, U3 t ^ 2 = U3 x ^ 2 + V t
  deriv : ∀ t ∈ Ioc y x, HasDerivAt V (-(W t / s t)) t
  lim : Tendsto V (𝓝[>] y) atTop

namespace Kernel

variable {y x : ℝ} {s : ℝ → ℝ} {U1 U2 U3 : ℝ → ℂ} {V W : ℝ → ℝ}

theorem swap12 (K : Kernel y x s U1 U2 U3 V W) : Kernel y x s U2 U1 U3 V W :=
  ⟨K.lt, K.s_pos, K.s_cont, K.re2, K.re1, K.re3, fun t ht => by rw [← K.prod t ht]; ring, K.W_pos, K.sq2, K.sq1, K.sq3, K.deriv, K.lim⟩

theorem swap23 (K : Kernel y x s U1 U2 U3 V W) : Kernel y x s U1 U3 U2 V W :=
  ⟨K.lt, K.s_pos, K.s_cont, K.re1, K.re3, K.re2, fun t ht => by rw [← K.prod t ht]; ring, K.W_pos, K.sq1, K.sq3, K.sq2, K.deriv, K.lim⟩

theorem V_x (K : Kernel y x s U1 U2 U3 V W) : V x = 0 := by
  have := K.sq1 x ⟨K.lt, le_rfl⟩
  have h : (V x : ℂ) = 0 := by linear_combination -this
  exact_mod_cast h

theorem cont (K : Kernel y x s U1 U2 U3 V W) : ContinuousOn V (Ioc y x) :=
  fun t ht => (K.deriv t ht).continuousAt.continuousWithinAt

theorem anti (K : Kernel y x s U1 U2 U3 V W) : StrictAntiOn V (Ioc y x) := by
  apply strictAntiOn_of_deriv_neg (convex_Ioc y x) K.cont
  intro t ht
  rw [interior_Ioc] at ht
  have ht' : t ∈ Ioc y x := ⟨ht.1, ht.2.le⟩
  rw [(K.deriv t ht').deriv]
  have := div_pos (K.W_pos t ht') (K.s_pos t ht')
  linarith

theorem V_pos (K : Kernel y x s U1 U2 U3 V W) {t : ℝ} (ht : t ∈ Ioo y x) : 0 < V t := by
  have := K.anti ⟨ht.1, ht.2.le⟩ ⟨K.lt, le_rfl⟩ ht.2
  rwa [K.V_x] at this

theorem image (K : Kernel y x s U1 U2 U3 V W) {k : ℝ} (hk : 0 < k) : (fun t => k ^ 2 * V t) '' Ioo y x = Ioi 0 := by
  ext v
  constructor
  · rintro ⟨t, ht, rfl⟩
    have := K.V_pos ht
    exact mul_pos (by positivity) this
  · intro hv
    have hv : 0 < v := hv
    have hv' : 0 < v / k ^ 2 := by positivity
    have h1 : ∀ᶠ t in 𝓝[>] y, v / k ^ 2 < V t := K.lim.eventually_gt_atTop _
    have h2 : ∀ᶠ t in 𝓝[>] y, t ∈ Ioo y x := Ioo_mem_nhdsGT K.lt
    obtain ⟨a, ha, hay⟩ := (h1.and h2).exists
    have hc : ContinuousOn V (Icc a x) := K.cont.mono fun t ht => ⟨lt_of_lt_of_le hay.1 ht.1, ht.2⟩
    obtain ⟨t, ht, e⟩ := intermediate_value_Icc' hay.2.le hc ⟨by rw [K.V_x]; exact hv'.le, ha.le⟩
    refine ⟨t, ⟨lt_of_lt_of_le hay.1 ht.1, lt_of_le_of_ne ht.2 ?_⟩, ?_⟩
    · rintro rfl
      rw [K.V_x] at e
      linarith
    · simp only [e]
      field_simp

theorem root (K : Kernel y x s U1 U2 U3 V W) {k t : ℝ} (hk : 0 < k) (ht : t ∈ Ioc y x) :
    csqrt (((k ^ 2 * V t : ℝ) : ℂ) + (k * U1 x) ^ 2) = k * U1 t := by
  rw [show ((k ^ 2 * V t : ℝ) : ℂ) + (k * U1 x) ^ 2 = (k * U1 t) ^ 2 by
    rw [mul_pow, mul_pow, K.sq1 t ht]; push_cast; ring]
  exact csqrt_of_sq (by simpa using mul_pos hk (K.re1 t ht))

/-- The substitution. -/
theorem subst (K : Kernel y x s U1 U2 U3 V W) {k : ℝ} (hk : 0 < k) (w : ℝ → ℂ) :
    ∫ σ in Ioi (0 : ℝ), 1 / (csqrt (σ + (k * U1 x) ^ 2) * csqrt (σ + (k * U2 x) ^ 2) * csqrt (σ + (k * U3 x) ^ 2)) * w σ =
      1 / k * ∫ t in Ioo y x, 1 / (s t : ℂ) * w (k ^ 2 * V t) := by
  rw [← K.image hk, integral_image_eq_integral_abs_deriv_smul (f' := fun t => k ^ 2 * -(W t / s t)) measurableSet_Ioo,
    ← MeasureTheory.integral_const_mul]
  · apply setIntegral_congr_fun measurableSet_Ioo
    intro t ht
    have ht' : t ∈ Ioc y x := ⟨ht.1, ht.2.le⟩
    have hW := K.W_pos t ht'
    have hs := K.s_pos t ht'
    have hp := K.prod t ht'
    have hd : 0 < k ^ 2 * (W t / s t) := by positivity
    simp only
    rw [K.root hk ht', K.swap12.root hk ht', (K.swap23.swap12).root hk ht',
      show (k : ℂ) * U1 t * (k * U2 t) * (k * U3 t) = k ^ 3 * W t by rw [← hp]; ring, mul_neg, abs_neg, abs_of_pos hd,
      Complex.real_smul]
    have hk' : (k : ℂ) ≠ 0 := by exact_mod_cast hk.ne'
    have hW' : (W t : ℂ) ≠ 0 := by exact_mod_cast hW.ne'
    have hs' : (s t : ℂ) ≠ 0 := by exact_mod_cast hs.ne'
    push_cast
    field_simp
  · intro t ht
    exact ((K.deriv t ⟨ht.1, ht.2.le⟩).const_mul (k ^ 2)).hasDerivWithinAt
  · intro a ha b hb hab
    have hab : k ^ 2 * V a = k ^ 2 * V b := hab
    have : V a = V b := by
      have : k ^ 2 ≠ 0 := by positivity
      exact mul_left_cancel₀ this hab
    exact K.anti.injOn ⟨ha.1, ha.2.le⟩ ⟨hb.1, hb.2.le⟩ this

theorem rf (K : Kernel y x s U1 U2 U3 V W) {k : ℝ} (hk : 0 < k) :
    2 * k * RFc ((k * U1 x) ^ 2) ((k * U2 x) ^ 2) ((k * U3 x) ^ 2) = ∫ t in Ioo y x, 1 / (s t : ℂ) := by
  have := K.subst hk fun _ => 1
  simp only [mul_one] at this
  rw [RFc, this]
  have hk' : (k : ℂ) ≠ 0 := by exact_mod_cast hk.ne'
  field_simp

theorem rj (K : Kernel y x s U1 U2 U3 V W) {k : ℝ} (hk : 0 < k) (p : ℂ) :
    2 * k * (k ^ 2 / 3) * RJc ((k * U1 x) ^ 2) ((k * U2 x) ^ 2) ((k * U3 x) ^ 2) (k ^ 2 * p) =
      ∫ t in Ioo y x, 1 / (s t : ℂ) * (1 / (V t + p)) := by
  have := K.subst hk fun σ => 1 / (σ + k ^ 2 * p)
  simp only [one_div_mul_one_div] at this ⊢
  rw [RJc, this]
  have hk' : (k : ℂ) ≠ 0 := by exact_mod_cast hk.ne'
  have e : ∀ t, (1 / ((s t : ℂ) * (((k ^ 2 * V t : ℝ) : ℂ) + k ^ 2 * p)) : ℂ) = 1 / k ^ 2 * (1 / ((s t : ℂ) * (V t + p))) := by
    intro t
    push_cast
    rw [← mul_add, one_div_mul_one_div]
    congr 1
    ring
  simp only [e, MeasureTheory.integral_const_mul]
  field_simp

theorem rd (K : Kernel y x s U1 U2 U3 V W) {k : ℝ} (hk : 0 < k) :
    2 * k * (k ^ 2 / 3) * RDc ((k * U1 x) ^ 2) ((k * U2 x) ^ 2) ((k * U3 x) ^ 2) =
      ∫ t in Ioo y x, 1 / (s t : ℂ) * (1 / U3 t ^ 2) := by
  have := K.rj hk (U3 x ^ 2)
  rw [RJc, ← mul_pow, ← RDc] at this
  rw [this]
  apply setIntegral_congr_fun measurableSet_Ioo
  intro t ht
  simp only
  rw [K.sq3 t ⟨ht.1, ht.2.le⟩, add_comm]

end Kernel

end Verif.Ellred
