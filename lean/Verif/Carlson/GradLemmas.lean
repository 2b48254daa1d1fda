import Verif.Carlson.GradModel
import Verif.Carlson.AccuracyG
import Mathlib.Analysis.Calculus.ParametricIntegral

/-! # Derivatives of Carlson's integrals with respect to their arguments -/

namespace Verif.Carlson.Grad

open MeasureTheory Set Filter Topology

/-- Differentiation under the integral sign for `∫ u(t) h(t + a) dt`. -/
theorem hasDerivAt_param {u h h' : ℝ → ℝ} {a : ℝ} (ha : 0 < a) (hu : ContinuousOn u (Ioi 0))
    (hd : ∀ s, 0 < s → HasDerivAt h (h' s) s) (hc' : ContinuousOn h' (Ioi 0))
    (hanti : ∀ s s', 0 < s → s ≤ s' → |h' s'| ≤ |h' s|)
    (hi : IntegrableOn (fun t => u t * h (t + a)) (Ioi 0))
    (hi' : IntegrableOn (fun t => u t * h' (t + a / 2)) (Ioi 0)) :
    HasDerivAt (fun b => ∫ t in Ioi (0 : ℝ), u t * h (t + b)) (∫ t in Ioi (0 : ℝ), u t * h' (t + a)) a := by
  have hc : ContinuousOn h (Ioi 0) := fun s hs => (hd s hs).continuousAt.continuousWithinAt
  have shift : ∀ {g : ℝ → ℝ} {b : ℝ}, 0 < b → ContinuousOn g (Ioi 0) → ContinuousOn (fun t => g (t + b)) (Ioi 0) := by
    intro g b hb hg
    refine hg.comp (by fun_prop) fun t ht => ?_
    have ht : 0 < t := ht
    exact show 0 < t + b by linarith
  have hs : Ioi (a / 2) ∈ 𝓝 a := Ioi_mem_nhds (by linarith)
  refine (hasDerivAt_integral_of_dominated_loc_of_deriv_le (F := fun b t => u t * h (t + b))
    (F' := fun b t => u t * h' (t + b)) (bound := fun t => |u t * h' (t + a / 2)|) hs ?_ hi ?_ ?_ hi'.abs ?_).2
  · filter_upwards [hs] with b hb
    have hb : a / 2 < b := hb
    exact (hu.mul (shift (by linarith) hc)).aestronglyMeasurable measurableSet_Ioi
  · exact (hu.mul (shift ha hc')).aestronglyMeasurable measurableSet_Ioi
  · rw [ae_restrict_iff' measurableSet_Ioi]
    refine Eventually.of_forall fun t ht b hb => ?_
    have ht : 0 < t := ht
    have hb : a / 2 < b := hb
    rw [Real.norm_eq_abs, abs_mul, abs_mul]
    have h1 : 0 < t + a / 2 := by linarith
    have h2 : t + a / 2 ≤ t + b := by linarith
    exact mul_le_mul_of_nonneg_left (hanti _ _ h1 h2) (abs_nonneg _)
  · rw [ae_restrict_iff' measurableSet_Ioi]
    refine Eventually.of_forall fun t ht b hb => ?_
    have ht : 0 < t := ht
    have hb : a / 2 < b := hb
    have := (hd (t + b) (by linarith)).comp b ((hasDerivAt_id b).const_add t)
    rw [mul_one] at this
    exact this.const_mul (u t)

/-! Kernels -/

theorem kernel1 (s : ℝ) (hs : 0 < s) : HasDerivAt (fun s => 1 / √s) (-(1 / (2 * (s * √s)))) s := by
  have hq : 0 < √s := Real.sqrt_pos.mpr hs
  have := (hasDerivAt_const s (1 : ℝ)).div (Real.hasDerivAt_sqrt hs.ne') hq.ne'
  refine HasDerivAt.congr_deriv this ?_
  have e : s = √s ^ 2 := (Real.sq_sqrt hs.le).symm
  rw [show s * √s = √s ^ 2 * √s by rw [← e]]
  field_simp
  ring

theorem kernel3 (s : ℝ) (hs : 0 < s) : HasDerivAt (fun s => 1 / (√s * s)) (-(3 / (2 * (s * s * √s)))) s := by
  have hq : 0 < √s := Real.sqrt_pos.mpr hs
  have := (hasDerivAt_const s (1 : ℝ)).div ((Real.hasDerivAt_sqrt hs.ne').mul (hasDerivAt_id s)) (mul_pos hq hs).ne'
  refine HasDerivAt.congr_deriv this ?_
  have e : s = √s ^ 2 := (Real.sq_sqrt hs.le).symm
  simp only [id_eq, Pi.mul_apply]
  have h2 : √(√s ^ 2) = √s := by rw [← e]
  rw [show (-(3 / (2 * (s * s * √s))) : ℝ) = -(3 / (2 * (√s ^ 2 * √s ^ 2 * √s))) by rw [← e]]
  rw [e, h2]
  field_simp
  ring

theorem kernel2 (s : ℝ) (hs : 0 < s) : HasDerivAt (fun s => 1 / s) (-(1 / (s * s))) s := by
  have := (hasDerivAt_const s (1 : ℝ)).div (hasDerivAt_id s) hs.ne'
  refine HasDerivAt.congr_deriv this ?_
  simp only [id_eq]
  field_simp
  ring

theorem kernel1_anti (s s' : ℝ) (hs : 0 < s) (h : s ≤ s') : |-(1 / (2 * (s' * √s')))| ≤ |-(1 / (2 * (s * √s)))| := by
  have hs' : 0 < s' := by linarith
  rw [abs_neg, abs_neg, abs_of_pos (by positivity), abs_of_pos (by positivity)]
  gcongr

theorem kernel3_anti (s s' : ℝ) (hs : 0 < s) (h : s ≤ s') :
    |-(3 / (2 * (s' * s' * √s')))| ≤ |-(3 / (2 * (s * s * √s)))| := by
  have hs' : 0 < s' := by linarith
  rw [abs_neg, abs_neg, abs_of_pos (by positivity), abs_of_pos (by positivity)]
  gcongr

theorem kernel2_anti (s s' : ℝ) (hs : 0 < s) (h : s ≤ s') : |-(1 / (s' * s'))| ≤ |-(1 / (s * s))| := by
  have hs' : 0 < s' := by linarith
  rw [abs_neg, abs_neg, abs_of_pos (by positivity), abs_of_pos (by positivity)]
  gcongr

theorem contOn_of_pos {f : ℝ → ℝ} (h : ∀ t, 0 < t → ContinuousAt f t) : ContinuousOn f (Ioi 0) :=
  fun t ht => (h t ht).continuousWithinAt

theorem kernel1_cont : ContinuousOn (fun s : ℝ => -(1 / (2 * (s * √s)))) (Ioi 0) := contOn_of_pos fun t ht => by
  have : 0 < √t := Real.sqrt_pos.mpr ht
  exact (ContinuousAt.div continuousAt_const (by fun_prop) (by positivity)).neg

theorem kernel3_cont : ContinuousOn (fun s : ℝ => -(3 / (2 * (s * s * √s)))) (Ioi 0) := contOn_of_pos fun t ht => by
  have : 0 < √t := Real.sqrt_pos.mpr ht
  exact (ContinuousAt.div continuousAt_const (by fun_prop) (by positivity)).neg

theorem kernel2_cont : ContinuousOn (fun s : ℝ => -(1 / (s * s))) (Ioi 0) := contOn_of_pos fun t ht =>
  (ContinuousAt.div continuousAt_const (by fun_prop) (by positivity)).neg

/-! ### Weighted integrals -/

/-- `S(t) = √(t+x) √(t+y) √(t+z)`. -/
noncomputable def S (x y z t : ℝ) : ℝ := √(t + x) * √(t + y) * √(t + z)

/-- `J(w) = ∫_0^∞ w(t) / S(t) dt`. -/
noncomputable def J (x y z : ℝ) (w : ℝ → ℝ) : ℝ := ∫ t in Ioi (0 : ℝ), 1 / S x y z t * w t

theorem S_pos {x y z t : ℝ} (h : Args x y z) (ht : 0 < t) : 0 < S x y z t := by
  have h1 := h.x0
  have h2 := h.y0
  have h3 := h.z0
  unfold S
  positivity

theorem RF_eq_J (x y z : ℝ) : RF x y z = 1 / 2 * J x y z fun _ => 1 := by simp only [RF, J, S, mul_one]

theorem RJ_eq_J (x y z p : ℝ) : RJ x y z p = 3 / 2 * J x y z fun t => 1 / (t + p) := by
  simp only [RJ, J, S, one_div_mul_one_div]

theorem RD_eq_J (x y z : ℝ) : RD x y z = 3 / 2 * J x y z fun t => 1 / (t + z) := by
  simp only [RD, J, S, one_div_mul_one_div]

theorem J_swap12 (x y z : ℝ) (w : ℝ → ℝ) : J y x z w = J x y z w := by
  simp only [J, S, mul_comm √(_ + y) √(_ + x)]

theorem J_swap23 (x y z : ℝ) (w : ℝ → ℝ) : J x z y w = J x y z w := by
  simp only [J, S, mul_assoc, mul_comm √(_ + z) √(_ + y)]

theorem J_swap13 (x y z : ℝ) (w : ℝ → ℝ) : J z y x w = J x y z w := by
  rw [J_swap12, J_swap23, J_swap12]

theorem J_congr {x y z : ℝ} {w w' : ℝ → ℝ} (h : ∀ t, 0 < t → w t = w' t) : J x y z w = J x y z w' :=
  setIntegral_congr_fun measurableSet_Ioi fun t ht => by
    show 1 / S x y z t * w t = 1 / S x y z t * w' t
    rw [h t ht]

theorem J_const_mul (x y z c : ℝ) (w : ℝ → ℝ) : J x y z (fun t => c * w t) = c * J x y z w := by
  rw [J, J, ← MeasureTheory.integral_const_mul]
  congr 1; funext t; ring

/-- The integrand of `J` is integrable. -/
def JI (x y z : ℝ) (w : ℝ → ℝ) : Prop := IntegrableOn (fun t => 1 / S x y z t * w t) (Ioi 0)

theorem J_add {x y z : ℝ} {w w' : ℝ → ℝ} (h : JI x y z w) (h' : JI x y z w') :
    J x y z (fun t => w t + w' t) = J x y z w + J x y z w' := by
  rw [J, J, J, ← integral_add h h']
  congr 1; funext t; ring

theorem J_sub {x y z : ℝ} {w w' : ℝ → ℝ} (h : JI x y z w) (h' : JI x y z w') :
    J x y z (fun t => w t - w' t) = J x y z w - J x y z w' := by
  rw [J, J, J, ← integral_sub h h']
  congr 1; funext t; ring

theorem JI.const_mul {x y z : ℝ} {w : ℝ → ℝ} (h : JI x y z w) (c : ℝ) : JI x y z fun t => c * w t := by
  have := Integrable.const_mul h c
  refine this.congr (Eventually.of_forall fun t => ?_)
  simp only
  ring

theorem JI.add {x y z : ℝ} {w w' : ℝ → ℝ} (h : JI x y z w) (h' : JI x y z w') : JI x y z fun t => w t + w' t := by
  refine (Integrable.add h h').congr (Eventually.of_forall fun t => ?_)
  simp only [Pi.add_apply]
  ring

theorem JI.sub {x y z : ℝ} {w w' : ℝ → ℝ} (h : JI x y z w) (h' : JI x y z w') : JI x y z fun t => w t - w' t := by
  refine (Integrable.sub h h').congr (Eventually.of_forall fun t => ?_)
  simp only [Pi.sub_apply]
  ring

theorem JI_one {x y z : ℝ} (h : Args x y z) : JI x y z fun _ => 1 := by
  have := h.integrable
  simpa only [JI, S, mul_one] using this

theorem JI_inv {x y z : ℝ} (h : Args x y z) {p : ℝ} (hp : 0 < p) : JI x y z fun t => 1 / (t + p) :=
  h.integrable_inv hp

theorem JI_ratio {x y z : ℝ} (h : Args x y z) {p : ℝ} (hp : 0 ≤ p) : JI x y z fun t => t / (t + p) :=
  h.integrable_ratio hp

theorem JI_inv2 {x y z : ℝ} (h : Args x y z) {p q : ℝ} (hp : 0 < p) (hq : 0 < q) :
    JI x y z fun t => 1 / ((t + p) * (t + q)) := by
  apply h.integrable_mul _ _ (1 / (p * q))
  · intro t ht
    have ht : 0 < t := ht
    rw [abs_of_nonneg (by positivity)]
    exact one_div_le_one_div_of_le (by positivity) (mul_le_mul (by linarith) (by linarith) hq.le (by linarith))
  · intro t ht
    have ht : 0 < t := ht
    apply ContinuousAt.continuousWithinAt
    apply ContinuousAt.div continuousAt_const (by fun_prop)
    positivity

/-- Changing one argument of `S` by a bounded factor keeps the weight integrable. -/
theorem Args.half {x y z : ℝ} (h : Args x y z) (hz : 0 < z) : Args x y (z / 2) :=
  ⟨h.x0, h.y0, by linarith, h.xy, by linarith [h.y0], by linarith [h.x0]⟩

/-- The derivative of `J` with respect to the third argument of `S`, the weight being kept. -/
theorem J_deriv {x y z : ℝ} (h : Args x y z) (hz : 0 < z) {w : ℝ → ℝ} (hw : ContinuousOn w (Ioi 0))
    (hi : JI x y z w) (hi' : JI x y (z / 2) fun t => w t * (1 / (t + z / 2))) :
    HasDerivAt (fun b => J x y b w) (-(1 / 2) * J x y z fun t => w t * (1 / (t + z))) z := by
  have hx := h.x0
  have hy := h.y0
  have hu : ContinuousOn (fun t => 1 / (√(t + x) * √(t + y)) * w t) (Ioi 0) := by
    refine ContinuousOn.mul (contOn_of_pos fun t ht => ?_) hw
    have h1 : 0 < √(t + x) := Real.sqrt_pos.mpr (by linarith)
    have h2 : 0 < √(t + y) := Real.sqrt_pos.mpr (by linarith)
    exact ContinuousAt.div continuousAt_const (by fun_prop) (by positivity)
  have e1 : ∀ b t : ℝ, 1 / (√(t + x) * √(t + y)) * w t * (1 / √(t + b)) = 1 / S x y b t * w t := by
    intro b t
    simp only [S, one_div, mul_inv]
    ring
  have e2 : ∀ b t : ℝ, 1 / (√(t + x) * √(t + y)) * w t * (-(1 / (2 * ((t + b) * √(t + b))))) =
      -(1 / 2) * (1 / S x y b t * (w t * (1 / (t + b)))) := by
    intro b t
    simp only [S, one_div, mul_inv]
    ring
  have := hasDerivAt_param (h := fun s => 1 / √s) (h' := fun s => -(1 / (2 * (s * √s)))) hz hu kernel1 kernel1_cont
    kernel1_anti (by simp only [e1]; exact hi) (by simp only [e2]; exact Integrable.const_mul hi' _)
  simp only [e1, e2, MeasureTheory.integral_const_mul] at this
  exact this

/-- The derivative of `J` with respect to a parameter of the weight. -/
theorem J_deriv_weight {x y z p : ℝ} (h : Args x y z) (hp : 0 < p) :
    HasDerivAt (fun b => J x y z fun t => 1 / (t + b)) (-J x y z fun t => 1 / ((t + p) * (t + p))) p := by
  have hc := h.cont
  have := hasDerivAt_param (u := fun t => 1 / S x y z t) (h := fun s => 1 / s) (h' := fun s => -(1 / (s * s))) hp hc kernel2
    kernel2_cont kernel2_anti (JI_inv h hp) (by
      have := (JI_inv2 h (half_pos hp) (half_pos hp)).const_mul (-1)
      refine this.congr (Eventually.of_forall fun t => ?_)
      simp only; ring)
  refine HasDerivAt.congr_deriv this ?_
  rw [J, ← MeasureTheory.integral_neg]
  congr 1; funext t; ring

/-- `∂R_F/∂z = -R_D/6`. -/
theorem RF_deriv {x y z : ℝ} (h : Args x y z) (hz : 0 < z) : HasDerivAt (fun b => RF x y b) (-(1 / 6) * RD x y z) z := by
  have := (J_deriv h hz (w := fun _ => 1) continuousOn_const (JI_one h) (by
    simpa only [one_mul] using JI_inv (Args.half h hz) (half_pos hz))).const_mul (1 / 2)
  simp only [one_mul, ← RF_eq_J] at this
  refine this.congr_deriv ?_
  rw [RD_eq_J]
  ring

theorem JI_bdd {x y z : ℝ} (h : Args x y z) {w : ℝ → ℝ} (hw : ∀ t, 0 < t → ContinuousAt w t) (C : ℝ)
    (hC : ∀ t, 0 < t → |w t| ≤ C) : JI x y z w := h.integrable_mul _ (contOn_of_pos hw) C hC

/-- `∫ B' = -B(0)` for `B' = w / S`. -/
theorem J_boundary {x y z : ℝ} {w B : ℝ → ℝ} (hw : JI x y z w) (hd : ∀ t, 0 < t → HasDerivAt B (1 / S x y z t * w t) t)
    (hc : ContinuousWithinAt B (Ici 0) 0) (hl : Tendsto B atTop (𝓝 0)) : J x y z w = -B 0 :=
  integral_neg_deriv hc (fun t ht => hd t ht) hw hl

/-- A continuous function of order `t^(-1/2)` tends to zero. -/
theorem tendsto_zero_of_sqrt {B : ℝ → ℝ} (K : ℝ) (h : ∀ t, 1 ≤ t → |B t| ≤ K / √t) : Tendsto B atTop (𝓝 0) := by
  rw [tendsto_zero_iff_abs_tendsto_zero]
  refine squeeze_zero' (Eventually.of_forall fun t => abs_nonneg _) ?_ (tendsto_const_div_sqrt K)
  filter_upwards [eventually_ge_atTop 1] with t ht using h t ht

theorem sqrt_le_scale {x t : ℝ} (hx : 0 ≤ x) (ht : 1 ≤ t) : √(t + x) ≤ √(1 + x) * √t := by
  rw [← Real.sqrt_mul (by linarith)]
  exact Real.sqrt_le_sqrt (by nlinarith)

/-- Reduction of `∫ 1/(S (t+z)²)` (integrate the derivative of `√(t+x) √(t+y) (t+z)^(-3/2)`). -/
theorem J_reduce {x y z : ℝ} (h : Args x y z) (hz : 0 < z) :
    3 / 2 * ((x - z) * (y - z)) * (J x y z fun t => 1 / ((t + z) * (t + z))) =
      √x * √y / (z * √z) - RF x y z - 2 / 3 * (x + y - 2 * z) * RD x y z := by
  have hx := h.x0
  have hy := h.y0
  have j0 := (JI_one h).const_mul (-(1 / 2))
  have j1 := (JI_inv h hz).const_mul (-(x + y - 2 * z))
  have j2 := (JI_inv2 h hz hz).const_mul (-(3 / 2) * ((x - z) * (y - z)))
  have := J_boundary (B := fun t => √(t + x) * √(t + y) / ((t + z) * √(t + z))) ((j0.add j1).add j2) ?_ ?_ ?_
  · rw [J_add (j0.add j1) j2, J_add j0 j1, J_const_mul, J_const_mul, J_const_mul] at this
    simp only [zero_add] at this
    rw [RF_eq_J, RD_eq_J]
    linarith
  · intro t ht
    have h1 : 0 < t + x := by linarith
    have h2 : 0 < t + y := by linarith
    have h3 : 0 < t + z := by linarith
    have da := hasDerivAt_sqrt_add x t h1
    have db := hasDerivAt_sqrt_add y t h2
    have dc := hasDerivAt_sqrt_add z t h3
    have ha : 0 < √(t + x) := Real.sqrt_pos.mpr h1
    have hb : 0 < √(t + y) := Real.sqrt_pos.mpr h2
    have hc : 0 < √(t + z) := Real.sqrt_pos.mpr h3
    have dz : HasDerivAt (fun t => t + z) 1 t := (hasDerivAt_id t).add_const z
    refine HasDerivAt.congr_deriv ((da.mul db).div (dz.mul dc) (mul_pos h3 hc).ne') ?_
    have ex : x = √(t + x) ^ 2 - t := by linarith [Real.sq_sqrt h1.le]
    have ey : y = √(t + y) ^ 2 - t := by linarith [Real.sq_sqrt h2.le]
    have ez : z = √(t + z) ^ 2 - t := by linarith [Real.sq_sqrt h3.le]
    have ec : t + z = √(t + z) ^ 2 := by linarith
    simp only [Pi.mul_apply, S]
    have ex' : x - z = √(t + x) ^ 2 - √(t + z) ^ 2 := by linarith
    have ey' : y - z = √(t + y) ^ 2 - √(t + z) ^ 2 := by linarith
    have ex'' : x + y - 2 * z = √(t + x) ^ 2 + √(t + y) ^ 2 - 2 * √(t + z) ^ 2 := by linarith
    rw [ex', ey', ex'']
    generalize √(t + x) = a at *
    generalize √(t + y) = b at *
    generalize √(t + z) = c at *
    rw [ec]
    field_simp
    ring
  · apply ContinuousAt.continuousWithinAt
    have : 0 < √(0 + z) := Real.sqrt_pos.mpr (by linarith)
    exact ContinuousAt.div (by fun_prop) (by fun_prop) (by positivity)
  · refine tendsto_zero_of_sqrt (√(1 + x) * √(1 + y)) fun t ht => ?_
    have ht0 : 0 < t := by linarith
    have hq : 0 < √t := Real.sqrt_pos.mpr ht0
    rw [abs_of_nonneg (by positivity), div_le_div_iff₀ (by positivity) hq]
    have k1 := sqrt_le_scale hx ht
    have k2 := sqrt_le_scale hy ht
    have k3 : √t ≤ √(t + z) := Real.sqrt_le_sqrt (by linarith)
    have e := Real.mul_self_sqrt ht0.le
    calc √(t + x) * √(t + y) * √t ≤ √(1 + x) * √t * (√(1 + y) * √t) * √t := by gcongr
      _ = √(1 + x) * √(1 + y) * (√t * √t * √t) := by ring
      _ = √(1 + x) * √(1 + y) * (t * √t) := by rw [e]
      _ ≤ _ := by gcongr; linarith

/-- Two equal arguments: integrate the derivative of `√(t+y) / (t+z)²`. -/
theorem J_reduce_pair {y z : ℝ} (hy : 0 ≤ y) (hz : 0 < z) :
    2 * (y - z) * (J y z z fun t => 1 / ((t + z) * (t + z))) = √y / (z * z) - 3 / 2 * J y z z fun t => 1 / (t + z) := by
  have h : Args y z z := Args.of_pair hy hz
  have j1 := (JI_inv h hz).const_mul (-(3 / 2))
  have j2 := (JI_inv2 h hz hz).const_mul (-2 * (y - z))
  have := J_boundary (B := fun t => √(t + y) / ((t + z) * (t + z))) (j1.add j2) ?_ ?_ ?_
  · rw [J_add j1 j2, J_const_mul, J_const_mul] at this
    simp only [zero_add] at this
    linarith
  · intro t ht
    have h2 : 0 < t + y := by linarith
    have h3 : 0 < t + z := by linarith
    have db := hasDerivAt_sqrt_add y t h2
    have hb : 0 < √(t + y) := Real.sqrt_pos.mpr h2
    have dz : HasDerivAt (fun t => t + z) 1 t := (hasDerivAt_id t).add_const z
    refine HasDerivAt.congr_deriv (db.div (dz.mul dz) (mul_pos h3 h3).ne') ?_
    have ey' : y - z = √(t + y) ^ 2 - (t + z) := by linarith [Real.sq_sqrt h2.le]
    simp only [Pi.mul_apply, S]
    rw [ey', mul_assoc √(t + y), Real.mul_self_sqrt h3.le]
    generalize √(t + y) = b at *
    field_simp
    ring
  · apply ContinuousAt.continuousWithinAt
    exact ContinuousAt.div (by fun_prop) (by fun_prop) (by positivity)
  · refine tendsto_zero_of_sqrt (√(1 + y)) fun t ht => ?_
    have ht0 : 0 < t := by linarith
    have hq : 0 < √t := Real.sqrt_pos.mpr ht0
    rw [abs_of_nonneg (by positivity), div_le_div_iff₀ (by positivity) hq]
    have k2 := sqrt_le_scale hy ht
    have e := Real.mul_self_sqrt ht0.le
    calc √(t + y) * √t ≤ √(1 + y) * √t * √t := by gcongr
      _ = √(1 + y) * (1 * t) := by rw [mul_assoc, e, one_mul]
      _ ≤ _ := by gcongr <;> linarith

/-- Two equal arguments, first order: integrate the derivative of `√(t+y) / (t+z)`. -/
theorem J_reduce_pair1 {y z : ℝ} (hy : 0 ≤ y) (hz : 0 < z) :
    (y - z) * (J y z z fun t => 1 / (t + z)) = √y / z - RC y z := by
  have h : Args y z z := Args.of_pair hy hz
  have j1 := (JI_one h).const_mul (-(1 / 2))
  have j2 := (JI_inv h hz).const_mul (-(y - z))
  have := J_boundary (B := fun t => √(t + y) / (t + z)) (j1.add j2) ?_ ?_ ?_
  · rw [J_add j1 j2, J_const_mul, J_const_mul] at this
    simp only [zero_add] at this
    rw [RC_eq_RF y z hz.le, RF_eq_J]
    linarith
  · intro t ht
    have h2 : 0 < t + y := by linarith
    have h3 : 0 < t + z := by linarith
    have db := hasDerivAt_sqrt_add y t h2
    have hb : 0 < √(t + y) := Real.sqrt_pos.mpr h2
    have dz : HasDerivAt (fun t => t + z) 1 t := (hasDerivAt_id t).add_const z
    refine HasDerivAt.congr_deriv (db.div dz h3.ne') ?_
    have ey' : y - z = √(t + y) ^ 2 - (t + z) := by linarith [Real.sq_sqrt h2.le]
    simp only [S]
    rw [ey', mul_assoc √(t + y), Real.mul_self_sqrt h3.le]
    generalize √(t + y) = b at *
    field_simp
    ring
  · apply ContinuousAt.continuousWithinAt
    exact ContinuousAt.div (by fun_prop) (by fun_prop) (by positivity)
  · refine tendsto_zero_of_sqrt (√(1 + y)) fun t ht => ?_
    have ht0 : 0 < t := by linarith
    have hq : 0 < √t := Real.sqrt_pos.mpr ht0
    rw [abs_of_nonneg (by positivity), div_le_div_iff₀ (by positivity) hq]
    have k2 := sqrt_le_scale hy ht
    have e := Real.mul_self_sqrt ht0.le
    calc √(t + y) * √t ≤ √(1 + y) * √t * √t := by gcongr
      _ = √(1 + y) * t := by rw [mul_assoc, e]
      _ ≤ _ := by gcongr; linarith

/-- All arguments equal. -/
theorem J_equal {z : ℝ} (hz : 0 < z) : (J z z z fun t => 1 / ((t + z) * (t + z))) = 2 / 5 / (z * z * √z) ∧
    (J z z z fun t => 1 / (t + z)) = 2 / 3 / (z * √z) := by
  have h : Args z z z := Args.of_pair hz.le hz
  constructor
  · have := J_boundary (B := fun t => -(2 / 5) / ((t + z) * (t + z) * √(t + z))) (JI_inv2 h hz hz) ?_ ?_ ?_
    · rw [this]
      simp only [zero_add]
      ring
    · intro t ht
      have h3 : 0 < t + z := by linarith
      have dc := hasDerivAt_sqrt_add z t h3
      have hc : 0 < √(t + z) := Real.sqrt_pos.mpr h3
      have dz : HasDerivAt (fun t => t + z) 1 t := (hasDerivAt_id t).add_const z
      refine HasDerivAt.congr_deriv ((hasDerivAt_const t (-(2 / 5) : ℝ)).div ((dz.mul dz).mul dc) (by positivity)) ?_
      have ec : t + z = √(t + z) ^ 2 := (Real.sq_sqrt h3.le).symm
      simp only [Pi.mul_apply, S]
      generalize √(t + z) = c at *
      rw [ec]
      field_simp
      ring
    · apply ContinuousAt.continuousWithinAt
      have : 0 < √(0 + z) := Real.sqrt_pos.mpr (by linarith)
      exact ContinuousAt.div (by fun_prop) (by fun_prop) (by positivity)
    · refine tendsto_zero_of_sqrt (2 / 5) fun t ht => ?_
      have ht0 : 0 < t := by linarith
      have hq : 0 < √t := Real.sqrt_pos.mpr ht0
      rw [abs_div, abs_neg, abs_of_pos (show (0 : ℝ) < 2 / 5 by norm_num), abs_of_pos (by positivity)]
      have k3 : √t ≤ √(t + z) := Real.sqrt_le_sqrt (by linarith)
      apply div_le_div_of_nonneg_left (by norm_num) hq
      calc √t = 1 * 1 * √t := by ring
        _ ≤ _ := by gcongr <;> linarith
  · have := J_boundary (B := fun t => -(2 / 3) / ((t + z) * √(t + z))) (JI_inv h hz) ?_ ?_ ?_
    · rw [this]
      simp only [zero_add]
      ring
    · intro t ht
      have h3 : 0 < t + z := by linarith
      have dc := hasDerivAt_sqrt_add z t h3
      have hc : 0 < √(t + z) := Real.sqrt_pos.mpr h3
      have dz : HasDerivAt (fun t => t + z) 1 t := (hasDerivAt_id t).add_const z
      refine HasDerivAt.congr_deriv ((hasDerivAt_const t (-(2 / 3) : ℝ)).div (dz.mul dc) (by positivity)) ?_
      have ec : t + z = √(t + z) ^ 2 := (Real.sq_sqrt h3.le).symm
      simp only [Pi.mul_apply, S]
      generalize √(t + z) = c at *
      rw [ec]
      field_simp
      ring
    · apply ContinuousAt.continuousWithinAt
      have : 0 < √(0 + z) := Real.sqrt_pos.mpr (by linarith)
      exact ContinuousAt.div (by fun_prop) (by fun_prop) (by positivity)
    · refine tendsto_zero_of_sqrt (2 / 3) fun t ht => ?_
      have ht0 : 0 < t := by linarith
      have hq : 0 < √t := Real.sqrt_pos.mpr ht0
      rw [abs_div, abs_neg, abs_of_pos (show (0 : ℝ) < 2 / 3 by norm_num), abs_of_pos (by positivity)]
      have k3 : √t ≤ √(t + z) := Real.sqrt_le_sqrt (by linarith)
      apply div_le_div_of_nonneg_left (by norm_num) hq
      calc √t = 1 * √t := by ring
        _ ≤ _ := by gcongr; linarith

end Verif.Carlson.Grad
