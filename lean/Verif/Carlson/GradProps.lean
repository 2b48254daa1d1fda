import Verif.Carlson.GradLemmas

/-! # The gradient formulas are the derivatives (C83-C86) -/

namespace Verif.Carlson.Grad

open MeasureTheory Set Filter Topology

theorem S_cont (x y z : ℝ) : Continuous (S x y z) := by unfold S; fun_prop

/-- `t²/S` vanishes at zero. -/
theorem sq_div_S_cont {x y z : ℝ} (h : Args x y z) : ContinuousWithinAt (fun t => t ^ 2 / S x y z t) (Ici 0) 0 := by
  obtain ⟨δ, hδ, hl⟩ := h.lower
  have key : ∀ t ∈ Ici (0 : ℝ), |t ^ 2 / S x y z t| ≤ t * √t / δ := by
    intro t ht
    have ht : 0 ≤ t := ht
    rcases eq_or_lt_of_le ht with e | e
    · subst e; simp
    · have hS := S_pos h e
      have hq : 0 < √t := Real.sqrt_pos.mpr e
      have h1 := hl t e
      rw [abs_of_nonneg (by positivity), div_le_div_iff₀ hS hδ]
      have e2 := Real.mul_self_sqrt ht
      calc t ^ 2 * δ = t * (√t * √t) * δ := by rw [e2]; ring
        _ = t * √t * (√t * δ) := by ring
        _ ≤ t * √t * S x y z t := by
          have : √t * δ ≤ S x y z t := by unfold S; nlinarith
          gcongr
  have h0 : (0 : ℝ) ^ 2 / S x y z 0 = 0 := by simp
  rw [ContinuousWithinAt, h0, tendsto_zero_iff_abs_tendsto_zero]
  have hc : Tendsto (fun t : ℝ => t * √t / δ) (𝓝[Ici 0] 0) (𝓝 0) := by
    have : Continuous fun t : ℝ => t * √t / δ := by fun_prop
    have := this.tendsto 0
    simp only [Real.sqrt_zero, mul_zero, zero_div] at this
    exact this.mono_left nhdsWithin_le_nhds
  refine squeeze_zero' (Eventually.of_forall fun t => abs_nonneg _) ?_ hc
  filter_upwards [self_mem_nhdsWithin] with t ht using key t ht

theorem RG_eq_J (x y z : ℝ) :
    RG x y z = 1 / 4 * J x y z fun t => x * (t / (t + x)) + y * (t / (t + y)) + z * (t / (t + z)) := by
  rw [RG, J]
  congr 2
  funext t
  simp only [S]
  ring

theorem ratio_cont {p : ℝ} (hp : 0 ≤ p) : ∀ t, 0 < t → ContinuousAt (fun t => t / (t + p)) t := fun t ht =>
  ContinuousAt.div continuousAt_id (by fun_prop) (by positivity)

theorem inv_cont {p : ℝ} (hp : 0 ≤ p) : ∀ t, 0 < t → ContinuousAt (fun t => 1 / (t + p)) t := fun t ht =>
  ContinuousAt.div continuousAt_const (by fun_prop) (by positivity)

theorem ratio_le {p t : ℝ} (hp : 0 ≤ p) (ht : 0 < t) : |t / (t + p)| ≤ 1 := by
  rw [abs_of_nonneg (by positivity), div_le_one (by positivity)]
  linarith

theorem inv_le {p t : ℝ} (hp : 0 < p) (ht : 0 < t) : |1 / (t + p)| ≤ 1 / p := by
  rw [abs_of_nonneg (by positivity)]
  exact one_div_le_one_div_of_le hp (by linarith)

theorem JI_ratio_inv {x y z : ℝ} (h : Args x y z) {p q : ℝ} (hp : 0 ≤ p) (hq : 0 < q) :
    JI x y z fun t => t / (t + p) * (1 / (t + q)) :=
  JI_bdd h (fun t ht => (ratio_cont hp t ht).mul (inv_cont hq.le t ht)) (1 * (1 / q)) fun t ht => by
    rw [abs_mul]
    exact mul_le_mul (ratio_le hp ht) (inv_le hq ht) (abs_nonneg _) zero_le_one

/-- The derivative of `R_G` with respect to its third argument. -/
theorem RG_deriv {x y z : ℝ} (h : Args x y z) (hz : 0 < z) :
    HasDerivAt (fun b => RG x y b) ((3 * RF x y z - z * RD x y z) / 12) z := by
  have hx := h.x0
  have hy := h.y0
  have hh := Args.half h hz
  have hz2 : 0 < z / 2 := by linarith
  -- the three terms
  have d1 := J_deriv h hz (contOn_of_pos (ratio_cont hx)) (JI_ratio h hx) (JI_ratio_inv hh hx hz2)
  have d2 := J_deriv h hz (contOn_of_pos (ratio_cont hy)) (JI_ratio h hy) (JI_ratio_inv hh hy hz2)
  have d3 : HasDerivAt (fun b => J x y b fun t => t / (t + b))
      (-(3 / 2) * J x y z fun t => t / (t + z) * (1 / (t + z))) z := by
    have hu : ContinuousOn (fun t => t / (√(t + x) * √(t + y))) (Ioi 0) := contOn_of_pos fun t ht => by
      have h1 : 0 < √(t + x) := Real.sqrt_pos.mpr (by linarith)
      have h2 : 0 < √(t + y) := Real.sqrt_pos.mpr (by linarith)
      exact ContinuousAt.div continuousAt_id (by fun_prop) (by positivity)
    have e1 : ∀ b t : ℝ, t / (√(t + x) * √(t + y)) * (1 / (√(t + b) * (t + b))) = 1 / S x y b t * (t / (t + b)) := by
      intro b t
      simp only [S, one_div, mul_inv, div_eq_mul_inv]
      ring
    have e2 : ∀ b t : ℝ, t / (√(t + x) * √(t + y)) * (-(3 / (2 * ((t + b) * (t + b) * √(t + b))))) =
        -(3 / 2) * (1 / S x y b t * (t / (t + b) * (1 / (t + b)))) := by
      intro b t
      simp only [S, one_div, mul_inv, div_eq_mul_inv]
      ring
    have := hasDerivAt_param (h := fun s => 1 / (√s * s)) (h' := fun s => -(3 / (2 * (s * s * √s)))) hz hu kernel3
      kernel3_cont kernel3_anti (by simp only [e1]; exact JI_ratio h hz.le)
      (by simp only [e2]; exact Integrable.const_mul (JI_ratio_inv hh hz2.le hz2) _)
    simp only [e1, e2, MeasureTheory.integral_const_mul] at this
    exact this
  have dsum := (((d1.const_mul x).add (d2.const_mul y)).add ((hasDerivAt_id z).mul d3)).const_mul (1 / 4)
  have hfun : (fun b => RG x y b) =ᶠ[𝓝 z] fun b => 1 / 4 * (x * J x y b (fun t => t / (t + x)) +
      y * J x y b (fun t => t / (t + y)) + b * J x y b fun t => t / (t + b)) := by
    filter_upwards [Ioi_mem_nhds hz] with b hb
    have hb : 0 < b := hb
    have hab : Args x y b := ⟨hx, hy, hb.le, h.xy, by linarith, by linarith⟩
    rw [RG_eq_J, J_add (((JI_ratio hab hx).const_mul x).add ((JI_ratio hab hy).const_mul y)) ((JI_ratio hab hb.le).const_mul b),
      J_add ((JI_ratio hab hx).const_mul x) ((JI_ratio hab hy).const_mul y), J_const_mul, J_const_mul, J_const_mul]
  have dsum' : HasDerivAt (fun b => 1 / 4 * (x * J x y b (fun t => t / (t + x)) +
      y * J x y b (fun t => t / (t + y)) + b * J x y b fun t => t / (t + b))) _ z := dsum
  refine HasDerivAt.congr_deriv (dsum'.congr_of_eventuallyEq hfun) ?_
  -- the boundary identity
  have jx := JI_ratio_inv h hx hz
  have jy := JI_ratio_inv h hy hz
  have jz := JI_ratio_inv h hz.le hz
  have jr := JI_ratio h hz.le
  have jw := (((jx.const_mul (x / 2)).add (jy.const_mul (y / 2))).add (jz.const_mul (3 / 2 * z))).sub (jr.const_mul (1 / 2))
  have hb := J_boundary (B := fun t => t ^ 2 / S x y z t * (1 / (t + z))) jw ?_ ?_ ?_
  · rw [J_sub (((jx.const_mul (x / 2)).add (jy.const_mul (y / 2))).add (jz.const_mul (3 / 2 * z))) (jr.const_mul (1 / 2)),
      J_add ((jx.const_mul (x / 2)).add (jy.const_mul (y / 2))) (jz.const_mul (3 / 2 * z)),
      J_add (jx.const_mul (x / 2)) (jy.const_mul (y / 2)), J_const_mul, J_const_mul, J_const_mul, J_const_mul] at hb
    have e0 : ((0 : ℝ) ^ 2 / S x y z 0 * (1 / (0 + z))) = 0 := by simp
    rw [e0] at hb
    have er : J x y z (fun t => t / (t + z)) = J x y z (fun _ => 1) - z * J x y z fun t => 1 / (t + z) := by
      rw [← J_const_mul, ← J_sub (JI_one h) ((JI_inv h hz).const_mul z)]
      apply J_congr
      intro t ht
      have : 0 < t + z := by linarith
      field_simp
      ring
    rw [RF_eq_J, RD_eq_J]
    simp only [id_eq, one_mul]
    linarith
  · intro t ht
    have h1 : 0 < t + x := by linarith
    have h2 : 0 < t + y := by linarith
    have h3 : 0 < t + z := by linarith
    have da := hasDerivAt_sqrt_add x t h1
    have db := hasDerivAt_sqrt_add y t h2
    have dc := hasDerivAt_sqrt_add z t h3
    have ha : 0 < √(t + x) := Real.sqrt_pos.mpr h1
    have hb : 0 < √(t + y) := Real.sqrt_pos.mpr h2
    have hc : 0 < √(t + z) := Real.sqrt_pos.mpr h3
    have dz : HasDerivAt (fun t => t + z) 1 t := (hasDerivAt_id t).add_const z
    have dS : HasDerivAt (S x y z) _ t := (da.mul db).mul dc
    have dt : HasDerivAt (fun t : ℝ => t ^ 2) (2 * t) t := by simpa using hasDerivAt_pow 2 t
    refine HasDerivAt.congr_deriv ((dt.div dS (S_pos h ht).ne').mul ((hasDerivAt_const t (1 : ℝ)).div dz h3.ne')) ?_
    have ex : x = √(t + x) ^ 2 - t := by linarith [Real.sq_sqrt h1.le]
    have ey : y = √(t + y) ^ 2 - t := by linarith [Real.sq_sqrt h2.le]
    have ez : z = √(t + z) ^ 2 - t := by linarith [Real.sq_sqrt h3.le]
    have ea : t + x = √(t + x) ^ 2 := by linarith
    have eb : t + y = √(t + y) ^ 2 := by linarith
    have ec : t + z = √(t + z) ^ 2 := by linarith
    simp only [Pi.mul_apply, Pi.div_apply, S]
    generalize √(t + x) = a at *
    generalize √(t + y) = b at *
    generalize √(t + z) = c at *
    rw [ea, eb, ec, ex, ey, ez]
    field_simp
    ring
  · refine (sq_div_S_cont h).mul (ContinuousAt.continuousWithinAt ?_)
    exact ContinuousAt.div continuousAt_const (by fun_prop) (by positivity)
  · refine tendsto_zero_of_sqrt 1 fun t ht => ?_
    have ht0 : 0 < t := by linarith
    have hq : 0 < √t := Real.sqrt_pos.mpr ht0
    have hS := S_pos h ht0
    have hc : t * √t ≤ S x y z t := h.cube_le ht0
    rw [abs_of_nonneg (by positivity), div_mul_div_comm, mul_one, div_le_div_iff₀ (by positivity) hq]
    have e := Real.mul_self_sqrt ht0.le
    calc t ^ 2 * √t = t * √t * t := by ring
      _ ≤ S x y z t * (t + z) := by gcongr; linarith
      _ = _ := by ring

/-- Reduction of `∫ 1/(S (t+p)²)` (integrate the derivative of `S/(t+p) - t²/S`). -/
theorem J_reduce_p {x y z p : ℝ} (h : Args x y z) (hp : 0 < p) :
    ((x - p) * (y - p) * (z - p)) * (J x y z fun t => 1 / ((t + p) * (t + p))) =
      √x * √y * √z / p + p * RF x y z - 2 * RG x y z -
        1 / 3 * ((x - p) * (y - p) + (x - p) * (z - p) + (y - p) * (z - p)) * RJ x y z p := by
  have hx := h.x0
  have hy := h.y0
  have hz := h.z0
  have j0 := (JI_one h).const_mul (p / 2)
  have j1 := (JI_inv h hp).const_mul (-(1 / 2) * ((x - p) * (y - p) + (x - p) * (z - p) + (y - p) * (z - p)))
  have j2 := (JI_inv2 h hp hp).const_mul (-((x - p) * (y - p) * (z - p)))
  have jg := (((JI_ratio h hx).const_mul x).add ((JI_ratio h hy).const_mul y)).add ((JI_ratio h hz).const_mul z)
  have hb := J_boundary (B := fun t => S x y z t / (t + p) - t ^ 2 / S x y z t) (((j0.add j1).add j2).sub (jg.const_mul (1 / 2))) ?_ ?_ ?_
  · rw [J_sub ((j0.add j1).add j2) (jg.const_mul (1 / 2)), J_add (j0.add j1) j2, J_add j0 j1, J_const_mul, J_const_mul,
      J_const_mul, J_const_mul] at hb
    have hG := RG_eq_J x y z
    have e0 : S x y z 0 = √x * √y * √z := by simp [S]
    simp only [zero_add, e0, ne_eq, OfNat.ofNat_ne_zero, not_false_eq_true, zero_pow, zero_div, sub_zero] at hb
    rw [RF_eq_J, RJ_eq_J]
    linarith
  · intro t ht
    have h1 : 0 < t + x := by linarith
    have h2 : 0 < t + y := by linarith
    have h3 : 0 < t + z := by linarith
    have h4 : 0 < t + p := by linarith
    have da := hasDerivAt_sqrt_add x t h1
    have db := hasDerivAt_sqrt_add y t h2
    have dc := hasDerivAt_sqrt_add z t h3
    have ha : 0 < √(t + x) := Real.sqrt_pos.mpr h1
    have hb : 0 < √(t + y) := Real.sqrt_pos.mpr h2
    have hc : 0 < √(t + z) := Real.sqrt_pos.mpr h3
    have dp : HasDerivAt (fun t => t + p) 1 t := (hasDerivAt_id t).add_const p
    have dS : HasDerivAt (S x y z) _ t := (da.mul db).mul dc
    have dt : HasDerivAt (fun t : ℝ => t ^ 2) (2 * t) t := by simpa using hasDerivAt_pow 2 t
    refine HasDerivAt.congr_deriv ((dS.div dp h4.ne').sub (dt.div dS (S_pos h ht).ne')) ?_
    have ex : x = √(t + x) ^ 2 - t := by linarith [Real.sq_sqrt h1.le]
    have ey : y = √(t + y) ^ 2 - t := by linarith [Real.sq_sqrt h2.le]
    have ez : z = √(t + z) ^ 2 - t := by linarith [Real.sq_sqrt h3.le]
    have ea : t + x = √(t + x) ^ 2 := by linarith
    have eb : t + y = √(t + y) ^ 2 := by linarith
    have ec : t + z = √(t + z) ^ 2 := by linarith
    simp only [Pi.mul_apply, S]
    generalize √(t + x) = a at *
    generalize √(t + y) = b at *
    generalize √(t + z) = c at *
    rw [ea, eb, ec, ex, ey, ez]
    field_simp
    ring
  · refine ContinuousWithinAt.sub (ContinuousAt.continuousWithinAt ?_) (sq_div_S_cont h)
    exact ContinuousAt.div (S_cont x y z).continuousAt (by fun_prop) (by positivity)
  · refine tendsto_zero_of_sqrt ((x + y + z) + (x * y + x * z + y * z) + x * y * z + p) fun t ht => ?_
    have ht0 : 0 < t := by linarith
    have hq : 0 < √t := Real.sqrt_pos.mpr ht0
    have hS := S_pos h ht0
    have hc : t * √t ≤ S x y z t := h.cube_le ht0
    have h4 : 0 < t + p := by linarith
    have hS2 : S x y z t * S x y z t = (t + x) * (t + y) * (t + z) := by
      have e1 := Real.mul_self_sqrt (show 0 ≤ t + x by linarith)
      have e2 := Real.mul_self_sqrt (show 0 ≤ t + y by linarith)
      have e3 := Real.mul_self_sqrt (show 0 ≤ t + z by linarith)
      calc S x y z t * S x y z t = (√(t + x) * √(t + x)) * (√(t + y) * √(t + y)) * (√(t + z) * √(t + z)) := by unfold S; ring
        _ = _ := by rw [e1, e2, e3]
    have e : S x y z t / (t + p) - t ^ 2 / S x y z t =
        ((x + y + z - p) * t ^ 2 + (x * y + x * z + y * z) * t + x * y * z) / (S x y z t * (t + p)) := by
      rw [div_sub_div _ _ h4.ne' hS.ne', hS2, mul_comm (t + p) (S x y z t)]
      congr 1
      ring
    rw [e, abs_div, abs_of_pos (mul_pos hS h4), div_le_div_iff₀ (by positivity) hq]
    have b2 : 0 ≤ x * y + x * z + y * z := by positivity
    have b3 : 0 ≤ x * y * z := by positivity
    have k : |(x + y + z - p) * t ^ 2 + (x * y + x * z + y * z) * t + x * y * z| ≤
        ((x + y + z) + (x * y + x * z + y * z) + x * y * z + p) * t ^ 2 := by
      have t2 : t ≤ t ^ 2 := by nlinarith
      have t3 : 1 ≤ t ^ 2 := by nlinarith
      have q1 := mul_le_mul_of_nonneg_left t2 b2
      have q2 := mul_le_mul_of_nonneg_left t3 b3
      have q3 : 0 ≤ (x + y + z) * t ^ 2 := by positivity
      have q4 : 0 ≤ p * t ^ 2 := by positivity
      have q5 : 0 ≤ (x * y + x * z + y * z) * t := by positivity
      have q6 : 0 ≤ (x * y + x * z + y * z) * t ^ 2 := by positivity
      have q7 : 0 ≤ x * y * z * t ^ 2 := by positivity
      rw [abs_le]
      constructor <;> linarith
    calc _ ≤ ((x + y + z) + (x * y + x * z + y * z) + x * y * z + p) * t ^ 2 * √t := by gcongr
      _ = ((x + y + z) + (x * y + x * z + y * z) + x * y * z + p) * (t * √t * t) := by ring
      _ ≤ _ := by gcongr; linarith

theorem pow_half (x : ℝ) : x ^ (1 / 2 : ℝ) = √x := (Real.sqrt_eq_rpow x).symm

theorem pow_neg_half {x : ℝ} (hx : 0 < x) : x ^ (-(1 / 2) : ℝ) = 1 / √x := by
  rw [Real.rpow_neg hx.le, pow_half, one_div]

theorem pow_neg_three_halves {x : ℝ} (hx : 0 < x) : x ^ (-(3 / 2) : ℝ) = 1 / (x * √x) := by
  rw [Real.rpow_neg hx.le, show (3 / 2 : ℝ) = 1 + 1 / 2 by norm_num, Real.rpow_add hx, Real.rpow_one, pow_half, one_div]

theorem pow_neg_five_halves {x : ℝ} (hx : 0 < x) : x ^ (-(5 / 2) : ℝ) = 1 / (x * x * √x) := by
  rw [Real.rpow_neg hx.le, show (5 / 2 : ℝ) = 1 + 1 + 1 / 2 by norm_num, Real.rpow_add hx, Real.rpow_add hx, Real.rpow_one,
    pow_half, one_div]

theorem pow_neg_two {x : ℝ} (hx : 0 < x) : x ^ (-2 : ℝ) = 1 / (x * x) := by
  rw [Real.rpow_neg hx.le, show (2 : ℝ) = 1 + 1 by norm_num, Real.rpow_add hx, Real.rpow_one, one_div]

/-- Two arguments are equal, or further apart than the threshold of `feq`. -/
def Sep (tol a b : ℝ) : Prop := a = b ∨ tol ≤ |a - b|

theorem sel_eq {tol a b : ℝ} (ht : 0 < tol) (h : a = b) (u v : ℝ) : sel (feq tol a b) u v = u := by
  subst h
  exact if_pos (by simp [feq, ht])

theorem sel_ne {tol a b : ℝ} (h : tol ≤ |a - b|) (u v : ℝ) : sel (feq tol a b) u v = v :=
  if_neg (by simp only [feq, not_lt]; exact h)

theorem ne_of_sep {tol a b : ℝ} (ht : 0 < tol) (h : tol ≤ |a - b|) : a ≠ b := by
  rintro rfl
  simp at h
  linarith

/-! ### C83: `elliprf` and `elliprg` -/

theorem RD_swap12' (x y z : ℝ) : RD y x z = RD x y z := RD_swap12 x y z

/-- C83: `Elliprf` back-propagates, for each argument that needs it, the partial derivative of `R_F` with respect to that
argument (which must be positive; the others may include a zero). -/
theorem C83_elliprf {x y z : ℝ} (h : Args x y z) : ∃ gx gy gz : ℝ,
    (∀ nx ny nz : Bool, symBackward rfGrad [nx, ny, nz] [x, y, z] =
      [if nx then some gx else none, if ny then some gy else none, if nz then some gz else none]) ∧
    (0 < x → HasDerivAt (fun s => RF s y z) gx x) ∧ (0 < y → HasDerivAt (fun s => RF x s z) gy y) ∧
    (0 < z → HasDerivAt (fun s => RF x y s) gz z) := by
  refine ⟨rfGrad z y x, rfGrad x z y, rfGrad y x z, fun _ _ _ => rfl, fun hx => ?_, fun hy => ?_, fun hz => ?_⟩
  · have := RF_deriv h.symm13 hx
    refine (this.congr_deriv (by rw [rfGrad]; ring)).congr_of_eventuallyEq (Eventually.of_forall fun s => ?_)
    simp only
    rw [← RF_swap12 z y s, ← RF_swap23 y z s, ← RF_swap12 y s z]
  · have := RF_deriv h.symm23 hy
    refine (this.congr_deriv (by rw [rfGrad]; ring)).congr_of_eventuallyEq (Eventually.of_forall fun s => ?_)
    simp only
    rw [← RF_swap23 x z s]
  · have := RF_deriv h.symm12 hz
    refine (this.congr_deriv (by rw [rfGrad]; ring)).congr_of_eventuallyEq (Eventually.of_forall fun s => ?_)
    simp only
    rw [← RF_swap12 y x s]

/-- `C83_elliprf`: distinct, equal and vanishing arguments. -/
example := C83_elliprf (x := 1) (y := 2) (z := 3) ⟨by norm_num, by norm_num, by norm_num, by norm_num, by norm_num, by norm_num⟩
example := C83_elliprf (x := 0) (y := 2) (z := 2) ⟨by norm_num, by norm_num, by norm_num, by norm_num, by norm_num, by norm_num⟩

theorem RG_swap23 (x y z : ℝ) : RG x z y = RG x y z := by
  rw [RG_swap12, RG_swap13, RG_swap12]

/-- C83: the same for `Elliprg` and `R_G`. -/
theorem C83_elliprg {x y z : ℝ} (h : Args x y z) : ∃ gx gy gz : ℝ,
    (∀ nx ny nz : Bool, symBackward rgGrad [nx, ny, nz] [x, y, z] =
      [if nx then some gx else none, if ny then some gy else none, if nz then some gz else none]) ∧
    (0 < x → HasDerivAt (fun s => RG s y z) gx x) ∧ (0 < y → HasDerivAt (fun s => RG x s z) gy y) ∧
    (0 < z → HasDerivAt (fun s => RG x y s) gz z) := by
  refine ⟨rgGrad z y x, rgGrad x z y, rgGrad y x z, fun _ _ _ => rfl, fun hx => ?_, fun hy => ?_, fun hz => ?_⟩
  · refine (RG_deriv h.symm13 hx).congr_of_eventuallyEq (Eventually.of_forall fun s => ?_)
    simp only
    rw [RG_swap13]
  · refine (RG_deriv h.symm23 hy).congr_of_eventuallyEq (Eventually.of_forall fun s => ?_)
    simp only
    rw [RG_swap23]
  · refine (RG_deriv h.symm12 hz).congr_of_eventuallyEq (Eventually.of_forall fun s => ?_)
    simp only
    rw [RG_swap12]

/-- `C83_elliprg`: distinct, equal and vanishing arguments. -/
example := C83_elliprg (x := 1) (y := 2) (z := 3) ⟨by norm_num, by norm_num, by norm_num, by norm_num, by norm_num, by norm_num⟩
example := C83_elliprg (x := 0) (y := 2) (z := 2) ⟨by norm_num, by norm_num, by norm_num, by norm_num, by norm_num, by norm_num⟩

/-! ### C84: `elliprc` -/

theorem J_pair_first {x y : ℝ} (hx : 0 < x) (hy : 0 < y) :
    (y - x) * (J y y x fun t => 1 / (t + x)) = 2 / √x - 2 * RC x y := by
  have h : Args y y x := ⟨hy.le, hy.le, hx.le, by linarith, by linarith, by linarith⟩
  have j1 := (JI_one h).const_mul (1 / 2)
  have j2 := (JI_inv h hx).const_mul ((y - x) / 2)
  have hb := J_boundary (B := fun t => -1 / √(t + x)) (j1.add j2) ?_ ?_ ?_
  · rw [J_add j1 j2, J_const_mul, J_const_mul] at hb
    simp only [zero_add] at hb
    rw [RC_eq_RF x y hy.le, RF_eq_J, ← J_swap13 x y y (fun _ => 1)]
    have : -(-1 / √x) = 1 / √x := by ring
    rw [this] at hb
    have : 2 / √x = 2 * (1 / √x) := by ring
    linarith
  · intro t ht
    have h1 : 0 < t + x := by linarith
    have h2 : 0 < t + y := by linarith
    have da := hasDerivAt_sqrt_add x t h1
    have ha : 0 < √(t + x) := Real.sqrt_pos.mpr h1
    refine HasDerivAt.congr_deriv ((hasDerivAt_const t (-1 : ℝ)).div da ha.ne') ?_
    simp only [S]
    rw [Real.mul_self_sqrt h2.le]
    have ey : y = (t + y) - t := by ring
    have ex : y - x = (t + y) - √(t + x) ^ 2 := by linarith [Real.sq_sqrt h1.le]
    have ea : t + x = √(t + x) ^ 2 := by linarith [Real.sq_sqrt h1.le]
    rw [ex]
    generalize √(t + x) = a at *
    rw [ea]
    field_simp
    ring
  · apply ContinuousAt.continuousWithinAt
    have : 0 < √(0 + x) := Real.sqrt_pos.mpr (by linarith)
    exact ContinuousAt.div continuousAt_const (by fun_prop) (by positivity)
  · refine tendsto_zero_of_sqrt 1 fun t ht => ?_
    have ht0 : 0 < t := by linarith
    have hq : 0 < √t := Real.sqrt_pos.mpr ht0
    rw [abs_div, abs_neg, abs_one, abs_of_nonneg (Real.sqrt_nonneg _)]
    exact one_div_le_one_div_of_le hq (Real.sqrt_le_sqrt (by linarith))

theorem RC_deriv_x {x y : ℝ} (hx : 0 < x) (hy : 0 < y) :
    HasDerivAt (fun s => RC s y) (-(1 / 4) * J y y x fun t => 1 / (t + x)) x := by
  have h : Args y y x := ⟨hy.le, hy.le, hx.le, by linarith, by linarith, by linarith⟩
  refine ((RF_deriv h hx).congr_deriv (by rw [RD_eq_J]; ring)).congr_of_eventuallyEq (Eventually.of_forall fun s => ?_)
  simp only
  rw [RC_eq_RF s y hy.le, ← RF_swap12 s y y, RF_swap23 y y s]

theorem RC_deriv_y {x y : ℝ} (hx : 0 ≤ x) (hy : 0 < y) :
    HasDerivAt (fun s => RC x s) (-(1 / 2) * J x y y fun t => 1 / (t + y)) y := by
  have hS : ∀ b t : ℝ, 0 < t → 0 < b → S x b b t = √(t + x) * (t + b) := by
    intro b t ht hb
    rw [S, mul_assoc, Real.mul_self_sqrt (by linarith)]
  have hu : ContinuousOn (fun t => 1 / √(t + x)) (Ioi 0) := contOn_of_pos fun t ht => by
    have h1 : 0 < √(t + x) := Real.sqrt_pos.mpr (by linarith)
    exact ContinuousAt.div continuousAt_const (by fun_prop) (by positivity)
  have hp := hasDerivAt_param (h := fun s => 1 / s) (h' := fun s => -(1 / (s * s))) hy hu kernel2 kernel2_cont kernel2_anti
    (by
      refine (JI_one (Args.of_pair hx hy)).congr ?_
      rw [EventuallyEq, ae_restrict_iff' measurableSet_Ioi]
      refine Eventually.of_forall fun t ht => ?_
      rw [hS y t ht hy, mul_one, one_div_mul_one_div])
    (by
      refine ((JI_inv (Args.of_pair hx (half_pos hy)) (half_pos hy)).const_mul (-1)).congr ?_
      rw [EventuallyEq, ae_restrict_iff' measurableSet_Ioi]
      refine Eventually.of_forall fun t ht => ?_
      rw [hS (y / 2) t ht (half_pos hy)]
      simp only [one_div, mul_inv]
      ring)
  have := hp.const_mul (1 / 2)
  refine HasDerivAt.congr_deriv (f := fun s => RC x s) ?_ (?_ : 1 / 2 * (∫ t in Ioi (0 : ℝ), 1 / √(t + x) * -(1 / ((t + y) * (t + y)))) = _)
  · refine this.congr_of_eventuallyEq (Eventually.of_forall fun s => ?_)
    simp only [RC, one_div_mul_one_div]
  · rw [J, ← MeasureTheory.integral_const_mul, ← MeasureTheory.integral_const_mul]
    apply setIntegral_congr_fun measurableSet_Ioi
    intro t ht
    simp only
    rw [hS y t ht hy]
    simp only [one_div, mul_inv]
    ring

/-- C84: `Elliprc.grad_x` is `∂R_C/∂x` for positive arguments that are equal or at least the threshold apart. -/
theorem C84_elliprc_x {tol x y : ℝ} (ht : 0 < tol) (hx : 0 < x) (hy : 0 < y) (hs : Sep tol x y) :
    HasDerivAt (fun s => RC s y) (rcGradX false tol x y (RC x y)) x := by
  refine (RC_deriv_x hx hy).congr_deriv ?_
  rw [rcGradX, if_neg (by simp)]
  rcases hs with e | e
  · rw [sel_eq ht e, pow_neg_three_halves hy]
    subst e
    rw [(J_equal hx).2]
    have : 0 < √x := Real.sqrt_pos.mpr hx
    field_simp
    norm_num
  · rw [sel_ne e, pow_neg_half hx]
    have hne : y - x ≠ 0 := sub_ne_zero.mpr (ne_of_sep ht e).symm
    have := J_pair_first hx hy
    rw [eq_div_iff (by simpa using hne)]
    linear_combination (-1 / 2) * this

/-- `C84_elliprc_x`: unequal and equal arguments at the default threshold for doubles. -/
example := C84_elliprc_x (tol := defaultTol false) (x := 1) (y := 2) (by norm_num [defaultTol]) (by norm_num) (by norm_num)
  (Or.inr (by norm_num [defaultTol, abs_of_neg]))
example := C84_elliprc_x (tol := defaultTol false) (x := 2) (y := 2) (by norm_num [defaultTol]) (by norm_num) (by norm_num) (Or.inl rfl)

/-- C84: with `devil_may_care`, for distinct arguments. -/
theorem C84_elliprc_x_general {tol x y : ℝ} (hx : 0 < x) (hy : 0 < y) (hne : x ≠ y) :
    HasDerivAt (fun s => RC s y) (rcGradX true tol x y (RC x y)) x := by
  refine (RC_deriv_x hx hy).congr_deriv ?_
  rw [rcGradX, if_pos rfl, pow_neg_half hx]
  have hne' : y - x ≠ 0 := sub_ne_zero.mpr hne.symm
  have := J_pair_first hx hy
  rw [eq_div_iff (by simpa using hne')]
  linear_combination (-1 / 2) * this

/-- `C84_elliprc_x_general`: arguments 1 and 2. -/
example := C84_elliprc_x_general (tol := defaultTol false) (x := 1) (y := 2) (by norm_num) (by norm_num) (by norm_num)

/-- C84: `Elliprc.grad_y` is `∂R_C/∂y`. -/
theorem C84_elliprc_y {tol x y : ℝ} (ht : 0 < tol) (hx : 0 ≤ x) (hy : 0 < y) (hs : Sep tol x y) :
    HasDerivAt (fun s => RC x s) (rcGradY false tol x y (RC x y)) y := by
  refine (RC_deriv_y hx hy).congr_deriv ?_
  rw [rcGradY, if_neg (by simp)]
  rcases hs with e | e
  · rw [sel_eq ht e, pow_neg_three_halves hy]
    subst e
    rw [(J_equal hy).2]
    have : 0 < √x := Real.sqrt_pos.mpr hy
    field_simp
  · rw [sel_ne e, pow_half]
    have hne : x - y ≠ 0 := sub_ne_zero.mpr (ne_of_sep ht e)
    have := J_reduce_pair1 hx hy
    rw [eq_div_iff (by simpa using hne)]
    linear_combination (-1) * this

/-- `C84_elliprc_y`: unequal and equal arguments at the default threshold for doubles. -/
example := C84_elliprc_y (tol := defaultTol false) (x := 0) (y := 2) (by norm_num [defaultTol]) le_rfl (by norm_num)
  (Or.inr (by norm_num [defaultTol, abs_of_neg]))
example := C84_elliprc_y (tol := defaultTol false) (x := 2) (y := 2) (by norm_num [defaultTol]) (by norm_num) (by norm_num) (Or.inl rfl)

/-- C84: with `devil_may_care`, for distinct arguments. -/
theorem C84_elliprc_y_general {tol x y : ℝ} (hx : 0 ≤ x) (hy : 0 < y) (hne : x ≠ y) :
    HasDerivAt (fun s => RC x s) (rcGradY true tol x y (RC x y)) y := by
  refine (RC_deriv_y hx hy).congr_deriv ?_
  rw [rcGradY, if_pos rfl, pow_half]
  have hne : x - y ≠ 0 := sub_ne_zero.mpr hne
  have := J_reduce_pair1 hx hy
  rw [eq_div_iff (by simpa using hne)]
  linear_combination (-1) * this

/-- `C84_elliprc_y_general`: arguments 0 and 2. -/
example := C84_elliprc_y_general (tol := defaultTol false) (x := 0) (y := 2) le_rfl (by norm_num) (by norm_num)

theorem integral_pos {f : ℝ → ℝ} (hi : IntegrableOn f (Ioi 0)) (hp : ∀ t, 0 < t → 0 < f t) : 0 < ∫ t in Ioi (0 : ℝ), f t := by
  rw [setIntegral_pos_iff_support_of_nonneg_ae _ hi]
  · have : Ioi (0 : ℝ) ⊆ Function.support f := fun t ht => (hp t ht).ne'
    rw [inter_eq_self_of_subset_right this]
    simp
  · rw [EventuallyLE, ae_restrict_iff' measurableSet_Ioi]
    exact Eventually.of_forall fun t ht => (hp t ht).le

/-- Bounds on `∂R_C/∂x` by its values at equal arguments. -/
theorem J_between {x y : ℝ} (hx : 0 < x) (hy : 0 < y) {m M : ℝ} (hm : 0 < m) (mx : m ≤ x) (my : m ≤ y) (xM : x ≤ M) (yM : y ≤ M) :
    2 / 3 / (M * √M) ≤ (J y y x fun t => 1 / (t + x)) ∧ (J y y x fun t => 1 / (t + x)) ≤ 2 / 3 / (m * √m) := by
  have hM : 0 < M := by linarith
  have h : Args y y x := ⟨hy.le, hy.le, hx.le, by linarith, by linarith, by linarith⟩
  rw [← (J_equal hM).2, ← (J_equal hm).2]
  constructor
  · refine setIntegral_mono_on (JI_inv (Args.of_pair hM.le hM) hM) (JI_inv h hx) measurableSet_Ioi fun t ht => ?_
    have ht : 0 < t := ht
    simp only [S]
    gcongr
  · refine setIntegral_mono_on (JI_inv h hx) (JI_inv (Args.of_pair hm.le hm) hm) measurableSet_Ioi fun t ht => ?_
    have ht : 0 < t := ht
    simp only [S]
    gcongr

/-- C84: for distinct arguments closer than the threshold (an absolute number, whatever the size of the arguments)
`Elliprc.grad_x` is not the derivative. -/
theorem C84_elliprc_x_close {tol x y : ℝ} (hx : 0 < x) (hy : 0 < y) (hne : x ≠ y) (hc : |x - y| < tol) :
    ¬HasDerivAt (fun s => RC s y) (rcGradX false tol x y (RC x y)) x := by
  intro h
  have e := h.unique (RC_deriv_x hx hy)
  rw [rcGradX, if_neg (by simp), sel, if_pos (show feq tol x y from hc), pow_neg_three_halves hy] at e
  have h1 : Args y y x := ⟨hy.le, hy.le, hx.le, by linarith, by linarith, by linarith⟩
  have h2 := Args.of_pair hy.le hy
  have e2 := (J_equal hy).2
  have e3 : (J y y x fun t => 1 / (t + x)) = J y y y fun t => 1 / (t + y) := by
    rw [e2]
    have : (2 / 3 / (y * √y) : ℝ) = 2 / 3 * (1 / (y * √y)) := by ring
    rw [this]
    linarith
  rcases lt_or_gt_of_ne hne with hlt | hlt
  · have hpos := integral_pos (Integrable.sub (JI_inv h1 hx) (JI_inv h2 hy)) (fun t ht => by
      simp only [Pi.sub_apply, S, sub_pos]
      have k1 : 0 < √(t + x) := Real.sqrt_pos.mpr (by linarith)
      have k2 : √(t + x) < √(t + y) := Real.sqrt_lt_sqrt (by linarith) (by linarith)
      have k3 : 0 < √(t + y) := by linarith
      gcongr)
    rw [integral_sub' (JI_inv h1 hx) (JI_inv h2 hy)] at hpos
    have : (J y y x fun t => 1 / (t + x)) - (J y y y fun t => 1 / (t + y)) > 0 := hpos
    linarith
  · have hpos := integral_pos (Integrable.sub (JI_inv h2 hy) (JI_inv h1 hx)) (fun t ht => by
      simp only [Pi.sub_apply, S, sub_pos]
      have k1 : 0 < √(t + y) := Real.sqrt_pos.mpr (by linarith)
      have k2 : √(t + y) < √(t + x) := Real.sqrt_lt_sqrt (by linarith) (by linarith)
      have k3 : 0 < √(t + x) := by linarith
      gcongr)
    rw [integral_sub' (JI_inv h2 hy) (JI_inv h1 hx)] at hpos
    have : (J y y y fun t => 1 / (t + y)) - (J y y x fun t => 1 / (t + x)) > 0 := hpos
    linarith

/-- C84: how far off it is then: the derivative and the returned value both lie between the derivatives at equal arguments
`min(x, y)` and `max(x, y)`. -/
theorem C84_elliprc_x_close_bound {tol x y : ℝ} (hx : 0 < x) (hy : 0 < y) (hc : |x - y| < tol) :
    ∃ g, HasDerivAt (fun s => RC s y) g x ∧
      |rcGradX false tol x y (RC x y) - g| ≤ 1 / 6 * (min x y ^ (-(3 / 2) : ℝ) - max x y ^ (-(3 / 2) : ℝ)) := by
  refine ⟨_, RC_deriv_x hx hy, ?_⟩
  have hm : 0 < min x y := lt_min hx hy
  have hM : 0 < max x y := lt_max_of_lt_left hx
  obtain ⟨b1, b2⟩ := J_between hx hy hm (min_le_left _ _) (min_le_right _ _) (le_max_left _ _) (le_max_right _ _)
  have c1 : 1 / (max x y * √(max x y)) ≤ 1 / (y * √y) := by
    have := le_max_right x y
    gcongr
  have c2 : 1 / (y * √y) ≤ 1 / (min x y * √(min x y)) := by
    have := min_le_right x y
    gcongr
  rw [rcGradX, if_neg (by simp), sel, if_pos (show feq tol x y from hc), pow_neg_three_halves hy, pow_neg_three_halves hm, pow_neg_three_halves hM]
  rw [div_eq_mul_one_div] at b1 b2
  rw [abs_le]
  constructor <;> linarith

/-- `C84_elliprc_x_close_bound`: arguments `10⁻⁵` apart in single precision. -/
example := C84_elliprc_x_close_bound (tol := defaultTol true) (x := 1) (y := 1.00001) (by norm_num) (by norm_num)
  (by norm_num [defaultTol, abs_of_neg])

/-! ### C85: `elliprd` -/

theorem JI_inv_inv {x y z : ℝ} (h : Args x y z) {p q : ℝ} (hp : 0 < p) (hq : 0 < q) :
    JI x y z fun t => 1 / (t + p) * (1 / (t + q)) := by
  simp only [one_div_mul_one_div]
  exact JI_inv2 h hp hq

/-- The derivative of `∫ 1/(S (t+p))` with respect to the first argument. -/
theorem RJ_deriv_x {x y z p : ℝ} (h : Args x y z) (hx : 0 < x) (hp : 0 < p) :
    HasDerivAt (fun s => RJ s y z p) (-(3 / 4) * J x y z fun t => 1 / ((t + p) * (t + x))) x := by
  have := (J_deriv h.symm13 hx (contOn_of_pos (inv_cont hp.le)) (JI_inv h.symm13 hp)
    (JI_inv_inv (Args.half h.symm13 hx) hp (half_pos hx))).const_mul (3 / 2)
  refine (this.congr_deriv ?_).congr_of_eventuallyEq (Eventually.of_forall fun s => ?_)
  · simp only [one_div_mul_one_div]
    rw [J_swap13]
    ring
  · simp only
    rw [RJ_eq_J, J_swap13 s y z]

theorem RD_eq_RJ (x y z : ℝ) : RD x y z = RJ x y z z := rfl

/-- `∂R_D/∂z`. -/
theorem RD_deriv_z {x y z : ℝ} (h : Args x y z) (hz : 0 < z) :
    HasDerivAt (fun b => RD x y b) (-(9 / 4) * J x y z fun t => 1 / ((t + z) * (t + z))) z := by
  have hx := h.x0
  have hy := h.y0
  have hu : ContinuousOn (fun t => 1 / (√(t + x) * √(t + y))) (Ioi 0) := contOn_of_pos fun t ht => by
    have h1 : 0 < √(t + x) := Real.sqrt_pos.mpr (by linarith)
    have h2 : 0 < √(t + y) := Real.sqrt_pos.mpr (by linarith)
    exact ContinuousAt.div continuousAt_const (by fun_prop) (by positivity)
  have e1 : ∀ b t : ℝ, 1 / (√(t + x) * √(t + y)) * (1 / (√(t + b) * (t + b))) = 1 / S x y b t * (1 / (t + b)) := by
    intro b t
    simp only [S, one_div, mul_inv]
    ring
  have e2 : ∀ b t : ℝ, 1 / (√(t + x) * √(t + y)) * (-(3 / (2 * ((t + b) * (t + b) * √(t + b))))) =
      -(3 / 2) * (1 / S x y b t * (1 / ((t + b) * (t + b)))) := by
    intro b t
    simp only [S, one_div, mul_inv, div_eq_mul_inv]
    ring
  have := hasDerivAt_param (h := fun s => 1 / (√s * s)) (h' := fun s => -(3 / (2 * (s * s * √s)))) hz hu kernel3
    kernel3_cont kernel3_anti (by simp only [e1]; exact JI_inv h hz)
    (by simp only [e2]; exact Integrable.const_mul (JI_inv2 (Args.half h hz) (half_pos hz) (half_pos hz)) _)
  simp only [e1, e2, MeasureTheory.integral_const_mul] at this
  refine ((this.const_mul (3 / 2)).congr_deriv ?_).congr_of_eventuallyEq (Eventually.of_forall fun s => ?_)
  · rw [J]; ring
  · simp only
    rw [RD_eq_J, J]

/-- Distinct `x` and `p`: partial fractions. -/
theorem J_split {x y z p q : ℝ} (h : Args x y z) (hp : 0 < p) (hq : 0 < q) :
    (q - p) * (J x y z fun t => 1 / ((t + p) * (t + q))) = (J x y z fun t => 1 / (t + p)) - J x y z fun t => 1 / (t + q) := by
  rw [← J_const_mul, ← J_sub (JI_inv h hp) (JI_inv h hq)]
  apply J_congr
  intro t ht
  have h1 : 0 < t + p := by linarith
  have h2 : 0 < t + q := by linarith
  field_simp
  ring

/-- C85: `Elliprd.grad_x` is `∂R_D/∂x`: arguments positive (`y` may be zero), `x` and `z` equal or the threshold apart, and
if they are equal `x` and `y` equal or the threshold apart. -/
theorem C85_elliprd_x {tol x y z : ℝ} (ht : 0 < tol) (hx : 0 < x) (hy : 0 ≤ y) (hz : 0 < z) (hs : Sep tol x z)
    (hs' : x = z → Sep tol x y) : HasDerivAt (fun s => RD s y z) (rdGradX false tol x y z) x := by
  have h : Args x y z := ⟨hx.le, hy, hz.le, by linarith, by linarith, by linarith⟩
  refine HasDerivAt.congr_deriv (RJ_deriv_x h hx hz) ?_
  rw [rdGradX, if_neg (by simp)]
  simp only
  rcases hs with e | e
  · rw [sel_eq ht e]
    subst e
    rcases hs' rfl with e' | e'
    · rw [sel_eq ht e', pow_neg_five_halves hx]
      subst e'
      rw [(J_equal hx).1]
      have : 0 < √x := Real.sqrt_pos.mpr hx
      field_simp
      norm_num
    · rw [sel_ne e', pow_half, ← J_swap12]
      have hne : x - y ≠ 0 := sub_ne_zero.mpr (ne_of_sep ht e')
      have p2 := J_reduce_pair hy hx
      have p1 := J_reduce_pair1 hy hx
      rw [eq_div_iff (pow_ne_zero 2 hne)]
      have k : (x - y) ^ 2 * (J y x x fun t => 1 / ((t + x) * (t + x))) =
          1 / 2 * (y - x) * (√y / (x * x)) - 3 / 4 * (√y / x - RC y x) := by
        linear_combination (1 / 2) * (y - x) * p2 - (3 / 4) * p1
      have e3 : 3 / 16 * ((5 * x - 2 * y) * √y / x ^ 2 - 3 * RC y x) =
          -(3 / 4) * (1 / 2 * (y - x) * (√y / (x * x)) - 3 / 4 * (√y / x - RC y x)) := by
        field_simp
        ring
      rw [e3, ← k]
      ring
  · rw [sel_ne e]
    have hne : x - z ≠ 0 := sub_ne_zero.mpr (ne_of_sep ht e)
    rw [eq_div_iff (by simpa using hne), RD_eq_J, RD_eq_J, ← J_swap23 y z x, ← J_swap12 y x z]
    linear_combination (-3 / 2) * J_split h hz hx

/-- `C85_elliprd_x`: distinct arguments; `x = z`. -/
example := C85_elliprd_x (tol := defaultTol false) (x := 1) (y := 0) (z := 3) (by norm_num [defaultTol]) (by norm_num) le_rfl (by norm_num)
  (Or.inr (by norm_num [defaultTol, abs_of_neg])) (by norm_num)
example := C85_elliprd_x (tol := defaultTol false) (x := 1) (y := 0) (z := 1) (by norm_num [defaultTol]) (by norm_num) le_rfl (by norm_num)
  (Or.inl rfl) (fun _ => Or.inr (by norm_num [defaultTol]))

/-- C85: the general formula, which is what `devil_may_care` selects, for `x ≠ z`. -/
theorem C85_elliprd_x_general {tol x y z : ℝ} (hx : 0 < x) (hy : 0 ≤ y) (hz : 0 < z) (hne : x ≠ z) :
    HasDerivAt (fun s => RD s y z) (rdGradX true tol x y z) x := by
  have h : Args x y z := ⟨hx.le, hy, hz.le, by linarith, by linarith, by linarith⟩
  refine HasDerivAt.congr_deriv (RJ_deriv_x h hx hz) ?_
  rw [rdGradX, if_pos rfl]
  have hne : x - z ≠ 0 := sub_ne_zero.mpr hne
  rw [eq_div_iff (by simpa using hne), RD_eq_J, RD_eq_J, ← J_swap23 y z x, ← J_swap12 y x z]
  linear_combination (-3 / 2) * J_split h hz hx

/-- `C85_elliprd_x_general`: distinct arguments. -/
example := C85_elliprd_x_general (tol := defaultTol false) (x := 1) (y := 0) (z := 3) (by norm_num) le_rfl (by norm_num) (by norm_num)

/-- C85: `Elliprd.grad_y` is `∂R_D/∂y`. -/
theorem C85_elliprd_y {tol x y z : ℝ} (ht : 0 < tol) (hx : 0 ≤ x) (hy : 0 < y) (hz : 0 < z) (hs : Sep tol y z)
    (hs' : y = z → Sep tol y x) : HasDerivAt (fun s => RD x s z) (rdGradY false tol x y z) y := by
  refine (C85_elliprd_x ht hy hx hz hs hs').congr_of_eventuallyEq (Eventually.of_forall fun s => ?_)
  exact RD_swap12 s x z

/-- `C85_elliprd_y`: distinct arguments; `y = z`. -/
example := C85_elliprd_y (tol := defaultTol false) (x := 0) (y := 1) (z := 3) (by norm_num [defaultTol]) le_rfl (by norm_num) (by norm_num)
  (Or.inr (by norm_num [defaultTol, abs_of_neg])) (by norm_num)
example := C85_elliprd_y (tol := defaultTol false) (x := 0) (y := 1) (z := 1) (by norm_num [defaultTol]) le_rfl (by norm_num) (by norm_num)
  (Or.inl rfl) (fun _ => Or.inr (by norm_num [defaultTol]))

/-- The closed form of `∫ 1/(S (t+z)²)` at `S = √(t+y) (t+z)`. -/
theorem J_pair2 {y z : ℝ} (hy : 0 ≤ y) (hz : 0 < z) (hne : z ≠ y) :
    (J y z z fun t => 1 / ((t + z) * (t + z))) = 1 / 4 * ((2 * y - 5 * z) * √y / z ^ 2 + 3 * RC y z) / (z - y) ^ 2 := by
  have hne : z - y ≠ 0 := sub_ne_zero.mpr hne
  have p2 := J_reduce_pair hy hz
  have p1 := J_reduce_pair1 hy hz
  rw [eq_div_iff (pow_ne_zero 2 hne)]
  have k : (z - y) ^ 2 * (J y z z fun t => 1 / ((t + z) * (t + z))) =
      1 / 2 * (y - z) * (√y / (z * z)) - 3 / 4 * (√y / z - RC y z) := by
    linear_combination (1 / 2) * (y - z) * p2 - (3 / 4) * p1
  have e3 : 1 / 4 * ((2 * y - 5 * z) * √y / z ^ 2 + 3 * RC y z) =
      1 / 2 * (y - z) * (√y / (z * z)) - 3 / 4 * (√y / z - RC y z) := by
    field_simp
    ring
  rw [e3, ← k]
  ring

/-- The closed form of `∫ 1/(S (t+z)²)` for distinct arguments. -/
theorem J_gen2 {x y z : ℝ} (h : Args x y z) (hz : 0 < z) (h1 : z ≠ x) (h2 : z ≠ y) :
    (J x y z fun t => 1 / ((t + z) * (t + z))) =
      2 / 3 * (√x * √y / (z * √z) - RF x y z - 2 / 3 * (x + y - 2 * z) * RD x y z) * (1 / (z - x) * (1 / (z - y))) := by
  have e1 : z - x ≠ 0 := sub_ne_zero.mpr h1
  have e2 : z - y ≠ 0 := sub_ne_zero.mpr h2
  rw [← J_reduce h hz]
  field_simp
  ring

/-- C85: `Elliprd.grad_z` is `∂R_D/∂z`: `x, y ≥ 0` not both zero, `z > 0`, and each of `x, y` equal to `z` or the threshold
apart from it. -/
theorem C85_elliprd_z {tol x y z : ℝ} (ht : 0 < tol) (h : Args x y z) (hz : 0 < z) (hsx : Sep tol x z) (hsy : Sep tol y z) :
    HasDerivAt (fun s => RD x y s) (rdGradZ false tol x y z (RD x y z)) z := by
  have hx := h.x0
  have hy := h.y0
  refine HasDerivAt.congr_deriv (RD_deriv_z h hz) ?_
  rw [rdGradZ]
  simp only [pow_half, pow_neg_three_halves hz, pow_neg_five_halves hz]
  rw [if_neg (by simp)]
  have hq : 0 < √z := Real.sqrt_pos.mpr hz
  rcases hsx with ex | ex <;> rcases hsy with ey | ey
  · rw [sel_eq ht ex, sel_eq ht ey]
    subst ex ey
    rw [(J_equal hz).1]
    field_simp
    norm_num
  · rw [sel_eq ht ex, sel_ne ey]
    subst ex
    rw [← J_swap12, J_pair2 hy hz (ne_of_sep ht ey).symm]
    have e2 := sub_ne_zero.mpr (ne_of_sep ht ey).symm
    field_simp
    ring
  · rw [sel_ne ex, sel_eq ht ey]
    subst ey
    rw [J_pair2 hx hz (ne_of_sep ht ex).symm]
    have e2 := sub_ne_zero.mpr (ne_of_sep ht ex).symm
    field_simp
    ring
  · rw [sel_ne ex, sel_ne ey, J_gen2 h hz (ne_of_sep ht ex).symm (ne_of_sep ht ey).symm]
    have e1 : z - x ≠ 0 := sub_ne_zero.mpr (ne_of_sep ht ex).symm
    have e2 : z - y ≠ 0 := sub_ne_zero.mpr (ne_of_sep ht ey).symm
    field_simp
    ring

/-- C85: the general formula for distinct arguments. -/
theorem C85_elliprd_z_general {tol x y z : ℝ} (h : Args x y z) (hz : 0 < z) (h1 : x ≠ z) (h2 : y ≠ z) :
    HasDerivAt (fun s => RD x y s) (rdGradZ true tol x y z (RD x y z)) z := by
  refine HasDerivAt.congr_deriv (RD_deriv_z h hz) ?_
  rw [rdGradZ]
  simp only [pow_half, pow_neg_three_halves hz]
  rw [if_pos trivial, J_gen2 h hz h1.symm h2.symm]
  have hq : 0 < √z := Real.sqrt_pos.mpr hz
  have e1 : z - x ≠ 0 := sub_ne_zero.mpr h1.symm
  have e2 : z - y ≠ 0 := sub_ne_zero.mpr h2.symm
  field_simp
  ring

/-- `C85_elliprd_z_general`: distinct arguments. -/
example := C85_elliprd_z_general (tol := defaultTol false) (x := 0) (y := 1) (z := 3)
  ⟨by norm_num, by norm_num, by norm_num, by norm_num, by norm_num, by norm_num⟩ (by norm_num) (by norm_num) (by norm_num)

/-! ### C86: `elliprj` -/

/-- C86: `Elliprj.grad_x` is `∂R_J/∂x`: `x, p > 0`, `y, z ≥ 0` not both zero; `x` and `p` equal or the threshold apart, and if
they are equal each of `y, z` equal to `x` or the threshold apart from it. -/
theorem C86_elliprj_x {tol x y z p : ℝ} (ht : 0 < tol) (h : Args x y z) (hx : 0 < x) (hp : 0 < p) (hs : Sep tol x p)
    (hs' : x = p → Sep tol x y ∧ Sep tol x z) :
    HasDerivAt (fun s => RJ s y z p) (rjGradX false tol x y z p (RJ x y z p)) x := by
  have hy := h.y0
  have hz := h.z0
  refine HasDerivAt.congr_deriv (RJ_deriv_x h hx hp) ?_
  rw [rjGradX]
  simp only [pow_half, pow_neg_three_halves hx, pow_neg_five_halves hx]
  rw [if_neg (by simp)]
  have hq : 0 < √x := Real.sqrt_pos.mpr hx
  rcases hs with e | e
  · rw [sel_eq ht e]
    subst e
    obtain ⟨sy, sz⟩ := hs' rfl
    rcases sy with ey | ey <;> rcases sz with ez | ez
    · rw [sel_eq ht ey, sel_eq ht ez]
      subst ey ez
      rw [(J_equal hx).1]
      field_simp
      norm_num
    · rw [sel_eq ht ey, sel_ne ez]
      subst ey
      rw [← J_swap13, J_pair2 hz hx (ne_of_sep ht ez)]
      have : x - z ≠ 0 := sub_ne_zero.mpr (ne_of_sep ht ez)
      field_simp
      ring
    · rw [sel_ne ey, sel_eq ht ez]
      subst ez
      rw [← J_swap12, J_pair2 hy hx (ne_of_sep ht ey)]
      have : x - y ≠ 0 := sub_ne_zero.mpr (ne_of_sep ht ey)
      field_simp
      ring
    · rw [sel_ne ey, sel_ne ez, ← J_swap13, ← J_swap12, J_gen2 (h.symm12.symm23) hx (ne_of_sep ht ey) (ne_of_sep ht ez)]
      have e1 : x - y ≠ 0 := sub_ne_zero.mpr (ne_of_sep ht ey)
      have e2 : x - z ≠ 0 := sub_ne_zero.mpr (ne_of_sep ht ez)
      have eF : RF y z x = RF x y z := by rw [RF_swap23, RF_swap12]
      rw [eF]
      field_simp
      ring
  · rw [sel_ne e]
    have hne : p - x ≠ 0 := sub_ne_zero.mpr (ne_of_sep ht e).symm
    rw [eq_div_iff (by simpa using hne), RJ_eq_J, RD_eq_J, ← J_swap23 y z x, ← J_swap12 y x z]
    linear_combination (3 / 2) * J_split h hp hx

/-- `C86_elliprj_x`: distinct arguments; `x = p`. -/
example := C86_elliprj_x (tol := defaultTol false) (x := 1) (y := 0) (z := 3) (p := 4) (by norm_num [defaultTol])
  ⟨by norm_num, by norm_num, by norm_num, by norm_num, by norm_num, by norm_num⟩ (by norm_num) (by norm_num)
  (Or.inr (by norm_num [defaultTol, abs_of_neg])) (by norm_num)
example := C86_elliprj_x (tol := defaultTol false) (x := 1) (y := 0) (z := 3) (p := 1) (by norm_num [defaultTol])
  ⟨by norm_num, by norm_num, by norm_num, by norm_num, by norm_num, by norm_num⟩ (by norm_num) (by norm_num)
  (Or.inl rfl) (fun _ => ⟨Or.inr (by norm_num [defaultTol]), Or.inr (by norm_num [defaultTol, abs_of_neg])⟩)

/-- C86: the general formula for `x ≠ p`. -/
theorem C86_elliprj_x_general {tol x y z p : ℝ} (h : Args x y z) (hx : 0 < x) (hp : 0 < p) (hne : x ≠ p) :
    HasDerivAt (fun s => RJ s y z p) (rjGradX true tol x y z p (RJ x y z p)) x := by
  refine HasDerivAt.congr_deriv (RJ_deriv_x h hx hp) ?_
  rw [rjGradX, if_pos rfl]
  have hne : p - x ≠ 0 := sub_ne_zero.mpr hne.symm
  rw [eq_div_iff (by simpa using hne), RJ_eq_J, RD_eq_J, ← J_swap23 y z x, ← J_swap12 y x z]
  linear_combination (3 / 2) * J_split h hp hx

/-- `C86_elliprj_x_general`: distinct arguments. -/
example := C86_elliprj_x_general (tol := defaultTol false) (x := 1) (y := 0) (z := 3) (p := 4)
  ⟨by norm_num, by norm_num, by norm_num, by norm_num, by norm_num, by norm_num⟩ (by norm_num) (by norm_num) (by norm_num)

theorem RJ_swap12 (x y z p : ℝ) : RJ y x z p = RJ x y z p := by rw [RJ_eq_J, RJ_eq_J, J_swap12]
theorem RJ_swap13 (x y z p : ℝ) : RJ z y x p = RJ x y z p := by rw [RJ_eq_J, RJ_eq_J, J_swap13]

/-- C86: `Elliprj.grad_y` is `∂R_J/∂y`. -/
theorem C86_elliprj_y {tol x y z p : ℝ} (ht : 0 < tol) (h : Args x y z) (hy : 0 < y) (hp : 0 < p) (hs : Sep tol y p)
    (hs' : y = p → Sep tol y x ∧ Sep tol y z) :
    HasDerivAt (fun s => RJ x s z p) (rjGradY false tol x y z p (RJ x y z p)) y := by
  have := C86_elliprj_x ht h.symm12 hy hp hs hs'
  rw [RJ_swap12] at this
  exact this.congr_of_eventuallyEq (Eventually.of_forall fun s => RJ_swap12 s x z p)

/-- `C86_elliprj_y`: distinct arguments; `y = p`. -/
example := C86_elliprj_y (tol := defaultTol false) (x := 0) (y := 1) (z := 3) (p := 4) (by norm_num [defaultTol])
  ⟨by norm_num, by norm_num, by norm_num, by norm_num, by norm_num, by norm_num⟩ (by norm_num) (by norm_num)
  (Or.inr (by norm_num [defaultTol, abs_of_neg])) (by norm_num)
example := C86_elliprj_y (tol := defaultTol false) (x := 0) (y := 1) (z := 3) (p := 1) (by norm_num [defaultTol])
  ⟨by norm_num, by norm_num, by norm_num, by norm_num, by norm_num, by norm_num⟩ (by norm_num) (by norm_num)
  (Or.inl rfl) (fun _ => ⟨Or.inr (by norm_num [defaultTol]), Or.inr (by norm_num [defaultTol, abs_of_neg])⟩)

/-- C86: `Elliprj.grad_z` is `∂R_J/∂z`. -/
theorem C86_elliprj_z {tol x y z p : ℝ} (ht : 0 < tol) (h : Args x y z) (hz : 0 < z) (hp : 0 < p) (hs : Sep tol z p)
    (hs' : z = p → Sep tol z y ∧ Sep tol z x) :
    HasDerivAt (fun s => RJ x y s p) (rjGradZ false tol x y z p (RJ x y z p)) z := by
  have := C86_elliprj_x ht h.symm13 hz hp hs hs'
  rw [RJ_swap13] at this
  exact this.congr_of_eventuallyEq (Eventually.of_forall fun s => RJ_swap13 s y x p)

/-- `C86_elliprj_z`: distinct arguments; `z = p`. -/
example := C86_elliprj_z (tol := defaultTol false) (x := 0) (y := 3) (z := 1) (p := 4) (by norm_num [defaultTol])
  ⟨by norm_num, by norm_num, by norm_num, by norm_num, by norm_num, by norm_num⟩ (by norm_num) (by norm_num)
  (Or.inr (by norm_num [defaultTol, abs_of_neg])) (by norm_num)
example := C86_elliprj_z (tol := defaultTol false) (x := 0) (y := 3) (z := 1) (p := 1) (by norm_num [defaultTol])
  ⟨by norm_num, by norm_num, by norm_num, by norm_num, by norm_num, by norm_num⟩ (by norm_num) (by norm_num)
  (Or.inl rfl) (fun _ => ⟨Or.inr (by norm_num [defaultTol, abs_of_neg]), Or.inr (by norm_num [defaultTol])⟩)

/-- `∂R_J/∂p`. -/
theorem RJ_deriv_p {x y z p : ℝ} (h : Args x y z) (hp : 0 < p) :
    HasDerivAt (fun s => RJ x y z s) (-(3 / 2) * J x y z fun t => 1 / ((t + p) * (t + p))) p := by
  refine (((J_deriv_weight h hp).const_mul (3 / 2)).congr_deriv (by ring)).congr_of_eventuallyEq (Eventually.of_forall fun s => ?_)
  exact RJ_eq_J x y z s

theorem rjP_general {x y z p : ℝ} (h : Args x y z) (hp : 0 < p) (h1 : p ≠ x) (h2 : p ≠ y) (h3 : p ≠ z) :
    -(3 / 2) * (J x y z fun t => 1 / ((t + p) * (t + p))) =
      (3 * (1 / (p - x) * (1 / (p - y)) * (1 / (p - z))) * (p * RF x y z - 2 * RG x y z + √x * √y * √z / p) -
        (1 / (p - x) + 1 / (p - y) + 1 / (p - z)) * RJ x y z p) / 2 := by
  have e1 : p - x ≠ 0 := sub_ne_zero.mpr h1
  have e2 : p - y ≠ 0 := sub_ne_zero.mpr h2
  have e3 : p - z ≠ 0 := sub_ne_zero.mpr h3
  have k := J_reduce_p h hp
  have : (J x y z fun t => 1 / ((t + p) * (t + p))) =
      -(√x * √y * √z / p + p * RF x y z - 2 * RG x y z -
        1 / 3 * ((x - p) * (y - p) + (x - p) * (z - p) + (y - p) * (z - p)) * RJ x y z p) / ((p - x) * (p - y) * (p - z)) := by
    rw [eq_div_iff (by positivity), ← k]
    ring
  rw [this]
  field_simp
  ring

open Classical in
theorem rjP_pen {tol p x : ℝ} (ht : 0 < tol) (h : Sep tol p x) :
    (feq tol p x ↔ p = x) := by
  rcases h with e | e
  · simp [feq, e, ht]
  · constructor
    · intro hf
      exact absurd hf (not_lt.mpr e)
    · intro he
      exact absurd he (ne_of_sep ht e)

/-- C86: `Elliprj.grad_p` is `∂R_J/∂p`: `p > 0`, `x, y, z ≥ 0`, at most one of them zero, each equal to `p` or the threshold
apart from it. -/
theorem C86_elliprj_p {tol x y z p : ℝ} (ht : 0 < tol) (h : Args x y z) (hp : 0 < p) (hsx : Sep tol p x) (hsy : Sep tol p y)
    (hsz : Sep tol p z) : HasDerivAt (fun s => RJ x y z s) (rjGradP false tol x y z p (RJ x y z p)) p := by
  have hx := h.x0
  have hy := h.y0
  have hz := h.z0
  refine HasDerivAt.congr_deriv (RJ_deriv_p h hp) ?_
  rw [rjGradP]
  simp only [pow_half, pow_neg_three_halves hp, pow_neg_five_halves hp, pow_neg_two hp, rjP_pen ht hsx, rjP_pen ht hsy,
    rjP_pen ht hsz, sel]
  rw [if_neg (by simp)]
  have hq : 0 < √p := Real.sqrt_pos.mpr hp
  by_cases ex : p = x <;> by_cases ey : p = y <;> by_cases ez : p = z
  · simp only [if_pos ex, if_pos ey, if_pos ez]
    rw [if_pos (by norm_num), if_pos (by norm_num)]
    subst ex ey ez
    rw [(J_equal hp).1]
    field_simp
    norm_num
  · simp only [if_pos ex, if_pos ey, if_neg ez]
    rw [if_pos (by norm_num), if_neg (by norm_num)]
    subst ex ey
    rw [← J_swap13, J_pair2 hz hp ez]
    have : p - z ≠ 0 := sub_ne_zero.mpr ez
    field_simp
    ring
  · simp only [if_pos ex, if_neg ey, if_pos ez]
    rw [if_pos (by norm_num), if_neg (by norm_num)]
    subst ex ez
    rw [← J_swap12, J_pair2 hy hp ey]
    have : p - y ≠ 0 := sub_ne_zero.mpr ey
    field_simp
    ring
  · simp only [if_pos ex, if_neg ey, if_neg ez]
    rw [if_neg (by norm_num), if_neg (by norm_num)]
    subst ex
    rw [← J_swap13, ← J_swap12, J_gen2 h.symm12.symm23 hp ey ez]
    have e1 : p - y ≠ 0 := sub_ne_zero.mpr ey
    have e2 : p - z ≠ 0 := sub_ne_zero.mpr ez
    field_simp
    ring
  · simp only [if_neg ex, if_pos ey, if_pos ez]
    rw [if_pos (by norm_num), if_neg (by norm_num)]
    subst ey ez
    rw [J_pair2 hx hp ex]
    have : p - x ≠ 0 := sub_ne_zero.mpr ex
    field_simp
    ring
  · simp only [if_neg ex, if_pos ey, if_neg ez]
    rw [if_neg (by norm_num), if_neg (by norm_num)]
    subst ey
    rw [← J_swap23, J_gen2 h.symm23 hp ex ez]
    have e1 : p - x ≠ 0 := sub_ne_zero.mpr ex
    have e2 : p - z ≠ 0 := sub_ne_zero.mpr ez
    field_simp
    ring
  · simp only [if_neg ex, if_neg ey, if_pos ez]
    rw [if_neg (by norm_num), if_neg (by norm_num)]
    subst ez
    rw [J_gen2 h hp ex ey]
    have e1 : p - x ≠ 0 := sub_ne_zero.mpr ex
    have e2 : p - y ≠ 0 := sub_ne_zero.mpr ey
    field_simp
    ring
  · simp only [if_neg ex, if_neg ey, if_neg ez]
    rw [if_neg (by norm_num), if_pos (by norm_num)]
    exact rjP_general h hp ex ey ez

/-- C86: the general formula for `p` distinct from the other arguments. -/
theorem C86_elliprj_p_general {tol x y z p : ℝ} (h : Args x y z) (hp : 0 < p) (h1 : p ≠ x) (h2 : p ≠ y) (h3 : p ≠ z) :
    HasDerivAt (fun s => RJ x y z s) (rjGradP true tol x y z p (RJ x y z p)) p := by
  refine HasDerivAt.congr_deriv (RJ_deriv_p h hp) ?_
  rw [rjGradP]
  simp only [pow_half]
  rw [if_pos trivial]
  exact rjP_general h hp h1 h2 h3

example : HasDerivAt (fun s => RJ 1 2 3 s) (rjGradP false (defaultTol false) 1 2 3 1 (RJ 1 2 3 1)) 1 :=
  C86_elliprj_p (by simp [defaultTol]) ⟨by norm_num, by norm_num, by norm_num, by norm_num, by norm_num, by norm_num⟩ one_pos
    (Or.inl rfl) (Or.inr (by norm_num [defaultTol])) (Or.inr (by norm_num [defaultTol, abs_of_neg]))

example : HasDerivAt (fun s => RD 0 2 s) (rdGradZ false (defaultTol true) 0 2 2 (RD 0 2 2)) 2 :=
  C85_elliprd_z (by simp [defaultTol]) ⟨by norm_num, by norm_num, by norm_num, by norm_num, by norm_num, by norm_num⟩
    (by norm_num) (Or.inr (by norm_num [defaultTol])) (Or.inl rfl)

/-- The threshold is absolute: at `x = 10⁻¹⁰, y = 2·10⁻¹⁰` the gradient is that of equal arguments. -/
example : ¬HasDerivAt (fun s => RC s (2 / 10 ^ 10))
    (rcGradX false (defaultTol false) (1 / 10 ^ 10) (2 / 10 ^ 10) (RC (1 / 10 ^ 10) (2 / 10 ^ 10))) (1 / 10 ^ 10) :=
  C84_elliprc_x_close (by norm_num) (by norm_num) (by norm_num) (by norm_num [defaultTol, abs_of_neg])

end Verif.Carlson.Grad
