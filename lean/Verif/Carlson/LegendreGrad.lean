import Verif.Carlson.LegendreProps
import Verif.Carlson.LegendreGradModel
import Mathlib.Analysis.SpecialFunctions.Integrals.Basic

/-! # The gradient formulas of Legendre's integrals (C89, C90) -/

namespace Verif.Carlson

open MeasureTheory Set Filter Topology Grad

/-- Integrate the derivative of `√(t+x) / (√(t+y) √(t+z))`. -/
theorem J_div {x y z : ℝ} (h : Args x y z) (hy : 0 < y) (hz : 0 < z) :
    (y - x) * (J x y z fun t => 1 / (t + y)) + (z - x) * (J x y z fun t => 1 / (t + z)) =
      (J x y z fun _ => 1) - 2 * (√x / (√y * √z)) := by
  have hx := h.x0
  have j0 := (JI_one h).const_mul (-(1 / 2))
  have j1 := (JI_inv h hy).const_mul ((y - x) / 2)
  have j2 := (JI_inv h hz).const_mul ((z - x) / 2)
  have := J_boundary (B := fun t => √(t + x) / (√(t + y) * √(t + z))) ((j0.add j1).add j2) ?_ ?_ ?_
  · rw [J_add (j0.add j1) j2, J_add j0 j1, J_const_mul, J_const_mul, J_const_mul] at this
    simp only [zero_add] at this
    linarith
  · intro t ht
    have h1 : 0 < t + x := by linarith
    have h2 : 0 < t + y := by linarith
    have h3 : 0 < t + z := by linarith
    have da := hasDerivAt_sqrt_add x t h1
    have db := hasDerivAt_sqrt_add y t h2
    have dc := hasDerivAt_sqrt_add z t h3
    have ha : 0 < √(t + x) := Real.sqrt_pos.mpr h1
    have hb : 0 < √(t + y) := Real.sqrt_pos.mpr h2
    have hc : 0 < √(t + z) := Real.sqrt_pos.mpr h3
    refine HasDerivAt.congr_deriv (da.div (db.mul dc) (mul_pos hb hc).ne') ?_
    have ex : √(t + x) ^ 2 = t + x := Real.sq_sqrt h1.le
    have ey : √(t + y) ^ 2 = t + y := Real.sq_sqrt h2.le
    have ez : √(t + z) ^ 2 = t + z := Real.sq_sqrt h3.le
    simp only [Pi.mul_apply, S]
    have ex' : y - x = √(t + y) ^ 2 - √(t + x) ^ 2 := by linarith
    have ey' : z - x = √(t + z) ^ 2 - √(t + x) ^ 2 := by linarith
    rw [ex', ey', ← ey, ← ez]
    simp only [Real.sqrt_sq hb.le, Real.sqrt_sq hc.le]
    clear ex' ey' ex ey ez da db dc
    generalize √(t + x) = a at *
    generalize √(t + y) = b at *
    generalize √(t + z) = c at *
    field_simp
    ring
  · apply ContinuousAt.continuousWithinAt
    have : 0 < √(0 + z) := Real.sqrt_pos.mpr (by linarith)
    have : 0 < √(0 + y) := Real.sqrt_pos.mpr (by linarith)
    exact ContinuousAt.div (by fun_prop) (by fun_prop) (by positivity)
  · refine tendsto_zero_of_sqrt (√(1 + x)) fun t ht => ?_
    have ht0 : 0 < t := by linarith
    have hq : 0 < √t := Real.sqrt_pos.mpr ht0
    have k3 : √t ≤ √(t + z) := Real.sqrt_le_sqrt (by linarith)
    have k2 : √t ≤ √(t + y) := Real.sqrt_le_sqrt (by linarith)
    have h2 : 0 < √(t + y) := by linarith
    have h3 : 0 < √(t + z) := by linarith
    rw [abs_of_nonneg (by positivity), div_le_div_iff₀ (by positivity) hq]
    have k1 := sqrt_le_scale hx ht
    calc √(t + x) * √t ≤ √(1 + x) * √t * √t := by gcongr
      _ = √(1 + x) * (√t * √t) := by ring
      _ ≤ _ := by gcongr

/-- `φ ∈ (0, π/2]` and `m sin² φ < 1`. -/
structure SArgs (φ m : ℝ) : Prop where
  pos : 0 < φ
  le : φ ≤ Real.pi / 2
  lt : m * Real.sin φ ^ 2 < 1

namespace SArgs

variable {φ m n : ℝ}

theorem largs (h : SArgs φ m) : LArgs φ m :=
  ⟨h.pos, h.le, h.lt.le, fun e em => by
    have := h.lt
    rw [e, em, Real.sin_pi_div_two] at this
    norm_num at this⟩

theorem half_pi (hm : m < 1) : SArgs (Real.pi / 2) m :=
  ⟨by positivity, le_rfl, by rw [Real.sin_pi_div_two]; linarith⟩

theorem y_pos (h : SArgs φ m) : 0 < 1 / Real.sin φ ^ 2 - m := by
  have hs := h.largs.sin_pos
  rw [sub_pos, lt_div_iff₀ (by positivity)]
  exact h.lt

theorem nhds (h : SArgs φ m) : ∀ᶠ m' in 𝓝 m, SArgs φ m' := by
  have : ∀ᶠ m' in 𝓝 m, m' * Real.sin φ ^ 2 < 1 :=
    (ContinuousAt.eventually_lt (by fun_prop) continuousAt_const h.lt)
  filter_upwards [this] with m' hm' using ⟨h.pos, h.le, hm'⟩

/-- Abbreviations: `B = ∫ 1/(S (t + c - m))`. -/
noncomputable def B (φ m : ℝ) : ℝ :=
  J (1 / Real.sin φ ^ 2 - 1) (1 / Real.sin φ ^ 2 - m) (1 / Real.sin φ ^ 2) fun t => 1 / (t + (1 / Real.sin φ ^ 2 - m))

/-- `√((c - 1) / ((c - m) c))`. -/
noncomputable def R (φ m : ℝ) : ℝ :=
  √(1 / Real.sin φ ^ 2 - 1) / (√(1 / Real.sin φ ^ 2 - m) * √(1 / Real.sin φ ^ 2))

theorem F_J (h : LArgs φ m) : legF φ m = 1 / 2 * J (1 / Real.sin φ ^ 2 - 1) (1 / Real.sin φ ^ 2 - m) (1 / Real.sin φ ^ 2) fun _ => 1 := by
  rw [h.F_eq, RF_eq_J]

theorem D_J (h : LArgs φ m) : legD φ m =
    1 / 2 * J (1 / Real.sin φ ^ 2 - 1) (1 / Real.sin φ ^ 2 - m) (1 / Real.sin φ ^ 2) fun t => 1 / (t + 1 / Real.sin φ ^ 2) := by
  rw [h.D_eq, RD_eq_J]
  ring

theorem relation (h : SArgs φ m) : (1 - m) * B φ m = 2 * (legF φ m - legD φ m - R φ m) := by
  have := J_div h.largs.args h.y_pos h.largs.c_pos
  rw [F_J h.largs, D_J h.largs, B, R]
  generalize 1 / Real.sin φ ^ 2 = c at *
  linear_combination this

/-- `dF/dm = B/4`. -/
theorem F_deriv (h : SArgs φ m) : HasDerivAt (fun m => legF φ m) (1 / 4 * B φ m) m := by
  have := RF_deriv h.largs.args.symm23 h.y_pos
  have hsub : HasDerivAt (fun m' : ℝ => 1 / Real.sin φ ^ 2 - m') (-1) m := (hasDerivAt_id m).const_sub _
  have := HasDerivAt.comp m this hsub
  refine (this.congr_deriv ?_).congr_of_eventuallyEq ?_
  · rw [RD_eq_J, J_swap23, B]
    ring
  · filter_upwards [h.nhds] with m' h'
    rw [h'.largs.F_eq]
    exact (RF_swap23 _ _ _).symm

/-- `dD/dm = ∫ 1/(S (t + c - m) (t + c)) / 4`. -/
theorem D_deriv (h : SArgs φ m) : HasDerivAt (fun m => legD φ m) (1 / 4 *
    J (1 / Real.sin φ ^ 2 - 1) (1 / Real.sin φ ^ 2 - m) (1 / Real.sin φ ^ 2) fun t =>
      1 / ((t + 1 / Real.sin φ ^ 2) * (t + (1 / Real.sin φ ^ 2 - m)))) m := by
  have := RJ_deriv_x h.largs.args.symm12 h.y_pos h.largs.c_pos
  have hsub : HasDerivAt (fun m' : ℝ => 1 / Real.sin φ ^ 2 - m') (-1) m := (hasDerivAt_id m).const_sub _
  have := (HasDerivAt.comp m this hsub).div_const 3
  refine (this.congr_deriv ?_).congr_of_eventuallyEq ?_
  · rw [J_swap12]
    ring
  · filter_upwards [h.nhds] with m' h'
    rw [h'.largs.D_eq]
    simp only [Function.comp]
    rw [RD_swap12, RD_eq_RJ]

theorem D_relation (h : SArgs φ m) :
    m * (J (1 / Real.sin φ ^ 2 - 1) (1 / Real.sin φ ^ 2 - m) (1 / Real.sin φ ^ 2) fun t =>
      1 / ((t + 1 / Real.sin φ ^ 2) * (t + (1 / Real.sin φ ^ 2 - m)))) = B φ m - 2 * legD φ m := by
  have := J_split h.largs.args h.largs.c_pos h.y_pos
  rw [D_J h.largs, B]
  generalize 1 / Real.sin φ ^ 2 = c at *
  linear_combination -this

/-- `dE/dm = -D/2`. -/
theorem E_deriv (h : SArgs φ m) : HasDerivAt (fun m => legE φ m) (-(1 / 2) * legD φ m) m := by
  have := h.F_deriv.sub ((hasDerivAt_id m).mul h.D_deriv)
  refine (this.congr_deriv ?_).congr_of_eventuallyEq ?_
  · have := h.D_relation
    simp only [id]
    linear_combination -(1 / 4) * this
  · filter_upwards [h.nhds] with m' h'
    rw [h'.largs.E_eq]
    simp

/-- `Π = F + n G / 2` with `G = ∫ 1/(S (t + c - n))`. -/
theorem Pi_J (h : LArgs φ m) (hn : n * Real.sin φ ^ 2 < 1) : legPi n φ m = legF φ m + n / 2 *
    J (1 / Real.sin φ ^ 2 - 1) (1 / Real.sin φ ^ 2 - m) (1 / Real.sin φ ^ 2) fun t => 1 / (t + (1 / Real.sin φ ^ 2 - n)) := by
  rw [h.Pi_eq hn, RJ_eq_J]
  ring

theorem Pi_deriv_m (h : SArgs φ m) (hn : SArgs φ n) : HasDerivAt (fun m => legPi n φ m) (1 / 4 * B φ m + n / 4 *
    J (1 / Real.sin φ ^ 2 - 1) (1 / Real.sin φ ^ 2 - m) (1 / Real.sin φ ^ 2) fun t =>
      1 / ((t + (1 / Real.sin φ ^ 2 - n)) * (t + (1 / Real.sin φ ^ 2 - m)))) m := by
  have := RJ_deriv_x h.largs.args.symm12 h.y_pos hn.y_pos
  have hsub : HasDerivAt (fun m' : ℝ => 1 / Real.sin φ ^ 2 - m') (-1) m := (hasDerivAt_id m).const_sub _
  have := h.F_deriv.add ((HasDerivAt.comp m this hsub).const_mul (n / 3))
  refine (this.congr_deriv ?_).congr_of_eventuallyEq ?_
  · rw [J_swap12]
    ring
  · filter_upwards [h.nhds] with m' h'
    rw [h'.largs.Pi_eq hn.lt]
    simp only [Function.comp, Pi.add_apply]
    rw [RJ_swap12]

theorem Pi_relation_m (h : SArgs φ m) (hn : SArgs φ n) :
    (m - n) * n * (J (1 / Real.sin φ ^ 2 - 1) (1 / Real.sin φ ^ 2 - m) (1 / Real.sin φ ^ 2) fun t =>
      1 / ((t + (1 / Real.sin φ ^ 2 - n)) * (t + (1 / Real.sin φ ^ 2 - m)))) =
      n * B φ m - 2 * (legPi n φ m - legF φ m) := by
  have := J_split h.largs.args hn.y_pos h.y_pos
  rw [Pi_J h.largs hn.lt, B]
  generalize 1 / Real.sin φ ^ 2 = c at *
  linear_combination -n * this

theorem Pi_deriv_n (h : SArgs φ m) (hn : SArgs φ n) : HasDerivAt (fun n => legPi n φ m) (1 / 2 *
    (J (1 / Real.sin φ ^ 2 - 1) (1 / Real.sin φ ^ 2 - m) (1 / Real.sin φ ^ 2) fun t => 1 / (t + (1 / Real.sin φ ^ 2 - n))) +
    n / 2 * J (1 / Real.sin φ ^ 2 - 1) (1 / Real.sin φ ^ 2 - m) (1 / Real.sin φ ^ 2) fun t =>
      1 / ((t + (1 / Real.sin φ ^ 2 - n)) * (t + (1 / Real.sin φ ^ 2 - n)))) n := by
  have hw := J_deriv_weight h.largs.args hn.y_pos
  have hsub : HasDerivAt (fun m' : ℝ => 1 / Real.sin φ ^ 2 - m') (-1) n := (hasDerivAt_id n).const_sub _
  have := (((hasDerivAt_id n).div_const 2).mul (HasDerivAt.comp n hw hsub)).const_add (legF φ m)
  refine (this.congr_deriv ?_).congr_of_eventuallyEq ?_
  · simp only [id, Function.comp]
    ring
  · filter_upwards [hn.nhds] with n' h'
    rw [Pi_J h.largs h'.lt]
    simp only [Function.comp, Pi.mul_apply, id]

/-- `√((c - 1) (c - m) / c) / (c - n)`. -/
noncomputable def Rn (n φ m : ℝ) : ℝ :=
  √(1 / Real.sin φ ^ 2 - 1) * √(1 / Real.sin φ ^ 2 - m) / (√(1 / Real.sin φ ^ 2) * (1 / Real.sin φ ^ 2 - n))

theorem Pi_relation_n (h : SArgs φ m) (hn : SArgs φ n) :
    n * ((n - 1) * (n - m) * n * (J (1 / Real.sin φ ^ 2 - 1) (1 / Real.sin φ ^ 2 - m) (1 / Real.sin φ ^ 2) fun t =>
      1 / ((t + (1 / Real.sin φ ^ 2 - n)) * (t + (1 / Real.sin φ ^ 2 - n))))) =
      n * (n * Rn n φ m - n * legF φ m + m * legD φ m) -
        ((n - 1) * (n - m) + (n - 1) * n + (n - m) * n) * (legPi n φ m - legF φ m) := by
  have k := J_reduce_p h.largs.args hn.y_pos
  have g := RG_formula h.largs.args h.largs.c_pos
  have hp := hn.y_pos
  have hc := h.largs.c_pos
  rw [h.largs.Pi_eq hn.lt, h.largs.D_eq, h.largs.F_eq, Rn]
  generalize 1 / Real.sin φ ^ 2 = c at *
  generalize hH : (J (c - 1) (c - m) c fun t => 1 / ((t + (c - n)) * (t + (c - n)))) = H at *
  generalize RF (c - 1) (c - m) c = F at *
  generalize RD (c - 1) (c - m) c = D at *
  generalize RG (c - 1) (c - m) c = G at *
  generalize RJ (c - 1) (c - m) c (c - n) = P at *
  have hq : 0 < √c := Real.sqrt_pos.mpr hc
  have ec : c = √c * √c := (Real.mul_self_sqrt hc.le).symm
  have e1 : √(c - 1) * √(c - m) * √c / (c - n) - √(c - 1) * √(c - m) / √c = n * (√(c - 1) * √(c - m) / (√c * (c - n))) := by
    rw [div_sub_div _ _ hp.ne' hq.ne', mul_div_assoc', div_eq_div_iff (by positivity) (by positivity)]
    linear_combination -(√(c - 1) * √(c - m) * (√c * (c - n))) * ec
  rw [g] at k
  linear_combination n * k + n * e1

end SArgs

end Verif.Carlson
