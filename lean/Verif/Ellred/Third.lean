import Verif.Ellred.QuarticInt
import Verif.Ellred.RCpath

/-! # The integrals of the third kind of a quartic

`λ` is a linear function without zero on the interval: `1 + t` for the lookback time, `1` for the absorption distance. -/

namespace Verif.Ellred

open MeasureTheory Set Filter Topology Verif.Carlson ComplexConjugate Bornology

namespace QuarticOK

variable {y x t α β : ℝ} {r1 r2 r3 r4 : ℂ} {b c d e : ℝ}

/-- The linear function. -/
noncomputable def lam (α β : ℝ) (z : ℂ) : ℂ := α + β * z

/-- `(t - y) S(t)`. -/
noncomputable def M (α β y : ℝ) (r1 r2 r3 r4 : ℂ) (t : ℝ) : ℂ :=
  Xr r2 t * Xr r3 t * Xr r4 t / Xr r1 t * lam α β y + Xr r2 y * Xr r3 y * Xr r4 y / Xr r1 y * lam α β t

/-- The argument of `R_C`. -/
noncomputable def S (α β y : ℝ) (r1 r2 r3 r4 : ℂ) (t : ℝ) : ℂ := M α β y r1 r2 r3 r4 t / ((t : ℂ) - y)

noncomputable def kap (α β : ℝ) (r1 r2 r3 r4 : ℂ) : ℂ := lam α β r2 * lam α β r3 * lam α β r4 / lam α β r1

/-- The argument of `R_J`. -/
noncomputable def W2 (α β y : ℝ) (r1 r2 r3 r4 : ℂ) (t : ℝ) : ℂ :=
  U y (Xr r1) (Xr r2) (Xr r3) (Xr r4) t ^ 2 - (r3 - r1) * (r4 - r1) * lam α β r2 / lam α β r1

noncomputable def cJ (α β : ℝ) (r1 r2 r3 r4 : ℂ) : ℂ := (r2 - r1) * (r3 - r1) * (r4 - r1) / lam α β r1

variable (h : QuarticOK y r1 r2 r3 r4 b c d e)
include h

theorem S_sq (hl : lam α β r1 ≠ 0) (hyt : y < t) :
    S α β y r1 r2 r3 r4 t ^ 2 - kap α β r1 r2 r3 r4 =
      lam α β t * lam α β y * W2 α β y r1 r2 r3 r4 t / (Xr r1 t ^ 2 * Xr r1 y ^ 2) := by
  obtain ⟨n1, n2, n3, n4⟩ := h.X_ne hyt.le
  obtain ⟨m1, m2, m3, m4⟩ := h.X_ne le_rfl
  have hk : (t : ℂ) - y ≠ 0 := sub_ne_zero.mpr (by exact_mod_cast hyt.ne')
  have a1 := Xr_sq r1 t
  have a2 := Xr_sq r2 t
  have a3 := Xr_sq r3 t
  have a4 := Xr_sq r4 t
  have b1 := Xr_sq r1 y
  have b2 := Xr_sq r2 y
  have b3 := Xr_sq r3 y
  have b4 := Xr_sq r4 y
  rw [S, M, W2, U, kap]
  have key : Xr r1 y ^ 2 * (Xr r2 t ^ 2 * Xr r3 t ^ 2 * Xr r4 t ^ 2) * lam α β y ^ 2 * lam α β r1 +
      Xr r1 t ^ 2 * (Xr r2 y ^ 2 * Xr r3 y ^ 2 * Xr r4 y ^ 2) * lam α β t ^ 2 * lam α β r1 -
      lam α β r2 * lam α β r3 * lam α β r4 * (t - y) ^ 2 * (Xr r1 t ^ 2 * Xr r1 y ^ 2) =
      lam α β t * lam α β y * ((Xr r1 t ^ 2 * Xr r2 t ^ 2 * (Xr r3 y ^ 2 * Xr r4 y ^ 2) + Xr r1 y ^ 2 * Xr r2 y ^ 2 * (Xr r3 t ^ 2 * Xr r4 t ^ 2)) * lam α β r1 -
        (r3 - r1) * (r4 - r1) * lam α β r2 * (t - y) ^ 2) := by
    rw [a1, a2, a3, a4, b1, b2, b3, b4]
    simp only [lam]
    ring
  generalize lam α β r1 = l1 at *
  generalize lam α β r2 = l2 at *
  generalize lam α β r3 = l3 at *
  generalize lam α β r4 = l4 at *
  generalize lam α β t = lt at *
  generalize lam α β y = ly at *
  generalize (r3 - r1) * (r4 - r1) = δ at *
  generalize (t : ℂ) - y = k at *
  generalize Xr r1 t = X1 at *
  generalize Xr r2 t = X2 at *
  generalize Xr r3 t = X3 at *
  generalize Xr r4 t = X4 at *
  generalize Xr r1 y = Y1 at *
  generalize Xr r2 y = Y2 at *
  generalize Xr r3 y = Y3 at *
  generalize Xr r4 y = Y4 at *
  field_simp
  linear_combination key

theorem S_deriv (hyt : y < t) : HasDerivAt (S α β y r1 r2 r3 r4)
    (-(lam α β y / (2 * Xr r1 y ^ 2 * (Xr r1 t * Xr r2 t * Xr r3 t * Xr r4 t))) *
      (U y (Xr r1) (Xr r2) (Xr r3) (Xr r4) t ^ 2 - (r3 - r1) * (r4 - r1) * Xr r2 t ^ 2 / Xr r1 t ^ 2)) t := by
  obtain ⟨n1, n2, n3, n4⟩ := h.X_ne hyt.le
  obtain ⟨m1, m2, m3, m4⟩ := h.X_ne le_rfl
  have hk : (t : ℂ) - y ≠ 0 := sub_ne_zero.mpr (by exact_mod_cast hyt.ne')
  obtain ⟨s1, s2, s3, s4, -⟩ := h.kernel (x := t + 1) (by linarith)
  have ht : t ∈ Icc y (t + 1) := ⟨hyt.le, by linarith⟩
  have d1 := Xr_deriv (s1 t ht)
  have d2 := Xr_deriv (s2 t ht)
  have d3 := Xr_deriv (s3 t ht)
  have d4 := Xr_deriv (s4 t ht)
  have dt : HasDerivAt (fun t : ℝ => (t : ℂ) - y) 1 t := (HasDerivAt.ofReal_comp (hasDerivAt_id t)).sub_const _
  have dl : HasDerivAt (fun t : ℝ => lam α β t) β t := by
    have : HasDerivAt (fun t : ℝ => (t : ℂ)) 1 t := HasDerivAt.ofReal_comp (hasDerivAt_id t)
    simpa [lam] using (this.const_mul (β : ℂ)).const_add (α : ℂ)
  have hd := ((((((d2.mul d3).mul d4).div d1 n1).mul_const (lam α β y)).add
    (dl.const_mul (Xr r2 y * Xr r3 y * Xr r4 y / Xr r1 y)))).div dt hk
  refine hd.congr_deriv ?_
  simp only [Pi.mul_apply, Pi.add_apply, Pi.div_apply]
  have a1 := Xr_sq r1 t
  have a2 := Xr_sq r2 t
  have a3 := Xr_sq r3 t
  have a4 := Xr_sq r4 t
  have b1 := Xr_sq r1 y
  have b2 := Xr_sq r2 y
  have b3 := Xr_sq r3 y
  have b4 := Xr_sq r4 y
  have hlt : lam α β t = lam α β y + β * (t - y) := by simp only [lam]; ring
  rw [U, hlt]
  have key : ((t : ℂ) - y) * Xr r1 y ^ 2 * (Xr r1 t ^ 2 * (Xr r3 t ^ 2 * Xr r4 t ^ 2 + Xr r2 t ^ 2 * Xr r4 t ^ 2 + Xr r2 t ^ 2 * Xr r3 t ^ 2) -
      Xr r2 t ^ 2 * Xr r3 t ^ 2 * Xr r4 t ^ 2) - 2 * Xr r1 t ^ 2 * Xr r1 y ^ 2 * (Xr r2 t ^ 2 * Xr r3 t ^ 2 * Xr r4 t ^ 2) =
      -(Xr r1 t ^ 2 * (Xr r1 t ^ 2 * Xr r2 t ^ 2 * (Xr r3 y ^ 2 * Xr r4 y ^ 2) + Xr r1 y ^ 2 * Xr r2 y ^ 2 * (Xr r3 t ^ 2 * Xr r4 t ^ 2)) -
        (r3 - r1) * (r4 - r1) * ((t : ℂ) - y) ^ 2 * Xr r2 t ^ 2) := by
    rw [a1, a2, a3, a4, b1, b2, b3, b4]
    ring
  generalize lam α β y = ly at *
  generalize (r3 - r1) * (r4 - r1) = δ at *
  generalize (t : ℂ) - y = k at *
  generalize Xr r1 t = X1 at *
  generalize Xr r2 t = X2 at *
  generalize Xr r3 t = X3 at *
  generalize Xr r4 t = X4 at *
  generalize Xr r1 y = Y1 at *
  generalize Xr r2 y = Y2 at *
  generalize Xr r3 y = Y3 at *
  generalize Xr r4 y = Y4 at *
  field_simp
  linear_combination ly * key

theorem third_pt (hl : lam α β r1 ≠ 0) (hyt : y < t) (hlt : lam α β t ≠ 0) (hly : lam α β y ≠ 0)
    (hS : S α β y r1 r2 r3 r4 t ^ 2 - kap α β r1 r2 r3 r4 ≠ 0) :
    -(lam α β y / (2 * Xr r1 y ^ 2 * (Xr r1 t * Xr r2 t * Xr r3 t * Xr r4 t))) *
      (U y (Xr r1) (Xr r2) (Xr r3) (Xr r4) t ^ 2 - (r3 - r1) * (r4 - r1) * Xr r2 t ^ 2 / Xr r1 t ^ 2) /
        (S α β y r1 r2 r3 r4 t ^ 2 - kap α β r1 r2 r3 r4) =
      -(1 / 2) * (((t : ℂ) - r1) / (lam α β t * √(quartic b c d e t)) +
        cJ α β r1 r2 r3 r4 * (1 / ((√(quartic b c d e t) : ℝ) : ℂ) * (1 / W2 α β y r1 r2 r3 r4 t))) := by
  obtain ⟨n1, n2, n3, n4⟩ := h.X_ne hyt.le
  obtain ⟨m1, m2, m3, m4⟩ := h.X_ne le_rfl
  have e1 := h.S_sq (α := α) (β := β) hl hyt
  have hW : W2 α β y r1 r2 r3 r4 t ≠ 0 := fun e0 => hS (by rw [e1, e0]; simp)
  have e2 : U y (Xr r1) (Xr r2) (Xr r3) (Xr r4) t ^ 2 - (r3 - r1) * (r4 - r1) * Xr r2 t ^ 2 / Xr r1 t ^ 2 =
      W2 α β y r1 r2 r3 r4 t + cJ α β r1 r2 r3 r4 * lam α β t / Xr r1 t ^ 2 := by
    rw [W2, cJ, sub_add, sub_right_inj, div_mul_eq_mul_div, div_div, div_sub_div _ _ hl (mul_ne_zero hl (pow_ne_zero 2 n1)),
      div_eq_div_iff (pow_ne_zero 2 n1) (by positivity)]
    rw [Xr_sq, Xr_sq]
    simp only [lam]
    ring
  rw [e1, e2, ← h.sqrt_eq hyt.le, ← Xr_sq r1 t]
  field_simp

theorem X_cont (ht : y ≤ t) : ContinuousAt (Xr r1) t ∧ ContinuousAt (Xr r2) t ∧ ContinuousAt (Xr r3) t ∧ ContinuousAt (Xr r4) t := by
  obtain ⟨s1, s2, s3, s4, -⟩ := h.kernel (x := t + 1) (by linarith)
  have ht' : t ∈ Icc y (t + 1) := ⟨ht, by linarith⟩
  exact ⟨(Xr_deriv (s1 t ht')).continuousAt, (Xr_deriv (s2 t ht')).continuousAt, (Xr_deriv (s3 t ht')).continuousAt, (Xr_deriv (s4 t ht')).continuousAt⟩

omit h in
theorem lam_cont : Continuous fun t : ℝ => lam α β t := by unfold lam; fun_prop

theorem M_cont (ht : y ≤ t) : ContinuousAt (M α β y r1 r2 r3 r4) t := by
  obtain ⟨c1, c2, c3, c4⟩ := h.X_cont ht
  have n1 := (h.X_ne ht).1
  have := (lam_cont (α := α) (β := β)).continuousAt (x := t)
  unfold M
  exact ((((c2.mul c3).mul c4).div c1 n1).mul continuousAt_const).add (continuousAt_const.mul this)

theorem M_ne (hly : lam α β y ≠ 0) : M α β y r1 r2 r3 r4 y ≠ 0 := by
  obtain ⟨m1, m2, m3, m4⟩ := h.X_ne le_rfl
  rw [M, ← two_mul]
  exact mul_ne_zero two_ne_zero (mul_ne_zero (div_ne_zero (mul_ne_zero (mul_ne_zero m2 m3) m4) m1) hly)

theorem S_tendsto (hly : lam α β y ≠ 0) : Tendsto (S α β y r1 r2 r3 r4) (𝓝[>] y) (cobounded ℂ) := by
  rw [← tendsto_norm_atTop_iff_cobounded]
  have hi : Tendsto (fun t : ℝ => (t - y)⁻¹) (𝓝[>] y) atTop := by
    refine tendsto_inv_nhdsGT_zero.comp (tendsto_nhdsWithin_iff.mpr ⟨?_, ?_⟩)
    · have : Tendsto (fun t : ℝ => t - y) (𝓝 y) (𝓝 (y - y)) := (continuous_id.sub continuous_const).tendsto y
      rw [sub_self] at this
      exact this.mono_left nhdsWithin_le_nhds
    · filter_upwards [self_mem_nhdsWithin] with t ht
      have ht : y < t := ht
      exact sub_pos.mpr ht
  have hN : Tendsto (fun t => ‖M α β y r1 r2 r3 r4 t‖) (𝓝[>] y) (𝓝 ‖M α β y r1 r2 r3 r4 y‖) :=
    (h.M_cont le_rfl).norm.tendsto.mono_left nhdsWithin_le_nhds
  refine (Tendsto.pos_mul_atTop (norm_pos_iff.mpr (h.M_ne hly)) hN hi).congr' ?_
  filter_upwards [self_mem_nhdsWithin] with t ht
  have ht : y < t := ht
  rw [S, norm_div, ← Complex.ofReal_sub, Complex.norm_real, Real.norm_of_nonneg (by linarith), div_eq_mul_inv]

theorem W2_int (hlt : y < x) (hl : lam α β r1 ≠ 0) (hlam : ∀ t ∈ Icc y x, lam α β (t : ℝ) ≠ 0)
    (ho : ∀ t ∈ Ioc y x, S α β y r1 r2 r3 r4 t ^ 2 - kap α β r1 r2 r3 r4 ≠ 0) :
    IntegrableOn (fun t : ℝ => 1 / ((√(quartic b c d e t) : ℝ) : ℂ) * (1 / W2 α β y r1 r2 r3 r4 t)) (Ioc y x) := by
  have hly := hlam y ⟨le_rfl, hlt.le⟩
  have hD : ∀ t ∈ Icc y x, (M α β y r1 r2 r3 r4 t ^ 2 - kap α β r1 r2 r3 r4 * ((t : ℂ) - y) ^ 2) * (Xr r1 t ^ 2 * Xr r1 y ^ 2) ≠ 0 := by
    intro t ht
    have n1 := (h.X_ne ht.1).1
    have m1 := (h.X_ne le_rfl).1
    refine mul_ne_zero ?_ (mul_ne_zero (pow_ne_zero 2 n1) (pow_ne_zero 2 m1))
    rcases eq_or_lt_of_le ht.1 with e0 | e0
    · rw [← e0, sub_self, zero_pow two_ne_zero, mul_zero, sub_zero]
      exact pow_ne_zero 2 (h.M_ne hly)
    · have hk : (t : ℂ) - y ≠ 0 := sub_ne_zero.mpr (by exact_mod_cast e0.ne')
      have := ho t ⟨e0, ht.2⟩
      intro hc
      apply this
      rw [S, div_pow, div_sub' (pow_ne_zero 2 hk), div_eq_zero_iff]
      left
      linear_combination hc
  have hc : ContinuousOn (fun t : ℝ => 1 / ((√(quartic b c d e t) : ℝ) : ℂ) * (((t : ℂ) - y) ^ 2 * (lam α β t * lam α β y) /
      ((M α β y r1 r2 r3 r4 t ^ 2 - kap α β r1 r2 r3 r4 * ((t : ℂ) - y) ^ 2) * (Xr r1 t ^ 2 * Xr r1 y ^ 2)))) (Icc y x) := by
    refine ContinuousOn.mul (ContinuousOn.div continuousOn_const (Complex.continuous_ofReal.comp_continuousOn s_cont) fun t ht => h.cs_ne ht.1) ?_
    refine ContinuousOn.div ?_ ?_ hD
    · have := lam_cont (α := α) (β := β)
      fun_prop
    · intro t ht
      have h1 := (h.M_cont (α := α) (β := β) ht.1)
      have h2 := (h.X_cont ht.1).1
      apply ContinuousAt.continuousWithinAt
      fun_prop
  refine (hc.integrableOn_Icc.mono_set Ioc_subset_Icc_self).congr_fun ?_ measurableSet_Ioc
  intro t ht
  have hk : (t : ℂ) - y ≠ 0 := sub_ne_zero.mpr (by exact_mod_cast ht.1.ne')
  have e1 := h.S_sq (α := α) (β := β) hl ht.1
  have hD' := hD t ⟨ht.1.le, ht.2⟩
  have hlt' := hlam t ⟨ht.1.le, ht.2⟩
  have n1 := (h.X_ne ht.1.le).1
  have m1 := (h.X_ne le_rfl).1
  simp only
  congr 1
  have hW : W2 α β y r1 r2 r3 r4 t ≠ 0 := fun e0 => ho t ht (by rw [e1, e0]; simp)
  rw [S, div_pow, div_sub' (pow_ne_zero 2 hk), div_eq_div_iff (pow_ne_zero 2 hk) (by simp [n1, m1])] at e1
  rw [div_eq_div_iff hD' hW]
  linear_combination -e1

theorem rj_eq (hlt : y < x) (q : ℂ) : let u := params4 r1 r2 r3 r4 y x
    2 * ((x - y : ℝ) : ℂ) * (((x - y : ℝ) : ℂ) ^ 2 / 3) *
      RJc u.1 u.2.1 u.2.2 (((x - y : ℝ) : ℂ) ^ 2 * (U y (Xr r1) (Xr r2) (Xr r3) (Xr r4) x ^ 2 - q)) =
        ∫ t in Ioc y x, 1 / ((√(quartic b c d e t) : ℝ) : ℂ) * (1 / (U y (Xr r1) (Xr r2) (Xr r3) (Xr r4) t ^ 2 - q)) := by
  obtain ⟨V, W, K⟩ := h.kernel' hlt
  intro u
  rw [show u = _ from params4_eq hlt]
  simp only
  rw [K.rj (sub_pos.mpr hlt), ← integral_Ioc_eq_integral_Ioo]
  apply setIntegral_congr_fun measurableSet_Ioc
  intro t ht
  simp only
  rw [K.sq1 t ht]
  congr 2
  ring

/-- The integral of the third kind. -/
theorem third (hlt : y < x) (hl : lam α β r1 ≠ 0) (hlam : ∀ t ∈ Icc y x, lam α β (t : ℝ) ≠ 0)
    (ho : ∀ t ∈ Ioc y x, Off (kap α β r1 r2 r3 r4) (S α β y r1 r2 r3 r4 t)) {G : ℂ → ℂ} (hG : Prim (kap α β r1 r2 r3 r4) G) :
    let u := params4 r1 r2 r3 r4 y x
    ∫ t in Ioc y x, ((t : ℂ) - r1) / (lam α β t * √(quartic b c d e t)) = -2 * G (S α β y r1 r2 r3 r4 x) -
      cJ α β r1 r2 r3 r4 * (2 * ((x - y : ℝ) : ℂ) * (((x - y : ℝ) : ℂ) ^ 2 / 3) *
        RJc u.1 u.2.1 u.2.2 (((x - y : ℝ) : ℂ) ^ 2 * W2 α β y r1 r2 r3 r4 x)) := by
  intro u
  have hly := hlam y ⟨le_rfl, hlt.le⟩
  have hJ := h.rj_eq hlt ((r3 - r1) * (r4 - r1) * lam α β r2 / lam α β r1)
  simp only at hJ
  have i2 := h.W2_int hlt hl hlam fun t ht => (ho t ht).sub_ne
  have i1 : IntegrableOn (fun t : ℝ => ((t : ℂ) - r1) / (lam α β t * √(quartic b c d e t))) (Ioc y x) := by
    apply IntegrableOn.mono_set _ Ioc_subset_Icc_self
    apply ContinuousOn.integrableOn_Icc
    refine ContinuousOn.div (by fun_prop) (lam_cont.continuousOn.mul (Complex.continuous_ofReal.comp_continuousOn s_cont)) fun t ht => ?_
    exact mul_ne_zero (hlam t ht) (h.cs_ne ht.1)
  have hpt := fun t (ht : t ∈ Ioc y x) => h.third_pt (α := α) (β := β) hl ht.1 (hlam t ⟨ht.1.le, ht.2⟩) hly (ho t ht).sub_ne
  have hp := hG.path hlt (fun t ht => h.S_deriv (α := α) (β := β) ht.1) ho (by
    refine IntegrableOn.congr_fun ((i1.add (i2.const_mul (cJ α β r1 r2 r3 r4))).const_mul (-(1 / 2))) ?_ measurableSet_Ioc
    intro t ht
    exact (hpt t ht).symm) (h.S_tendsto hly)
  rw [setIntegral_congr_fun measurableSet_Ioc hpt, integral_const_mul, integral_add i1 (i2.const_mul _), integral_const_mul] at hp
  have hW : ((x - y : ℝ) : ℂ) ^ 2 * W2 α β y r1 r2 r3 r4 x = ((x - y : ℝ) : ℂ) ^ 2 *
      (U y (Xr r1) (Xr r2) (Xr r3) (Xr r4) x ^ 2 - (r3 - r1) * (r4 - r1) * lam α β r2 / lam α β r1) := rfl
  have hW' : (∫ t in Ioc y x, 1 / ((√(quartic b c d e t) : ℝ) : ℂ) * (1 / W2 α β y r1 r2 r3 r4 t)) =
      ∫ t in Ioc y x, 1 / ((√(quartic b c d e t) : ℝ) : ℂ) * (1 / (U y (Xr r1) (Xr r2) (Xr r3) (Xr r4) t ^ 2 -
        (r3 - r1) * (r4 - r1) * lam α β r2 / lam α β r1)) := rfl
  rw [hW, hJ, ← hW']
  linear_combination -2 * hp

end QuarticOK

end Verif.Ellred
