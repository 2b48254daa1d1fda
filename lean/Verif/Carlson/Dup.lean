import Verif.Carlson.Integrals

/-! # The duplication theorems -/

namespace Verif.Carlson

open MeasureTheory Set Filter Topology

/-- `λ(t)` for the arguments `x + t, y + t, z + t`. -/
noncomputable def lam (x y z t : ℝ) : ℝ := √(t + x) * √(t + y) + √(t + x) * √(t + z) + √(t + y) * √(t + z)

/-- The substitution of the duplication theorem. -/
noncomputable def dupSub (x y z t : ℝ) : ℝ := (t + lam x y z t - lam x y z 0) / 4

/-- Its derivative. -/
noncomputable def dupSub' (x y z t : ℝ) : ℝ :=
  (√(t + x) + √(t + y)) * (√(t + y) + √(t + z)) * (√(t + z) + √(t + x)) / (8 * (√(t + x) * √(t + y) * √(t + z)))

theorem hasDerivAt_sqrt_add (x t : ℝ) (h : 0 < t + x) : HasDerivAt (fun t => √(t + x)) (1 / (2 * √(t + x))) t := by
  exact ((hasDerivAt_id t).add_const x).sqrt h.ne'

theorem isSubst_dup {x y z : ℝ} (h : Args x y z) : IsSubst (dupSub x y z) (dupSub' x y z) 0 := by
  have hx := h.x0
  have hy := h.y0
  have hz := h.z0
  refine ⟨?_, ?_, ?_, ?_⟩
  · intro t ht
    have ht : 0 < t := ht
    have h1 : 0 < t + x := by linarith
    have h2 : 0 < t + y := by linarith
    have h3 : 0 < t + z := by linarith
    have da := hasDerivAt_sqrt_add x t h1
    have db := hasDerivAt_sqrt_add y t h2
    have dc := hasDerivAt_sqrt_add z t h3
    have := ((((hasDerivAt_id t).add (((da.mul db).add (da.mul dc)).add (db.mul dc))).sub_const (lam x y z 0)).div_const 4)
    refine HasDerivAt.congr_deriv this ?_
    have ha : 0 < √(t + x) := Real.sqrt_pos.mpr h1
    have hb : 0 < √(t + y) := Real.sqrt_pos.mpr h2
    have hc : 0 < √(t + z) := Real.sqrt_pos.mpr h3
    rw [dupSub']
    generalize √(t + x) = a at *
    generalize √(t + y) = b at *
    generalize √(t + z) = c at *
    field_simp
    ring
  · intro t ht
    have ht : 0 < t := ht
    have h1 : 0 < t + x := by linarith
    have h2 : 0 < t + y := by linarith
    have h3 : 0 < t + z := by linarith
    unfold dupSub'
    positivity
  · have hc : Continuous (dupSub x y z) := by
      unfold dupSub lam
      fun_prop
    have h0 : dupSub x y z 0 = 0 := by simp [dupSub]
    have := hc.tendsto 0
    rw [h0] at this
    exact this.mono_left nhdsWithin_le_nhds
  · have h1 : Tendsto (fun t : ℝ => (t - lam x y z 0) / 4) atTop atTop :=
      Tendsto.atTop_div_const (by norm_num) (tendsto_atTop_add_const_right _ _ tendsto_id)
    refine tendsto_atTop_mono (fun t => ?_) h1
    have : 0 ≤ lam x y z t := by unfold lam; positivity
    unfold dupSub
    linarith

/-- The factors of the integrand after the substitution. -/
theorem dupSub_factor {x y z : ℝ} (h : Args x y z) (t : ℝ) (ht : 0 < t) (p : ℝ) :
    dupSub x y z t + (p + lam x y z 0) / 4 = (t + p + lam x y z t) / 4 := by
  unfold dupSub
  ring

theorem dupSub_sqrt {x y z : ℝ} (h : Args x y z) (t : ℝ) (ht : 0 < t) :
    √(dupSub x y z t + (x + lam x y z 0) / 4) * √(dupSub x y z t + (y + lam x y z 0) / 4) *
      √(dupSub x y z t + (z + lam x y z 0) / 4) =
    (√(t + x) + √(t + y)) * (√(t + y) + √(t + z)) * (√(t + z) + √(t + x)) / 8 := by
  have h1 : 0 < t + x := by linarith [h.x0]
  have h2 : 0 < t + y := by linarith [h.y0]
  have h3 : 0 < t + z := by linarith [h.z0]
  have ha : 0 < √(t + x) := Real.sqrt_pos.mpr h1
  have hb : 0 < √(t + y) := Real.sqrt_pos.mpr h2
  have hc : 0 < √(t + z) := Real.sqrt_pos.mpr h3
  have ea := Real.mul_self_sqrt h1.le
  have eb := Real.mul_self_sqrt h2.le
  have ec := Real.mul_self_sqrt h3.le
  rw [dupSub_factor h t ht, dupSub_factor h t ht, dupSub_factor h t ht]
  unfold lam
  rw [show t + x + (√(t + x) * √(t + y) + √(t + x) * √(t + z) + √(t + y) * √(t + z)) =
      (√(t + x) + √(t + y)) * (√(t + x) + √(t + z)) by linear_combination -ea,
    show t + y + (√(t + x) * √(t + y) + √(t + x) * √(t + z) + √(t + y) * √(t + z)) =
      (√(t + x) + √(t + y)) * (√(t + y) + √(t + z)) by linear_combination -eb,
    show t + z + (√(t + x) * √(t + y) + √(t + x) * √(t + z) + √(t + y) * √(t + z)) =
      (√(t + x) + √(t + z)) * (√(t + y) + √(t + z)) by linear_combination -ec]
  generalize √(t + x) = a at *
  generalize √(t + y) = b at *
  generalize √(t + z) = c at *
  rw [← Real.sqrt_mul (by positivity), ← Real.sqrt_mul (by positivity),
    show (a + b) * (a + c) / 4 * ((a + b) * (b + c) / 4) * ((a + c) * (b + c) / 4) =
      ((a + b) * (b + c) * (c + a) / 8) ^ 2 by ring]
  exact Real.sqrt_sq (by positivity)

/-- Change of variables for every weight of the `R_F` integrand. -/
theorem dup_integral {x y z : ℝ} (h : Args x y z) (g : ℝ → ℝ) :
    ∫ u in Ioi (0 : ℝ), 1 / (√(u + (x + lam x y z 0) / 4) * √(u + (y + lam x y z 0) / 4) *
      √(u + (z + lam x y z 0) / 4)) * g u =
    ∫ t in Ioi (0 : ℝ), 1 / (√(t + x) * √(t + y) * √(t + z)) * g (dupSub x y z t) := by
  rw [(isSubst_dup h).integral]
  apply setIntegral_congr_fun measurableSet_Ioi
  intro t ht
  have ht : 0 < t := ht
  have h1 : 0 < t + x := by linarith [h.x0]
  have h2 : 0 < t + y := by linarith [h.y0]
  have h3 : 0 < t + z := by linarith [h.z0]
  simp only
  rw [dupSub_sqrt h t ht, dupSub', ← mul_assoc]
  congr 1
  have ha : 0 < √(t + x) := Real.sqrt_pos.mpr h1
  have hb : 0 < √(t + y) := Real.sqrt_pos.mpr h2
  have hc : 0 < √(t + z) := Real.sqrt_pos.mpr h3
  field_simp

/-- The arguments after one duplication step. -/
theorem Args.dup {x y z : ℝ} (h : Args x y z) :
    0 < lam x y z 0 ∧ Args ((x + lam x y z 0) / 4) ((y + lam x y z 0) / 4) ((z + lam x y z 0) / 4) := by
  have hl : 0 < lam x y z 0 := by
    unfold lam
    simp only [zero_add]
    rcases eq_or_lt_of_le h.x0 with hx | hx
    · have hy : 0 < y := by linarith [h.xy]
      have hz : 0 < z := by linarith [h.xz]
      positivity
    · rcases eq_or_lt_of_le h.y0 with hy | hy
      · have hz : 0 < z := by linarith [h.yz]
        positivity
      · positivity
  refine ⟨hl, ?_, ?_, ?_, ?_, ?_, ?_⟩ <;> linarith [h.x0, h.y0, h.z0]

/-- Duplication theorem for `R_F` (DLMF 19.26.18). -/
theorem RF_dup {x y z : ℝ} (h : Args x y z) :
    RF ((x + lam x y z 0) / 4) ((y + lam x y z 0) / 4) ((z + lam x y z 0) / 4) = RF x y z := by
  have := dup_integral h fun _ => 1
  simp only [mul_one] at this
  rw [RF, RF, this]

/-- `∫_0^∞ -f' = f(0)` when `f → 0`, and `f'` is integrable. -/
theorem integral_neg_deriv {f f' : ℝ → ℝ} (hc : ContinuousWithinAt f (Ici 0) 0)
    (hd : ∀ t ∈ Ioi (0 : ℝ), HasDerivAt f (f' t) t) (hi : IntegrableOn f' (Ioi 0)) (hl : Tendsto f atTop (𝓝 0)) :
    ∫ t in Ioi (0 : ℝ), f' t = -f 0 := by
  rw [integral_Ioi_of_hasDerivAt_of_tendsto hc hd hi hl, zero_sub]

/-- Duplication theorem for `R_D` (DLMF 19.26.20). -/
theorem RD_dup {x y z : ℝ} (h : Args x y z) (hz : 0 < z) :
    RD x y z = 1 / 4 * RD ((x + lam x y z 0) / 4) ((y + lam x y z 0) / 4) ((z + lam x y z 0) / 4) +
      3 / (√z * (z + lam x y z 0)) := by
  have hx0 := h.x0
  have hy0 := h.y0
  -- integrability of the two integrands
  have i1 : IntegrableOn (fun t => 1 / (√(t + x) * √(t + y) * √(t + z)) * (1 / (t + z))) (Ioi 0) := by
    apply h.integrable_mul _ _ (1 / z)
    · intro t ht
      have ht : 0 < t := ht
      rw [abs_of_nonneg (by positivity)]
      exact one_div_le_one_div_of_le hz (by linarith)
    · intro t ht
      have ht : 0 < t := ht
      apply ContinuousAt.continuousWithinAt
      apply ContinuousAt.div continuousAt_const (by fun_prop)
      positivity
  have lam0 : ∀ t, 0 ≤ lam x y z t := fun t => by unfold lam; positivity
  have i2 : IntegrableOn (fun t => 1 / (√(t + x) * √(t + y) * √(t + z)) * (1 / (t + z + lam x y z t))) (Ioi 0) := by
    apply h.integrable_mul _ _ (1 / z)
    · intro t ht
      have ht : 0 < t := ht
      have := lam0 t
      rw [abs_of_nonneg (by positivity)]
      exact one_div_le_one_div_of_le hz (by linarith)
    · intro t ht
      have ht : 0 < t := ht
      have := lam0 t
      apply ContinuousAt.continuousWithinAt
      apply ContinuousAt.div continuousAt_const (by unfold lam; fun_prop)
      positivity
  -- the antiderivative of the difference
  let f : ℝ → ℝ := fun t => 1 / (√(t + z) * (t + z + lam x y z t))
  have hd : ∀ t ∈ Ioi (0 : ℝ), HasDerivAt f
      (-(1 / 2) * (1 / (√(t + x) * √(t + y) * √(t + z)) * (1 / (t + z)) -
        1 / (√(t + x) * √(t + y) * √(t + z)) * (1 / (t + z + lam x y z t)))) t := by
    intro t ht
    have ht : 0 < t := ht
    have h1 : 0 < t + x := by linarith
    have h2 : 0 < t + y := by linarith
    have h3 : 0 < t + z := by linarith
    have da := hasDerivAt_sqrt_add x t h1
    have db := hasDerivAt_sqrt_add y t h2
    have dc := hasDerivAt_sqrt_add z t h3
    have ha : 0 < √(t + x) := Real.sqrt_pos.mpr h1
    have hb : 0 < √(t + y) := Real.sqrt_pos.mpr h2
    have hc : 0 < √(t + z) := Real.sqrt_pos.mpr h3
    have dl : HasDerivAt (fun t => t + z + lam x y z t) _ t :=
      ((hasDerivAt_id t).add_const z).add (((da.mul db).add (da.mul dc)).add (db.mul dc))
    have hl := lam0 t
    have hne : √(t + z) * (t + z + lam x y z t) ≠ 0 := by positivity
    have := (hasDerivAt_const t (1 : ℝ)).div (dc.mul dl) hne
    refine HasDerivAt.congr_deriv this ?_
    have ec : t + z = √(t + z) * √(t + z) := (Real.mul_self_sqrt h3.le).symm
    simp only [lam, id_eq, Pi.mul_apply, Pi.add_apply] at hne ⊢
    rw [ec] at hne ⊢
    have e : √(√(t + z) * √(t + z)) = √(t + z) := by rw [← ec]
    rw [e] at hne ⊢
    generalize √(t + x) = a at *
    generalize √(t + y) = b at *
    generalize √(t + z) = c at *
    field_simp
    ring
  have hlim : Tendsto f atTop (𝓝 0) := by
    have h1 : Tendsto (fun t : ℝ => √z * t) atTop atTop := tendsto_id.const_mul_atTop (Real.sqrt_pos.mpr hz)
    have h2 : Tendsto (fun t : ℝ => √(t + z) * (t + z + lam x y z t)) atTop atTop := by
      refine tendsto_atTop_mono' _ ?_ h1
      filter_upwards [eventually_gt_atTop 0] with t ht
      have := lam0 t
      apply mul_le_mul (Real.sqrt_le_sqrt (by linarith)) (by linarith) ht.le (by positivity)
    exact (tendsto_inv_atTop_zero.comp h2).congr fun t => by simp [f]
  have hcont : ContinuousWithinAt f (Ici 0) 0 := by
    have := lam0 0
    apply ContinuousAt.continuousWithinAt
    apply ContinuousAt.div continuousAt_const (by unfold lam; fun_prop)
    have : 0 < √(0 + z) := Real.sqrt_pos.mpr (by linarith)
    positivity
  have hint := integral_neg_deriv hcont hd (by
    exact (i1.sub i2).const_mul _) hlim
  rw [MeasureTheory.integral_const_mul, integral_sub i1 i2] at hint
  have e1 : ∫ t in Ioi (0 : ℝ), 1 / (√(t + x) * √(t + y) * √(t + z)) * (1 / (t + z)) =
      ∫ t in Ioi (0 : ℝ), 1 / (√(t + x) * √(t + y) * √(t + z) * (t + z)) := by
    congr 1; funext t; rw [one_div_mul_one_div]
  have e2 := dup_integral h fun u => 1 / (u + (z + lam x y z 0) / 4)
  have e3 : ∫ t in Ioi (0 : ℝ), 1 / (√(t + x) * √(t + y) * √(t + z)) * (1 / (dupSub x y z t + (z + lam x y z 0) / 4)) =
      4 * ∫ t in Ioi (0 : ℝ), 1 / (√(t + x) * √(t + y) * √(t + z)) * (1 / (t + z + lam x y z t)) := by
    rw [← MeasureTheory.integral_const_mul]
    apply setIntegral_congr_fun measurableSet_Ioi
    intro t ht
    simp only
    rw [dupSub_factor h t ht]
    rw [one_div_div]
    ring
  have e4 : (fun u => 1 / (√(u + (x + lam x y z 0) / 4) * √(u + (y + lam x y z 0) / 4) *
      √(u + (z + lam x y z 0) / 4)) * (1 / (u + (z + lam x y z 0) / 4))) = fun u =>
      1 / (√(u + (x + lam x y z 0) / 4) * √(u + (y + lam x y z 0) / 4) *
      √(u + (z + lam x y z 0) / 4) * (u + (z + lam x y z 0) / 4)) := by
    funext u; rw [one_div_mul_one_div]
  rw [e4, e3] at e2
  rw [RD, RD, e2, ← e1]
  have hf0 : f 0 = 1 / (√z * (z + lam x y z 0)) := by simp [f]
  rw [hf0] at hint
  rw [show (3 : ℝ) / (√z * (z + lam x y z 0)) = 3 * (1 / (√z * (z + lam x y z 0))) by ring]
  linarith

/-- `R_C` is `R_F` with two equal arguments. -/
theorem RC_eq_RF (x y : ℝ) (hy : 0 ≤ y) : RC x y = RF x y y := by
  rw [RC, RF]
  congr 1
  apply setIntegral_congr_fun measurableSet_Ioi
  intro t ht
  have ht : 0 < t := ht
  simp only
  rw [mul_assoc, Real.mul_self_sqrt (by positivity)]

theorem Args.of_pair {x y : ℝ} (hx : 0 ≤ x) (hy : 0 < y) : Args x y y :=
  ⟨hx, hy.le, hy.le, by linarith, by linarith, by linarith⟩

/-- `∫_D^∞ ds/(s² + δ)` as an `R_C`. -/
theorem integral_RC (D δ : ℝ) (hD : 0 < D) (hδ : 0 < D ^ 2 + δ) :
    ∫ s in Ioi D, 1 / (s ^ 2 + δ) = 1 / D * RC 1 (1 + δ / D ^ 2) := by
  have hs : IsSubst (fun v => D * √(v + 1)) (fun v => D * (1 / (2 * √(v + 1)))) D := by
    refine ⟨?_, ?_, ?_, ?_⟩
    · intro t ht
      have ht : 0 < t := ht
      exact (hasDerivAt_sqrt_add 1 t (by linarith)).const_mul D
    · intro t ht
      have ht : 0 < t := ht
      positivity
    · have hc : Continuous fun v : ℝ => D * √(v + 1) := by fun_prop
      have := hc.tendsto 0
      simp only [zero_add, Real.sqrt_one, mul_one] at this
      exact this.mono_left nhdsWithin_le_nhds
    · exact (Real.tendsto_sqrt_atTop.comp (tendsto_atTop_add_const_right _ 1 tendsto_id)).const_mul_atTop hD
  rw [hs.integral, RC, ← mul_assoc, ← MeasureTheory.integral_const_mul]
  apply setIntegral_congr_fun measurableSet_Ioi
  intro t ht
  have ht : 0 < t := ht
  simp only
  have h1 : 0 < √(t + 1) := Real.sqrt_pos.mpr (by linarith)
  have h2 : (D * √(t + 1)) ^ 2 = D ^ 2 * (t + 1) := by rw [mul_pow, Real.sq_sqrt (by linarith)]
  rw [h2]
  have h3 : 0 < D ^ 2 * (t + 1) + δ := by nlinarith [sq_nonneg D]
  have h4 : t + (1 + δ / D ^ 2) = (D ^ 2 * (t + 1) + δ) / D ^ 2 := by field_simp; ring
  rw [h4]
  field_simp

/-- `d = (√p + √x)(√p + √y)(√p + √z)` along the shifted arguments. -/
noncomputable def dd (x y z p t : ℝ) : ℝ := (√(t + p) + √(t + x)) * (√(t + p) + √(t + y)) * (√(t + p) + √(t + z))

/-- Duplication theorem for `R_J` (DLMF 19.26.21-23, Carlson 1995). -/
theorem RJ_dup {x y z p : ℝ} (h : Args x y z) (hp : 0 < p) :
    RJ x y z p = 1 / 4 * RJ ((x + lam x y z 0) / 4) ((y + lam x y z 0) / 4) ((z + lam x y z 0) / 4)
        ((p + lam x y z 0) / 4) +
      6 / dd x y z p 0 * RC 1 (1 + (p - x) * (p - y) * (p - z) / dd x y z p 0 ^ 2) := by
  have hx0 := h.x0
  have hy0 := h.y0
  have hz0 := h.z0
  have lam0 : ∀ t, 0 ≤ lam x y z t := fun t => by unfold lam; positivity
  have i1 : IntegrableOn (fun t => 1 / (√(t + x) * √(t + y) * √(t + z)) * (1 / (t + p))) (Ioi 0) := by
    apply h.integrable_mul _ _ (1 / p)
    · intro t ht
      have ht : 0 < t := ht
      rw [abs_of_nonneg (by positivity)]
      exact one_div_le_one_div_of_le hp (by linarith)
    · intro t ht
      have ht : 0 < t := ht
      apply ContinuousAt.continuousWithinAt
      apply ContinuousAt.div continuousAt_const (by fun_prop)
      positivity
  have i2 : IntegrableOn (fun t => 1 / (√(t + x) * √(t + y) * √(t + z)) * (1 / (t + p + lam x y z t))) (Ioi 0) := by
    apply h.integrable_mul _ _ (1 / p)
    · intro t ht
      have ht : 0 < t := ht
      have := lam0 t
      rw [abs_of_nonneg (by positivity)]
      exact one_div_le_one_div_of_le hp (by linarith)
    · intro t ht
      have ht : 0 < t := ht
      have := lam0 t
      apply ContinuousAt.continuousWithinAt
      apply ContinuousAt.div continuousAt_const (by unfold lam; fun_prop)
      positivity
  set δ := (p - x) * (p - y) * (p - z) with hδ
  have hdpos : ∀ t, 0 ≤ t → 0 < dd x y z p t := by
    intro t ht
    have : 0 < √(t + p) := Real.sqrt_pos.mpr (by linarith)
    unfold dd
    positivity
  -- the second substitution, `s = d(t)`
  have hs : IsSubst (dd x y z p)
      (fun t => dd x y z p t * (1 / (2 * √(t + p)) * (lam x y z t / (√(t + x) * √(t + y) * √(t + z))))) (dd x y z p 0) := by
    refine ⟨?_, ?_, ?_, ?_⟩
    · intro t ht
      have ht : 0 < t := ht
      have h1 : 0 < t + x := by linarith
      have h2 : 0 < t + y := by linarith
      have h3 : 0 < t + z := by linarith
      have h4 : 0 < t + p := by linarith
      have da := hasDerivAt_sqrt_add x t h1
      have db := hasDerivAt_sqrt_add y t h2
      have dc := hasDerivAt_sqrt_add z t h3
      have dq := hasDerivAt_sqrt_add p t h4
      have ha : 0 < √(t + x) := Real.sqrt_pos.mpr h1
      have hb : 0 < √(t + y) := Real.sqrt_pos.mpr h2
      have hc : 0 < √(t + z) := Real.sqrt_pos.mpr h3
      have hq : 0 < √(t + p) := Real.sqrt_pos.mpr h4
      refine (((dq.add da).mul (dq.add db)).mul (dq.add dc)).congr_deriv ?_
      simp only [dd, lam, Pi.mul_apply, Pi.add_apply]
      generalize √(t + x) = a at *
      generalize √(t + y) = b at *
      generalize √(t + z) = c at *
      generalize √(t + p) = q at *
      field_simp
      ring
    · intro t ht
      have ht : 0 < t := ht
      have h1 := hdpos t ht.le
      have h2 : 0 < lam x y z t := by
        have : 0 < √(t + x) := Real.sqrt_pos.mpr (by linarith)
        have : 0 < √(t + y) := Real.sqrt_pos.mpr (by linarith)
        unfold lam
        positivity
      positivity
    · have hc : Continuous (dd x y z p) := by unfold dd; fun_prop
      exact (hc.tendsto 0).mono_left nhdsWithin_le_nhds
    · have h1 : Tendsto (fun t : ℝ => √p * √p * √t) atTop atTop :=
        Real.tendsto_sqrt_atTop.const_mul_atTop (by positivity)
      refine tendsto_atTop_mono' _ ?_ h1
      filter_upwards [eventually_gt_atTop 0] with t ht
      have e1 : √p ≤ √(t + p) + √(t + x) :=
        le_add_of_le_of_nonneg (Real.sqrt_le_sqrt (by linarith)) (Real.sqrt_nonneg _)
      have e2 : √p ≤ √(t + p) + √(t + y) :=
        le_add_of_le_of_nonneg (Real.sqrt_le_sqrt (by linarith)) (Real.sqrt_nonneg _)
      have e3 : √t ≤ √(t + p) + √(t + z) :=
        le_add_of_le_of_nonneg (Real.sqrt_le_sqrt (by linarith)) (Real.sqrt_nonneg _)
      unfold dd
      gcongr
  -- `d² + δ` along the path
  have hsum : ∀ t, 0 ≤ t → dd x y z p t ^ 2 + δ = dd x y z p t * (2 * √(t + p) * (t + p + lam x y z t)) := by
    intro t ht
    have ea := Real.mul_self_sqrt (show 0 ≤ t + x by linarith)
    have eb := Real.mul_self_sqrt (show 0 ≤ t + y by linarith)
    have ec := Real.mul_self_sqrt (show 0 ≤ t + z by linarith)
    have eq := Real.mul_self_sqrt (show 0 ≤ t + p by linarith)
    have e1 : p - x = √(t + p) * √(t + p) - √(t + x) * √(t + x) := by rw [ea, eq]; ring
    have e2 : p - y = √(t + p) * √(t + p) - √(t + y) * √(t + y) := by rw [eb, eq]; ring
    have e3 : p - z = √(t + p) * √(t + p) - √(t + z) * √(t + z) := by rw [ec, eq]; ring
    rw [hδ, e1, e2, e3, show t + p + lam x y z t = √(t + p) * √(t + p) + lam x y z t by rw [eq]]
    unfold dd lam
    ring
  have hd0 := hdpos 0 le_rfl
  have hpos0 : 0 < dd x y z p 0 ^ 2 + δ := by
    rw [hsum 0 le_rfl]
    have : 0 < √(0 + p) := Real.sqrt_pos.mpr (by linarith)
    have := lam0 0
    positivity
  have hrc := integral_RC (dd x y z p 0) δ hd0 hpos0
  rw [hs.integral] at hrc
  have e0 : ∫ t in Ioi (0 : ℝ), dd x y z p t * (1 / (2 * √(t + p)) * (lam x y z t / (√(t + x) * √(t + y) * √(t + z)))) *
      (1 / (dd x y z p t ^ 2 + δ)) =
      ∫ t in Ioi (0 : ℝ), 1 / 4 * (1 / (√(t + x) * √(t + y) * √(t + z)) * (1 / (t + p)) -
        1 / (√(t + x) * √(t + y) * √(t + z)) * (1 / (t + p + lam x y z t))) := by
    apply setIntegral_congr_fun measurableSet_Ioi
    intro t ht
    have ht : 0 < t := ht
    simp only
    rw [hsum t ht.le]
    have h1 : 0 < √(t + x) := Real.sqrt_pos.mpr (by linarith)
    have h2 : 0 < √(t + y) := Real.sqrt_pos.mpr (by linarith)
    have h3 : 0 < √(t + z) := Real.sqrt_pos.mpr (by linarith)
    have h4 : 0 < √(t + p) := Real.sqrt_pos.mpr (by linarith)
    have h5 := hdpos t ht.le
    have h6 := lam0 t
    have h7 : t + p = √(t + p) * √(t + p) := (Real.mul_self_sqrt (by linarith)).symm
    have h8 : 0 < t + p + lam x y z t := by linarith
    have h9 : 0 < t + p := by linarith
    generalize lam x y z t = L at *
    generalize √(t + x) * √(t + y) * √(t + z) = S at *
    generalize dd x y z p t = d at *
    generalize √(t + p) = q at *
    generalize t + p = w at *
    subst h7
    field_simp
    ring
  rw [e0, MeasureTheory.integral_const_mul, integral_sub i1 i2] at hrc
  have e1 : ∫ t in Ioi (0 : ℝ), 1 / (√(t + x) * √(t + y) * √(t + z)) * (1 / (t + p)) =
      ∫ t in Ioi (0 : ℝ), 1 / (√(t + x) * √(t + y) * √(t + z) * (t + p)) := by
    congr 1; funext t; rw [one_div_mul_one_div]
  have e2 := dup_integral h fun u => 1 / (u + (p + lam x y z 0) / 4)
  have e3 : ∫ t in Ioi (0 : ℝ), 1 / (√(t + x) * √(t + y) * √(t + z)) * (1 / (dupSub x y z t + (p + lam x y z 0) / 4)) =
      4 * ∫ t in Ioi (0 : ℝ), 1 / (√(t + x) * √(t + y) * √(t + z)) * (1 / (t + p + lam x y z t)) := by
    rw [← MeasureTheory.integral_const_mul]
    apply setIntegral_congr_fun measurableSet_Ioi
    intro t ht
    simp only
    rw [dupSub_factor h t ht]
    rw [one_div_div]
    ring
  have e4 : (fun u => 1 / (√(u + (x + lam x y z 0) / 4) * √(u + (y + lam x y z 0) / 4) *
      √(u + (z + lam x y z 0) / 4)) * (1 / (u + (p + lam x y z 0) / 4))) = fun u =>
      1 / (√(u + (x + lam x y z 0) / 4) * √(u + (y + lam x y z 0) / 4) *
      √(u + (z + lam x y z 0) / 4) * (u + (p + lam x y z 0) / 4)) := by
    funext u; rw [one_div_mul_one_div]
  rw [e4, e3] at e2
  rw [RJ, RJ, e2, ← e1]
  rw [show 6 / dd x y z p 0 * RC 1 (1 + δ / dd x y z p 0 ^ 2) =
    6 * (1 / dd x y z p 0 * RC 1 (1 + δ / dd x y z p 0 ^ 2)) by ring, ← hrc]
  ring

end Verif.Carlson
