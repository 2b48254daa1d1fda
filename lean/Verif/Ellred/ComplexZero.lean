import Verif.Ellred.ComplexRF

/-! # A zero argument -/

namespace Verif.Ellred

open MeasureTheory Set Filter Topology Verif.Carlson

/-- `R_F` is continuous where one argument tends to zero from the right. -/
theorem RFc_zero_limit {y z : ℂ} (hy : y ∈ Complex.slitPlane) (hz : z ∈ Complex.slitPlane) :
    Tendsto (fun r : ℝ => RFc ((r ^ 2 : ℝ) : ℂ) y z) (𝓝[>] 0) (𝓝 (RFc 0 y z)) := by
  simp only [RFc]
  apply Tendsto.const_mul
  obtain ⟨hc, C, hC, hb⟩ := (Dec.inv_sqrt hy).mul (Dec.inv_sqrt hz)
  have hI := (Args.integrable (x := 0) (y := 1) (z := 1) ⟨by norm_num, by norm_num, by norm_num, by norm_num, by norm_num, by norm_num⟩).const_mul C
  have hcs : ContinuousOn (fun t : ℝ => csqrt ((t : ℂ) + y) * csqrt ((t : ℂ) + z)) (Ioi 0) :=
    ((sqrt_cont hy).mul (sqrt_cont hz)).mono Ioi_subset_Ici_self
  refine tendsto_integral_filter_of_dominated_convergence _ ?_ ?_ hI ?_
  · filter_upwards [self_mem_nhdsWithin] with r hr
    have hr' : ((r ^ 2 : ℝ) : ℂ) ∈ Complex.slitPlane := re_slit (by rw [Complex.ofReal_re]; exact pow_pos hr 2)
    exact ((cS_dec hr' hy hz).integrable (by norm_num)).aestronglyMeasurable
  · filter_upwards with r
    rw [ae_restrict_iff' measurableSet_Ioi]
    refine Eventually.of_forall fun t ht => ?_
    have ht0 : 0 < t := ht
    rw [← Complex.ofReal_add, csqrt_ofReal (by positivity), mul_assoc, ← one_div_mul_one_div, norm_mul]
    have h1 := hb t ht0.le
    have h2 : ‖1 / ((√(t + r ^ 2) : ℝ) : ℂ)‖ ≤ 1 / √(t + 0) := by
      rw [norm_div, norm_one, Complex.norm_real, Real.norm_of_nonneg (Real.sqrt_nonneg _)]
      apply one_div_le_one_div_of_le (Real.sqrt_pos.mpr (by linarith))
      apply Real.sqrt_le_sqrt
      nlinarith [sq_nonneg r]
    have h3 : (1 + t) ^ (-(1 / 2 + 1 / 2 : ℝ)) = 1 / (√(t + 1) * √(t + 1)) := by
      rw [Real.mul_self_sqrt (by linarith)]
      norm_num
      rw [Real.rpow_neg_one, add_comm]
    rw [h3] at h1
    have h4 : 1 / (csqrt ((t : ℂ) + y) * csqrt ((t : ℂ) + z)) = 1 / csqrt ((t : ℂ) + y) * (1 / csqrt ((t : ℂ) + z)) := (one_div_mul_one_div _ _).symm
    rw [h4]
    calc _ ≤ 1 / √(t + 0) * (C * (1 / (√(t + 1) * √(t + 1)))) := mul_le_mul h2 h1 (norm_nonneg _) (by positivity)
      _ = _ := by field_simp
  · rw [ae_restrict_iff' measurableSet_Ioi]
    refine Eventually.of_forall fun t ht => ?_
    have ht0 : 0 < t := ht
    have e : ∀ r : ℝ, 1 / (csqrt ((t : ℂ) + ((r ^ 2 : ℝ) : ℂ)) * csqrt ((t : ℂ) + y) * csqrt ((t : ℂ) + z)) =
        1 / (((√(t + r ^ 2) : ℝ) : ℂ) * csqrt ((t : ℂ) + y) * csqrt ((t : ℂ) + z)) := fun r => by
      rw [← Complex.ofReal_add, csqrt_ofReal (by positivity)]
    have e0 : csqrt ((t : ℂ) + 0) = ((√(t + 0 ^ 2) : ℝ) : ℂ) := by
      rw [add_zero, csqrt_ofReal ht0.le]; norm_num
    simp only [e, e0]
    refine Tendsto.mono_left ?_ nhdsWithin_le_nhds
    have hcont : ContinuousAt (fun r : ℝ => 1 / (((√(t + r ^ 2) : ℝ) : ℂ) * csqrt ((t : ℂ) + y) * csqrt ((t : ℂ) + z))) 0 := by
      apply ContinuousAt.div continuousAt_const
      · refine ContinuousAt.mul (ContinuousAt.mul ?_ continuousAt_const) continuousAt_const
        exact Complex.continuous_ofReal.continuousAt.comp (Real.continuous_sqrt.continuousAt.comp (by fun_prop))
      · refine mul_ne_zero (mul_ne_zero ?_ (sqrt_ne hy ht0.le)) (sqrt_ne hz ht0.le)
        have : 0 < √(t + 0 ^ 2) := Real.sqrt_pos.mpr (by linarith)
        exact_mod_cast this.ne'
    exact hcont.tendsto

/-- The duplication theorem with a zero argument. -/
theorem RFc_dup_zero {y z : ℂ} (hy : y ∈ Complex.slitPlane) (hz : z ∈ Complex.slitPlane) :
    RFc ((0 + lmOf 0 y z) / 4) ((y + lmOf 0 y z) / 4) ((z + lmOf 0 y z) / 4) = RFc 0 y z := by
  have hzero : csqrt 0 = 0 := csqrt_eq_zero.mpr rfl
  have hsl : (0 + lmOf 0 y z) / 4 ∈ Complex.slitPlane ∧ (y + lmOf 0 y z) / 4 ∈ Complex.slitPlane ∧ (z + lmOf 0 y z) / 4 ∈ Complex.slitPlane :=
    dup_slit' (by rw [hzero, zero_add]; exact csqrt_re_pos hy) (by rw [hzero, zero_add]; exact csqrt_re_pos hz) (re_sum_pos hy hz)
  let L : ℝ → ℂ := fun r => (r : ℂ) * csqrt y + (r : ℂ) * csqrt z + csqrt y * csqrt z
  have hL0 : L 0 = lmOf 0 y z := by simp [L, lmOf, hzero]
  have hL : HasDerivAt L (csqrt y + csqrt z) 0 := by
    have h := (hasDerivAt_id (0 : ℝ)).ofReal_comp
    exact (((h.mul_const (csqrt y)).add (h.mul_const (csqrt z))).add_const (csqrt y * csqrt z)).congr_deriv (by simp)
  have hsq : HasDerivAt (fun r : ℝ => ((r ^ 2 : ℝ) : ℂ)) 0 0 := ((hasDerivAt_pow 2 (0 : ℝ)).ofReal_comp).congr_deriv (by simp)
  have hD := RFc_deriv ((hsq.add hL).div_const 4) ((hL.const_add y).div_const 4) ((hL.const_add z).div_const 4)
    (by simpa [hL0] using hsl.1) (by simpa [hL0] using hsl.2.1) (by simpa [hL0] using hsl.2.2)
  have h1 := hD.continuousAt.tendsto.mono_left (nhdsWithin_le_nhds (s := Ioi (0 : ℝ)))
  have h2 := RFc_zero_limit hy hz
  refine tendsto_nhds_unique (?_ : Tendsto _ (𝓝[>] (0 : ℝ)) _) h2
  have e0 : RFc ((0 + lmOf 0 y z) / 4) ((y + lmOf 0 y z) / 4) ((z + lmOf 0 y z) / 4) =
      RFc ((((0 : ℝ) ^ 2 : ℝ) + L 0) / 4) ((y + L 0) / 4) ((z + L 0) / 4) := by
    rw [hL0]; norm_num
  rw [e0]
  refine h1.congr' ?_
  filter_upwards [self_mem_nhdsWithin] with r hr
  have hr0 : 0 < r := hr
  have hr' : ((r ^ 2 : ℝ) : ℂ) ∈ Complex.slitPlane := re_slit (by rw [Complex.ofReal_re]; exact pow_pos hr0 2)
  have hrs : csqrt ((r ^ 2 : ℝ) : ℂ) = r := by rw [csqrt_ofReal (by positivity), Real.sqrt_sq hr0.le]
  have hlm : lmOf ((r ^ 2 : ℝ) : ℂ) y z = L r := by simp only [lmOf, hrs, L]
  have := RFc_dup hr' hy hz
  rw [hlm] at this
  exact this

/-- `R_C(0, y) = π / (2 √y)`. -/
theorem RCc_zero {y : ℂ} (hy : y ∈ Complex.slitPlane) : RCc 0 y = (Real.pi / 2 : ℝ) / csqrt y := by
  have hzero : csqrt 0 = 0 := csqrt_eq_zero.mpr rfl
  have h1 : ∀ {w : ℂ}, w ∈ Complex.slitPlane → RFc 0 w w = RFc (1 / 4) (1 / 2) (1 / 2) / csqrt w := by
    intro w hw
    have hlm : lmOf 0 w w = w := by simp only [lmOf, hzero, zero_mul, zero_add, csqrt_sq]
    have hd := RFc_dup_zero hw hw
    rw [hlm] at hd
    have hk : ∀ c : ℝ, 0 < c → KGood w (c : ℂ) := by
      intro c hc
      refine ⟨by rw [Complex.ofReal_re]; exact hc, fun hre => ?_⟩
      have him : w.im ≠ 0 := by
        rcases Complex.mem_slitPlane_iff.mp hw with h | h
        · exact absurd h (not_lt.mpr hre.le)
        · exact h
      rw [Complex.im_mul_ofReal]
      have : w.im * c * w.im = c * (w.im * w.im) := by ring
      rw [this]
      exact mul_pos hc (mul_self_pos.mpr him)
    have := RFc_rotate (Complex.slitPlane_ne_zero hw) (hk (1 / 4) (by norm_num)) (hk (1 / 2) (by norm_num)) (hk (1 / 2) (by norm_num))
    push_cast at this
    rw [← this, ← hd]
    congr 1 <;> ring
  have h2 : RFc 0 1 1 = (Real.pi / 2 : ℝ) := by
    have hr := RC_zero (y := 1) one_pos
    rw [← RCc_eq_RFc, RCc]
    rw [RC, Real.sqrt_one, div_one] at hr
    rw [← hr]
    push_cast
    rw [← integral_complex_ofReal]
    congr 1
    apply setIntegral_congr_fun measurableSet_Ioi
    intro t ht
    have ht0 : 0 < t := ht
    simp only
    rw [add_zero, add_zero, csqrt_ofReal ht0.le]
    push_cast
    rfl
  have h3 := h1 (w := 1) (re_slit (by simp))
  rw [h2, show csqrt 1 = 1 by simp [csqrt], div_one] at h3
  rw [RCc_eq_RFc, h1 hy, ← h3]

/-! ### C145 -/

/-- The arguments for which the routine is meant to return the integral: none on the negative real axis, at most one of them zero, and either
their arguments (angles in `(-π, π]`) differ by less than `π`, or one of them has a non-negative real part. -/
structure CArgs (x y z : ℂ) : Prop where
  x0 : x = 0 ∨ x ∈ Complex.slitPlane
  y0 : y = 0 ∨ y ∈ Complex.slitPlane
  z0 : z = 0 ∨ z ∈ Complex.slitPlane
  xy : x ≠ 0 ∨ y ≠ 0
  xz : x ≠ 0 ∨ z ≠ 0
  yz : y ≠ 0 ∨ z ≠ 0
  side : (|x.arg - y.arg| < Real.pi ∧ |x.arg - z.arg| < Real.pi ∧ |y.arg - z.arg| < Real.pi) ∨ 0 ≤ x.re ∨ 0 ≤ y.re ∨ 0 ≤ z.re

theorem CArgs.sum3 {x y z : ℂ} (h : CArgs x y z) : Sum3 ⟨x, y, z, fA0 x y z, 1⟩ := by
  have key : ∀ {a b : ℂ}, (a = 0 ∨ a ∈ Complex.slitPlane) → (b = 0 ∨ b ∈ Complex.slitPlane) → (a ≠ 0 ∨ b ≠ 0) → 0 < (csqrt a + csqrt b).re := by
    intro a b ha hb hab
    have hzero : csqrt 0 = 0 := csqrt_eq_zero.mpr rfl
    rcases ha with rfl | ha <;> rcases hb with rfl | hb
    · simp at hab
    · rw [hzero, zero_add]; exact csqrt_re_pos hb
    · rw [hzero, add_zero]; exact csqrt_re_pos ha
    · exact re_sum_pos ha hb
  exact ⟨key h.x0 h.y0 h.xy, key h.x0 h.z0 h.xz, key h.y0 h.z0 h.yz⟩

theorem CArgs.dup {x y z : ℂ} (h : CArgs x y z) :
    RFc (fStep ⟨x, y, z, fA0 x y z, 1⟩).x (fStep ⟨x, y, z, fA0 x y z, 1⟩).y (fStep ⟨x, y, z, fA0 x y z, 1⟩).z = RFc x y z := by
  simp only [fStep]
  rcases h.x0 with rfl | hx
  · exact RFc_dup_zero (h.y0.resolve_left (by simpa using h.xy)) (h.z0.resolve_left (by simpa using h.xz))
  rcases h.y0 with rfl | hy
  · have := RFc_dup_zero hx (h.z0.resolve_left (by simpa using h.yz))
    rw [RFc_swap12 0, RFc_swap12 ((0 + _) / 4), ← lmOf_swap12] at this
    exact this
  rcases h.z0 with rfl | hz
  · have := RFc_dup_zero hx hy
    rw [RFc_swap12 0, RFc_swap23 x, RFc_swap12 ((0 + _) / 4), RFc_swap23 ((x + _) / 4), ← lmOf_swap12, ← lmOf_swap23] at this
    exact this
  exact RFc_dup hx hy hz

/-- A zero argument makes the loop run. -/
theorem zero_runs {eps : ℝ} (h0 : 0 < eps) (h1 : eps ≤ 1) {A x y z : ℂ} (hA : A = fA0 x y z) (hz : x = 0 ∨ y = 0 ∨ z = 0) (hne : ¬(x = 0 ∧ y = 0 ∧ z = 0)) :
    ‖A‖ < hQ eps 3 A x y z := by
  have hE : 0 < EPS eps := by unfold EPS; positivity
  have hE1 : EPS eps ≤ 1 / 1000000 := by unfold EPS; linarith
  obtain ⟨ε, hε0, hε4, hε6, hκ⟩ := tolerance (b := EPS eps * 3) (by positivity) (by linarith)
  rw [hQ, hκ]
  set M := max (max ‖A - x‖ ‖A - y‖) ‖A - z‖ with hM
  have m1 : ‖A - x‖ ≤ M := (le_max_left _ _).trans (le_max_left _ _)
  have m2 : ‖A - y‖ ≤ M := (le_max_right _ _).trans (le_max_left _ _)
  have m3 : ‖A - z‖ ≤ M := le_max_right _ _
  have hAM : ‖A‖ ≤ M := by
    rcases hz with rfl | rfl | rfl
    · simpa using m1
    · simpa using m2
    · simpa using m3
  have hMpos : 0 < M := by
    by_contra hc
    have hM0 : M ≤ 0 := not_lt.mp hc
    have hA0 : A = 0 := norm_le_zero_iff.mp (hAM.trans hM0)
    apply hne
    rw [hA0] at m1 m2 m3
    simp only [zero_sub, norm_neg] at m1 m2 m3
    exact ⟨norm_le_zero_iff.mp (m1.trans hM0), norm_le_zero_iff.mp (m2.trans hM0), norm_le_zero_iff.mp (m3.trans hM0)⟩
  have h4 : 4 ≤ 1 / ε := by rw [le_div_iff₀ hε0]; linarith
  nlinarith

theorem CArgs.start {eps : ℝ} (h0 : 0 < eps) (h1 : eps ≤ 1) {x y z : ℂ} (h : CArgs x y z) (hq : hQ eps 3 (fA0 x y z) x y z ≤ ‖fA0 x y z‖) :
    (x ∈ Complex.slitPlane ∧ y ∈ Complex.slitPlane ∧ z ∈ Complex.slitPlane) ∧ ((NC x y ∧ NC x z ∧ NC y z) ∨ 0 ≤ x.re ∨ 0 ≤ y.re ∨ 0 ≤ z.re) := by
  have hn : ¬(x = 0 ∨ y = 0 ∨ z = 0) := fun hz => absurd hq (not_le.mpr (zero_runs h0 h1 rfl hz fun hh => by
    rcases h.xy with e | e
    · exact e hh.1
    · exact e hh.2.1))
  push Not at hn
  obtain ⟨nx, ny, nz⟩ := hn
  refine ⟨⟨h.x0.resolve_left nx, h.y0.resolve_left ny, h.z0.resolve_left nz⟩, ?_⟩
  rcases h.side with ⟨a, b, c⟩ | hr
  · exact Or.inl ⟨NC_of_arg nx ny a, NC_of_arg nx nz b, NC_of_arg ny nz c⟩
  · exact Or.inr hr

/-- C145, `elliprc`: the value differs from `R_C(x, y)` by at most a relative error of `2 · EPS = 2e-6 eps`. -/
theorem C145_elliprc {eps : ℝ} (h0 : 0 < eps) (h1 : eps ≤ 1) {x y : ℂ} (h : CArgs x y y) :
    ∃ v, elliprc eps x y = .val v ∧ ‖v - RCc x y‖ ≤ 2 * EPS eps * ‖RCc x y‖ := by
  have hE : 0 < EPS eps := by unfold EPS; positivity
  have hy0 : y ≠ 0 := by simpa using h.yz
  have hy := h.y0.resolve_left hy0
  rw [elliprc, if_neg hy0]
  by_cases hx : x = 0
  · subst hx
    rw [if_pos rfl]
    refine ⟨_, rfl, ?_⟩
    rw [RCc_zero hy, sub_self, norm_zero]
    positivity
  · rw [if_neg hx, if_neg]
    · exact rcCore_complex h0 h1 h.sum3 h.dup (h.start h0 h1)
    · rintro ⟨e1, e2⟩
      rcases Complex.mem_slitPlane_iff.mp hy with hh | hh
      · exact absurd hh (not_lt.mpr e2.le)
      · exact hh e1

theorem CArgs.swap23 {x y z : ℂ} (h : CArgs x y z) : CArgs x z y :=
  ⟨h.x0, h.z0, h.y0, h.xz, h.xy, h.yz.symm, h.side.imp (fun ⟨a, b, c⟩ => ⟨b, a, by rw [abs_sub_comm]; exact c⟩) fun h => by tauto⟩

theorem CArgs.swap12 {x y z : ℂ} (h : CArgs x y z) : CArgs y x z :=
  ⟨h.y0, h.x0, h.z0, h.xy.symm, h.yz, h.xz, h.side.imp (fun ⟨a, b, c⟩ => ⟨by rw [abs_sub_comm]; exact a, c, b⟩) fun h => by tauto⟩

/-- C145, `elliprf`: the value differs from `R_F(x, y, z)` by at most a relative error of `2 · EPS = 2e-6 eps`. -/
theorem C145_elliprf {eps : ℝ} (h0 : 0 < eps) (h1 : eps ≤ 1) {x y z : ℂ} (h : CArgs x y z) :
    ∃ v, elliprf eps x y z = .val v ∧ ‖v - RFc x y z‖ ≤ 2 * EPS eps * ‖RFc x y z‖ := by
  rw [elliprf]
  split_ifs with e1 e2 e3
  · subst e1
    rw [← RCc_eq_RFc]
    exact C145_elliprc h0 h1 h
  · subst e2
    rw [RFc_swap12, ← RCc_eq_RFc]
    exact C145_elliprc h0 h1 h.swap12
  · subst e3
    rw [RFc_swap23, RFc_swap12, ← RCc_eq_RFc]
    exact C145_elliprc h0 h1 h.swap23.swap12
  · exact rfCore_complex h0 h1 h.sum3 h.dup (h.start h0 h1)

end Verif.Ellred
