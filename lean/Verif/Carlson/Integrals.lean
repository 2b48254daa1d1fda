import Verif.Carlson.Spec
import Mathlib.Analysis.Calculus.Deriv.MeanValue
import Mathlib.Analysis.SpecialFunctions.Trigonometric.ArctanDeriv
import Mathlib.Analysis.SpecialFunctions.ImproperIntegrals
import Mathlib.MeasureTheory.Function.Jacobian
import Mathlib.Tactic

/-! # Substitution and integrability -/

namespace Verif.Carlson

open MeasureTheory Set Filter Topology

/-- A strictly increasing differentiable map of `(0, ∞)` onto `(a, ∞)`. -/
structure IsSubst (f f' : ℝ → ℝ) (a : ℝ) : Prop where
  deriv : ∀ t ∈ Ioi (0 : ℝ), HasDerivAt f (f' t) t
  pos : ∀ t ∈ Ioi (0 : ℝ), 0 < f' t
  zero : Tendsto f (𝓝[>] 0) (𝓝 a)
  infty : Tendsto f atTop atTop

theorem IsSubst.strictMono {f f' : ℝ → ℝ} {a : ℝ} (h : IsSubst f f' a) : StrictMonoOn f (Ioi 0) := by
  apply strictMonoOn_of_deriv_pos (convex_Ioi 0)
  · exact fun t ht => (h.deriv t ht).continuousAt.continuousWithinAt
  · intro t ht
    rw [interior_Ioi] at ht
    rw [(h.deriv t ht).deriv]
    exact h.pos t ht

theorem IsSubst.image {f f' : ℝ → ℝ} {a : ℝ} (h : IsSubst f f' a) : f '' Ioi 0 = Ioi a := by
  have hm := h.strictMono
  apply Subset.antisymm
  · rintro _ ⟨t, ht, rfl⟩
    have ht : 0 < t := ht
    have h2 : a ≤ f (t / 2) := by
      apply le_of_tendsto h.zero
      have : Ioo (0 : ℝ) (t / 2) ∈ 𝓝[>] (0 : ℝ) := Ioo_mem_nhdsGT (by linarith)
      filter_upwards [this] with s hs
      exact (hm hs.1 (show (0 : ℝ) < t / 2 by linarith) hs.2).le
    exact lt_of_le_of_lt h2 (hm (show (0 : ℝ) < t / 2 by linarith) ht (by linarith))
  · intro v hv
    have h1 : ∀ᶠ s in 𝓝[>] (0 : ℝ), f s < v := h.zero.eventually_lt_const hv
    obtain ⟨s, hs1, hs2⟩ := (h1.and self_mem_nhdsWithin).exists
    obtain ⟨t, ht1, ht2⟩ := ((h.infty.eventually_gt_atTop v).and (eventually_gt_atTop s)).exists
    have hs2 : 0 < s := hs2
    have hc : ContinuousOn f (Icc s t) := fun x hx =>
      (h.deriv x (lt_of_lt_of_le hs2 hx.1)).continuousAt.continuousWithinAt
    obtain ⟨x, hx, he⟩ := intermediate_value_Icc ht2.le hc ⟨hs1.le, ht1.le⟩
    exact ⟨x, lt_of_lt_of_le hs2 hx.1, he⟩

theorem IsSubst.integral {f f' : ℝ → ℝ} {a : ℝ} (h : IsSubst f f' a) (g : ℝ → ℝ) :
    ∫ u in Ioi a, g u = ∫ t in Ioi 0, f' t * g (f t) := by
  rw [← h.image, integral_image_eq_integral_abs_deriv_smul measurableSet_Ioi
    (fun t ht => (h.deriv t ht).hasDerivWithinAt) h.strictMono.injOn]
  apply setIntegral_congr_fun measurableSet_Ioi
  intro t ht
  simp only [smul_eq_mul, abs_of_pos (h.pos t ht)]

theorem IsSubst.integrable {f f' : ℝ → ℝ} {a : ℝ} (h : IsSubst f f' a) (g : ℝ → ℝ) :
    IntegrableOn g (Ioi a) ↔ IntegrableOn (fun t => f' t * g (f t)) (Ioi 0) := by
  rw [← h.image, integrableOn_image_iff_integrableOn_abs_deriv_smul measurableSet_Ioi
    (fun t ht => (h.deriv t ht).hasDerivWithinAt) h.strictMono.injOn]
  apply integrableOn_congr_fun _ measurableSet_Ioi
  intro t ht
  simp only [smul_eq_mul, abs_of_pos (h.pos t ht)]

/-! ### The majorant `1 / (√t (t + δ))` -/

theorem hasDerivAt_arctan_sqrt (δ : ℝ) (hδ : 0 < δ) (t : ℝ) (ht : 0 < t) :
    HasDerivAt (fun t => 2 / √δ * Real.arctan (√t / √δ)) (1 / (√t * (t + δ))) t := by
  have h1 : HasDerivAt (fun t => √t / √δ) (1 / (2 * √t) / √δ) t := (Real.hasDerivAt_sqrt ht.ne').div_const _
  have h2 := (h1.arctan).const_mul (2 / √δ)
  refine h2.congr_deriv ?_
  have ha : 0 < √t := Real.sqrt_pos.mpr ht
  have hb : 0 < √δ := Real.sqrt_pos.mpr hδ
  have hc : t = √t ^ 2 := (Real.sq_sqrt ht.le).symm
  have hd : δ = √δ ^ 2 := (Real.sq_sqrt hδ.le).symm
  generalize √t = a at *
  generalize √δ = b at *
  subst hc hd
  field_simp
  ring

theorem integrable_major (δ : ℝ) (hδ : 0 < δ) : IntegrableOn (fun t => 1 / (√t * (t + δ))) (Ioi 0) := by
  have hb : 0 < √δ := Real.sqrt_pos.mpr hδ
  apply integrableOn_Ioi_deriv_of_nonneg (g := fun t => 2 / √δ * Real.arctan (√t / √δ))
    (l := 2 / √δ * (Real.pi / 2))
  · apply Continuous.continuousWithinAt
    exact continuous_const.mul (Real.continuous_arctan.comp (Real.continuous_sqrt.div_const _))
  · exact fun t ht => hasDerivAt_arctan_sqrt δ hδ t ht
  · intro t ht
    have ht : 0 < t := ht
    positivity
  · apply Tendsto.const_mul
    apply (tendsto_nhds_of_tendsto_nhdsWithin Real.tendsto_arctan_atTop).comp
    exact Tendsto.atTop_div_const hb Real.tendsto_sqrt_atTop

/-- `∫ 1/(√t (t+δ)) = π/√δ`. -/
theorem integral_major (δ : ℝ) (hδ : 0 < δ) : ∫ t in Ioi (0 : ℝ), 1 / (√t * (t + δ)) = Real.pi / √δ := by
  have hb : 0 < √δ := Real.sqrt_pos.mpr hδ
  rw [integral_Ioi_of_hasDerivAt_of_nonneg (g := fun t => 2 / √δ * Real.arctan (√t / √δ))
    (l := 2 / √δ * (Real.pi / 2))]
  · simp
  · apply Continuous.continuousWithinAt
    exact continuous_const.mul (Real.continuous_arctan.comp (Real.continuous_sqrt.div_const _))
  · exact fun t ht => hasDerivAt_arctan_sqrt δ hδ t ht
  · intro t ht
    have ht : 0 < t := ht
    positivity
  · apply Tendsto.const_mul
    apply (tendsto_nhds_of_tendsto_nhdsWithin Real.tendsto_arctan_atTop).comp
    exact Tendsto.atTop_div_const hb Real.tendsto_sqrt_atTop

/-- A measurable function dominated by a multiple of the majorant is integrable. -/
theorem integrable_of_major (δ C : ℝ) (hδ : 0 < δ) (f : ℝ → ℝ) (hf : ContinuousOn f (Ioi 0))
    (hb : ∀ t ∈ Ioi (0 : ℝ), |f t| ≤ C * (1 / (√t * (t + δ)))) : IntegrableOn f (Ioi 0) := by
  refine Integrable.mono' ((integrable_major δ hδ).const_mul C) (hf.aestronglyMeasurable measurableSet_Ioi) ?_
  rw [ae_restrict_iff' measurableSet_Ioi]
  exact Eventually.of_forall fun t ht => hb t ht

namespace Args

variable {x y z : ℝ}

theorem symm12 (h : Args x y z) : Args y x z := ⟨h.y0, h.x0, h.z0, by linarith [h.xy], h.xz, h.yz⟩
theorem symm23 (h : Args x y z) : Args x z y := ⟨h.x0, h.z0, h.y0, h.xz, by linarith [h.yz], h.xy⟩
theorem symm13 (h : Args x y z) : Args z y x := h.symm12.symm23.symm12

/-- A common lower bound: `√(t+x) √(t+y) √(t+z) ≥ √t (t+δ)`. -/
theorem lower (h : Args x y z) : ∃ δ > 0, ∀ t > 0, √t * (t + δ) ≤ √(t + x) * √(t + y) * √(t + z) := by
  have key : ∀ a b c : ℝ, 0 ≤ a → 0 < b → 0 < c → ∀ t > 0, √t * (t + min b c) ≤ √(t + a) * √(t + b) * √(t + c) := by
    intro a b c ha hb hc t ht
    have hm : 0 < min b c := lt_min hb hc
    have h1 : √t ≤ √(t + a) := Real.sqrt_le_sqrt (by linarith)
    have h2 : √(t + min b c) ≤ √(t + b) := Real.sqrt_le_sqrt (by linarith [min_le_left b c])
    have h3 : √(t + min b c) ≤ √(t + c) := Real.sqrt_le_sqrt (by linarith [min_le_right b c])
    have h4 : t + min b c = √(t + min b c) * √(t + min b c) := (Real.mul_self_sqrt (by positivity)).symm
    calc √t * (t + min b c) = √t * (√(t + min b c) * √(t + min b c)) := by rw [← h4]
      _ = √t * √(t + min b c) * √(t + min b c) := by ring
      _ ≤ _ := by gcongr
  rcases eq_or_lt_of_le h.x0 with hx | hx
  · have hy : 0 < y := by linarith [h.xy]
    have hz : 0 < z := by linarith [h.xz]
    exact ⟨min y z, lt_min hy hz, key x y z h.x0 hy hz⟩
  · rcases eq_or_lt_of_le h.y0 with hy | hy
    · have hz : 0 < z := by linarith [h.yz]
      refine ⟨min x z, lt_min hx hz, fun t ht => ?_⟩
      have := key y x z h.y0 hx hz t ht
      linarith [mul_right_comm (√(t + y)) (√(t + x)) (√(t + z)), mul_comm (√(t + y)) (√(t + x))]
    · refine ⟨min x y, lt_min hx hy, fun t ht => ?_⟩
      have := key z x y h.z0 hx hy t ht
      nlinarith [this]

theorem cont (h : Args x y z) : ContinuousOn (fun t => 1 / (√(t + x) * √(t + y) * √(t + z))) (Ioi 0) := by
  intro t ht
  have ht : 0 < t := ht
  have h1 : 0 < t + x := by linarith [h.x0]
  have h2 : 0 < t + y := by linarith [h.y0]
  have h3 : 0 < t + z := by linarith [h.z0]
  apply ContinuousAt.continuousWithinAt
  apply ContinuousAt.div continuousAt_const
  · fun_prop
  · positivity

/-- The integrand of `R_F` is integrable. -/
theorem integrable (h : Args x y z) : IntegrableOn (fun t => 1 / (√(t + x) * √(t + y) * √(t + z))) (Ioi 0) := by
  obtain ⟨δ, hδ, hl⟩ := h.lower
  apply integrable_of_major δ 1 hδ _ h.cont
  intro t ht
  have ht : 0 < t := ht
  rw [one_mul, abs_of_nonneg (by positivity)]
  exact one_div_le_one_div_of_le (by positivity) (hl t ht)

/-- The integrand of `R_F` times a bounded continuous function is integrable. -/
theorem integrable_mul (h : Args x y z) (g : ℝ → ℝ) (hg : ContinuousOn g (Ioi 0)) (C : ℝ)
    (hC : ∀ t ∈ Ioi (0 : ℝ), |g t| ≤ C) :
    IntegrableOn (fun t => 1 / (√(t + x) * √(t + y) * √(t + z)) * g t) (Ioi 0) := by
  obtain ⟨δ, hδ, hl⟩ := h.lower
  apply integrable_of_major δ C hδ _ (h.cont.mul hg)
  intro t ht
  have hpos : 0 < t := ht
  rw [Pi.mul_apply, abs_mul, abs_of_nonneg (by positivity), mul_comm]
  apply mul_le_mul (hC t ht) _ (by positivity) (le_trans (abs_nonneg _) (hC t ht))
  exact one_div_le_one_div_of_le (by positivity) (hl t ht)

end Args

end Verif.Carlson
