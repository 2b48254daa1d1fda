import Verif.Ellred.RCint
import Verif.Ellred.Factors
import Mathlib.MeasureTheory.Integral.Asymptotics
import Mathlib.Analysis.SpecialFunctions.Complex.LogDeriv

/-! # `R_C` for complex arguments

`1 / (v² - κ)` has a primitive off the segment from `-√κ` to `√κ` that vanishes at infinity; integrals along paths off the segment
are its differences. -/

namespace Verif.Ellred

open MeasureTheory Set Filter Topology Verif.Carlson Bornology

/-- `v` is off the segment between the two square roots of `κ`. -/
def Off (κ v : ℂ) : Prop := ∀ θ ∈ Icc (0 : ℝ) 1, v ^ 2 ≠ θ * κ

theorem Off.ne {κ v : ℂ} (h : Off κ v) : v ≠ 0 := fun e => h 0 ⟨le_rfl, zero_le_one⟩ (by simp [e])

theorem Off.sub_ne {κ v : ℂ} (h : Off κ v) : v ^ 2 - κ ≠ 0 := fun e => h 1 ⟨zero_le_one, le_rfl⟩ (by push_cast; linear_combination e)

theorem Off.neg {κ v : ℂ} (h : Off κ v) : Off κ (-v) := fun θ hθ e => h θ hθ (by rw [← e]; ring)

/-- A primitive of `1 / (v² - κ)` that vanishes at infinity. -/
structure Prim (κ : ℂ) (G : ℂ → ℂ) : Prop where
  deriv : ∀ v, Off κ v → HasDerivAt G (1 / (v ^ 2 - κ)) v
  odd : ∀ v, Off κ v → G (-v) = -G v
  asymp : Tendsto (fun v => v * G v) (cobounded ℂ) (𝓝 (-1))

theorem Prim.tendsto {κ : ℂ} {G : ℂ → ℂ} (h : Prim κ G) : Tendsto G (cobounded ℂ) (𝓝 0) := by
  have := (tendsto_inv₀_cobounded (α := ℂ)).mul h.asymp
  rw [zero_mul] at this
  refine this.congr' ?_
  filter_upwards [(eventually_ne_cobounded (0 : ℂ))] with v hv
  field_simp

theorem exists_prim_log (κ : ℂ) : ∃ G, Prim κ G ∧
    (κ ≠ 0 → ∀ v, G v = 1 / (2 * csqrt κ) * Complex.log ((v - csqrt κ) / (v + csqrt κ))) := by
  by_cases hκ : κ = 0
  · subst hκ
    refine ⟨fun v => -v⁻¹, ⟨fun v hv => ?_, fun v _ => by rw [inv_neg], ?_⟩, fun h => absurd rfl h⟩
    · refine (hasDerivAt_inv hv.ne).neg.congr_deriv ?_
      rw [sub_zero, neg_neg, one_div]
    · refine (tendsto_const_nhds (x := (-1 : ℂ))).congr' ?_
      filter_upwards [(eventually_ne_cobounded (0 : ℂ))] with v hv
      field_simp
  · set c := csqrt κ with hc
    have hc2 : c ^ 2 = κ := by rw [hc, sq, csqrt_sq]
    have hc0 : c ≠ 0 := fun e => hκ (by rw [← hc2, e]; ring)
    have hp : ∀ v, Off κ v → v + c ≠ 0 := fun v hv e => hv 1 ⟨zero_le_one, le_rfl⟩ (by
      rw [← hc2, show v = -c by linear_combination e]; push_cast; ring)
    have hm : ∀ v, Off κ v → v - c ≠ 0 := fun v hv e => hv 1 ⟨zero_le_one, le_rfl⟩ (by
      rw [← hc2, show v = c by linear_combination e]; push_cast; ring)
    have hs : ∀ v, Off κ v → (v - c) / (v + c) ∈ Complex.slitPlane := by
      intro v hv
      by_contra hn
      rw [Complex.mem_slitPlane_iff, not_or, not_lt, not_not] at hn
      obtain ⟨ρ, hρ, e⟩ : ∃ ρ : ℝ, 0 ≤ ρ ∧ (v - c) / (v + c) = -(ρ : ℂ) :=
        ⟨-((v - c) / (v + c)).re, by linarith [hn.1], by apply Complex.ext <;> simp [hn.2]⟩
      rw [div_eq_iff (hp v hv)] at e
      have h1 : (1 : ℝ) + ρ ≠ 0 := by positivity
      have h1' : (1 : ℂ) + ρ ≠ 0 := by exact_mod_cast h1
      refine hv (((1 - ρ) / (1 + ρ)) ^ 2) ⟨sq_nonneg _, ?_⟩ ?_
      · rw [div_pow, div_le_one (by positivity)]
        nlinarith
      · have e2 : v = (1 - ρ) / (1 + ρ) * c := by
          rw [div_mul_eq_mul_div, eq_div_iff h1']
          linear_combination e
        rw [e2, ← hc2]
        push_cast
        ring
    refine ⟨fun v => 1 / (2 * c) * Complex.log ((v - c) / (v + c)), ⟨fun v hv => ?_, fun v hv => ?_, ?_⟩, fun _ v => rfl⟩
    · have h1 := hp v hv
      have h2 := hm v hv
      have := ((((hasDerivAt_id v).sub_const c).div ((hasDerivAt_id v).add_const c) h1).clog (hs v hv)).const_mul (1 / (2 * c))
      refine this.congr_deriv ?_
      have h3 : v ^ 2 - κ ≠ 0 := hv.sub_ne
      rw [← hc2] at h3 ⊢
      simp only [id, Pi.div_apply]
      have h3 : (v ^ 2 - c ^ 2) = (v - c) * (v + c) := by ring
      rw [h3]
      field_simp
      ring
    · rw [show (-v - c) / (-v + c) = ((v - c) / (v + c))⁻¹ by
        rw [inv_div, ← neg_div_neg_eq]; congr 1 <;> ring, Complex.log_inv _ (Complex.slitPlane_arg_ne_pi (hs v hv))]
      ring
    · have hd : HasDerivAt (fun h : ℂ => Complex.log ((1 - c * h) / (1 + c * h))) (-(2 * c)) 0 := by
        have h1 : HasDerivAt (fun h : ℂ => 1 - c * h) (-c) 0 := by
          simpa using ((hasDerivAt_id (0 : ℂ)).const_mul c).const_sub 1
        have h2 : HasDerivAt (fun h : ℂ => 1 + c * h) c 0 := by
          simpa using ((hasDerivAt_id (0 : ℂ)).const_mul c).const_add 1
        have h3 := (h1.div h2 (by simp)).clog (by simp)
        refine h3.congr_deriv ?_
        simp
        ring
      have h1 := hasDerivAt_iff_tendsto_slope_zero.mp hd
      have h2 : Tendsto (fun v : ℂ => v⁻¹) (cobounded ℂ) (𝓝[≠] 0) := tendsto_inv₀_cobounded'
      have h3 := ((h1.comp h2).const_mul (1 / (2 * c)))
      rw [show 1 / (2 * c) * -(2 * c) = -1 by field_simp] at h3
      refine h3.congr' ?_
      filter_upwards [(eventually_ne_cobounded (0 : ℂ)), (eventually_ne_cobounded (-c : ℂ))] with v hv hvc
      have : v + c ≠ 0 := fun e => hvc (by linear_combination e)
      simp only [Function.comp, zero_add, mul_zero, sub_zero, add_zero, div_one, Complex.log_one, inv_inv, smul_eq_mul]
      rw [show (1 - c * v⁻¹) / (1 + c * v⁻¹) = (v - c) / (v + c) by
        have : 1 + c * v⁻¹ ≠ 0 := by
          intro e
          apply this
          field_simp at e
          linear_combination e
        field_simp]
      ring

theorem exists_prim (κ : ℂ) : ∃ G, Prim κ G := (exists_prim_log κ).imp fun _ h => h.1

variable {κ : ℂ} {G : ℂ → ℂ}

/-- `R_C`, for arguments such that the path of the square roots is off the segment. -/
theorem Prim.rc (hG : Prim κ G) {S : ℂ} {k : ℝ} (hk : 0 < k) (hS : 0 < S.re) (ho : ∀ σ : ℝ, 0 ≤ σ → ∀ θ ∈ Icc (0 : ℝ) 1, S ^ 2 + σ ≠ θ * κ) :
    k * RCc ((k * S) ^ 2) (k ^ 2 * (S ^ 2 - κ)) = -G S := by
  have hk' : (k : ℂ) ≠ 0 := by exact_mod_cast hk.ne'
  have hsl : ∀ σ : ℝ, 0 ≤ σ → (σ : ℂ) + (k * S) ^ 2 ∈ Complex.slitPlane := by
    intro σ hσ
    rw [Complex.mem_slitPlane_iff]
    by_cases hi : S.im = 0
    · left
      have : S = (S.re : ℂ) := by apply Complex.ext <;> simp [hi]
      rw [this, ← Complex.ofReal_mul, ← Complex.ofReal_pow, ← Complex.ofReal_add, Complex.ofReal_re]
      positivity
    · right
      have : ((σ : ℂ) + (k * S) ^ 2).im = k ^ 2 * (2 * S.re * S.im) := by
        rw [mul_pow, ← Complex.ofReal_pow, Complex.add_im, Complex.ofReal_im, Complex.im_ofReal_mul, sq S, Complex.mul_im]
        ring
      rw [this]
      positivity
  set v : ℝ → ℂ := fun σ => csqrt (σ + (k * S) ^ 2) with hv
  have hv2 : ∀ σ, v σ ^ 2 = σ + (k * S) ^ 2 := fun σ => by rw [hv, sq, csqrt_sq]
  have hvd : ∀ σ, 0 ≤ σ → HasDerivAt v (1 / (2 * v σ)) σ := by
    intro σ hσ
    have f : Fac σ σ ((k * S) ^ 2) 1 := fun u hu => by
      have : u = σ := le_antisymm hu.2 hu.1
      rw [this, show (k * S) ^ 2 + 1 * (σ : ℂ) = σ + (k * S) ^ 2 by ring]
      exact hsl σ hσ
    have := f.deriv (t := σ) ⟨le_rfl, le_rfl⟩
    have e : X ((k * S) ^ 2) 1 = v := by
      funext u
      rw [X, hv]
      congr 1
      ring
    rwa [e] at this
  have hvne : ∀ σ, 0 ≤ σ → v σ ≠ 0 := fun σ hσ e => Complex.slitPlane_ne_zero (hsl σ hσ) (by rw [← hv2, e]; ring)
  have hoff : ∀ σ, 0 ≤ σ → Off κ (v σ / k) := by
    intro σ hσ θ hθ e
    refine ho (σ / k ^ 2) (by positivity) θ hθ ?_
    rw [← e, div_pow, hv2]
    push_cast
    field_simp
    ring
  have hd : ∀ σ, 0 ≤ σ → HasDerivAt (fun σ => G (v σ / k)) (k * (1 / 2 * (1 / (v σ * (σ + k ^ 2 * (S ^ 2 - κ)))))) σ := by
    intro σ hσ
    have h1 := hG.deriv _ (hoff σ hσ)
    have h2 := (hvd σ hσ).div_const (k : ℂ)
    have := h1.comp (σ : ℝ) h2
    refine this.congr_deriv ?_
    have hne := (hoff σ hσ).sub_ne
    have e1 : (v σ / k) ^ 2 - κ = (σ + k ^ 2 * (S ^ 2 - κ)) / k ^ 2 := by
      rw [div_pow, hv2]
      field_simp
      ring
    rw [e1] at hne ⊢
    have h3 : (σ : ℂ) + k ^ 2 * (S ^ 2 - κ) ≠ 0 := fun e => hne (by rw [e]; simp)
    have := hvne σ hσ
    field_simp
  have hco : Tendsto (fun σ => v σ / k) atTop (cobounded ℂ) := by
    have hn : Tendsto (fun σ : ℝ => ‖v σ‖) atTop atTop := by
      have h1 : Tendsto (fun σ : ℝ => ‖v σ‖ ^ 2) atTop atTop := by
        have h2 : Tendsto (fun σ : ℝ => σ - ‖((k : ℂ) * S) ^ 2‖) atTop atTop := tendsto_atTop_add_const_right _ _ tendsto_id
        refine tendsto_atTop_mono' _ ?_ h2
        filter_upwards [eventually_ge_atTop 0] with σ hσ
        rw [← norm_pow, hv2]
        have := norm_sub_norm_le (σ : ℂ) (-((k : ℂ) * S) ^ 2)
        rw [Complex.norm_real, Real.norm_of_nonneg hσ] at this
        have e1 : ‖-((k : ℂ) * S) ^ 2‖ = ‖((k : ℂ) * S) ^ 2‖ := by rw [norm_neg]
        rw [e1, sub_neg_eq_add] at this
        exact this
      have h3 := Real.tendsto_sqrt_atTop.comp h1
      exact h3.congr fun σ => by simp only [Function.comp]; rw [Real.sqrt_sq (norm_nonneg _)]
    rw [← tendsto_norm_atTop_iff_cobounded]
    refine (hn.atTop_div_const hk).congr fun σ => ?_
    rw [norm_div, Complex.norm_real, Real.norm_of_nonneg hk.le]
  have hint : IntegrableOn (fun σ : ℝ => k * (1 / 2 * (1 / (v σ * (σ + k ^ 2 * (S ^ 2 - κ)))))) (Ici 0) := by
    refine LocallyIntegrableOn.integrableOn_of_isBigO_atTop (g := fun σ : ℝ => σ ^ (-(3 / 2) : ℝ)) ?_ ?_ ?_
    · refine ContinuousOn.locallyIntegrableOn ?_ measurableSet_Ici
      refine continuousOn_const.mul (continuousOn_const.mul (ContinuousOn.div continuousOn_const ?_ ?_))
      · refine ContinuousOn.mul (fun σ hσ => (hvd σ hσ).continuousAt.continuousWithinAt) ?_
        fun_prop
      · intro σ hσ
        refine mul_ne_zero (hvne σ hσ) fun e => (hoff σ hσ).sub_ne ?_
        rw [div_pow, hv2]
        field_simp
        linear_combination e
    · refine Asymptotics.IsBigO.of_bound (k * 2) ?_
      filter_upwards [eventually_ge_atTop (4 * ‖((k : ℂ) * S) ^ 2‖), eventually_ge_atTop (2 * ‖(k : ℂ) ^ 2 * (S ^ 2 - κ)‖), eventually_gt_atTop 0]
        with σ h1 h2 h0
      have n1 : σ / 2 ≤ ‖v σ‖ ^ 2 := by
        rw [← norm_pow, hv2]
        have := norm_sub_norm_le (σ : ℂ) (-((k : ℂ) * S) ^ 2)
        rw [Complex.norm_real, Real.norm_of_nonneg h0.le] at this
        have e1 : ‖-((k : ℂ) * S) ^ 2‖ = ‖((k : ℂ) * S) ^ 2‖ := by rw [norm_neg]
        rw [e1, sub_neg_eq_add] at this
        linarith
      have n2 : σ / 2 ≤ ‖(σ : ℂ) + k ^ 2 * (S ^ 2 - κ)‖ := by
        have := norm_sub_norm_le (σ : ℂ) (-((k : ℂ) ^ 2 * (S ^ 2 - κ)))
        rw [Complex.norm_real, Real.norm_of_nonneg h0.le, norm_neg, sub_neg_eq_add] at this
        linarith
      have n3 : √σ / 2 ≤ ‖v σ‖ := by
        refine abs_le_of_sq_le_sq' ?_ (norm_nonneg _) |>.2
        rw [div_pow, Real.sq_sqrt h0.le]
        linarith
      have n4 : σ ^ (-(3 / 2) : ℝ) = 1 / (√σ * σ) := by
        rw [Real.rpow_neg h0.le, one_div, Real.sqrt_eq_rpow, ← Real.rpow_add_one h0.ne']
        norm_num
      rw [n4, norm_mul, norm_mul, norm_div, norm_div (1 : ℂ) (v σ * _), norm_mul (v σ), Complex.norm_real, Real.norm_of_nonneg hk.le, norm_one,
        Complex.norm_ofNat, Real.norm_of_nonneg (by positivity)]
      have hs := Real.sqrt_pos.mpr h0
      have n5 : (√σ * σ) / 4 ≤ ‖v σ‖ * ‖(σ : ℂ) + k ^ 2 * (S ^ 2 - κ)‖ := by
        calc _ = √σ / 2 * (σ / 2) := by ring
          _ ≤ _ := by gcongr
      have n6 : 1 / (‖v σ‖ * ‖(σ : ℂ) + k ^ 2 * (S ^ 2 - κ)‖) ≤ 1 / ((√σ * σ) / 4) := by
        apply one_div_le_one_div_of_le (by positivity) n5
      calc _ ≤ k * (1 / 2 * (1 / ((√σ * σ) / 4))) := by gcongr
        _ = _ := by field_simp; ring
    · exact ⟨Ioi 1, Ioi_mem_atTop 1, (integrableOn_Ioi_rpow_of_lt (by norm_num) zero_lt_one)⟩
  have := integral_Ioi_of_hasDerivAt_of_tendsto (hd 0 le_rfl).continuousAt.continuousWithinAt (fun σ hσ => hd σ (le_of_lt hσ))
    (hint.mono_set Ioi_subset_Ici_self) (hG.tendsto.comp hco)
  rw [MeasureTheory.integral_const_mul, MeasureTheory.integral_const_mul] at this
  rw [RCc, this]
  have e0 : v 0 / k = S := by
    have : v 0 = k * S := by
      rw [hv]
      simp only [Complex.ofReal_zero, zero_add]
      refine csqrt_of_sq ?_
      rw [Complex.re_ofReal_mul]
      positivity
    rw [this]
    field_simp
  rw [e0, zero_sub]

/-- An integral along a path that comes from infinity. -/
theorem Prim.path (hG : Prim κ G) {y x : ℝ} (hlt : y < x) {S S' : ℝ → ℂ} (hd : ∀ t ∈ Ioc y x, HasDerivAt S (S' t) t)
    (ho : ∀ t ∈ Ioc y x, Off κ (S t)) (hi : IntegrableOn (fun t => S' t / (S t ^ 2 - κ)) (Ioc y x))
    (hl : Tendsto S (𝓝[>] y) (cobounded ℂ)) : ∫ t in Ioc y x, S' t / (S t ^ 2 - κ) = G (S x) := by
  have h1 : ∀ t ∈ Ioc y x, HasDerivAt (fun t => G (S t)) (S' t / (S t ^ 2 - κ)) t := fun t ht => by
    have := (hG.deriv _ (ho t ht)).comp t (hd t ht)
    exact this.congr_deriv (by ring)
  have hx : x ∈ Ioc y x := ⟨hlt, le_rfl⟩
  have := intervalIntegral.integral_eq_sub_of_hasDerivAt_of_tendsto hlt (fun t ht => h1 t ⟨ht.1, ht.2.le⟩)
    (by rwa [intervalIntegrable_iff_integrableOn_Ioc_of_le hlt.le]) (hG.tendsto.comp hl)
    ((h1 x hx).continuousAt.tendsto.mono_left nhdsWithin_le_nhds)
  rw [intervalIntegral.integral_of_le hlt.le, sub_zero] at this
  exact this

end Verif.Ellred
