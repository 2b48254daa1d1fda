import Mathlib.Analysis.Calculus.ParametricIntervalIntegral
import Mathlib.MeasureTheory.Integral.IntervalIntegral.FundThmCalculus
import Mathlib.Analysis.Calculus.FDeriv.Mul
import Mathlib.Analysis.SpecialFunctions.Pow.Deriv

/-! # Differentiating an integral along a path of parameters and limits -/

namespace Verif.Ellred

open MeasureTheory Set Filter Topology

/-- The part of the integral near a moving limit. -/
theorem hasDerivAt_end {g : ℝ → ℝ → ℂ} {x : ℝ → ℝ} {x' s0 : ℝ} (hx : HasDerivAt x x' s0)
    (hg : ContinuousAt (Function.uncurry g) (s0, x s0)) (hi : ∀ᶠ s in 𝓝 s0, IntervalIntegrable (g s) volume (x s0) (x s)) :
    HasDerivAt (fun s => ∫ t in (x s0)..(x s), g s t) (x' * g s0 (x s0)) s0 := by
  have key : (fun s => (∫ t in (x s0)..(x s), g s t) - (x s - x s0 : ℝ) • g s0 (x s0)) =o[𝓝 s0] fun s => x s - x s0 := by
    rw [Asymptotics.isLittleO_iff]
    intro ε hε
    have h1 : ∀ᶠ p : ℝ × ℝ in 𝓝 (s0, x s0), ‖Function.uncurry g p - g s0 (x s0)‖ ≤ ε := by
      have := (hg.sub continuousAt_const).norm.eventually_lt continuousAt_const (show ‖Function.uncurry g (s0, x s0) - g s0 (x s0)‖ < ε by simpa)
      filter_upwards [this] with p hp using hp.le
    rw [nhds_prod_eq, eventually_prod_iff] at h1
    obtain ⟨P, hP, Q, hQ, h⟩ := h1
    obtain ⟨δ, hδ, hQ'⟩ := Metric.eventually_nhds_iff_ball.mp hQ
    have h2 : ∀ᶠ s in 𝓝 s0, dist (x s) (x s0) < δ := hx.continuousAt.eventually (Metric.ball_mem_nhds _ hδ)
    filter_upwards [hP, h2, hi] with s s1 s2 s3
    have e : (∫ t in (x s0)..(x s), g s t) - (x s - x s0 : ℝ) • g s0 (x s0) = ∫ t in (x s0)..(x s), (g s t - g s0 (x s0)) := by
      rw [intervalIntegral.integral_sub s3 intervalIntegrable_const, intervalIntegral.integral_const]
    rw [e, Real.norm_eq_abs (x s - x s0)]
    refine intervalIntegral.norm_integral_le_of_norm_le_const fun t ht => ?_
    refine h s1 (hQ' t ?_)
    rw [Metric.mem_ball]
    refine lt_of_le_of_lt ?_ s2
    have := uIoc_subset_uIcc ht
    rw [Real.dist_eq, Real.dist_eq]
    exact abs_sub_left_of_mem_uIcc this
  have k2 : (fun s => (∫ t in (x s0)..(x s), g s t) - (x s - x s0 : ℝ) • g s0 (x s0)) =o[𝓝 s0] fun s => s - s0 :=
    key.trans_isBigO hx.isBigO_sub
  have k3 : HasDerivAt (fun s => (x s - x s0 : ℝ) • g s0 (x s0)) (x' • g s0 (x s0)) s0 := (hx.sub_const _).smul_const _
  rw [hasDerivAt_iff_isLittleO] at k3 ⊢
  refine (k2.add k3).congr_left fun s => ?_
  simp

/-- Leibniz's rule along a path. -/
theorem hasDerivAt_leibniz {n : ℕ} {f : (Fin n → ℂ) → ℝ → ℂ} {f' : (Fin n → ℂ) → ℝ → (Fin n → ℂ) →L[ℂ] ℂ} {U : Set ((Fin n → ℂ) × ℝ)} (hU : IsOpen U)
    (hf : ContinuousOn (Function.uncurry f) U) (hf' : ContinuousOn (Function.uncurry f') U)
    (hd : ∀ p ∈ U, HasFDerivAt (fun w => f w p.2) (f' p.1 p.2) p.1) {a : ℝ → Fin n → ℂ} {a' : Fin n → ℂ} {x y : ℝ → ℝ} {x' y' s0 : ℝ}
    (ha : HasDerivAt a a' s0) (hx : HasDerivAt x x' s0) (hy : HasDerivAt y y' s0) (hi : ∀ t ∈ uIcc (y s0) (x s0), (a s0, t) ∈ U) :
    HasDerivAt (fun s => ∫ t in (y s)..(x s), f (a s) t)
      ((∫ t in (y s0)..(x s0), f' (a s0) t a') + x' * f (a s0) (x s0) - y' * f (a s0) (y s0)) s0 := by
  obtain ⟨δ, δ0, hδ⟩ := (isCompact_singleton (x := a s0).prod (isCompact_uIcc (a := y s0) (b := x s0))).exists_cthickening_subset_open hU (by
    rintro ⟨w, t⟩ ⟨h1, h2⟩
    obtain rfl : w = a s0 := h1
    exact hi t h2)
  set m := min (y s0) (x s0) with hm
  set M := max (y s0) (x s0) with hM
  have hmM : m ≤ M := min_le_max
  have hS : Metric.closedBall (a s0) δ ×ˢ Icc (m - δ) (M + δ) ⊆ U := by
    rintro ⟨w, t⟩ ⟨h1, h2⟩
    apply hδ
    refine Metric.mem_cthickening_of_dist_le (w, t) (a s0, max m (min t M)) δ _ ⟨rfl, ⟨le_max_left _ _, max_le hmM (min_le_right _ _)⟩⟩ ?_
    rw [Prod.dist_eq]
    refine max_le h1 ?_
    rw [Real.dist_eq, abs_le]
    have h3 := h2.1
    have h4 := h2.2
    simp only at h3 h4 ⊢
    constructor
    · have : max m (min t M) ≤ t + δ := max_le (by linarith) ((min_le_left _ _).trans (by linarith))
      linarith
    · have : t - δ ≤ max m (min t M) := (le_min (by linarith) (by linarith)).trans (le_max_right m (min t M))
      linarith
  have hx0 : x s0 ∈ Icc m M := ⟨min_le_right _ _, le_max_right _ _⟩
  have hy0 : y s0 ∈ Icc m M := ⟨min_le_left _ _, le_max_left _ _⟩
  have cont : ∀ w ∈ Metric.closedBall (a s0) δ, ContinuousOn (f w) (Icc (m - δ) (M + δ)) := by
    intro w hw
    exact hf.comp (f := fun t : ℝ => (w, t)) (by fun_prop) fun t ht => hS ⟨hw, ht⟩
  have ii : ∀ w ∈ Metric.closedBall (a s0) δ, ∀ p ∈ Icc (m - δ) (M + δ), ∀ q ∈ Icc (m - δ) (M + δ), IntervalIntegrable (f w) volume p q := by
    intro w hw p hp q hq
    exact ((cont w hw).mono (uIcc_subset_Icc hp hq)).intervalIntegrable
  have ev1 : ∀ᶠ s in 𝓝 s0, a s ∈ Metric.closedBall (a s0) δ := ha.continuousAt.eventually (Metric.closedBall_mem_nhds _ δ0)
  have ev2 : ∀ᶠ s in 𝓝 s0, x s ∈ Icc (m - δ) (M + δ) :=
    hx.continuousAt.eventually (Icc_mem_nhds (by linarith [hx0.1]) (by linarith [hx0.2]))
  have ev3 : ∀ᶠ s in 𝓝 s0, y s ∈ Icc (m - δ) (M + δ) :=
    hy.continuousAt.eventually (Icc_mem_nhds (by linarith [hy0.1]) (by linarith [hy0.2]))
  have sub : Icc m M ⊆ Icc (m - δ) (M + δ) := Icc_subset_Icc (by linarith) (by linarith)
  have mid : HasDerivAt (fun s => ∫ t in (y s0)..(x s0), f (a s) t) (∫ t in (y s0)..(x s0), f' (a s0) t a') s0 := by
    obtain ⟨C, hC⟩ := ((isCompact_closedBall (a s0) δ).prod (isCompact_Icc (a := m - δ) (b := M + δ))).exists_bound_of_continuousOn (hf'.mono hS)
    have hsub : uIoc (y s0) (x s0) ⊆ Icc (m - δ) (M + δ) := (uIoc_subset_uIcc).trans sub
    have c' : ContinuousOn (f' (a s0)) (Icc (m - δ) (M + δ)) :=
      hf'.comp (f := fun t : ℝ => (a s0, t)) (by fun_prop) fun t ht => hS ⟨Metric.mem_closedBall_self δ0.le, ht⟩
    have c'' : IntervalIntegrable (f' (a s0)) volume (y s0) (x s0) := (c'.mono (uIcc_subset_Icc (sub hy0) (sub hx0))).intervalIntegrable
    have h := intervalIntegral.hasFDerivAt_integral_of_dominated_of_fderiv_le (𝕜 := ℂ) (μ := volume) (F := f) (F' := f') (a := y s0) (b := x s0) (bound := fun _ => C)
      (Metric.closedBall_mem_nhds (a s0) δ0)
      (by
        filter_upwards [Metric.closedBall_mem_nhds (a s0) δ0] with w hw
        exact ((cont w hw).mono hsub).aestronglyMeasurable measurableSet_uIoc)
      (ii _ (Metric.mem_closedBall_self δ0.le) _ (sub hy0) _ (sub hx0))
      ((c'.mono hsub).aestronglyMeasurable measurableSet_uIoc)
      (ae_of_all _ fun t ht w hw => hC (w, t) ⟨hw, hsub ht⟩)
      intervalIntegrable_const
      (ae_of_all _ fun t ht w hw => hd (w, t) (hS ⟨hw, hsub ht⟩))
    have h2 := (h.restrictScalars ℝ).comp_hasDerivAt s0 ha
    have h3 : ∫ t in (y s0)..(x s0), f' (a s0) t a' = (∫ t in (y s0)..(x s0), f' (a s0) t) a' :=
      (ContinuousLinearMap.intervalIntegral_apply c'' a').symm
    rw [h3]
    exact h2
  have gc : ∀ t ∈ Icc m M, ContinuousAt (Function.uncurry fun s t => f (a s) t) (s0, t) := by
    intro t ht
    have h1 : ContinuousAt (Function.uncurry f) (a s0, t) := hf.continuousAt (hU.mem_nhds (hS ⟨Metric.mem_closedBall_self δ0.le, sub ht⟩))
    have h2 : ContinuousAt (fun p : ℝ × ℝ => (a p.1, p.2)) (s0, t) := by
      refine ContinuousAt.prodMk ?_ continuousAt_snd
      exact ContinuousAt.comp (g := a) (f := Prod.fst) (x := (s0, t)) ha.continuousAt continuousAt_fst
    exact ContinuousAt.comp (g := Function.uncurry f) (f := fun p : ℝ × ℝ => (a p.1, p.2)) h1 h2
  have e1 := hasDerivAt_end (g := fun s t => f (a s) t) hx (gc _ hx0) (by
    filter_upwards [ev1, ev2] with s s1 s2 using ii _ s1 _ (sub hx0) _ s2)
  have e2 := hasDerivAt_end (g := fun s t => f (a s) t) hy (gc _ hy0) (by
    filter_upwards [ev1, ev3] with s s1 s2 using ii _ s1 _ (sub hy0) _ s2)
  refine ((mid.add e1).sub e2).congr_of_eventuallyEq ?_
  filter_upwards [ev1, ev2, ev3] with s s1 s2 s3
  have := intervalIntegral.integral_add_adjacent_intervals (ii _ s1 _ (sub hy0) _ (sub hx0)) (ii _ s1 _ (sub hx0) _ s2)
  have h3 := intervalIntegral.integral_add_adjacent_intervals (ii _ s1 _ (sub hy0) _ s3) (ii _ s1 _ s3 _ s2)
  simp only [Pi.sub_apply, Pi.add_apply]
  rw [this, ← h3]
  ring

/-- `∏ (w_i + t) ^ e_i`. -/
noncomputable def powProd {n : ℕ} (e : Fin n → ℂ) (w : Fin n → ℂ) (t : ℝ) : ℂ := ∏ i, (w i + (t : ℂ)) ^ e i

/-- Its derivative in direction `v`, by the exponents lowered by one. -/
theorem powProd_deriv {n : ℕ} (e : Fin n → ℂ) {a : ℝ → Fin n → ℂ} {a' : Fin n → ℂ} {x y : ℝ → ℝ} {x' y' s0 : ℝ}
    (ha : HasDerivAt a a' s0) (hx : HasDerivAt x x' s0) (hy : HasDerivAt y y' s0)
    (hi : ∀ i, ∀ t ∈ uIcc (y s0) (x s0), a s0 i + (t : ℂ) ∈ Complex.slitPlane) :
    HasDerivAt (fun s => ∫ t in (y s)..(x s), powProd e (a s) t)
      ((∑ j, a' j * (e j * ∫ t in (y s0)..(x s0), powProd (fun i => e i - if i = j then 1 else 0) (a s0) t)) +
        x' * powProd e (a s0) (x s0) - y' * powProd e (a s0) (y s0)) s0 := by
  set U : Set ((Fin n → ℂ) × ℝ) := {p | ∀ i, p.1 i + (p.2 : ℂ) ∈ Complex.slitPlane} with hU
  have oU : IsOpen U := by
    rw [hU, setOf_forall]
    refine isOpen_iInter_of_finite fun i => Complex.isOpen_slitPlane.preimage ?_
    fun_prop
  have cp : ∀ c : ℂ, ∀ i, ContinuousOn (fun p : (Fin n → ℂ) × ℝ => (p.1 i + (p.2 : ℂ)) ^ c) U := by
    intro c i
    refine ContinuousOn.cpow_const ?_ fun p hp => hp i
    fun_prop
  have pc : ∀ c : Fin n → ℂ, ContinuousOn (Function.uncurry (powProd c)) U := fun c => by
    have := continuousOn_finset_prod (t := U) (Finset.univ : Finset (Fin n)) fun i _ => cp (c i) i
    exact this
  set f' : (Fin n → ℂ) → ℝ → (Fin n → ℂ) →L[ℂ] ℂ := fun w t =>
    ∑ j, (e j * powProd (fun i => e i - if i = j then 1 else 0) w t) • ContinuousLinearMap.proj (R := ℂ) (φ := fun _ : Fin n => ℂ) j with hf'
  have cf' : ContinuousOn (Function.uncurry f') U := by
    refine continuousOn_finset_sum _ fun j _ => ?_
    exact ContinuousOn.smul (f := fun p : (Fin n → ℂ) × ℝ => e j * powProd (fun i => e i - if i = j then 1 else 0) p.1 p.2)
      (g := fun _ => ContinuousLinearMap.proj (R := ℂ) (φ := fun _ : Fin n => ℂ) j) (continuousOn_const.mul (pc _)) continuousOn_const
  have hd : ∀ p ∈ U, HasFDerivAt (fun w => powProd e w p.2) (f' p.1 p.2) p.1 := by
    intro p hp
    have h1 : ∀ i ∈ Finset.univ, HasFDerivAt (fun w : Fin n → ℂ => (w i + (p.2 : ℂ)) ^ e i)
        ((e i * (p.1 i + (p.2 : ℂ)) ^ (e i - 1)) • ContinuousLinearMap.proj (R := ℂ) (φ := fun _ : Fin n => ℂ) i) p.1 := by
      intro i _
      have h0 : HasFDerivAt (fun w : Fin n → ℂ => w i + (p.2 : ℂ)) (ContinuousLinearMap.proj (R := ℂ) (φ := fun _ : Fin n => ℂ) i) p.1 :=
        (ContinuousLinearMap.proj (R := ℂ) (φ := fun _ : Fin n => ℂ) i).hasFDerivAt.add_const _
      have := (hasDerivAt_id (p.1 i + (p.2 : ℂ))).cpow_const (c := e i) (hp i)
      have h2 := HasDerivAt.comp_hasFDerivAt (h₂ := fun z : ℂ => z ^ e i) (f := fun w : Fin n → ℂ => w i + (p.2 : ℂ)) p.1 this h0
      refine h2.congr_fderiv ?_
      simp
    have h2 := HasFDerivAt.finsetProd h1
    refine h2.congr_fderiv ?_
    rw [hf']
    refine Finset.sum_congr rfl fun j _ => ?_
    rw [smul_smul]
    congr 1
    rw [powProd, ← Finset.mul_prod_erase Finset.univ _ (Finset.mem_univ j), if_pos rfl]
    have : ∏ i ∈ Finset.univ.erase j, (p.1 i + (p.2 : ℂ)) ^ e i = ∏ i ∈ Finset.univ.erase j, (p.1 i + (p.2 : ℂ)) ^ (e i - if i = j then 1 else 0) := by
      refine Finset.prod_congr rfl fun i hi => ?_
      rw [if_neg (Finset.ne_of_mem_erase hi), sub_zero]
    rw [this]
    ring
  have := hasDerivAt_leibniz oU (pc e) cf' hd ha hx hy fun t ht i => hi i t ht
  refine this.congr_deriv ?_
  congr 2
  have it : ∀ j, IntervalIntegrable (powProd (fun i => e i - if i = j then 1 else 0) (a s0)) volume (y s0) (x s0) := fun j =>
    ((pc _).comp (f := fun t : ℝ => (a s0, t)) (by fun_prop) fun t ht i => hi i t ht).intervalIntegrable
  have e1 : ∀ t, f' (a s0) t a' = ∑ j, (a' j * e j) * powProd (fun i => e i - if i = j then 1 else 0) (a s0) t := by
    intro t
    simp only [hf', ContinuousLinearMap.sum_apply, ContinuousLinearMap.smul_apply, ContinuousLinearMap.proj_apply, smul_eq_mul]
    refine Finset.sum_congr rfl fun j _ => by ring
  simp only [e1]
  rw [intervalIntegral.integral_finsetSum fun j _ => (it j).const_mul _]
  refine Finset.sum_congr rfl fun j _ => ?_
  rw [intervalIntegral.integral_const_mul]
  ring

end Verif.Ellred
