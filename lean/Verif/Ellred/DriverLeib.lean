import Verif.Ellred.DriverGrad

/-! # Derivatives of the distance integrals along paths of parameters -/

namespace Verif.Ellred

open MeasureTheory Set Filter Topology Verif.Carlson Verif.Cosmo ComplexConjugate

/-- `E²` as a cubic in `1 + t`. -/
def Q (L k d t : ℝ) : ℝ := L * (1 + t) ^ 3 + k * (1 + t) ^ 2 + d

/-- Positivity from a moving lower limit on is stable. -/
theorem eventually_pos {L k d lo : ℝ → ℝ} {s0 : ℝ} (hL : ContinuousAt L s0) (hk : ContinuousAt k s0) (hd : ContinuousAt d s0) (hlo : ContinuousAt lo s0)
    (h0 : 0 < L s0) (h : ∀ t, lo s0 ≤ t → 0 < Q (L s0) (k s0) (d s0) t) : ∀ᶠ s in 𝓝 s0, ∀ t, lo s ≤ t → 0 < Q (L s) (k s) (d s) t := by
  set a := L s0 / 2 with ha
  set K := |k s0| + 1 with hK
  set D := |d s0| + 1 with hD
  have a0 : 0 < a := by positivity
  have K0 : 0 < K := by positivity
  have D0 : 0 < D := by positivity
  set T := |lo s0| + 1 + (K + D) / a + 1 with hT
  have e1 : ∀ᶠ s in 𝓝 s0, a < L s := hL.eventually_const_lt (by rw [ha]; linarith)
  have e2 : ∀ᶠ s in 𝓝 s0, |k s| < K := hk.abs.eventually_lt_const (by rw [hK]; linarith)
  have e3 : ∀ᶠ s in 𝓝 s0, |d s| < D := hd.abs.eventually_lt_const (by rw [hD]; linarith)
  have e4 : ∀ᶠ s in 𝓝 s0, lo s0 - 1 < lo s := hlo.eventually_const_lt (by linarith)
  have e5 : ∀ᶠ s in 𝓝 s0, ∀ u ∈ Icc (0 : ℝ) T, 0 < Q (L s) (k s) (d s) (lo s + u) := by
    refine isCompact_Icc.eventually_forall_of_forall_eventually fun u hu => ?_
    have f : ∀ {φ : ℝ → ℝ}, ContinuousAt φ s0 → ContinuousAt (fun p : ℝ × ℝ => φ p.1) (s0, u) := fun hφ =>
      ContinuousAt.comp (f := Prod.fst) (x := (s0, u)) hφ continuousAt_fst
    have hx : ContinuousAt (fun p : ℝ × ℝ => 1 + (lo p.1 + p.2)) (s0, u) := continuousAt_const.add ((f hlo).add continuousAt_snd)
    have hc : ContinuousAt (fun p : ℝ × ℝ => Q (L p.1) (k p.1) (d p.1) (lo p.1 + p.2)) (s0, u) :=
      (((f hL).mul (hx.pow 3)).add ((f hk).mul (hx.pow 2))).add (f hd)
    exact hc.eventually_const_lt (h _ (by linarith [hu.1]))
  filter_upwards [e1, e2, e3, e4, e5] with s s1 s2 s3 s4 s5 t ht
  by_cases hu : t - lo s ≤ T
  · have := s5 (t - lo s) ⟨by linarith, hu⟩
    rwa [add_sub_cancel] at this
  · push Not at hu
    have hlo' := neg_abs_le (lo s0)
    have hv : (K + D) / a + 1 ≤ 1 + t := by rw [hT] at hu; linarith
    set v := 1 + t with hv'
    have hq : 0 < (K + D) / a := by positivity
    have v1 : 1 ≤ v := by linarith
    have hb : K + D < a * v := by
      have : (K + D) / a < v := by linarith
      rwa [div_lt_iff₀' a0] at this
    rw [abs_lt] at s2 s3
    have v2 : 1 ≤ v ^ 2 := one_le_pow₀ v1
    have p1 : 0 ≤ (L s - a) * v ^ 3 := mul_nonneg (by linarith) (by positivity)
    have p2 : 0 ≤ (k s + K) * v ^ 2 := mul_nonneg (by linarith) (by positivity)
    have p3 : 0 ≤ D * (v ^ 2 - 1) := mul_nonneg D0.le (by linarith)
    have p4 : 0 < (a * v - K - D) * v ^ 2 := mul_pos (by linarith) (by positivity)
    rw [Q, ← hv']
    nlinarith

theorem weight_cont {ex : List ℤ} (hex : ex = [] ∨ ∃ q, ex = [q]) {t : ℝ} (ht : ex ≠ [] → -1 < t) : ContinuousAt (weight ex) t := by
  rcases hex with rfl | ⟨q, rfl⟩
  · rw [show weight [] = fun _ => 1 from funext fun t => by simp [weight]]; exact continuousAt_const
  · rw [show weight [q] = fun t => (1 + t) ^ q from funext fun t => by simp [weight]]
    have hc : ContinuousAt (fun t : ℝ => 1 + t) t := by fun_prop
    exact hc.zpow₀ q (Or.inl (by have := ht (by simp); linarith))

/-- The derivative of the integral with respect to the coefficient of `(1 + t) ^ k`. -/
noncomputable def dQ (ex : List ℤ) (z1 z2 L k d : ℝ) (j : ℕ) : ℝ :=
  ∫ t in z1..z2, weight ex t * (-1 / 2 * Q L k d t ^ (-3 / 2 : ℝ)) * (1 + t) ^ j

/-- The distance integral along a path. -/
theorem hasDerivAt_dist {ex : List ℤ} (hex : ex = [] ∨ ∃ q, ex = [q]) {L k d z1 z2 : ℝ → ℝ} {L' k' d' z1' z2' s0 : ℝ} (hL : HasDerivAt L L' s0)
    (hk : HasDerivAt k k' s0) (hd : HasDerivAt d d' s0) (h1 : HasDerivAt z1 z1' s0) (h2 : HasDerivAt z2 z2' s0) (h0 : 0 < L s0)
    (hp : ∀ t, min (z1 s0) (z2 s0) ≤ t → 0 < Q (L s0) (k s0) (d s0) t) (hlo : ex ≠ [] → -1 < min (z1 s0) (z2 s0)) :
    HasDerivAt (fun s => ∫ t in (z1 s)..(z2 s), weight ex t * invEfunc (Q (L s) (k s) (d s) t))
      (L' * dQ ex (z1 s0) (z2 s0) (L s0) (k s0) (d s0) 3 + k' * dQ ex (z1 s0) (z2 s0) (L s0) (k s0) (d s0) 2 +
        d' * dQ ex (z1 s0) (z2 s0) (L s0) (k s0) (d s0) 0 + z2' * (weight ex (z2 s0) * invEfunc (Q (L s0) (k s0) (d s0) (z2 s0))) -
        z1' * (weight ex (z1 s0) * invEfunc (Q (L s0) (k s0) (d s0) (z1 s0)))) s0 := by
  set q : (Fin 3 → ℂ) → ℝ → ℂ := fun w t => w 0 * (1 + t) ^ 3 + w 1 * (1 + t) ^ 2 + w 2 with hq
  set U : Set ((Fin 3 → ℂ) × ℝ) := {p | q p.1 p.2 ∈ Complex.slitPlane} ∩ {p | ex = [] ∨ -1 < p.2} with hU
  have qc : Continuous (Function.uncurry q) := by
    rw [hq]; unfold Function.uncurry; fun_prop
  have oU : IsOpen U := by
    refine (Complex.isOpen_slitPlane.preimage qc).inter ?_
    by_cases he : ex = []
    · simp [he]
    · simpa [he] using isOpen_lt continuous_const continuous_snd
  have wc : ContinuousOn (fun p : (Fin 3 → ℂ) × ℝ => (weight ex p.2 : ℂ)) U := fun p hp => by
    have := weight_cont hex (t := p.2) fun he => hp.2.resolve_left he
    exact (Complex.continuous_ofReal.continuousAt.comp (ContinuousAt.comp (f := Prod.snd) (x := p) this continuousAt_snd)).continuousWithinAt
  have pc : ∀ e : ℂ, ContinuousOn (fun p : (Fin 3 → ℂ) × ℝ => q p.1 p.2 ^ e) U := fun e =>
    ContinuousOn.cpow_const qc.continuousOn fun p hp => hp.1
  set f : (Fin 3 → ℂ) → ℝ → ℂ := fun w t => weight ex t * q w t ^ (-1 / 2 : ℂ) with hf
  set f' : (Fin 3 → ℂ) → ℝ → (Fin 3 → ℂ) →L[ℂ] ℂ := fun w t =>
    ((weight ex t : ℂ) * (-1 / 2 * q w t ^ (-3 / 2 : ℂ))) • (((1 + t : ℂ) ^ 3) • ContinuousLinearMap.proj (R := ℂ) (φ := fun _ : Fin 3 => ℂ) 0 +
      ((1 + t : ℂ) ^ 2) • ContinuousLinearMap.proj (R := ℂ) (φ := fun _ : Fin 3 => ℂ) 1 + ContinuousLinearMap.proj (R := ℂ) (φ := fun _ : Fin 3 => ℂ) 2) with hf'
  have cf : ContinuousOn (Function.uncurry f) U := wc.mul (pc _)
  have cf' : ContinuousOn (Function.uncurry f') U := by
    refine ContinuousOn.smul (f := fun p : (Fin 3 → ℂ) × ℝ => (weight ex p.2 : ℂ) * (-1 / 2 * q p.1 p.2 ^ (-3 / 2 : ℂ))) (wc.mul (continuousOn_const.mul (pc _))) ?_
    exact Continuous.continuousOn (by fun_prop)
  have hder : ∀ p ∈ U, HasFDerivAt (fun w => f w p.2) (f' p.1 p.2) p.1 := by
    intro p hp
    have pr : ∀ i, HasFDerivAt (fun w : Fin 3 → ℂ => w i) (ContinuousLinearMap.proj (R := ℂ) (φ := fun _ : Fin 3 => ℂ) i) p.1 := fun i =>
      (ContinuousLinearMap.proj (R := ℂ) (φ := fun _ : Fin 3 => ℂ) i).hasFDerivAt
    have h1 : HasFDerivAt (fun w : Fin 3 → ℂ => q w p.2) _ p.1 := (((pr 0).mul_const ((1 + p.2 : ℂ) ^ 3)).add ((pr 1).mul_const ((1 + p.2 : ℂ) ^ 2))).add (pr 2)
    have h2 := (hasDerivAt_id (q p.1 p.2)).cpow_const (c := (-1 / 2 : ℂ)) hp.1
    have h3 := HasDerivAt.comp_hasFDerivAt (h₂ := fun z : ℂ => z ^ (-1 / 2 : ℂ)) (f := fun w : Fin 3 → ℂ => q w p.2) p.1 h2 h1
    have h4 := h3.const_mul (weight ex p.2 : ℂ)
    refine h4.congr_fderiv ?_
    ext v
    simp only [hf', id, mul_one, show (-1 / 2 - 1 : ℂ) = -3 / 2 by norm_num]
    simp
    ring
  have hw : HasDerivAt (fun s => (![(L s : ℂ), (k s : ℂ), (d s : ℂ)] : Fin 3 → ℂ)) ![(L' : ℂ), (k' : ℂ), (d' : ℂ)] s0 := by
    rw [hasDerivAt_pi]
    intro i
    fin_cases i
    · exact hL.ofReal_comp
    · exact hk.ofReal_comp
    · exact hd.ofReal_comp
  have qv : ∀ L k d t : ℝ, q ![(L : ℂ), (k : ℂ), (d : ℂ)] t = (Q L k d t : ℝ) := fun L k d t => by
    simp [hq, Q]
  have pw : ∀ {x : ℝ}, 0 < x → ∀ e : ℝ, ((x : ℝ) : ℂ) ^ (e : ℂ) = ((x ^ e : ℝ) : ℂ) := fun hx e => (Complex.ofReal_cpow hx.le e).symm
  have fv : ∀ {L k d t : ℝ}, 0 < Q L k d t → f ![(L : ℂ), (k : ℂ), (d : ℂ)] t = ((weight ex t * invEfunc (Q L k d t) : ℝ) : ℂ) := by
    intro L k d t h
    have := pw h (-1 / 2)
    push_cast at this ⊢
    rw [hf]
    simp only
    rw [qv, this, invEfunc]
  have hmem : ∀ s, ∀ t ∈ uIcc (z1 s) (z2 s), min (z1 s) (z2 s) ≤ t := fun s t ht => ht.1
  have key := hasDerivAt_leibniz oU cf cf' hder hw h2 h1 (fun t ht => by
    refine ⟨?_, ?_⟩
    · have := hp t (hmem _ t ht)
      rw [mem_setOf_eq, qv]
      exact Complex.ofReal_mem_slitPlane.mpr this
    · by_cases he : ex = []
      · exact Or.inl he
      · exact Or.inr (lt_of_lt_of_le (hlo he) (hmem _ t ht)))
  have hre := Complex.reCLM.hasFDerivAt.comp_hasDerivAt s0 key
  have ev := eventually_pos hL.continuousAt hk.continuousAt hd.continuousAt (h1.continuousAt.min h2.continuousAt) h0 hp
  refine (hre.congr_of_eventuallyEq ?_).congr_deriv ?_
  · filter_upwards [ev] with s hs
    have : ∫ t in (z1 s)..(z2 s), f ![(L s : ℂ), (k s : ℂ), (d s : ℂ)] t =
        ((∫ t in (z1 s)..(z2 s), weight ex t * invEfunc (Q (L s) (k s) (d s) t) : ℝ) : ℂ) := by
      rw [← intervalIntegral.integral_ofReal]
      exact intervalIntegral.integral_congr fun t ht => fv (hs t (hmem s t ht))
    simp only [Function.comp, Complex.reCLM_apply]
    rw [this, Complex.ofReal_re]
  · have hz2 := fv (hp (z2 s0) (min_le_right _ _))
    have hz1 := fv (hp (z1 s0) (min_le_left _ _))
    have fc : ∀ j : ℕ, IntervalIntegrable (fun t => weight ex t * (-1 / 2 * Q (L s0) (k s0) (d s0) t ^ (-3 / 2 : ℝ)) * (1 + t) ^ j) volume (z1 s0) (z2 s0) := by
      intro j
      refine ContinuousOn.intervalIntegrable fun t ht => ContinuousAt.continuousWithinAt ?_
      have hqp := hp t (hmem _ t ht)
      have hqc : ContinuousAt (fun t => Q (L s0) (k s0) (d s0) t) t := by unfold Q; fun_prop
      exact ((weight_cont hex fun he => lt_of_lt_of_le (hlo he) (hmem _ t ht)).mul (continuousAt_const.mul (hqc.rpow_const (Or.inl hqp.ne')))).mul (by fun_prop)
    have hi : ∫ t in (z1 s0)..(z2 s0), f' ![(L s0 : ℂ), (k s0 : ℂ), (d s0 : ℂ)] t ![(L' : ℂ), (k' : ℂ), (d' : ℂ)] =
        ((L' * dQ ex (z1 s0) (z2 s0) (L s0) (k s0) (d s0) 3 + k' * dQ ex (z1 s0) (z2 s0) (L s0) (k s0) (d s0) 2 +
          d' * dQ ex (z1 s0) (z2 s0) (L s0) (k s0) (d s0) 0 : ℝ) : ℂ) := by
      simp only [dQ]
      rw [← intervalIntegral.integral_const_mul, ← intervalIntegral.integral_const_mul, ← intervalIntegral.integral_const_mul,
        ← intervalIntegral.integral_add ((fc 3).const_mul _) ((fc 2).const_mul _),
        ← intervalIntegral.integral_add (((fc 3).const_mul _).add ((fc 2).const_mul _)) ((fc 0).const_mul _), ← intervalIntegral.integral_ofReal]
      refine intervalIntegral.integral_congr fun t ht => ?_
      have := pw (hp t (hmem _ t ht)) (-3 / 2)
      push_cast at this ⊢
      simp only [hf', ContinuousLinearMap.smul_apply, ContinuousLinearMap.add_apply, ContinuousLinearMap.proj_apply, smul_eq_mul, qv, this]
      simp
      ring
    rw [hi, hz1, hz2]
    simp only [Complex.reCLM_apply]
    rw [← Complex.ofReal_mul, ← Complex.ofReal_mul, ← Complex.ofReal_add, ← Complex.ofReal_sub, Complex.ofReal_re]

end Verif.Ellred
