import Verif.Ellred.DriverGradModel
import Verif.Roots.BatchGrad

/-! # The backward pass of the differentiable LambdaCDM driver, evaluated -/

namespace Verif.Ellred

open MeasureTheory Set Filter Topology Verif.Carlson Verif.Cosmo ComplexConjugate

/-! ### `Roots.backward` for three roots -/

theorem rootsBackward_raises {rts gout : List ℂ} (h : rts ≠ []) (hd : ¬ rts.Nodup) : rootsBackward rts gout = .error .linalg := by
  rw [rootsBackward, Roots.backwardMatrix_ok rts h]
  simp only
  rw [if_pos ((Roots.Batch.det_eq_zero_iff rts).mpr hd)]

theorem rootsBackward_ok {R1 R2 R3 : ℂ} (hd : [R1, R2, R3].Nodup) (g1 g2 g3 : ℂ) :
    rootsBackward [R1, R2, R3] [g1, g2, g3] = .ok ([2, 1, 0].map fun k : ℕ =>
      conj (-R1 ^ k / ((R1 - R2) * (R1 - R3))) * g1 + conj (-R2 ^ k / ((R2 - R1) * (R2 - R3))) * g2 + conj (-R3 ^ k / ((R3 - R1) * (R3 - R2))) * g3) := by
  have h1 := Roots.grads_ok [R1, R2, R3] (by simp) hd
  have hne : ¬ (Matrix.of fun i j : Fin [R1, R2, R3].length => (Roots.fullCoeffs ([R1, R2, R3].eraseIdx i)).getD j 0).det = 0 := fun h =>
    (Roots.Batch.det_eq_zero_iff _).mp h hd
  rw [Roots.grads, Roots.backwardMatrix_ok _ (by simp)] at h1
  rw [rootsBackward, Roots.backwardMatrix_ok _ (by simp)]
  simp only at h1 ⊢
  rw [if_neg hne, Except.ok.inj h1]
  have e : ∀ (f : Fin 3 → ℂ) (m : Fin 3), ∏ k ∈ Finset.univ.erase m, f k = if m = 0 then f 1 * f 2 else if m = 1 then f 0 * f 2 else f 0 * f 1 := by
    intro f m
    fin_cases m
    · rw [show (Finset.univ : Finset (Fin 3)).erase ⟨0, by decide⟩ = {1, 2} by decide]; simp
    · rw [show (Finset.univ : Finset (Fin 3)).erase ⟨1, by decide⟩ = {0, 2} by decide]; simp
    · rw [show (Finset.univ : Finset (Fin 3)).erase ⟨2, by decide⟩ = {0, 1} by decide]; simp
  have e' : ∀ (f : Fin [R1, R2, R3].length → ℂ) (m : Fin [R1, R2, R3].length), ∏ k ∈ Finset.univ.erase m, f k =
    (if m = (0 : Fin 3) then f (1 : Fin 3) * f (2 : Fin 3) else if m = (1 : Fin 3) then f (0 : Fin 3) * f (2 : Fin 3) else f (0 : Fin 3) * f (1 : Fin 3)) := e
  have s : ∀ f : Fin [R1, R2, R3].length → ℂ, ∑ k, f k = f (0 : Fin 3) + f (1 : Fin 3) + f (2 : Fin 3) := fun f => Fin.sum_univ_three f
  simp only [s, Matrix.of_apply, e']
  simp [List.ofFn_succ]

/-! ### The integrands -/

theorem cpow_int_half {x : ℂ} (hx : x ≠ 0) (k : ℤ) : x ^ ((k : ℂ) - 1 / 2) = x ^ k / csqrt x := by
  rw [Complex.cpow_sub _ _ hx, Complex.cpow_intCast, csqrt]

/-- The weight `(1 + t) ^ q`, absent for `ex = []`. -/
noncomputable def weight (ex : List ℤ) (t : ℝ) : ℝ := (ex.map fun q => (1 + t) ^ q).prod

theorem integrand_args {r1 r2 r3 : ℂ} {ex : List ℤ} (hex : ex = [] ∨ ∃ q, ex = [q]) {t : ℝ} (h1 : (t : ℂ) - r1 ≠ 0) (h2 : (t : ℂ) - r2 ≠ 0)
    (h3 : (t : ℂ) - r3 ≠ 0) (k1 k2 k3 : ℤ) :
    integrand (args3 [r1, r2, r3] ex).1 3 ([k1, k2, k3] ++ ex) t =
      ((t : ℂ) - r1) ^ k1 * ((t : ℂ) - r2) ^ k2 * ((t : ℂ) - r3) ^ k3 * (weight ex t : ℂ) / (Xr r1 t * Xr r2 t * Xr r3 t) := by
  have h1' : -r1 + (t : ℂ) ≠ 0 := by rwa [neg_add_eq_sub]
  have h2' : -r2 + (t : ℂ) ≠ 0 := by rwa [neg_add_eq_sub]
  have h3' : -r3 + (t : ℂ) ≠ 0 := by rwa [neg_add_eq_sub]
  rcases hex with rfl | ⟨q, rfl⟩
  · have e : integrand (args3 [r1, r2, r3] []).1 3 ([k1, k2, k3] ++ []) t =
      (-r1 + (t : ℂ)) ^ ((k1 : ℂ) - 1 / 2) * (-r2 + (t : ℂ)) ^ ((k2 : ℂ) - 1 / 2) * (-r3 + (t : ℂ)) ^ ((k3 : ℂ) - 1 / 2) := by
      rw [show (args3 [r1, r2, r3] []).1 = List.ofFn ![-r1, -r2, -r3] by simp [args3, List.ofFn_succ], integrand_ofFn, powProd, Fin.prod_univ_three]
      simp
    rw [e, cpow_int_half h1', cpow_int_half h2', cpow_int_half h3']
    simp only [neg_add_eq_sub, weight, Xr, List.map_nil, List.prod_nil, Complex.ofReal_one]
    field_simp
  · have e : integrand (args3 [r1, r2, r3] [q]).1 3 ([k1, k2, k3] ++ [q]) t =
      (-r1 + (t : ℂ)) ^ ((k1 : ℂ) - 1 / 2) * (-r2 + (t : ℂ)) ^ ((k2 : ℂ) - 1 / 2) * (-r3 + (t : ℂ)) ^ ((k3 : ℂ) - 1 / 2) * (1 + (t : ℂ)) ^ q := by
      rw [show (args3 [r1, r2, r3] [q]).1 = List.ofFn ![-r1, -r2, -r3, 1] by simp [args3, List.ofFn_succ], integrand_ofFn, powProd, Fin.prod_univ_four]
      simp
    rw [e, cpow_int_half h1', cpow_int_half h2', cpow_int_half h3']
    simp only [neg_add_eq_sub, weight, Xr, List.map_cons, List.map_nil, List.prod_cons, List.prod_nil, mul_one]
    push_cast
    field_simp

/-! ### A cubic with distinct roots -/

/-- Three distinct roots of a real cubic, positive from `lo` on; with a weight, `lo > -1` and -1 is not a root. -/
structure Good3 (ex : List ℤ) (lo : ℝ) (r1 r2 r3 : ℂ) (b c d : ℝ) : Prop where
  ok : CubicOK lo r1 r2 r3 b c d
  nodup : [r1, r2, r3].Nodup
  one : ex = [] ∨ ∃ q, ex = [q]
  lo : ex ≠ [] → -1 < lo
  out : ex ≠ [] → r1 ≠ -1 ∧ r2 ≠ -1 ∧ r3 ≠ -1

namespace CubicOK

theorem conj_perm {y : ℝ} {r1 r2 r3 : ℂ} {b c d : ℝ} (h : CubicOK y r1 r2 r3 b c d) : ([-r1, -r2, -r3].map conj).Perm [-r1, -r2, -r3] := by
  have rl : ∀ {z : ℂ}, z.im = 0 → conj z = z := fun hz => Complex.conj_eq_iff_im.mpr hz
  simp only [List.map_cons, List.map_nil, map_neg]
  by_cases h1 : r1.im = 0
  · by_cases h2 : r2.im = 0
    · have h3 : r3.im = 0 := by
        by_contra h3
        rcases h.swap23.swap12.pair h3 with ⟨e, -⟩ | ⟨e, -⟩
        · exact h3 (by have := congrArg Complex.im e; rw [h1, Complex.conj_im] at this; linarith)
        · exact h3 (by have := congrArg Complex.im e; rw [h2, Complex.conj_im] at this; linarith)
      rw [rl h1, rl h2, rl h3]
    · rcases h.swap12.pair h2 with ⟨e, -⟩ | ⟨e, -⟩
      · exact absurd (by have := congrArg Complex.im e; rw [h1, Complex.conj_im] at this; linarith) h2
      · rw [rl h1, e, Complex.conj_conj]
        exact (List.Perm.swap _ _ _).cons _
  · rcases h.pair h1 with ⟨e, h3⟩ | ⟨e, h2⟩
    · rw [rl h3, e, Complex.conj_conj]
      exact List.Perm.swap _ _ _
    · rw [rl h2, e, Complex.conj_conj]
      exact ((List.Perm.swap _ _ _).cons _).trans ((List.Perm.swap _ _ _).trans ((List.Perm.swap _ _ _).cons _))

theorem slit {y : ℝ} {r1 r2 r3 : ℂ} {b c d : ℝ} (h : CubicOK y r1 r2 r3 b c d) {t : ℝ} (ht : y ≤ t) :
    (t : ℂ) - r1 ∈ Complex.slitPlane ∧ (t : ℂ) - r2 ∈ Complex.slitPlane ∧ (t : ℂ) - r3 ∈ Complex.slitPlane := by
  obtain ⟨s1, s2, s3, -⟩ := h.kernel (x := t + 1) (by linarith)
  exact ⟨s1 t ⟨ht, by linarith⟩, s2 t ⟨ht, by linarith⟩, s3 t ⟨ht, by linarith⟩⟩

end CubicOK

namespace Good3

variable {ex : List ℤ} {z1 z2 : ℝ} {r1 r2 r3 : ℂ} {b c d : ℝ}

/-- `elliptic_integral` with any exponents of the roots. -/
theorem forward_eq (h : Good3 ex (min z1 z2) r1 r2 r3 b c d) (k1 k2 k3 : ℤ) :
    forward ([k1, k2, k3] ++ ex) ⟨3, Or.inl rfl⟩ z1 z2 (args3 [r1, r2, r3] ex).1 =
      ∫ t in z1..z2, ((t : ℂ) - r1) ^ k1 * ((t : ℂ) - r2) ^ k2 * ((t : ℂ) - r3) ^ k3 * (weight ex t : ℂ) / (√(CubicOK.cubic b c d t) : ℝ) := by
  have hmem : ∀ t ∈ uIcc z1 z2, min z1 z2 ≤ t := fun t ht => ht.1
  have h4 : (args3 [r1, r2, r3] ex).1.length = 3 + ex.length := by simp [args3]; omega
  rw [forward, C37_cubic _ _ _ (by omega) ?_ ?_ ?_ ?_ (by simp only [h4, List.length_append, List.length_cons, List.length_nil])]
  · refine intervalIntegral.integral_congr fun t ht => ?_
    have := h.ok.slit (hmem t ht)
    beta_reduce
    rw [integrand_args h.one (Complex.slitPlane_ne_zero this.1) (Complex.slitPlane_ne_zero this.2.1) (Complex.slitPlane_ne_zero this.2.2),
      h.ok.sqrt_eq (x := t + 1) (by linarith [hmem t ht]) ⟨hmem t ht, by linarith⟩]
  · have hn := h.nodup
    rcases h.one with rfl | ⟨q, rfl⟩
    · simpa [args3] using hn
    · obtain ⟨o1, o2, o3⟩ := h.out (by simp)
      simp only [args3, List.map_cons, List.map_nil, List.cons_append, List.nil_append, List.nodup_cons, List.mem_cons, List.not_mem_nil, or_false,
        neg_inj, not_or, not_false_eq_true, List.nodup_nil, and_true] at hn ⊢
      exact ⟨⟨hn.1.1, hn.1.2, fun e => o1 (neg_eq_iff_eq_neg.mp e)⟩, ⟨hn.2, fun e => o2 (neg_eq_iff_eq_neg.mp e)⟩, fun e => o3 (neg_eq_iff_eq_neg.mp e)⟩
  · intro w hw t ht
    have ht := hmem t ht
    have := h.ok.slit ht
    simp only [args3, List.map_cons, List.map_nil, List.mem_append, List.mem_cons, List.not_mem_nil, or_false, List.mem_map] at hw
    rcases hw with (rfl | rfl | rfl) | ⟨q, hq, rfl⟩
    · rw [neg_add_eq_sub]; exact this.1
    · rw [neg_add_eq_sub]; exact this.2.1
    · rw [neg_add_eq_sub]; exact this.2.2
    · left
      have := h.lo (List.ne_nil_of_mem hq)
      simp
      linarith
  · have := h.ok.conj_perm
    simpa [args3] using this
  · intro w hw
    simp [args3] at hw
    simp [hw.2]

theorem cont (h : Good3 ex (min z1 z2) r1 r2 r3 b c d) (k1 k2 k3 : ℤ) :
    ContinuousOn (fun t : ℝ => ((t : ℂ) - r1) ^ k1 * ((t : ℂ) - r2) ^ k2 * ((t : ℂ) - r3) ^ k3 * (weight ex t : ℂ) / (√(CubicOK.cubic b c d t) : ℝ))
      (uIcc z1 z2) := by
  have hs : ∀ t ∈ uIcc z1 z2, (t : ℂ) - r1 ∈ Complex.slitPlane ∧ (t : ℂ) - r2 ∈ Complex.slitPlane ∧ (t : ℂ) - r3 ∈ Complex.slitPlane := fun t ht =>
    h.ok.slit ht.1
  have hp : ∀ (r : ℂ) (k : ℤ), (∀ t ∈ uIcc z1 z2, (t : ℂ) - r ∈ Complex.slitPlane) → ContinuousOn (fun t : ℝ => ((t : ℂ) - r) ^ k) (uIcc z1 z2) := by
    intro r k hr t ht
    have hc : ContinuousAt (fun t : ℝ => (t : ℂ) - r) t := by fun_prop
    exact (hc.zpow₀ k (Or.inl (Complex.slitPlane_ne_zero (hr t ht)))).continuousWithinAt
  refine ContinuousOn.div ((((hp r1 k1 fun t ht => (hs t ht).1).mul (hp r2 k2 fun t ht => (hs t ht).2.1)).mul (hp r3 k3 fun t ht => (hs t ht).2.2)).mul
    (Complex.continuous_ofReal.comp_continuousOn ?_)) (Complex.continuous_ofReal.comp_continuousOn (Real.continuous_sqrt.comp CubicOK.cubic_cont).continuousOn) fun t ht => ?_
  · rcases h.one with rfl | ⟨q, rfl⟩
    · rw [show weight [] = fun _ => 1 from funext fun t => by simp [weight]]; exact continuousOn_const
    · have hl := h.lo (by simp)
      rw [show weight [q] = fun t => (1 + t) ^ q from funext fun t => by simp [weight]]
      intro t ht
      have hc : ContinuousAt (fun t : ℝ => 1 + t) t := by fun_prop
      refine (hc.zpow₀ q (Or.inl ?_)).continuousWithinAt
      have := ht.1
      have : min z1 z2 ≤ t := this
      linarith
  · have := Real.sqrt_pos.mpr (h.ok.cpos (t := t) ht.1)
    exact_mod_cast this.ne'

/-- The integrals of `(1 + t) ^ k / C ^ (3/2)`. -/
noncomputable def K (ex : List ℤ) (z1 z2 b c d : ℝ) (k : ℕ) : ℝ :=
  ∫ t in z1..z2, weight ex t * (1 + t) ^ k / (CubicOK.cubic b c d t * √(CubicOK.cubic b c d t))

/-- Partial fractions. -/
theorem partial_fractions (h : Good3 ex (min z1 z2) r1 r2 r3 b c d) {t : ℝ} (ht : t ∈ uIcc z1 z2) {k : ℕ} (hk : k ≤ 2) :
    (r1 + 1) ^ k / ((r1 - r2) * (r1 - r3)) / ((t : ℂ) - r1) + (r2 + 1) ^ k / ((r2 - r1) * (r2 - r3)) / ((t : ℂ) - r2) +
      (r3 + 1) ^ k / ((r3 - r1) * (r3 - r2)) / ((t : ℂ) - r3) = (1 + t) ^ k / (CubicOK.cubic b c d t : ℝ) := by
  have hv : ((CubicOK.cubic b c d t : ℝ) : ℂ) = ((t : ℂ) - r1) * (t - r2) * (t - r3) := by
    rw [h.ok.vieta, CubicOK.cubic]; push_cast; ring
  obtain ⟨s1, s2, s3⟩ := h.ok.slit (t := t) ht.1
  have s1 := Complex.slitPlane_ne_zero s1
  have s2 := Complex.slitPlane_ne_zero s2
  have s3 := Complex.slitPlane_ne_zero s3
  have hn := h.nodup
  simp only [List.nodup_cons, List.mem_cons, List.not_mem_nil, or_false, not_or, not_false_eq_true, List.nodup_nil, and_true] at hn
  have n12 : r1 - r2 ≠ 0 := sub_ne_zero.mpr hn.1.1
  have n13 : r1 - r3 ≠ 0 := sub_ne_zero.mpr hn.1.2
  have n23 : r2 - r3 ≠ 0 := sub_ne_zero.mpr hn.2
  rw [hv, ← neg_sub r1 r2, ← neg_sub r1 r3, ← neg_sub r2 r3]
  interval_cases k
  all_goals
    field_simp
    ring

theorem sum_forward (h : Good3 ex (min z1 z2) r1 r2 r3 b c d) {k : ℕ} (hk : k ≤ 2) :
    (r1 + 1) ^ k / ((r1 - r2) * (r1 - r3)) * forward ([-1, 0, 0] ++ ex) ⟨3, Or.inl rfl⟩ z1 z2 (args3 [r1, r2, r3] ex).1 +
      (r2 + 1) ^ k / ((r2 - r1) * (r2 - r3)) * forward ([0, -1, 0] ++ ex) ⟨3, Or.inl rfl⟩ z1 z2 (args3 [r1, r2, r3] ex).1 +
      (r3 + 1) ^ k / ((r3 - r1) * (r3 - r2)) * forward ([0, 0, -1] ++ ex) ⟨3, Or.inl rfl⟩ z1 z2 (args3 [r1, r2, r3] ex).1 = (K ex z1 z2 b c d k : ℂ) := by
  rw [h.forward_eq, h.forward_eq, h.forward_eq, K, ← intervalIntegral.integral_ofReal, ← intervalIntegral.integral_const_mul,
    ← intervalIntegral.integral_const_mul, ← intervalIntegral.integral_const_mul, ← intervalIntegral.integral_add, ← intervalIntegral.integral_add]
  · refine intervalIntegral.integral_congr fun t ht => ?_
    have hp := h.partial_fractions ht hk
    beta_reduce
    push_cast
    rw [← div_div (_ * _) (CubicOK.cubic b c d t : ℂ), mul_div_assoc (weight ex t : ℂ), ← hp]
    simp only [zpow_neg_one, zpow_zero]
    ring
  · exact (((h.cont _ _ _).intervalIntegrable).const_mul _).add (((h.cont _ _ _).intervalIntegrable).const_mul _)
  · exact ((h.cont _ _ _).intervalIntegrable).const_mul _
  · exact ((h.cont _ _ _).intervalIntegrable).const_mul _
  · exact ((h.cont _ _ _).intervalIntegrable).const_mul _

theorem backward_take (hex : ex = [] ∨ ∃ q, ex = [q]) (r1 r2 r3 g : ℂ) (z1 z2 : ℝ) :
    (((backward (args3 [r1, r2, r3] ex).2 ⟨3, Or.inl rfl⟩ z1 z2 (args3 [r1, r2, r3] ex).1 g).2.2).take 3).map Neg.neg =
      [g * conj (1 / 2 * forward ([-1, 0, 0] ++ ex) ⟨3, Or.inl rfl⟩ z1 z2 (args3 [r1, r2, r3] ex).1),
       g * conj (1 / 2 * forward ([0, -1, 0] ++ ex) ⟨3, Or.inl rfl⟩ z1 z2 (args3 [r1, r2, r3] ex).1),
       g * conj (1 / 2 * forward ([0, 0, -1] ++ ex) ⟨3, Or.inl rfl⟩ z1 z2 (args3 [r1, r2, r3] ex).1)] := by
  rcases hex with rfl | ⟨q, rfl⟩
  · simp [backward, args3, EllRed.n, List.range_succ]
  · simp [backward, args3, EllRed.n, List.range_succ]

/-- The gradients of the coefficients of the cubic in `1 + z`. -/
theorem rootsBackward_eq (h : Good3 ex (min z1 z2) r1 r2 r3 b c d) (g : ℝ) :
    rootsBackward [r1 + 1, r2 + 1, r3 + 1] ((((backward (args3 [r1, r2, r3] ex).2 ⟨3, Or.inl rfl⟩ z1 z2 (args3 [r1, r2, r3] ex).1 g).2.2).take 3).map Neg.neg) =
      .ok ([2, 1, 0].map fun k : ℕ => ((-g / 2 * K ex z1 z2 b c d k : ℝ) : ℂ)) := by
  have hn : [r1 + 1, r2 + 1, r3 + 1].Nodup := (List.nodup_map_iff (f := (· + (1 : ℂ))) (add_left_injective 1)).mpr h.nodup
  rw [backward_take h.one, rootsBackward_ok hn]
  congr 1
  refine List.map_congr_left fun k hk => ?_
  have hk : k ≤ 2 := by simp at hk; omega
  have := congrArg conj (h.sum_forward hk)
  rw [Complex.conj_ofReal] at this
  push_cast
  rw [← this]
  simp only [map_add, map_mul, map_div₀, map_sub, map_neg, map_pow, map_one, Complex.conj_ofNat, add_sub_add_right_eq_sub]
  ring

end Good3

end Verif.Ellred
