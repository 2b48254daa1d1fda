import Verif.Roots.Props
import Mathlib.Analysis.Calculus.ImplicitFunction.ProdDomain
import Mathlib.Analysis.Calculus.ContDiff.RCLike
import Mathlib.Analysis.Calculus.Deriv.Prod
import Mathlib.LinearAlgebra.Lagrange

/-! # Simple roots are differentiable functions of the coefficients (C31) -/

namespace Verif.Roots

open Filter Topology

/-- `∏ (x - r)` with one factor taken out. -/
theorem rootProd_erase (rts : List ℂ) (m : Fin rts.length) (x : ℂ) :
    rootProd rts x = (x - rts.get m) * ∏ k ∈ Finset.univ.erase m, (x - rts.get k) := by
  rw [Finset.mul_prod_erase _ (fun k => x - rts.get k) (Finset.mem_univ m)]
  unfold rootProd
  rw [← List.prod_ofFn]
  congr 1
  conv_lhs => rw [← List.ofFn_get rts, List.map_ofFn]
  rfl

theorem monicEval_ofFn {n : ℕ} (d : Fin n → ℂ) (x : ℂ) : monicEval (List.ofFn d) x = x ^ n + ∑ j : Fin n, d j * x ^ (n - 1 - j) := by
  rw [monicEval_sum, List.length_ofFn, ← Fin.sum_univ_eq_sum_range (fun k => (List.ofFn d).getD k 0 * x ^ (n - 1 - k))]
  congr 1
  apply Finset.sum_congr rfl
  intro j _
  rw [List.getD_eq_getElem _ _ (by simp)]
  simp

/-- Through a simple root passes a holomorphic function of the coefficients whose values are roots. -/
theorem exists_implicit (rts : List ℂ) (hd : rts.Nodup) (c0 : Fin rts.length → ℂ) (hroots : AreRoots (List.ofFn c0) rts) (m : Fin rts.length) :
    ∃ ψ : (Fin rts.length → ℂ) → ℂ, ψ c0 = rts.get m ∧ DifferentiableAt ℂ ψ c0 ∧ ∀ᶠ c in 𝓝 c0, monicEval (List.ofFn c) (ψ c) = 0 := by
  let n := rts.length
  set f : (Fin n → ℂ) × ℂ → ℂ := fun p => p.2 ^ n + ∑ j : Fin n, p.1 j * p.2 ^ (n - 1 - j) with hf
  set x0 := rts.get m with hx0
  have hc : ContDiff ℂ 1 f := by
    refine (contDiff_snd.pow n).add (ContDiff.sum fun j _ => ContDiff.mul ?_ (contDiff_snd.pow _))
    exact (contDiff_apply ℂ ℂ j).comp contDiff_fst
  have hs : HasStrictFDerivAt f (fderiv ℂ f (c0, x0)) (c0, x0) := hc.contDiffAt.hasStrictFDerivAt (by norm_num)
  have hP : (fun x => f (c0, x)) = fun x => (x - x0) * ∏ k ∈ Finset.univ.erase m, (x - rts.get k) := by
    funext x
    rw [← rootProd_erase, hroots.2, monicEval_ofFn]
  set δ := ∏ k ∈ Finset.univ.erase m, (x0 - rts.get k) with hδ
  have δ0 : δ ≠ 0 := prod_ne_zero_of_nodup rts hd m
  have hder : HasDerivAt (fun x => f (c0, x)) δ x0 := by
    rw [hP]
    have hg : DifferentiableAt ℂ (fun x => ∏ k ∈ Finset.univ.erase m, (x - rts.get k)) x0 :=
      DifferentiableAt.fun_finset_prod fun k _ => differentiableAt_id.sub_const _
    have := ((hasDerivAt_id x0).sub_const x0).mul hg.hasDerivAt
    refine this.congr_deriv ?_
    simp [hδ]
  have hcomp : HasFDerivAt (fun x => f (c0, x)) (fderiv ℂ f (c0, x0) ∘L .inr ℂ (Fin n → ℂ) ℂ) x0 :=
    hs.hasFDerivAt.comp x0 (hasFDerivAt_prodMk_right c0 x0)
  have e : fderiv ℂ f (c0, x0) ∘L .inr ℂ (Fin n → ℂ) ℂ = (ContinuousLinearEquiv.smulLeft (R₁ := ℂ) (M₁ := ℂ) (Units.mk0 δ δ0) : ℂ →L[ℂ] ℂ) := by
    rw [hcomp.unique hder.hasFDerivAt]
    ext
    simp [mul_comm]
  have hi : (fderiv ℂ f (c0, x0) ∘L .inr ℂ (Fin n → ℂ) ℂ).IsInvertible := ⟨_, e.symm⟩
  have h0 : f (c0, x0) = 0 := by
    have := congrFun hP x0
    rw [this, sub_self, zero_mul]
  refine ⟨hs.implicitFunctionOfProdDomain hi, (hs.eventually_apply_eq_iff_implicitFunctionOfProdDomain hi).self_of_nhds.mp rfl,
    (hs.hasStrictFDerivAt_implicitFunctionOfProdDomain hi).differentiableAt, ?_⟩
  filter_upwards [hs.eventually_apply_implicitFunctionOfProdDomain hi] with c h
  rw [monicEval_ofFn]
  exact h.trans h0

/-- `n` distinct zeros of a monic polynomial of degree `n` are its roots. -/
theorem areRoots_of_distinct {n : ℕ} (c : Fin n → ℂ) (r : Fin n → ℂ) (hi : Function.Injective r) (h : ∀ m, monicEval (List.ofFn c) (r m) = 0) :
    AreRoots (List.ofFn c) (List.ofFn r) := by
  refine ⟨by simp, fun x => ?_⟩
  have e1 : rootProd (List.ofFn r) x = ∏ m, (x - r m) := by
    rw [rootProd, List.map_ofFn, List.prod_ofFn]
    rfl
  open Polynomial in
  set p : ℂ[X] := X ^ n + ∑ j : Fin n, C (c j) * X ^ (n - 1 - (j : ℕ)) with hp
  open Polynomial in
  set q : ℂ[X] := ∏ m, (X - C (r m)) with hq
  have ev : ∀ y, p.eval y = monicEval (List.ofFn c) y := fun y => by
    rw [monicEval_ofFn, hp]
    simp [Polynomial.eval_finset_sum]
  have hlow : (∑ j : Fin n, Polynomial.C (c j) * Polynomial.X ^ (n - 1 - (j : ℕ)) : Polynomial ℂ).degree < (n : WithBot ℕ) := by
    refine (Polynomial.degree_sum_le _ _).trans_lt ?_
    rw [Finset.sup_lt_iff (by exact WithBot.bot_lt_coe n)]
    intro j _
    refine (Polynomial.degree_C_mul_X_pow_le _ _).trans_lt ?_
    have := j.isLt
    exact_mod_cast (by omega : n - 1 - (j : ℕ) < n)
  have pm : p.Monic := Polynomial.monic_X_pow_add hlow
  have pd : p.degree = n := by
    rw [hp, Polynomial.degree_add_eq_left_of_degree_lt, Polynomial.degree_X_pow]
    rwa [Polynomial.degree_X_pow]
  have qm : q.Monic := Polynomial.monic_prod_of_monic _ _ fun m _ => Polynomial.monic_X_sub_C _
  have qd : q.degree = n := by
    rw [hq, Polynomial.degree_prod]
    simp
  have hsub : (p - q).degree < n := by
    have := Polynomial.degree_sub_lt (pd.trans qd.symm) pm.ne_zero (by rw [pm, qm])
    rwa [pd] at this
  have hpq : p = q := by
    rw [← sub_eq_zero]
    refine Polynomial.eq_zero_of_degree_lt_of_eval_index_eq_zero Finset.univ (v := r) hi.injOn (by simpa using hsub) fun m _ => ?_
    rw [Polynomial.eval_sub, ev, h, hq, Polynomial.eval_prod, Finset.prod_eq_zero (Finset.mem_univ m) (by simp), sub_zero]
  rw [e1, ← ev, hpq, hq, Polynomial.eval_prod]
  simp

/-- **C31** the roots themselves move differentiably: along every path of coefficients differentiable at `s0`, if the roots at `s0` are distinct, there are
paths through them that are, near `s0`, all the roots, and their velocities are the ones the backward pass uses. -/
theorem C31_root_paths {n : ℕ} (hn : 0 < n) (c : ℝ → Fin n → ℂ) (c' : Fin n → ℂ) (s0 : ℝ) (rts : List ℂ) (hl : rts.length = n) (hd : rts.Nodup)
    (hroots : AreRoots (List.ofFn (c s0)) rts) (hc : ∀ j, HasDerivAt (fun t => c t j) (c' j) s0) :
    ∃ g, grads rts = .ok g ∧ ∃ r : ℝ → Fin n → ℂ, (∀ m, r s0 m = rts.get (m.cast hl.symm)) ∧
      (∀ᶠ s in 𝓝 s0, AreRoots (List.ofFn (c s)) (List.ofFn (r s))) ∧
      ∀ m, HasDerivAt (fun s => r s m) (∑ j : Fin rts.length, g j (m.cast hl.symm) * c' (j.cast hl)) s0 := by
  subst hl
  have hne : rts ≠ [] := List.ne_nil_of_length_pos hn
  have hg := grads_ok rts hne hd
  refine ⟨_, hg, ?_⟩
  choose ψ h1 h2 h3 using exists_implicit rts hd (c s0) hroots
  have hcv : HasDerivAt c c' s0 := hasDerivAt_pi.mpr hc
  have hψ : ∀ m, HasDerivAt (fun s => ψ m (c s)) ((fderiv ℂ (ψ m) (c s0)).restrictScalars ℝ c') s0 := fun m =>
    ((h2 m).hasFDerivAt.restrictScalars ℝ).comp_hasDerivAt s0 hcv
  refine ⟨fun s m => ψ m (c s), fun m => h1 m, ?_, fun m => ?_⟩
  · have hinj : ∀ᶠ s in 𝓝 s0, Function.Injective fun m => ψ m (c s) := by
      have : ∀ m k, ∀ᶠ s in 𝓝 s0, ψ m (c s) = ψ k (c s) → m = k := by
        intro m k
        by_cases e : m = k
        · exact Eventually.of_forall fun _ _ => e
        · have hne' : ψ m (c s0) ≠ ψ k (c s0) := by
            rw [h1, h1]
            exact fun e' => e ((List.nodup_iff_injective_get.mp hd) e')
          exact (((hψ m).continuousAt.ne_iff_eventually_ne (hψ k).continuousAt).mp hne').mono fun s hs e' => absurd e' hs
      filter_upwards [eventually_all.mpr fun m => eventually_all.mpr fun k => this m k] with s hs m k e using hs m k e
    have hz : ∀ m, ∀ᶠ s in 𝓝 s0, monicEval (List.ofFn (c s)) (ψ m (c s)) = 0 := fun m => hcv.continuousAt.eventually (h3 m)
    filter_upwards [hinj, eventually_all.mpr hz] with s s1 s2
    exact areRoots_of_distinct _ _ s1 s2
  · have hr := hψ m
    have hsh : ∀ {f : ℝ → ℂ} {f' : ℂ}, HasDerivAt f f' s0 → HasDerivAt (fun t => f (s0 + t)) f' 0 := fun {f f'} h => by
      have := h
      rw [← add_zero s0] at this
      exact this.comp_const_add s0 0
    obtain ⟨g, hg', e⟩ := C31_implicit_derivative (fun t => c (s0 + t)) c' rts rfl hne hd (by simpa using hroots) (fun j => hsh (hc j)) (fun t => ψ m (c (s0 + t))) _
      (hsh hr) m (by simpa using h1 m) (by
        have := hcv.continuousAt.eventually (h3 m)
        have ht : Tendsto (fun t : ℝ => s0 + t) (𝓝 0) (𝓝 s0) := by
          have : ContinuousAt (fun t : ℝ => s0 + t) 0 := by fun_prop
          simpa [ContinuousAt] using this
        exact ht.eventually this)
    rw [hg] at hg'
    cases hg'
    rw [e] at hr
    exact hr

/-- The roots of `x² - 3x + 2 + s` near `s = 0`. -/
example : ∃ g, grads [1, (2 : ℂ)] = .ok g ∧ ∃ r : ℝ → Fin 2 → ℂ, (∀ m, r 0 m = [1, (2 : ℂ)].get (m.cast rfl)) ∧
      (∀ᶠ s : ℝ in 𝓝 0, AreRoots (List.ofFn ![(-3 : ℂ), 2 + s]) (List.ofFn (r s))) ∧
      ∀ m, HasDerivAt (fun s => r s m) (∑ j : Fin 2, g j (m.cast rfl) * ![0, 1] (j.cast rfl)) 0 := by
  refine C31_root_paths (n := 2) (by norm_num) (fun s => ![(-3 : ℂ), 2 + s]) ![0, 1] 0 [1, 2] rfl (by simp) ?_ fun j => ?_
  · simpa [List.ofFn_succ] using exRoots
  · fin_cases j
    · simpa using hasDerivAt_const (0 : ℝ) (-3 : ℂ)
    · simpa using (hasDerivAt_id (0 : ℝ)).ofReal_comp.const_add (2 : ℂ)

end Verif.Roots
