import Verif.Special.TGammaThree
import Verif.Autograd.Props

/-!
# Gradients of `gammainc`, `gammaincc` and their inverses (C110)
-/

open Filter Topology Real

namespace Verif.Special

open Verif.Autograd

/-! ### Model -/

/-- `torch.special.digamma` (trusted). -/
noncomputable def torchDigamma (a : ℝ) : ℝ := deriv Gamma a / Gamma a

/-- `torch.special.gammaln` (trusted). -/
noncomputable def torchGammaln (a : ℝ) : ℝ := log |Gamma a|

/-- `Gammainc.grad_a` (special/gammainc.py:46-49) for a given `q`.  `T a x` is `Tgamma(3, a, x).real`. -/
noncomputable def gammaincGradQ (T : ℝ → ℝ → ℝ) (a x q : ℝ) : ℝ :=
  q * (torchDigamma a - log x) - x * T a x / exp (torchGammaln a)

/-- `Gammainc.grad_a` (special/gammainc.py:45-49) on the saved tensors `a, x, p`. -/
noncomputable def gammaincGradA (T : ℝ → ℝ → ℝ) : GradFn ℝ
  | [a, x, p] => gammaincGradQ T a x (1 - p)
  | _ => 0

/-- `Gammainc.grad_z` (special/gammainc.py:51-53). -/
noncomputable def gammaincGradZ : GradFn ℝ
  | [a, x, _] => x ^ (a - 1) * exp (-x - torchGammaln a)
  | _ => 0

/-- `Gammaincc.grad_a` (special/gammainc.py:60-62) on the saved tensors `a, x, q`. -/
noncomputable def gammainccGradA (T : ℝ → ℝ → ℝ) : GradFn ℝ
  | [a, x, q] => -gammaincGradQ T a x q
  | _ => 0

/-- `Gammaincc.grad_z` (special/gammainc.py:64-66). -/
noncomputable def gammainccGradZ : GradFn ℝ
  | [a, x, _] => -(x ^ (a - 1) * exp (-x - torchGammaln a))
  | _ => 0

/-- `Tgamma(3, a, x).real` as `Gammainc.grad_a` uses it; `nan` stands for NaN and for an exception. -/
noncomputable def tgammaReal (nan : ℝ) (eps : ℝ) (prec m : ℕ) (a x : ℝ) : ℝ :=
  match Tgamma eps prec m a x with
  | .ok (some v) => v.re
  | _ => nan

/-! ### Calculus -/

/-- The coordinates of a pair. -/
noncomputable abbrev pr (i : Fin 2) : (Fin 2 → ℝ) →L[ℝ] ℝ := ContinuousLinearMap.proj i

/-- A function with a partial derivative at a point and a continuous partial derivative around it is
differentiable there. -/
theorem hasFDerivAt_of_partials {f : ℝ → ℝ → ℝ} {a x da : ℝ} {g : ℝ × ℝ → ℝ}
    (h1 : HasDerivAt (fun b => f b x) da a) (h2 : ∀ᶠ v in 𝓝 (a, x), HasDerivAt (f v.1) (g v) v.2)
    (hc : ContinuousAt g (a, x)) :
    HasFDerivAt (fun v : Fin 2 → ℝ => f (v 0) (v 1))
      (da • pr 0 + g (a, x) • pr 1) ![a, x] := by
  rw [hasFDerivAt_iff_isLittleO]
  have hp0 : Tendsto (fun v : Fin 2 → ℝ => v 0) (𝓝 ![a, x]) (𝓝 a) := by
    simpa using (continuous_apply 0).tendsto (![a, x])
  have hp1 : Tendsto (fun v : Fin 2 → ℝ => v 1) (𝓝 ![a, x]) (𝓝 x) := by
    simpa using (continuous_apply 1).tendsto (![a, x])
  have hpair : Tendsto (fun v : Fin 2 → ℝ => (v 0, v 1)) (𝓝 ![a, x]) (𝓝 (a, x)) := hp0.prodMk_nhds hp1
  have e : (fun v : Fin 2 → ℝ => f (v 0) (v 1) - f (![a, x] 0) (![a, x] 1) -
      (da • pr 0 + g (a, x) • pr 1)
        (v - ![a, x])) =
      fun v => (f (v 0) (v 1) - f (v 0) x - g (a, x) * (v 1 - x)) +
        (f (v 0) x - f a x - da * (v 0 - a)) := by
    funext v
    have e0 : (da • pr 0 + g (a, x) • pr 1) (v - ![a, x]) = da * (v 0 - a) + g (a, x) * (v 1 - x) := rfl
    rw [e0]
    show f (v 0) (v 1) - f a x - _ = _
    ring
  rw [e]
  refine Asymptotics.IsLittleO.add ?_ ?_
  · rw [Asymptotics.isLittleO_iff]
    intro ε hε
    have hg := hc.eventually (Metric.ball_mem_nhds _ hε)
    obtain ⟨δ, hδ, hball⟩ := Metric.eventually_nhds_iff_ball.1 (h2.and hg)
    have hB := hpair.eventually (Metric.ball_mem_nhds (a, x) hδ)
    filter_upwards [hB] with v hv
    have hv' : dist (v 0) a < δ ∧ dist (v 1) x < δ := by
      rw [Prod.dist_eq, max_lt_iff] at hv; exact hv
    have hseg : ∀ s ∈ Set.uIcc x (v 1), (v 0, s) ∈ Metric.ball (a, x) δ := by
      intro s hs
      rw [Metric.mem_ball, Prod.dist_eq, max_lt_iff]
      refine ⟨hv'.1, ?_⟩
      have : |s - x| ≤ |v 1 - x| := Set.abs_sub_left_of_mem_uIcc hs
      rw [Real.dist_eq] at hv' ⊢
      rw [Real.dist_eq] at hv'
      linarith [hv'.2]
    have hder : ∀ s ∈ Set.uIcc x (v 1), HasDerivWithinAt (fun s => f (v 0) s - g (a, x) * s)
        (g (v 0, s) - g (a, x)) (Set.uIcc x (v 1)) s := by
      intro s hs
      have := (hball _ (hseg s hs)).1
      have h := this.sub ((hasDerivAt_id s).const_mul (g (a, x)))
      rw [mul_one] at h
      exact h.hasDerivWithinAt
    have hbd : ∀ s ∈ Set.uIcc x (v 1), ‖g (v 0, s) - g (a, x)‖ ≤ ε := fun s hs => by
      have := (hball _ (hseg s hs)).2
      rw [dist_eq_norm] at this
      exact this.le
    have hmv := (convex_uIcc x (v 1)).norm_image_sub_le_of_norm_hasDerivWithin_le hder hbd
      Set.left_mem_uIcc Set.right_mem_uIcc
    have e2 : f (v 0) (v 1) - f (v 0) x - g (a, x) * (v 1 - x) =
      f (v 0) (v 1) - g (a, x) * v 1 - (f (v 0) x - g (a, x) * x) := by ring
    rw [e2]
    refine hmv.trans (mul_le_mul_of_nonneg_left ?_ hε.le)
    have := norm_le_pi_norm (v - ![a, x]) 1
    simpa using this
  · have h3 := (hasDerivAt_iff_isLittleO.1 h1).comp_tendsto hp0
    refine Asymptotics.IsLittleO.trans_isBigO (g := fun v : Fin 2 → ℝ => v 0 - a) ?_ ?_
    · refine h3.congr (fun v => ?_) fun v => rfl
      simp [mul_comm]
    · refine Asymptotics.IsBigO.of_bound 1 (Eventually.of_forall fun v => ?_)
      have := norm_le_pi_norm (v - ![a, x]) 0
      simpa using this

/-- `∂P/∂a`. -/
theorem hasDerivAt_incP_a {a x : ℝ} (ha : 0 < a) (hx : 0 < x) :
    HasDerivAt (fun b => incP b x)
      (incQ a x * (deriv Gamma a / Gamma a - log x) - x * TInt 3 a x / Gamma a) a := by
  have hG : DifferentiableAt ℝ Gamma a :=
    Real.differentiableAt_Gamma fun m e => by
      have : (0 : ℝ) ≤ m := by positivity
      linarith
  have hGa := Gamma_pos_of_pos ha
  have h1 := ((TInt_hasDerivAt_a 1 a hx).const_mul x).div hG.hasDerivAt hGa.ne'
  have h2 := h1.const_sub 1
  refine (h2.congr_of_eventuallyEq ?_).congr_deriv ?_
  · filter_upwards [lt_mem_nhds ha] with b hb
    have := incP_add_incQ hb hx.le
    have hGb := (Gamma_pos_of_pos hb).ne'
    simp only [Pi.div_apply]
    rw [TInt_two hb]
    field_simp
    linarith
  · rw [TInt_two ha]; push_cast
    field_simp
    ring

theorem exp_torchGammaln {a : ℝ} (ha : 0 < a) : exp (torchGammaln a) = Gamma a := by
  rw [torchGammaln, abs_of_pos (Gamma_pos_of_pos ha), exp_log (Gamma_pos_of_pos ha)]

theorem gradZ_eq {a x : ℝ} (ha : 0 < a) :
    x ^ (a - 1) * exp (-x - torchGammaln a) = x ^ (a - 1) * exp (-x) / Gamma a := by
  rw [exp_sub, exp_torchGammaln ha, mul_div_assoc]

/-- The derivative of `P` as a function of both arguments. -/
theorem incP_hasFDerivAt {a x : ℝ} (ha : 0 < a) (hx : 0 < x) :
    HasFDerivAt (fun v : Fin 2 → ℝ => incP (v 0) (v 1))
      ((incQ a x * (deriv Gamma a / Gamma a - log x) - x * TInt 3 a x / Gamma a) •
        pr 0 + (x ^ (a - 1) * exp (-x) / Gamma a) • pr 1)
      ![a, x] := by
  have hG : DifferentiableAt ℝ Gamma a :=
    Real.differentiableAt_Gamma fun m e => by
      have : (0 : ℝ) ≤ m := by positivity
      linarith
  refine hasFDerivAt_of_partials (g := fun v => v.2 ^ (v.1 - 1) * exp (-v.2) / Gamma v.1)
    (hasDerivAt_incP_a ha hx) ?_ ?_
  · have h1 : ∀ᶠ v : ℝ × ℝ in 𝓝 (a, x), 0 < v.1 := continuous_fst.continuousAt.eventually (lt_mem_nhds ha)
    have h2 : ∀ᶠ v : ℝ × ℝ in 𝓝 (a, x), 0 < v.2 := continuous_snd.continuousAt.eventually (lt_mem_nhds hx)
    filter_upwards [h1, h2] with v hv1 hv2
    exact hasDerivAt_incP hv1 hv2
  · have c1 : ContinuousAt (fun v : ℝ × ℝ => Gamma v.1) (a, x) :=
      ContinuousAt.comp (f := Prod.fst) (g := Gamma) (x := (a, x)) hG.continuousAt continuous_fst.continuousAt
    have c2 : ContinuousAt (fun v : ℝ × ℝ => v.2 ^ (v.1 - 1)) (a, x) :=
      ContinuousAt.rpow continuous_snd.continuousAt (continuous_fst.continuousAt.sub continuousAt_const)
        (Or.inl hx.ne')
    exact (c2.mul (by fun_prop)).div c1 (Gamma_pos_of_pos ha).ne'

/-! ### C110 -/

theorem incP_lt_one {a x : ℝ} (ha : 0 < a) (hx : 0 < x) : 0 < incP a x ∧ incP a x < 1 := by
  have hmono : StrictMonoOn (incP a) (Set.Ioi 0) := by
    refine strictMonoOn_of_deriv_pos (convex_Ioi 0) (fun y hy =>
      (hasDerivAt_incP ha hy).continuousAt.continuousWithinAt) fun y hy => ?_
    rw [interior_Ioi] at hy
    rw [(hasDerivAt_incP ha hy).deriv]
    have := Gamma_pos_of_pos ha
    have := rpow_pos_of_pos (Set.mem_Ioi.1 hy) (a - 1)
    positivity
  constructor
  · refine lt_of_le_of_lt (incP_nonneg ha (by positivity : 0 ≤ x / 2)) (hmono ?_ hx ?_)
    · exact Set.mem_Ioi.2 (by positivity)
    · linarith
  · refine lt_of_lt_of_le (hmono hx (Set.mem_Ioi.2 (by linarith : 0 < x + 1)) ?_)
      (incP_le_one ha (by linarith))
    linarith

theorem incP_strictMono {a x y : ℝ} (ha : 0 < a) (hx : 0 < x) (hxy : x < y) : incP a x < incP a y := by
  have hmono : StrictMonoOn (incP a) (Set.Ioi 0) := by
    refine strictMonoOn_of_deriv_pos (convex_Ioi 0) (fun y hy =>
      (hasDerivAt_incP ha hy).continuousAt.continuousWithinAt) fun y hy => ?_
    rw [interior_Ioi] at hy
    rw [(hasDerivAt_incP ha hy).deriv]
    have := Gamma_pos_of_pos ha
    have := rpow_pos_of_pos (Set.mem_Ioi.1 hy) (a - 1)
    positivity
  exact hmono hx (hx.trans hxy) hxy

/-- The inverse function is continuous. -/
theorem inverse_continuousAt {G : (Fin 2 → ℝ) → ℝ} {F : ℝ → ℝ → ℝ} (σ : ℝ)
    (hmono : ∀ a x y, 0 < a → 0 < x → x < y → σ * F a x < σ * F a y)
    (hcont : ∀ a x, 0 < a → 0 < x → ContinuousAt (fun b => F b x) a)
    (hG : ∀ v : Fin 2 → ℝ, 0 < v 0 → 0 < v 1 → v 1 < 1 → 0 < G v ∧ F (v 0) (G v) = v 1)
    {v : Fin 2 → ℝ} (h0 : 0 < v 0) (h1 : 0 < v 1) (h2 : v 1 < 1) : ContinuousAt G v := by
  have hp0 : Tendsto (fun w : Fin 2 → ℝ => w 0) (𝓝 v) (𝓝 (v 0)) := (continuous_apply 0).tendsto v
  have hp1 : Tendsto (fun w : Fin 2 → ℝ => w 1) (𝓝 v) (𝓝 (v 1)) := (continuous_apply 1).tendsto v
  have e0 := hp0.eventually (lt_mem_nhds h0)
  have e1 := hp1.eventually (lt_mem_nhds h1)
  have e2 := hp1.eventually (gt_mem_nhds h2)
  obtain ⟨g0, gv⟩ := hG v h0 h1 h2
  have hF : ∀ x, 0 < x → Tendsto (fun w : Fin 2 → ℝ => σ * F (w 0) x) (𝓝 v) (𝓝 (σ * F (v 0) x)) :=
    fun x hx => ((hcont (v 0) x h0 hx).tendsto.comp hp0).const_mul σ
  have hσ : Tendsto (fun w : Fin 2 → ℝ => σ * w 1) (𝓝 v) (𝓝 (σ * v 1)) := hp1.const_mul σ
  refine tendsto_order.2 ⟨fun y hy => ?_, fun y hy => ?_⟩
  · by_cases hy0 : y ≤ 0
    · filter_upwards [e0, e1, e2] with w w0 w1 w2
      exact lt_of_le_of_lt hy0 (hG w w0 w1 w2).1
    · push Not at hy0
      have hlt : σ * F (v 0) y < σ * v 1 := by rw [← gv]; exact hmono _ _ _ h0 hy0 hy
      filter_upwards [e0, e1, e2, (hF y hy0).eventually_lt hσ hlt] with w w0 w1 w2 hw
      obtain ⟨k0, k1⟩ := hG w w0 w1 w2
      by_contra hcon
      push Not at hcon
      rw [← k1] at hw
      rcases hcon.lt_or_eq with h | h
      · exact absurd (hmono _ _ _ w0 k0 h) (not_lt.2 hw.le)
      · rw [h] at hw; exact lt_irrefl _ hw
  · have hy0 : 0 < y := g0.trans hy
    have hlt : σ * v 1 < σ * F (v 0) y := by rw [← gv]; exact hmono _ _ _ h0 g0 hy
    filter_upwards [e0, e1, e2, hσ.eventually_lt (hF y hy0) hlt] with w w0 w1 w2 hw
    obtain ⟨k0, k1⟩ := hG w w0 w1 w2
    by_contra hcon
    push Not at hcon
    rw [← k1] at hw
    rcases hcon.lt_or_eq with h | h
    · exact absurd (hmono _ _ _ w0 hy0 h) (not_lt.2 hw.le)
    · rw [h] at hw; exact lt_irrefl _ hw

/-- The functions `P`, `Q` of both arguments with their gradient functions. -/
theorem incQ_hasFDerivAt {a x : ℝ} (ha : 0 < a) (hx : 0 < x) :
    HasFDerivAt (fun v : Fin 2 → ℝ => incQ (v 0) (v 1))
      (-((incQ a x * (deriv Gamma a / Gamma a - log x) - x * TInt 3 a x / Gamma a) •
        pr 0 + (x ^ (a - 1) * exp (-x) / Gamma a) • pr 1))
      ![a, x] := by
  refine ((incP_hasFDerivAt ha hx).const_sub 1).congr_of_eventuallyEq ?_
  have h1 : ∀ᶠ v : Fin 2 → ℝ in 𝓝 ![a, x], 0 < v 0 :=
    (continuous_apply 0).continuousAt.eventually (lt_mem_nhds (by simpa using ha))
  have h2 : ∀ᶠ v : Fin 2 → ℝ in 𝓝 ![a, x], 0 < v 1 :=
    (continuous_apply 1).continuousAt.eventually (lt_mem_nhds (by simpa using hx))
  filter_upwards [h1, h2] with v v1 v2
  have := incP_add_incQ v1 v2.le
  linarith

theorem grads_eq {a x : ℝ} (ha : 0 < a) (hx : 0 < x) {T : ℝ → ℝ → ℝ} (hT : T a x = TInt 3 a x) (i : Fin 2) :
    [gammaincGradA T, gammaincGradZ][i] [a, x, incP a x] =
      ((incQ a x * (deriv Gamma a / Gamma a - log x) - x * TInt 3 a x / Gamma a) • pr 0 +
        (x ^ (a - 1) * exp (-x) / Gamma a) • pr 1) (Pi.single i 1) ∧
    [gammainccGradA T, gammainccGradZ][i] [a, x, incQ a x] =
      (-((incQ a x * (deriv Gamma a / Gamma a - log x) - x * TInt 3 a x / Gamma a) • pr 0 +
        (x ^ (a - 1) * exp (-x) / Gamma a) • pr 1)) (Pi.single i 1) := by
  have hpq := incP_add_incQ ha hx.le
  have hq : 1 - incP a x = incQ a x := by linarith
  fin_cases i
  · simp [gammaincGradA, gammainccGradA, gammaincGradQ, hq, torchDigamma, exp_torchGammaln ha, hT, pr]
  · simp [gammaincGradZ, gammainccGradZ, gradZ_eq ha, pr]

/-- **C110 (gammainc, gammaincc), partial.** Where `Tgamma(3, a, x)` is exact, the gradients of
`gammainc` and `gammaincc` are the partial derivatives of `P` and `Q`, for every subset of inputs
that need one. -/
theorem C110_gammainc_grad_partial {a x : ℝ} (ha : 0 < a) (hx : 0 < x) {T : ℝ → ℝ → ℝ}
    (hT : T a x = TInt 3 a x) (nig : Fin 2 → Bool) :
    (∃ P' : (Fin 2 → ℝ) →L[ℝ] ℝ, HasFDerivAt (fun v : Fin 2 → ℝ => incP (v 0) (v 1)) P' ![a, x] ∧
      rawBackward [some (gammaincGradA T), some gammaincGradZ] (List.ofFn nig) [a, x, incP a x] =
        List.ofFn fun i => if nig i then some (P' (Pi.single i 1)) else none) ∧
    ∃ Q' : (Fin 2 → ℝ) →L[ℝ] ℝ, HasFDerivAt (fun v : Fin 2 → ℝ => incQ (v 0) (v 1)) Q' ![a, x] ∧
      rawBackward [some (gammainccGradA T), some gammainccGradZ] (List.ofFn nig) [a, x, incQ a x] =
        List.ofFn fun i => if nig i then some (Q' (Pi.single i 1)) else none := by
  have h0 := grads_eq ha hx hT 0
  have h1 := grads_eq ha hx hT 1
  refine ⟨⟨_, incP_hasFDerivAt ha hx, ?_⟩, ⟨_, incQ_hasFDerivAt ha hx, ?_⟩⟩
  · rw [List.ofFn_succ, List.ofFn_succ, List.ofFn_zero, List.ofFn_succ, List.ofFn_succ, List.ofFn_zero]
    simp only [rawBackward, List.zipWith_cons_cons, List.zipWith_nil_left, Option.map_some]
    rw [← h0.1]
    rw [show (Fin.succ 0 : Fin 2) = 1 from rfl, ← h1.1]
    rfl
  · rw [List.ofFn_succ, List.ofFn_succ, List.ofFn_zero, List.ofFn_succ, List.ofFn_succ, List.ofFn_zero]
    simp only [rawBackward, List.zipWith_cons_cons, List.zipWith_nil_left, Option.map_some]
    rw [← h0.2]
    rw [show (Fin.succ 0 : Fin 2) = 1 from rfl, ← h1.2]
    rfl

/-- **C110 (gammaincinv), partial.** Let `G(a, p)` be the inverse of `P(a, ·)`.  Where
`Tgamma(3, a, G(a,p))` is exact and the forward pass returned `G(a, p)`, the gradients of
`gammaincinv` are the partial derivatives of `G`. -/
theorem C110_gammaincinv_grad_partial (G : (Fin 2 → ℝ) → ℝ)
    (hG : ∀ v : Fin 2 → ℝ, 0 < v 0 → 0 < v 1 → v 1 < 1 → 0 < G v ∧ incP (v 0) (G v) = v 1)
    {v : Fin 2 → ℝ} (h0 : 0 < v 0) (h1 : 0 < v 1) (h2 : v 1 < 1) {T : ℝ → ℝ → ℝ}
    (hT : T (v 0) (G v) = TInt 3 (v 0) (G v)) (nig : Fin 2 → Bool) :
    ∃ G' : (Fin 2 → ℝ) →L[ℝ] ℝ, HasFDerivAt G G' v ∧
      inverseBackward [gammaincGradA T, gammaincGradZ] 1 (List.ofFn nig) [v 0, v 1, G v] =
        List.ofFn fun i => if nig i then some (G' (Pi.single i 1)) else none := by
  obtain ⟨g0, g1⟩ := hG v h0 h1 h2
  have hup : Function.update v 1 (G v) = ![v 0, G v] := by
    funext i; fin_cases i <;> simp
  have key := C59_inverse 2 (fun v : Fin 2 → ℝ => incP (v 0) (v 1)) G 1 v _
    (by rw [hup]; exact incP_hasFDerivAt h0 g0)
    (by
      have k1 := Gamma_pos_of_pos h0
      have k2 := rpow_pos_of_pos g0 (v 0 - 1)
      simp [pr, k1.ne', k2.ne'])
    (inverse_continuousAt 1 (fun a x y ha hx hxy => by
        rw [one_mul, one_mul]; exact incP_strictMono ha hx hxy)
      (fun a x ha hx => (hasDerivAt_incP_a ha hx).continuousAt) hG h0 h1 h2)
    (by
      have e0 : ∀ᶠ w : Fin 2 → ℝ in 𝓝 v, 0 < w 0 :=
        (continuous_apply 0).continuousAt.eventually (lt_mem_nhds h0)
      have e1 : ∀ᶠ w : Fin 2 → ℝ in 𝓝 v, 0 < w 1 :=
        (continuous_apply 1).continuousAt.eventually (lt_mem_nhds h1)
      have e2 : ∀ᶠ w : Fin 2 → ℝ in 𝓝 v, w 1 < 1 :=
        (continuous_apply 1).continuousAt.eventually (gt_mem_nhds h2)
      filter_upwards [e0, e1, e2] with w w0 w1 w2
      simpa using (hG w w0 w1 w2).2)
    [gammaincGradA T, gammaincGradZ] rfl
    (fun i => by
      rw [hup]
      exact (grads_eq h0 g0 hT i).1)
    nig
  simpa [List.ofFn_succ] using key

/-- **C110 (gammainccinv), partial.** The same for the inverse of `Q(a, ·)`. -/
theorem C110_gammainccinv_grad_partial (G : (Fin 2 → ℝ) → ℝ)
    (hG : ∀ v : Fin 2 → ℝ, 0 < v 0 → 0 < v 1 → v 1 < 1 → 0 < G v ∧ incQ (v 0) (G v) = v 1)
    {v : Fin 2 → ℝ} (h0 : 0 < v 0) (h1 : 0 < v 1) (h2 : v 1 < 1) {T : ℝ → ℝ → ℝ}
    (hT : T (v 0) (G v) = TInt 3 (v 0) (G v)) (nig : Fin 2 → Bool) :
    ∃ G' : (Fin 2 → ℝ) →L[ℝ] ℝ, HasFDerivAt G G' v ∧
      inverseBackward [gammainccGradA T, gammainccGradZ] 1 (List.ofFn nig) [v 0, v 1, G v] =
        List.ofFn fun i => if nig i then some (G' (Pi.single i 1)) else none := by
  obtain ⟨g0, g1⟩ := hG v h0 h1 h2
  have hup : Function.update v 1 (G v) = ![v 0, G v] := by
    funext i; fin_cases i <;> simp
  have key := C59_inverse 2 (fun v : Fin 2 → ℝ => incQ (v 0) (v 1)) G 1 v _
    (by rw [hup]; exact incQ_hasFDerivAt h0 g0)
    (by
      have k1 := Gamma_pos_of_pos h0
      have k2 := rpow_pos_of_pos g0 (v 0 - 1)
      simp [pr, k1.ne', k2.ne'])
    (inverse_continuousAt (-1) (fun a x y ha hx hxy => by
        have h := incP_strictMono ha hx hxy
        have := incP_add_incQ ha hx.le
        have := incP_add_incQ ha (hx.trans hxy).le
        linarith)
      (fun a x ha hx => by
        refine ContinuousAt.congr (f := fun b => 1 - incP b x)
          (continuousAt_const.sub (hasDerivAt_incP_a ha hx).continuousAt) ?_
        filter_upwards [lt_mem_nhds ha] with b hb
        have := incP_add_incQ hb hx.le
        linarith) hG h0 h1 h2)
    (by
      have e0 : ∀ᶠ w : Fin 2 → ℝ in 𝓝 v, 0 < w 0 :=
        (continuous_apply 0).continuousAt.eventually (lt_mem_nhds h0)
      have e1 : ∀ᶠ w : Fin 2 → ℝ in 𝓝 v, 0 < w 1 :=
        (continuous_apply 1).continuousAt.eventually (lt_mem_nhds h1)
      have e2 : ∀ᶠ w : Fin 2 → ℝ in 𝓝 v, w 1 < 1 :=
        (continuous_apply 1).continuousAt.eventually (gt_mem_nhds h2)
      filter_upwards [e0, e1, e2] with w w0 w1 w2
      simpa using (hG w w0 w1 w2).2)
    [gammainccGradA T, gammainccGradZ] rfl
    (fun i => by
      rw [hup]
      exact (grads_eq h0 g0 hT i).2)
    nig
  simpa [List.ofFn_succ] using key

/-! ### The hypotheses can be met -/

theorem incP_surj {a p : ℝ} (ha : 0 < a) (hp : 0 < p) (hp1 : p < 1) : ∃ x, 0 < x ∧ incP a x = p := by
  have hG := Gamma_pos_of_pos ha
  have hinf : Tendsto (incP a) atTop (𝓝 1) := by
    have h1 := MeasureTheory.intervalIntegral_tendsto_integral_Ioi 0 (gammaKernel_integrableOn ha) tendsto_id
    have h2 := h1.div_const (Gamma a)
    have h3 : (∫ t in Set.Ioi (0 : ℝ), t ^ (a - 1) * exp (-t)) / Gamma a = 1 := by
      have := incP_add_incQ ha le_rfl
      rwa [incP_zero, zero_add, incQ] at this
    rw [h3] at h2
    exact h2
  have hzero : Tendsto (incP a) (𝓝[>] 0) (𝓝 0) := by
    have h1 : Tendsto (fun x : ℝ => x ^ a / Gamma (a + 1)) (𝓝[>] 0) (𝓝 0) := by
      have := ((Real.continuousAt_rpow_const 0 a (Or.inr ha.le)).tendsto.div_const (Gamma (a + 1))).mono_left
        (nhdsWithin_le_nhds (s := Set.Ioi 0))
      rwa [zero_rpow ha.ne', zero_div] at this
    refine squeeze_zero' ?_ ?_ h1
    · filter_upwards [self_mem_nhdsWithin] with x hx using incP_nonneg ha (le_of_lt hx)
    · filter_upwards [self_mem_nhdsWithin] with x hx using incP_le ha (le_of_lt hx)
  obtain ⟨u, hu, hu0⟩ := ((hzero.eventually (gt_mem_nhds hp)).and self_mem_nhdsWithin).exists
  obtain ⟨w, hw, hwu⟩ := ((hinf.eventually (lt_mem_nhds hp1)).and (eventually_ge_atTop u)).exists
  have hu0 : 0 < u := hu0
  have hc : ContinuousOn (incP a) (Set.Icc u w) := fun y hy =>
    (hasDerivAt_incP ha (hu0.trans_le hy.1)).continuousAt.continuousWithinAt
  obtain ⟨x, hx, hxp⟩ := intermediate_value_Icc hwu hc ⟨hu.le, hw.le⟩
  exact ⟨x, hu0.trans_le hx.1, hxp⟩

/-- `P(a, ·)` and `Q(a, ·)` have inverses on `(0, 1)`. -/
theorem exists_inverses : ∃ G H : (Fin 2 → ℝ) → ℝ,
    (∀ v : Fin 2 → ℝ, 0 < v 0 → 0 < v 1 → v 1 < 1 → 0 < G v ∧ incP (v 0) (G v) = v 1) ∧
    ∀ v : Fin 2 → ℝ, 0 < v 0 → 0 < v 1 → v 1 < 1 → 0 < H v ∧ incQ (v 0) (H v) = v 1 := by
  have hP : ∀ v : Fin 2 → ℝ, ∃ x, 0 < v 0 → 0 < v 1 → v 1 < 1 → 0 < x ∧ incP (v 0) x = v 1 := by
    intro v
    by_cases h : 0 < v 0 ∧ 0 < v 1 ∧ v 1 < 1
    · obtain ⟨x, hx⟩ := incP_surj h.1 h.2.1 h.2.2
      exact ⟨x, fun _ _ _ => hx⟩
    · exact ⟨0, fun h0 h1 h2 => absurd ⟨h0, h1, h2⟩ h⟩
  have hQ : ∀ v : Fin 2 → ℝ, ∃ x, 0 < v 0 → 0 < v 1 → v 1 < 1 → 0 < x ∧ incQ (v 0) x = v 1 := by
    intro v
    by_cases h : 0 < v 0 ∧ 0 < v 1 ∧ v 1 < 1
    · obtain ⟨x, hx, hx1⟩ := incP_surj (p := 1 - v 1) h.1 (by linarith [h.2.2]) (by linarith [h.2.1])
      have := incP_add_incQ h.1 hx.le
      exact ⟨x, fun _ _ _ => ⟨hx, by linarith⟩⟩
    · exact ⟨0, fun h0 h1 h2 => absurd ⟨h0, h1, h2⟩ h⟩
  choose G hG using hP
  choose H hH using hQ
  exact ⟨G, H, hG, hH⟩

/-- The hypotheses of the four theorems above hold, with the exact `T`. -/
example : (∃ P' : (Fin 2 → ℝ) →L[ℝ] ℝ,
      HasFDerivAt (fun v : Fin 2 → ℝ => incP (v 0) (v 1)) P' ![2, 3] ∧
      rawBackward [some (gammaincGradA (TInt 3)), some gammaincGradZ] [true, false] [2, 3, incP 2 3] =
        [some (P' (Pi.single 0 1)), none]) ∧
    ∃ (G : (Fin 2 → ℝ) → ℝ) (G' : (Fin 2 → ℝ) →L[ℝ] ℝ), HasFDerivAt G G' ![2, 1 / 3] ∧
      inverseBackward [gammaincGradA (TInt 3), gammaincGradZ] 1 [true, true] [2, 1 / 3, G ![2, 1 / 3]] =
        [some (G' (Pi.single 0 1)), some (G' (Pi.single 1 1))] := by
  obtain ⟨G, -, hG, -⟩ := exists_inverses
  constructor
  · obtain ⟨⟨P', h1, h2⟩, -⟩ := C110_gammainc_grad_partial (a := 2) (x := 3) (by norm_num) (by norm_num)
      (T := TInt 3) rfl ![true, false]
    exact ⟨P', h1, by simpa [List.ofFn_succ] using h2⟩
  · obtain ⟨G', h1, h2⟩ := C110_gammaincinv_grad_partial G hG (v := ![2, 1 / 3]) (by simp) (by simp)
      (by simp; norm_num) (T := TInt 3) rfl ![true, true]
    exact ⟨G, G', h1, by simpa [List.ofFn_succ] using h2⟩

end Verif.Special
