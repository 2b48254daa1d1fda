import Verif.Special.TGammaLimit
import Verif.Autograd.Model

/-!
# `Tgamma` for every order, and its gradients (C111, C112)
-/

open Complex

namespace Verif.Special

open Verif.Autograd

/-- **C111 (m ≥ 3).** `Tgamma(m, a, z)` with `m ≥ 3` never evaluates the function at the given
parameters: for every `a` and `z` all of them are shifted by multiples of the step. -/
theorem C111_Tgamma_perturbed (gam : ℂ → Option ℂ) (hyp : List ℂ → List ℂ → ℂ → Option ℂ) (eps h : ℝ) {m : ℕ}
    (hm : 3 ≤ m) (a z : ℂ) :
    TgammaWith gam hyp eps h m a z =
      .ok (combSum gam hyp (meijergSeries1 m 0 (m - 1) m z 1 (perturbFrom 0 h (tgammaArgs m a)))) := by
  rw [TgammaWith_eq (by omega), if_pos (tgamma_perturbed hm a z)]

/-! ### Model of the gradients -/

/-- `TGamma.grad_a` (special/gammainc.py:26-28).  `Tg m a z` is the call `Tgamma(m, a, z)`. -/
noncomputable def tgammaGradA (Tg : ℕ → ℂ → ℂ → Except String ℂ) (m : ℕ) (a z T : ℂ) : Except String ℂ := do
  let T' ← Tg (m + 1) a z
  return log z * T + (m - 1) * T'

/-- `TGamma.grad_z` (special/gammainc.py:30-32).  (`m - 1` is a Python integer; `m ≥ 1` here.) -/
noncomputable def tgammaGradZ (Tg : ℕ → ℂ → ℂ → Except String ℂ) (m : ℕ) (a z T : ℂ) : Except String ℂ := do
  let T' ← Tg (m - 1) a z
  return -(T' + T) / z

/-- `TGamma.backward` (special/gammainc.py:9-34, utils/function_context.py:57-76): the saved tensors are
`a`, `z` and the output `T`; `gradfuncs = None, grad_a, grad_z`, `ninputs = 3`; `TGamma` is not a `CargsMixin`,
so `process_grad` is the identity. -/
noncomputable def tgammaBackward (Tg : ℕ → ℂ → ℂ → Except String ℂ) (m : ℕ) (nigA nigZ : Bool) (a z T gout : ℂ) :
    Except String (Out ℂ) := do
  let ga ← if nigA then some <$> tgammaGradA Tg m a z T else pure none
  let gz ← if nigZ then some <$> tgammaGradZ Tg m a z T else pure none
  return backward id (some 3) [none, ga, gz] [some gout]

/-- The call `Tgamma(m, a, z)` of the source; `nan` stands for NaN. -/
noncomputable def tgammaCall (nan : ℂ) (eps : ℝ) (prec m : ℕ) (a z : ℂ) : Except String ℂ :=
  (Tgamma eps prec m a z).map (·.getD nan)

/-! ### C112 -/

/-- **C112 (real arguments), partial.** Where the neighbouring `Tgamma` calls and the forward result are exact and
`m ≥ 2`, the gradients are the partial derivatives of `T(m, a, x)`. -/
theorem C112_Tgamma_grad_partial {Tg : ℕ → ℂ → ℂ → Except String ℂ} {m : ℕ} (hm : 2 ≤ m) {a x : ℝ} (hx : 0 < x)
    (h1 : Tg (m + 1) a x = .ok (TInt (m + 1) a x)) (h2 : Tg (m - 1) a x = .ok (TInt (m - 1) a x))
    (nigA nigZ : Bool) (gout : ℂ) :
    ∃ da dx : ℝ, HasDerivAt (fun b => TInt m b x) da a ∧ HasDerivAt (TInt m a) dx x ∧
      tgammaBackward Tg m nigA nigZ a x (TInt m a x) gout =
        .ok (.ret [none, if nigA then some (da * gout) else none, if nigZ then some (dx * gout) else none]) := by
  obtain ⟨k, rfl⟩ : ∃ k, m = k + 2 := ⟨m - 2, by omega⟩
  refine ⟨_, _, TInt_hasDerivAt_a (k + 1) a hx, TInt_hasDerivAt_x k a hx, ?_⟩
  rw [show k + 2 - 1 = k + 1 by omega] at h2
  have ea : tgammaGradA Tg (k + 2) a x (TInt (k + 2) a x) =
      .ok ((Real.log x * TInt (k + 1 + 1) a x + (k + 1 : ℕ) * TInt (k + 1 + 2) a x : ℝ) : ℂ) := by
    rw [tgammaGradA, h1, ← ofReal_log hx.le]
    simp only [Except.instMonad, Except.bind, Except.pure, bind, pure]
    congr 1
    push_cast
    ring
  have ez : tgammaGradZ Tg (k + 2) a x (TInt (k + 2) a x) =
      .ok ((-(TInt (k + 1) a x + TInt (k + 2) a x) / x : ℝ) : ℂ) := by
    rw [tgammaGradZ, show k + 2 - 1 = k + 1 by omega, h2]
    simp only [Except.instMonad, Except.bind, Except.pure, bind, pure]
    congr 1
    push_cast
    ring
  rw [tgammaBackward, ea, ez]
  cases nigA <;> cases nigZ <;>
    simp [backward, padded, Except.instMonad, Except.bind, Except.pure, Except.map, bind, pure]

/-- **C112 (m = 1).** The gradient of `Tgamma(1, a, z)` with respect to `z` raises, because it calls
`Tgamma(0, a, z)`, although the derivative exists; that with respect to `a` does not. -/
theorem C112_Tgamma_one_grad_raises (eps : ℝ) (prec : ℕ) (nan a z T gout : ℂ) :
    tgammaBackward (tgammaCall nan eps prec) 1 false true a z T gout = .error "length_error" ∧
    ∃ out, tgammaBackward (tgammaCall nan eps prec) 1 true false a z T gout = .ok out := by
  have h0 : tgammaCall nan eps prec 0 a z = .error "length_error" := by
    rw [tgammaCall, Tgamma, TgammaWith, if_pos rfl]; rfl
  obtain ⟨v, h2⟩ : ∃ v, tgammaCall nan eps prec 2 a z = .ok v := by
    rw [tgammaCall, Tgamma, TgammaWith, if_neg (by norm_num)]; exact ⟨_, rfl⟩
  constructor
  · simp [tgammaBackward, tgammaGradZ, h0, Except.instMonad, Except.bind, Except.map, Except.pure, bind, pure,
      Functor.map]
  · simp [tgammaBackward, tgammaGradA, h2, Except.instMonad, Except.bind, Except.map, Except.pure, bind, pure,
      Functor.map]

/-- **C112 (complex arguments).** The gradients are not conjugated: with `D` the complex derivative with respect to
`a`, `backward` returns `D` times the incoming gradient, where torch's convention (which the other
functions of this package follow, see C109) is `conj D`.  At `m = 1`, `a = 1`, `z = i` these differ. -/
theorem C112_Tgamma_complex_grad_wrong {Tg : ℕ → ℂ → ℂ → Except String ℂ} {T' : ℂ}
    (h : Tg 2 1 I = .ok T') :
    ∃ D : ℂ, HasDerivAt (fun b : ℂ => I ^ (b - 1) * exp (-I)) D 1 ∧
      tgammaBackward Tg 1 true false 1 I (I ^ ((1 : ℂ) - 1) * exp (-I)) 1 = .ok (.ret [none, some D, none]) ∧
      D ≠ (starRingEnd ℂ) D := by
  have hd : HasDerivAt (fun b : ℂ => I ^ (b - 1) * exp (-I)) (I ^ ((1 : ℂ) - 1) * log I * 1 * exp (-I)) 1 :=
    (((hasDerivAt_id (1 : ℂ)).sub_const 1).const_cpow (Or.inl I_ne_zero)).mul_const _
  refine ⟨_, hd, ?_, ?_⟩
  · simp only [tgammaBackward, tgammaGradA, h, Except.instMonad, Except.bind, Except.map, Except.pure, bind, pure,
      Functor.map, if_true, Bool.false_eq_true, if_false, backward, padded, List.filterMap, id]
    congr 1
    simp
  · intro e
    have him := congrArg im e
    rw [sub_self, cpow_zero, one_mul, mul_one, log_I, conj_im] at him
    have hre : ((Real.pi / 2 * I : ℂ) * exp (-I)).im = Real.pi / 2 * Real.cos 1 := by
      rw [show (Real.pi / 2 * I : ℂ) * exp (-I) = ((Real.pi / 2 : ℝ) : ℂ) * (I * exp (-I)) by push_cast; ring,
        im_ofReal_mul, show (-I : ℂ) = ((-1 : ℝ) : ℂ) * I by simp, exp_mul_I, ← ofReal_cos, ← ofReal_sin]
      have h1 : (cos 1).re = Real.cos 1 := by rw [← ofReal_one, cos_ofReal_re]
      have h2 : (sin 1).im = 0 := by rw [← ofReal_one, sin_ofReal_im]
      simp [h1, h2]
    rw [hre] at him
    have hc := Real.cos_one_pos
    have hpi := Real.pi_pos
    have : 0 < Real.pi / 2 * Real.cos 1 := by positivity
    linarith

/-- The hypotheses can be met. -/
example : ∃ da dx : ℝ, HasDerivAt (fun b => TInt 2 b 3) da 1 ∧ HasDerivAt (TInt 2 1) dx 3 ∧
    tgammaBackward (fun m a z => .ok (TInt m a.re z.re)) 2 true true (1 : ℝ) (3 : ℝ) (TInt 2 1 3) 5 =
      .ok (.ret [none, some (da * 5), some (dx * 5)]) := by
  simpa using C112_Tgamma_grad_partial (Tg := fun m a z => .ok (TInt m a.re z.re)) (m := 2) le_rfl (a := 1) (x := 3)
    (by norm_num) (by simp) (by simp) true true 5

end Verif.Special
