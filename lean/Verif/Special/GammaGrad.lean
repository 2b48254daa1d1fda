import Verif.Special.DigammaProps
import Verif.Special.LogGammaProps
import Verif.Autograd.Model
import Mathlib.Analysis.Complex.LocallyUniformLimit
import Mathlib.Analysis.RCLike.TangentCone

/-!
# Gradients of `gamma`, `loggamma`, `digamma` (C109)
-/

open Complex Filter Topology Finset

namespace Verif.Special

open Verif.Autograd

/-! ### Model -/

/-- `Gamma.grad_z` (special/gamma.py:19-20), applied to the saved tensors `z, G`.  `nan` stands for
the value where `digamma` returns NaN. -/
noncomputable def gammaGradZ (nan : ℂ) (eps : ℝ) : GradFn ℂ
  | [z, G] => G * (digamma eps z).getD nan
  | _ => nan

/-- `Loggamma.grad_z` (special/gamma.py:38-39), applied to the saved tensor `z`. -/
noncomputable def loggammaGradZ (nan : ℂ) (eps : ℝ) : GradFn ℂ
  | [z] => (digamma eps z).getD nan
  | _ => nan

/-- `Gamma.backward` (special/gamma.py:9-23, utils/function_context.py:57-76, 117-119): the saved
tensors are the input and the output, the gradient is conjugated. -/
noncomputable def gammaBackward (nan : ℂ) (eps : ℝ) (z G gout : ℂ) : Out ℂ :=
  backward conjGrad (some 1) (rawBackward [some (gammaGradZ nan eps)] [true] [z, G]) [some gout]

/-- `Loggamma.backward` (special/gamma.py:26-41): `save_output = False`. -/
noncomputable def loggammaBackward (nan : ℂ) (eps : ℝ) (z gout : ℂ) : Out ℂ :=
  backward conjGrad (some 1) (rawBackward [some (loggammaGradZ nan eps)] [true] [z]) [some gout]

/-- `special.cpp:29-35`: the names that the extension module `special` defines. -/
def specialExports : List String :=
  ["gamma", "loggamma", "digamma", "gammainc", "gammaincc", "gammaincinv", "gammainccinv", "Tgamma"]

/-- Looking up a name in the extension module. -/
def specialAttr {α : Type} (name : String) (f : α) : Except String α :=
  if name ∈ specialExports then .ok f else .error "AttributeError"

/-- `polygamma` and `Polygamma._forward` (special/gamma.py:62-80, 87-88); `f` is the function the
extension module would have under that name. -/
def polygamma {α : Type} (f : ℕ → ℂ → α) (n : ℕ) (z : ℂ) : Except String α := do
  let g ← specialAttr "polygamma" f
  return g n z

/-- `Digamma.grad_z` (special/gamma.py:56-57). -/
def digammaGradZ {α : Type} (f : ℕ → ℂ → α) (z : ℂ) : Except String α := polygamma f 1 z

/-! ### The derivative of the standard branch of `log Γ` -/

theorem binetM_differentiableAt {z : ℂ} (hz : 0 < z.re) : DifferentiableAt ℂ binetM z := by
  have h0 : z ≠ 0 := by rintro rfl; simp at hz
  have hs : z ∈ slitPlane := Or.inl hz
  have h1 : DifferentiableAt ℂ (fun w : ℂ => pev binetL (1 / w)) z :=
    (pev_pder binetL (1 / z)).differentiableAt.comp z
      ((differentiableAt_const _).div differentiableAt_id h0)
  unfold binetM
  have h2 : DifferentiableAt ℂ log z := differentiableAt_log hs
  fun_prop

theorem lgRight_differentiableAt {z : ℂ} (hz : 14 < z.re) : DifferentiableAt ℂ lgRight z := by
  have ho : IsOpen {w : ℂ | 14 < w.re} := isOpen_lt continuous_const continuous_re
  have h1 : DifferentiableOn ℂ (fun w => ∑' k : ℕ, binetStep (w + k)) {w : ℂ | 14 < w.re} := by
    refine differentiableOn_tsum_of_summable_norm hasSum_telescope.summable (fun k => ?_) ho
      fun k w hw => binetStep_bound' (le_of_lt hw) k
    intro w hw
    refine DifferentiableAt.differentiableWithinAt ?_
    have hw' : 14 < w.re := hw
    have hk : (0 : ℝ) ≤ k := by positivity
    have p1 : 0 < (w + k).re := by simp; linarith
    have p2 : 0 < (w + k + 1).re := by simp; linarith
    have d1 : DifferentiableAt ℂ (fun w : ℂ => binetM (w + k)) w :=
      (binetM_differentiableAt p1).comp w (f := fun w : ℂ => w + k) (by fun_prop)
    have d2 : DifferentiableAt ℂ (fun w : ℂ => binetM (w + k + 1)) w :=
      (binetM_differentiableAt p2).comp w (f := fun w : ℂ => w + k + 1) (by fun_prop)
    have d3 : DifferentiableAt ℂ (fun w : ℂ => log (w + k)) w :=
      (differentiableAt_log (Or.inl p1)).comp w (f := fun w : ℂ => w + k) (by fun_prop)
    exact (d2.sub d1).sub d3
  have h2 := h1.differentiableAt (ho.mem_nhds hz)
  exact (binetM_differentiableAt (by linarith)).add h2

/-- The branch `L` is differentiable in every sense in which the logarithms are. -/
theorem logGamma_differentiableWithinAt {L : ℂ → ℂ} (hL : ∀ w, IsLogGamma w (L w)) {S : Set ℂ} {z : ℂ}
    (hz : NotPole z) (hS : UniqueDiffWithinAt ℂ S z) (hzS : z ∈ S)
    (hlog : ∀ k : ℕ, DifferentiableWithinAt ℂ (fun w => log (w + k)) S z) :
    HasDerivWithinAt L (deriv Gamma z / Gamma z) S z := by
  obtain ⟨n, hn⟩ := exists_nat_gt (14 - z.re)
  have hev : ∀ᶠ w : ℂ in 𝓝 z, 14 < (w + n).re := by
    have : Tendsto (fun w : ℂ => (w + n).re) (𝓝 z) (𝓝 (z + n).re) :=
      (continuous_re.comp (continuous_id.add continuous_const)).tendsto z
    exact this.eventually (lt_mem_nhds (by simp; linarith))
  have hform : ∀ w : ℂ, 14 < (w + n).re → L w = lgRight (w + n) - ∑ k ∈ range n, log (w + k) :=
    fun w hw => (hL w).unique ((isLogGamma_right hw.le).of_add_nat n)
  have d1 : DifferentiableWithinAt ℂ (fun w => lgRight (w + n) - ∑ k ∈ range n, log (w + k)) S z := by
    refine DifferentiableWithinAt.sub ?_ ?_
    · refine DifferentiableAt.differentiableWithinAt ?_
      exact (lgRight_differentiableAt hev.self_of_nhds).comp z (f := fun w : ℂ => w + n) (by fun_prop)
    · exact DifferentiableWithinAt.fun_sum fun k _ => hlog k
  have d2 : DifferentiableWithinAt ℂ L S z :=
    d1.congr_of_eventuallyEq (eventually_nhdsWithin_of_eventually_nhds (hev.mono hform))
      (hform z hev.self_of_nhds)
  have h := d2.hasDerivWithinAt
  have he := h.cexp
  have hpole : ∀ᶠ w in 𝓝 z, NotPole w := by
    have hG : ContinuousAt Gamma z := (differentiableAt_Gamma z hz).continuousAt
    filter_upwards [hG.eventually_ne (Gamma_ne_zero hz)] with w hw m e
    exact hw (by rw [e, Gamma_neg_nat_eq_zero])
  have hg : HasDerivWithinAt (fun w => exp (L w)) (deriv Gamma z) S z := by
    refine (differentiableAt_Gamma z hz).hasDerivAt.hasDerivWithinAt.congr_of_eventuallyEq
      (eventually_nhdsWithin_of_eventually_nhds (hpole.mono fun w hw => (hL w).exp_eq hw))
      ((hL z).exp_eq hz)
  have e := (hS.eq_deriv S he hg)
  rw [(hL z).exp_eq hz] at e
  rw [← e, mul_div_cancel_left₀ _ (Gamma_ne_zero hz)]
  exact h

/-- From above, the logarithm is differentiable on its cut as well. -/
theorem log_differentiableWithinAt {z : ℂ} (hz : z ≠ 0) (him : 0 ≤ z.im) :
    DifferentiableWithinAt ℂ log {w | 0 ≤ w.im} z := by
  by_cases hs : z ∈ slitPlane
  · exact (differentiableAt_log hs).differentiableWithinAt
  · rw [mem_slitPlane_iff, not_or, not_lt, not_not] at hs
    have hre : z.re < 0 := lt_of_le_of_ne hs.1 fun e => hz (Complex.ext e hs.2)
    have hf : ∀ w : ℂ, w.re < 0 → 0 ≤ w.im → log w = log (-w) + Real.pi * I := by
      intro w h1 h2
      have ha : arg (-w) = arg w - Real.pi := by
        rw [arg_neg_eq_arg_sub_pi_iff]
        rcases h2.lt_or_eq with h | h
        · exact Or.inl h
        · exact Or.inr ⟨h.symm, h1⟩
      apply Complex.ext
      · simp [log_re]
      · simp [log_im, ha]
    have hd : DifferentiableAt ℂ (fun w : ℂ => log (-w) + Real.pi * I) z := by
      have : DifferentiableAt ℂ (fun w : ℂ => log (-w)) z :=
        (differentiableAt_log (z := -z) (Or.inl (by simpa using hre))).comp z (f := fun w : ℂ => -w)
          (by fun_prop)
      fun_prop
    refine hd.differentiableWithinAt.congr_of_eventuallyEq ?_ (hf z hre him)
    have : ∀ᶠ w in 𝓝 z, w.re < 0 := (continuous_re.tendsto z).eventually (gt_mem_nhds hre)
    filter_upwards [eventually_nhdsWithin_of_eventually_nhds this, self_mem_nhdsWithin] with w h1 h2
    exact hf w h1 h2

/-- The derivative of the standard branch off the cut. -/
theorem logGamma_hasDerivAt {L : ℂ → ℂ} (hL : ∀ w, IsLogGamma w (L w)) {z : ℂ} (hz : z ∈ slitPlane) :
    HasDerivAt L (deriv Gamma z / Gamma z) z := by
  have hn : NotPole z := by
    intro m e
    rw [e] at hz
    rcases hz with h | h
    · simp at h; have : (0 : ℝ) ≤ m := by positivity
      linarith
    · simp at h
  rw [← hasDerivWithinAt_univ]
  refine logGamma_differentiableWithinAt hL hn uniqueDiffWithinAt_univ (Set.mem_univ _) fun k => ?_
  refine DifferentiableAt.differentiableWithinAt ?_
  have hs : z + k ∈ slitPlane := by
    rcases hz with h | h
    · left; simp; have : (0 : ℝ) ≤ k := by positivity
      linarith
    · right; simpa using h
  exact (differentiableAt_log hs).comp z (f := fun w : ℂ => w + k) (by fun_prop)

theorem uniqueDiff_upper {z : ℂ} (hz : 0 ≤ z.im) : UniqueDiffWithinAt ℂ {w : ℂ | 0 ≤ w.im} z := by
  have hc : Convex ℝ {w : ℂ | 0 ≤ w.im} := convex_halfSpace_im_ge 0
  have hne : (interior {w : ℂ | 0 ≤ w.im}).Nonempty := by
    refine ⟨I, ?_⟩
    rw [interior_setOf_le_im]; simp
  have := uniqueDiffWithinAt_convex_of_isRCLikeNormedField (𝕜 := ℂ) hc hne (x := z)
    (subset_closure hz)
  exact this

/-- The derivative of the standard branch from above. -/
theorem logGamma_hasDerivWithinAt {L : ℂ → ℂ} (hL : ∀ w, IsLogGamma w (L w)) {z : ℂ} (hz : NotPole z)
    (him : 0 ≤ z.im) : HasDerivWithinAt L (deriv Gamma z / Gamma z) {w | 0 ≤ w.im} z := by
  refine logGamma_differentiableWithinAt hL hz (uniqueDiff_upper him) him fun k => ?_
  have := log_differentiableWithinAt (hz.add_ne k) (by simpa using him)
  exact this.comp z (f := fun w : ℂ => w + k) (by fun_prop) fun w hw => by simpa using hw

/-! ### C109 -/

theorem backward_one (f : GradFn ℂ) (saved : List ℂ) (gout : ℂ) :
    backward conjGrad (some 1) (rawBackward [some f] [true] saved) [some gout] =
      .ret [some ((starRingEnd ℂ) (f saved) * gout)] := by
  simp [backward, rawBackward, padded, conjGrad]

/-- **C109 (gamma).** Wherever `gamma` returns a value `g`, `backward` returns `conj g'` times the
incoming gradient (torch's convention for a holomorphic function), where `g'` is the derivative of
the gamma function up to a relative error of `10⁻¹³` of `|Γ'| + 2|Γ|`. -/
theorem C109_gamma_grad {eps : ℝ} (he : 0 < eps) (nan : ℂ) {z g : ℂ} (h : gamma eps z = some g)
    (gout : ℂ) :
    ∃ g', gammaBackward nan eps z g gout = .ret [some ((starRingEnd ℂ) g' * gout)] ∧
      ‖g' - deriv Gamma z‖ ≤ 1 / 10 ^ 13 * (‖deriv Gamma z‖ + 2 * ‖Gamma z‖) := by
  obtain ⟨d, hd⟩ : ∃ d, digamma eps z = some d := by
    rw [← Option.ne_none_iff_exists', Ne, C108_digamma_poles, ← C97_gamma_poles, h]; simp
  refine ⟨_, backward_one _ _ _, ?_⟩
  simp only [gammaGradZ, hd, Option.getD_some]
  have h1 := C97_gamma_value he h
  have h2 := (C108_digamma_value he hd).1
  have hG : Gamma z ≠ 0 := by
    refine Gamma_ne_zero fun m hm => ?_
    have : gamma eps z = none := by
      rw [C97_gamma_poles, hm]
      have : ((round (-(m:ℝ)) : ℤ) : ℝ) = -m := by
        rw [show (-(m : ℝ)) = ((-(m : ℤ) : ℤ) : ℝ) by push_cast; rfl, round_intCast]
      refine ⟨by simp, by simp, ?_⟩
      simp [this, he]
    rw [h] at this; simp at this
  set ψ := deriv Gamma z / Gamma z with hψ
  have hψ' : deriv Gamma z = Gamma z * ψ := by rw [hψ]; field_simp
  rw [hψ']
  have e : g * d - Gamma z * ψ = (g - Gamma z) * (d - ψ) + (g - Gamma z) * ψ + Gamma z * (d - ψ) := by
    ring
  rw [e, norm_mul]
  refine (norm_add₃_le ..).trans ?_
  rw [norm_mul, norm_mul, norm_mul]
  have n1 := norm_nonneg (Gamma z)
  have n2 := norm_nonneg ψ
  have n3 := norm_nonneg (d - ψ)
  have a1 : ‖g - Gamma z‖ * ‖d - ψ‖ ≤ (1 / 10 ^ 13 * ‖Gamma z‖) * 1 :=
    mul_le_mul h1 (h2.trans (by norm_num)) n3 (by positivity)
  have a2 := mul_le_mul_of_nonneg_right h1 n2
  have a3 := mul_le_mul_of_nonneg_left h2 n1
  linarith

/-- The hypothesis is met: `gamma` returns a value at `1/2 + i`. -/
example : ∃ g, gamma (1 / 2 ^ 52) (1/2 + I) = some g := by
  rw [← Option.ne_none_iff_exists', Ne, C97_gamma_poles]
  simp

/-- **C109 (loggamma).** Wherever `loggamma` returns a value, `backward` returns `conj d` times the
incoming gradient, where `d` is within `10⁻¹³` of the derivative of the standard branch of `log Γ`
(on the cut: of its derivative from above, where the values on the cut belong). -/
theorem C109_loggamma_grad {eps : ℝ} (he : 0 < eps) (nan : ℂ) {z l : ℂ} (h : loggamma eps z = some l)
    (gout : ℂ) (L : ℂ → ℂ) (hL : ∀ w, IsLogGamma w (L w)) :
    ∃ d D : ℂ, loggammaBackward nan eps z gout = .ret [some ((starRingEnd ℂ) d * gout)] ∧
      ‖d - D‖ ≤ 1 / 10 ^ 13 ∧ (z ∈ slitPlane → HasDerivAt L D z) ∧
      (z.im = 0 → HasDerivWithinAt L D {w | 0 ≤ w.im} z) := by
  obtain ⟨d, hd⟩ : ∃ d, digamma eps z = some d := by
    rw [← Option.ne_none_iff_exists', Ne, C108_digamma_poles, ← C98_loggamma_poles he, h]; simp
  refine ⟨_, deriv Gamma z / Gamma z, backward_one _ _ _, ?_, fun hs => logGamma_hasDerivAt hL hs,
    fun hz => ?_⟩
  · simp only [loggammaGradZ, hd, Option.getD_some]
    exact (C108_digamma_value he hd).1
  · refine logGamma_hasDerivWithinAt hL (fun m hm => ?_) hz.ge
    have : digamma eps z = none := by
      rw [C108_digamma_poles, hm]
      have : ((round (-(m:ℝ)) : ℤ) : ℝ) = -m := by
        rw [show (-(m : ℝ)) = ((-(m : ℤ) : ℤ) : ℝ) by push_cast; rfl, round_intCast]
      refine ⟨by simp, by simp, ?_⟩
      simp [this, he]
    rw [hd] at this; simp at this

/-- The hypotheses are met: the branch exists, and `loggamma` has a value on the cut. -/
example : ∃ (L : ℂ → ℂ) (l : ℂ), (∀ w, IsLogGamma w (L w)) ∧
    loggamma (1 / 2 ^ 52) (-1/2) = some l := by
  have h : ∀ w, ∃ L, IsLogGamma w L := exists_isLogGamma
  choose L hL using h
  have : ∃ l, loggamma (1 / 2 ^ 52) (-1/2) = some l := by
    rw [← Option.ne_none_iff_exists', Ne, C98_loggamma_poles (by norm_num)]
    simp only [not_and]
    intro _ _
    norm_num [round_eq]
  obtain ⟨l, hl⟩ := this
  exact ⟨L, l, hL, hl⟩

/-- **C109 (digamma).** The gradient of `digamma` is not available: whatever function `polygamma`
was meant to be, `backward` raises AttributeError for every input. -/
theorem C109_digamma_grad_raises {α : Type} (f : ℕ → ℂ → α) (z : ℂ) :
    digammaGradZ f z = .error "AttributeError" := by
  simp only [digammaGradZ, polygamma, specialAttr]
  rw [if_neg (by decide)]
  rfl

end Verif.Special
