import Verif.PMath.Model
import Mathlib.Analysis.SpecialFunctions.Pow.Real

/-! # C124: `phytorch.math` for Python numbers and tensors -/

namespace Verif.PMath

/-! ## Specification -/

/-- The number a value stands for (none for an infinity or NaN). -/
def Val.num : Val → Option ℂ
  | .pyFloat x => some x
  | .pyComplex z => some z
  | .real (.fin x) => some x
  | .cplx (.fin z) => some z
  | _ => none

/-- The number a call returns. -/
def returns (r : Except Err Val) : Option ℂ :=
  match r with
  | .ok v => v.num
  | .error _ => none

/-- The real numbers at which the function has a real value. -/
def Fn.dom : Fn → Set ℝ
  | .log | .log10 => {x | 0 < x}
  | .asin | .acos => {x | |x| ≤ 1}
  | .acosh => {x | 1 ≤ x}
  | _ => Set.univ

/-- The functions by their textbook definitions: `f(z) = w` means this. -/
def Fn.Graph : Fn → ℂ → ℂ → Prop
  | .exp, z, w => w = Complex.exp z
  | .log, z, w => Complex.exp w = z
  | .log10, z, w => (10 : ℂ) ^ w = z
  | .sin, z, w => w = Complex.sin z
  | .cos, z, w => w = Complex.cos z
  | .asin, z, w => Complex.sin w = z
  | .acos, z, w => Complex.cos w = z
  | .sinh, z, w => w = Complex.sinh z
  | .cosh, z, w => w = Complex.cosh z
  | .asinh, z, w => Complex.sinh w = z
  | .acosh, z, w => Complex.cosh w = z

/-! ## The complex functions -/

theorem csqrt_sq (z : ℂ) : csqrt z ^ 2 = z := by
  unfold csqrt
  rw [← Complex.cpow_nat_mul]; norm_num

theorem csqrt_real {x : ℝ} (h : 0 ≤ x) : csqrt x = (√x : ℝ) := by
  unfold csqrt
  rw [Real.sqrt_eq_rpow, Complex.ofReal_cpow h]; norm_num

theorem asin_core (z : ℂ) :
    (Complex.I * z + csqrt (1 - z ^ 2)) * (csqrt (1 - z ^ 2) - Complex.I * z) = 1 := by
  have h := csqrt_sq (1 - z ^ 2)
  have hI := Complex.I_sq
  linear_combination h - z ^ 2 * hI

theorem sin_asin (z : ℂ) : Complex.sin (Fn.cval .asin z) = z := by
  have h := asin_core z
  set w := Complex.I * z + csqrt (1 - z ^ 2) with hw
  set v := csqrt (1 - z ^ 2) - Complex.I * z with hv
  have hw0 : w ≠ 0 := left_ne_zero_of_mul_eq_one h
  have h1 : Complex.exp (-Fn.cval .asin z * Complex.I) = v := by
    have : -Fn.cval .asin z * Complex.I = -Complex.log w := by
      simp only [Fn.cval]; rw [← hw]; linear_combination Complex.log w * Complex.I_sq
    rw [this, Complex.exp_neg, Complex.exp_log hw0, ← eq_inv_of_mul_eq_one_right h]
  have h2 : Complex.exp (Fn.cval .asin z * Complex.I) = w := by
    have : Fn.cval .asin z * Complex.I = Complex.log w := by
      simp only [Fn.cval]; rw [← hw]; linear_combination -Complex.log w * Complex.I_sq
    rw [this, Complex.exp_log hw0]
  rw [Complex.sin, h1, h2, hw, hv]
  linear_combination -z * Complex.I_sq

theorem cos_acos (z : ℂ) : Complex.cos (Fn.cval .acos z) = z := by
  have : Fn.cval .acos z = Real.pi / 2 - Fn.cval .asin z := by simp only [Fn.cval]; ring
  rw [this, Complex.cos_pi_div_two_sub, sin_asin]

theorem sinh_asinh (z : ℂ) : Complex.sinh (Fn.cval .asinh z) = z := by
  have h : (z + csqrt (1 + z ^ 2)) * (csqrt (1 + z ^ 2) - z) = 1 := by
    linear_combination csqrt_sq (1 + z ^ 2)
  have hw0 := left_ne_zero_of_mul_eq_one h
  simp only [Fn.cval]
  rw [Complex.sinh, Complex.exp_neg, Complex.exp_log hw0, ← eq_inv_of_mul_eq_one_right h]
  ring

theorem cosh_acosh (z : ℂ) : Complex.cosh (Fn.cval .acosh z) = z := by
  have h : (z + csqrt (z + 1) * csqrt (z - 1)) * (z - csqrt (z + 1) * csqrt (z - 1)) = 1 := by
    linear_combination -csqrt (z + 1) ^ 2 * csqrt_sq (z - 1) - (z - 1) * csqrt_sq (z + 1)
  have hw0 := left_ne_zero_of_mul_eq_one h
  simp only [Fn.cval]
  rw [Complex.cosh, Complex.exp_neg, Complex.exp_log hw0, ← eq_inv_of_mul_eq_one_right h]
  ring

/-- Functions with a pole at 0. -/
def Fn.pole : Fn → Prop
  | .log | .log10 => True
  | _ => False

/-- The value function meets the textbook definitions. -/
theorem graph_cval (f : Fn) (z : ℂ) (h : ¬ f.pole ∨ z ≠ 0) : f.Graph z (f.cval z) := by
  cases f <;> simp only [Fn.Graph]
  case exp => rfl
  case log => exact Complex.exp_log (by simpa [Fn.pole] using h)
  case log10 =>
    have hz : z ≠ 0 := by simpa [Fn.pole] using h
    rw [Complex.cpow_def_of_ne_zero (by norm_num)]
    have h10 : Complex.log 10 = (Real.log 10 : ℝ) := by rw [Complex.ofReal_log (by norm_num)]; norm_num
    have hl : ((Real.log 10 : ℝ) : ℂ) ≠ 0 := by
      exact_mod_cast (Real.log_pos (by norm_num)).ne'
    rw [h10]; simp only [Fn.cval]; rw [mul_div_cancel₀ _ hl, Complex.exp_log hz]
  case sin => rfl
  case cos => rfl
  case asin => exact sin_asin z
  case acos => exact cos_acos z
  case sinh => rfl
  case cosh => rfl
  case asinh => exact sinh_asinh z
  case acosh => exact cosh_acosh z

theorem log_pi_core {x : ℝ} (h : |x| ≤ 1) :
    Complex.log (Complex.I * x + csqrt (1 - (x : ℂ) ^ 2)) = Complex.I * Real.arcsin x := by
  obtain ⟨h1, h2⟩ := abs_le.1 h
  have hs : csqrt (1 - (x : ℂ) ^ 2) = (Real.cos (Real.arcsin x) : ℝ) := by
    rw [Real.cos_arcsin, ← csqrt_real (by nlinarith)]; push_cast; rfl
  have hx : (x : ℂ) = (Real.sin (Real.arcsin x) : ℝ) := by rw [Real.sin_arcsin h1 h2]
  rw [hs]
  nth_rw 1 [hx]
  have : Complex.I * (Real.sin (Real.arcsin x) : ℝ) + (Real.cos (Real.arcsin x) : ℝ) = Complex.exp (Complex.I * Real.arcsin x) := by
    rw [mul_comm Complex.I (Real.arcsin x : ℂ), Complex.exp_mul_I]; push_cast; ring
  rw [this, Complex.log_exp]
  · simp only [Complex.mul_im, Complex.I_re, Complex.I_im, Complex.ofReal_re, Complex.ofReal_im]
    nlinarith [Real.neg_pi_div_two_le_arcsin x, Real.pi_pos]
  · simp only [Complex.mul_im, Complex.I_re, Complex.I_im, Complex.ofReal_re, Complex.ofReal_im]
    nlinarith [Real.arcsin_le_pi_div_two x, Real.pi_pos]

/-- On its real domain the complex function is the real one, as computed for real tensors. -/
theorem cval_real (f : Fn) {x : ℝ} (h : x ∈ f.dom) : ∃ y : ℝ, f.torchR x = .fin y ∧ f.cval x = y := by
  cases f <;> simp only [Fn.dom, Set.mem_setOf_eq] at h <;> simp only [Fn.torchR, Fn.cval]
  case exp => exact ⟨_, rfl, by simp⟩
  case log => exact ⟨_, by rw [if_pos h], by rw [Complex.ofReal_log h.le]⟩
  case log10 => exact ⟨_, by rw [if_pos h], by rw [Real.logb]; push_cast; rw [Complex.ofReal_log h.le]⟩
  case sin => exact ⟨_, rfl, by simp⟩
  case cos => exact ⟨_, rfl, by simp⟩
  case asin =>
    refine ⟨_, by rw [if_pos h], ?_⟩
    rw [log_pi_core h]; linear_combination -(Real.arcsin x : ℂ) * Complex.I_sq
  case acos =>
    refine ⟨_, by rw [if_pos h], ?_⟩
    rw [log_pi_core h, Real.arccos]; push_cast; linear_combination (Real.arcsin x : ℂ) * Complex.I_sq
  case sinh => exact ⟨_, rfl, by simp⟩
  case cosh => exact ⟨_, rfl, by simp⟩
  case asinh =>
    refine ⟨_, rfl, ?_⟩
    have : csqrt (1 + (x : ℂ) ^ 2) = (√(1 + x ^ 2) : ℝ) := by
      rw [← csqrt_real (by positivity)]; push_cast; rfl
    rw [this, Real.arsinh, Complex.ofReal_log]
    · push_cast; rfl
    · rw [← Real.exp_arsinh]; positivity
  case acosh =>
    refine ⟨_, by rw [if_pos h], ?_⟩
    have h1 : csqrt ((x : ℂ) + 1) = (√(x + 1) : ℝ) := by rw [← csqrt_real (by linarith)]; push_cast; rfl
    have h2 : csqrt ((x : ℂ) - 1) = (√(x - 1) : ℝ) := by rw [← csqrt_real (by linarith)]; push_cast; rfl
    rw [h1, h2, Real.arcosh, Complex.ofReal_log (by positivity)]
    have : √(x + 1) * √(x - 1) = √(x ^ 2 - 1) := by rw [← Real.sqrt_mul (by linarith)]; congr 1; ring
    push_cast [← this]; rfl

/-! ## The claim -/

theorem not_dom {f : Fn} {x : ℝ} (h : x ∉ f.dom) : f.torchR x = .nan ∨ (x = 0 ∧ f.torchR x = .ninf) := by
  by_cases h0 : x = 0 <;>
  cases f <;> simp only [Fn.dom, Set.mem_setOf_eq, Set.mem_univ, not_true_eq_false] at h <;> simp [Fn.torchR, if_neg h, h0]
  all_goals simp_all

/-- Where the function is real, Python numbers and real tensors give the same number, the one of the textbook, but Python numbers always as a `complex`. -/
theorem C124_agree_partial (f : Fn) {x : ℝ} (h : x ∈ f.dom) :
    ∃ y : ℝ, f.Graph x y ∧ f.call (.real (.fin x)) = .ok (.real (.fin y)) ∧ f.call (.pyFloat x) = .ok (.pyComplex y) := by
  obtain ⟨y, h1, h2⟩ := cval_real f h
  have h0 : ¬ f.pole ∨ (x : ℂ) ≠ 0 := by
    cases f <;> simp [Fn.dom, Fn.pole] at h ⊢ <;> exact h.ne'
  refine ⟨y, h2 ▸ graph_cval f x h0, by simp [Fn.call, Fn.torchRV, h1], ?_⟩
  have : f.cmath x = .ok (y : ℂ) := by
    cases f <;> simp only [Fn.cmath, h2] <;> rw [if_neg (by simpa [Fn.pole] using h0)]
  simp [Fn.call, this, Except.map]

/-- Python numbers and complex tensors give the same number, the one of the textbook, except for `log(0)` and `log10(0)`, which have none. -/
theorem C124_complex (f : Fn) (z : ℂ) :
    returns (f.call (.pyComplex z)) = returns (f.call (.cplx (.fin z))) ∧
      ((∃ w, returns (f.call (.pyComplex z)) = some w ∧ f.Graph z w) ∨
        (z = 0 ∧ (f = .log ∨ f = .log10) ∧ f.call (.pyComplex z) = .error .valueError)) := by
  by_cases hz : z = 0
  · have g := graph_cval f z
    cases f <;> simp only [Fn.call, Fn.cmath, Fn.torchCV, Fn.torchC, if_pos hz, Except.map, returns, Val.num, true_and] <;>
      first
        | exact .inl ⟨_, rfl, g (.inl id)⟩
        | exact .inr ⟨hz, by simp⟩
  · have g := graph_cval f z (.inr hz)
    cases f <;> simp only [Fn.call, Fn.cmath, Fn.torchCV, Fn.torchC, if_neg hz, Except.map, returns, Val.num, true_and] <;>
      exact .inl ⟨_, rfl, g⟩

/-- Outside the real domain a real tensor has no number, while the Python number has the complex one (or `log(0)` raises). -/
theorem C124_outside (f : Fn) {x : ℝ} (h : x ∉ f.dom) :
    returns (f.call (.real (.fin x))) = none ∧
      ((∃ w, returns (f.call (.pyFloat x)) = some w ∧ f.Graph x w) ∨
        (x = 0 ∧ (f = .log ∨ f = .log10) ∧ f.call (.pyFloat x) = .error .valueError)) := by
  constructor
  · rcases not_dom h with e | ⟨_, e⟩ <;> simp [Fn.call, Fn.torchRV, e, returns, Val.num]
  · have := (C124_complex f x).2
    simpa [Fn.call] using this

/-- So the two agree exactly on the real domain, and where neither has a value. -/
theorem C124_agree_iff (f : Fn) (x : ℝ) :
    returns (f.call (.pyFloat x)) = returns (f.call (.real (.fin x))) ↔ x ∈ f.dom ∨ (x = 0 ∧ (f = .log ∨ f = .log10)) := by
  constructor
  · intro e
    by_contra hc
    push Not at hc
    obtain ⟨h1, h2⟩ := C124_outside f hc.1
    rw [h1] at e
    rcases h2 with ⟨w, hw, _⟩ | ⟨h0, hf, _⟩
    · rw [e] at hw; simp at hw
    · rcases hf with hf | hf
      · exact (hc.2 h0).1 hf
      · exact (hc.2 h0).2 hf
  · rintro (h | ⟨rfl, rfl | rfl⟩)
    · obtain ⟨y, _, h1, h2⟩ := C124_agree_partial f h
      simp [h1, h2, returns, Val.num]
    · simp [Fn.call, Fn.cmath, Fn.torchRV, Fn.torchR, returns, Val.num, Except.map]
    · simp [Fn.call, Fn.cmath, Fn.torchRV, Fn.torchR, returns, Val.num, Except.map]

/-- The claim is false: the logarithm of -1 is a number for Python and NaN for a tensor. -/
theorem C124_false : ¬ ∀ (f : Fn) (x : ℝ), returns (f.call (.pyFloat x)) = returns (f.call (.real (.fin x))) := by
  intro h
  have := (C124_agree_iff .log (-1)).1 (h .log (-1))
  simp [Fn.dom] at this
  linarith [this]

theorem log_neg_one : Fn.log.call (.pyFloat (-1)) = .ok (.pyComplex (Real.pi * Complex.I)) := by
  simp [Fn.call, Fn.cmath, Except.map, Fn.cval, Complex.log_neg_one]

/-- A function of a Python number is never a `float`. -/
theorem C124_never_float (f : Fn) (x y : ℝ) : f.call (.pyFloat x) ≠ .ok (.pyFloat y) := by
  cases h : f.cmath x <;> simp [Fn.call, h, Except.map]

/-! ### sinc and csinc -/

theorem sincC_real (x : ℝ) : sincC x = (sincR x : ℝ) := by
  unfold sincC sincR
  by_cases h : x * Real.pi = 0
  · rw [if_pos h, if_pos (by exact_mod_cast h)]; simp
  · rw [if_neg h, if_neg (by exact_mod_cast h)]; push_cast; rfl

/-- `sinc` is the same number for Python numbers and tensors, real or complex: `sin(pi z)/(pi z)`, and 1 at 0. -/
theorem C124_sinc (x : ℝ) (z : ℂ) :
    (sinc (.pyFloat x)).num = (sinc (.real (.fin x))).num ∧ (sinc (.pyComplex z)).num = (sinc (.cplx (.fin z))).num ∧
      (sinc (.pyComplex z)).num = some (if z = 0 then 1 else Complex.sin (Real.pi * z) / (Real.pi * z)) ∧
      (sinc (.pyFloat x)).num = (sinc (.pyComplex x)).num := by
  have hp : (Real.pi : ℂ) ≠ 0 := by exact_mod_cast Real.pi_ne_zero
  refine ⟨?_, ?_, ?_, ?_⟩
  · by_cases h : x * Real.pi = 0
    · simp only [sinc, if_pos h, Val.num, sincR]
    · simp only [sinc, if_neg h, Val.num, sincC_real]
  · by_cases h : z * Real.pi = 0
    · simp only [sinc, if_pos h, Val.num, sincC]; simp
    · simp only [sinc, if_neg h, Val.num]
  · by_cases h : z = 0
    · simp [sinc, h, Val.num]
    · have h' : z * Real.pi ≠ 0 := mul_ne_zero h hp
      simp only [sinc, if_neg h', Val.num, sincC, if_neg h, mul_comm]
  · by_cases h : x * Real.pi = 0
    · have h' : (x : ℂ) * Real.pi = 0 := by exact_mod_cast h
      simp only [sinc, if_pos h, if_pos h', Val.num]
    · have h' : ¬ (x : ℂ) * Real.pi = 0 := by exact_mod_cast h
      simp only [sinc, if_neg h, if_neg h', Val.num]

/-- What `csinc` should return. -/
noncomputable def csincSpec (eps : ℝ) (z : ℂ) : ℂ :=
  open Classical in if eps < ‖z‖ then (1 - Complex.sin (Real.pi * z) / (Real.pi * z)) / (Real.pi * z) ^ 2 else 1 / 6

theorem sincC_ne {z : ℂ} (h : z ≠ 0) : sincC z = Complex.sin (Real.pi * z) / (Real.pi * z) := by
  have hp : (Real.pi : ℂ) ≠ 0 := by exact_mod_cast Real.pi_ne_zero
  unfold sincC
  rw [if_neg (mul_ne_zero h hp), mul_comm]

theorem csinc_tensorC {eps : ℝ} (he : 0 ≤ eps) (z : ℂ) : csinc eps (.cplx (.fin z)) = .ok (.cplx (.fin (csincSpec eps z))) := by
  have hp : (Real.pi : ℂ) ≠ 0 := by exact_mod_cast Real.pi_ne_zero
  by_cases h : z = 0
  · subst h
    simp [csinc, sinc, quotient, absGt, where_, Val.isTensor, asLike, csincSpec, he.not_gt, bind, Except.bind, pure, Except.pure]
  · have h' : ¬ (z * Real.pi) ^ 2 = 0 := pow_ne_zero 2 (mul_ne_zero h hp)
    simp only [csinc, sinc, quotient, if_neg h', absGt, where_, Val.isTensor, asLike, bind, Except.bind, pure, Except.pure, csincSpec, sincC_ne h]
    by_cases hc : eps < ‖z‖
    · simp [hc, mul_comm]
    · simp [hc]

theorem csinc_tensorR {eps : ℝ} (he : 0 ≤ eps) (x : ℝ) : ∃ y : ℝ, csinc eps (.real (.fin x)) = .ok (.real (.fin y)) ∧ (y : ℂ) = csincSpec eps x := by
  have hp := Real.pi_ne_zero
  by_cases h : x = 0
  · subst h
    refine ⟨1 / 6, ?_, ?_⟩
    · simp [csinc, sinc, quotient, absGt, where_, Val.isTensor, asLike, he.not_gt, bind, Except.bind, pure, Except.pure]
    · simp [csincSpec, he.not_gt]
  · have h' : ¬ (x * Real.pi) ^ 2 = 0 := pow_ne_zero 2 (mul_ne_zero h hp)
    have hs := sincC_ne (z := (x : ℂ)) (by exact_mod_cast h)
    simp only [csinc, sinc, quotient, if_neg h', absGt, where_, Val.isTensor, asLike, bind, Except.bind, pure, Except.pure, csincSpec, ← hs, sincC_real]
    by_cases hc : eps < |x|
    · exact ⟨(1 - sincR x) / (x * Real.pi) ^ 2, by simp [hc], by rw [if_pos (by simpa using hc)]; push_cast; ring⟩
    · exact ⟨1 / 6, by simp [hc], by rw [if_neg (by simpa using hc)]; push_cast; ring⟩

/-- For tensors `csinc` is `(1 - sinc z) / (pi z)^2`, and 1/6 up to the threshold, including 0. -/
theorem C124_csinc_tensor {eps : ℝ} (he : 0 ≤ eps) (x : ℝ) (z : ℂ) :
    returns (csinc eps (.real (.fin x))) = some (csincSpec eps x) ∧ returns (csinc eps (.cplx (.fin z))) = some (csincSpec eps z) := by
  obtain ⟨y, h1, h2⟩ := csinc_tensorR he x
  exact ⟨by rw [h1, ← h2]; rfl, by rw [csinc_tensorC he]; rfl⟩

theorem csinc_py {eps : ℝ} {z : ℂ} (h : z ≠ 0) : ∃ v, csinc eps (.pyComplex z) = .ok v ∧ v.num = some (csincSpec eps z) := by
  have hp : (Real.pi : ℂ) ≠ 0 := by exact_mod_cast Real.pi_ne_zero
  have h1 : z * Real.pi ≠ 0 := mul_ne_zero h hp
  have h' : ¬ (z * Real.pi) ^ 2 = 0 := pow_ne_zero 2 h1
  simp only [csinc, sinc, if_neg h1, quotient, if_neg h', absGt, where_, Val.isTensor, bind, Except.bind, pure, Except.pure, csincSpec, sincC_ne h]
  by_cases hc : eps < ‖z‖
  · exact ⟨_, rfl, by simp [hc, Val.num, mul_comm]⟩
  · exact ⟨_, rfl, by simp [hc, Val.num]⟩

theorem csinc_pyFloat {eps x : ℝ} (h : x ≠ 0) : ∃ v, csinc eps (.pyFloat x) = .ok v ∧ v.num = some (csincSpec eps x) := by
  have hp := Real.pi_ne_zero
  have h1 : x * Real.pi ≠ 0 := mul_ne_zero h hp
  have h' : ¬ (x * Real.pi) ^ 2 = 0 := pow_ne_zero 2 h1
  have h'' : ¬ ((x : ℂ) * Real.pi) ^ 2 = 0 := by exact_mod_cast h'
  have hs := sincC_ne (z := (x : ℂ)) (by exact_mod_cast h)
  simp only [csinc, sinc, if_neg h1, quotient, if_neg h', absGt, where_, Val.isTensor, bind, Except.bind, pure, Except.pure, csincSpec, hs]
  by_cases hc : eps < |x|
  · refine ⟨_, rfl, ?_⟩
    rw [if_pos (by simpa using hc)]
    simp [hc, Val.num, mul_comm]
  · refine ⟨_, rfl, ?_⟩
    rw [if_neg (by simpa using hc)]
    simp [hc, Val.num]

/-- For Python numbers `csinc` is the same number as for tensors except at 0, where it raises: both operands of `where` are computed. -/
theorem C124_csinc_python (eps x : ℝ) (z : ℂ) :
    (x ≠ 0 → returns (csinc eps (.pyFloat x)) = some (csincSpec eps x)) ∧
    (z ≠ 0 → returns (csinc eps (.pyComplex z)) = some (csincSpec eps z)) ∧
    csinc eps (.pyFloat 0) = .error .zeroDivision ∧ csinc eps (.pyComplex 0) = .error .zeroDivision := by
  refine ⟨fun h => ?_, fun h => ?_, ?_, ?_⟩
  · obtain ⟨v, h1, h2⟩ := csinc_pyFloat (eps := eps) h
    rw [h1]; exact h2
  · obtain ⟨v, h1, h2⟩ := csinc_py (eps := eps) h
    rw [h1]; exact h2
  · simp [csinc, sinc, quotient, bind, Except.bind]
  · simp [csinc, sinc, quotient, bind, Except.bind]

/-! ### where, realise, conjugate, complexify -/

def Cond.holds : Cond → Bool
  | .py b | .tensor b => b

def Val.isReal : Val → Bool
  | .real _ | .pyFloat _ => true
  | _ => false

/-- `where(cond, x, y)` for a tensor `x`: the number of `x` where the condition holds, otherwise that of `y`, if `y` fits (a complex `y` only beside a complex `x`). -/
theorem C124_where (c : Cond) (x y : Val) (hx : x.isTensor = true) (hy : y.isReal = true ∨ x.isReal = false) :
    returns (where_ c x y) = if c.holds then x.num else y.num := by
  rcases c with b | b <;> rcases b with _ | _ <;> rcases x with x | x | (x | _ | _) | (x | _) <;>
    rcases y with y | y | (y | _ | _) | (y | _) <;>
    simp_all [where_, Val.isTensor, asLike, returns, Val.num, Val.isReal, Cond.holds, bind, Except.bind, pure, Except.pure]

/-- For Python numbers and a Python condition the same, and `y` may be anything. -/
theorem C124_where_python (b : Bool) (x y : Val) (hx : x.isTensor = false) :
    where_ (.py b) x y = .ok (if b then x else y) := by
  simp [where_, hx, bind, Except.bind, pure, Except.pure]

/-- A tensor condition with a Python number raises `AttributeError`, whatever the condition and the other operand. -/
theorem C124_where_attribute (b : Bool) (x y : Val) (hx : x.isTensor = false) :
    where_ (.tensor b) x y = .error .attribute := by
  simp [where_, hx, bind, Except.bind, pure, Except.pure]

/-- A complex tensor `y` beside a real tensor loses its imaginary part without an error. -/
theorem C124_where_drops (x : ℝ) (z : ℂ) : returns (where_ (.tensor false) (.real (.fin x)) (.cplx (.fin z))) = some (z.re : ℂ) := by
  simp [where_, Val.isTensor, asLike, returns, Val.num, bind, Except.bind, pure, Except.pure]

/-- `realise`, `conjugate` and `complexify` are the real part, the conjugate and the identity on numbers; `realise` returns real and `complexify` complex values, tensors for tensors. -/
theorem C124_parts (v : Val) :
    (realise v).num = v.num.map (fun z => (z.re : ℂ)) ∧ (conjugate v).num = v.num.map (starRingEnd ℂ) ∧
      (complexify v).num = v.num ∧ (realise v).isReal = true ∧ (complexify v).isReal = false ∧
      (realise v).isTensor = v.isTensor ∧ (conjugate v).isTensor = v.isTensor ∧ (complexify v).isTensor = v.isTensor ∧
      (conjugate v).isReal = v.isReal := by
  rcases v with x | x | (x | _ | _) | (x | _) <;> simp [realise, conjugate, complexify, Val.num, Val.isReal, Val.isTensor]

/-! ### Examples -/

example : (1 / 2 : ℝ) ∈ Fn.asin.dom := by simp [Fn.dom, abs_of_pos]; norm_num
example : (2 : ℝ) ∉ Fn.asin.dom := by simp [Fn.dom]
example : (0 : ℝ) ∉ Fn.acosh.dom := by simp [Fn.dom]

/-- `C124_agree_partial`, `C124_outside` at 1/2 and 2; `C124_csinc_tensor`, `C124_where`, `C124_where_python`,
`C124_where_attribute`. -/
example := C124_agree_partial .asin (x := 1 / 2) (by simp [Fn.dom, abs_of_pos]; norm_num)
example := C124_outside .asin (x := 2) (by simp [Fn.dom])
example := C124_csinc_tensor (eps := 1e-8) (by norm_num) 2 Complex.I
example := C124_where (.tensor true) (.real (.fin 1)) (.real (.fin 2)) rfl (Or.inl rfl)
example := C124_where_python true (.pyFloat 1) (.pyComplex Complex.I) rfl
example := C124_where_attribute true (.pyFloat 1) (.real (.fin 2)) rfl

end Verif.PMath
