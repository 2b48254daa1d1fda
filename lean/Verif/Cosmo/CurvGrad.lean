import Verif.Cosmo.CurvGradModel
import Verif.Cosmo.Csinc

/-! # C117: gradients of the curvature functions -/

namespace Verif.Cosmo.Grad

open Complex

/-! ### Derivatives with respect to the curvature -/

/-- The exact derivative of the transverse distance with respect to the curvature, at 0. -/
theorem transverse_hasDerivAt_zero (d : ℝ) : HasDerivAt (fun k => transverse k d) (d ^ 3 / 6) 0 := by
  rw [hasDerivAt_iff_tendsto]
  have hlim : Filter.Tendsto (fun k : ℝ => |d| ^ 4 * (5 / 96) * √|k|) (nhds 0) (nhds 0) := by
    have : Continuous fun k : ℝ => |d| ^ 4 * (5 / 96) * √|k| := by fun_prop
    simpa using this.tendsto 0
  refine squeeze_zero' (Filter.Eventually.of_forall fun k => by positivity) ?_ hlim
  have hsmall : ∀ᶠ k : ℝ in nhds 0, |√|k| * d| ≤ 1 := by
    have : Continuous fun k : ℝ => |√|k| * d| := by fun_prop
    have h0 := this.tendsto 0
    simp only [abs_zero, Real.sqrt_zero, zero_mul] at h0
    exact (h0.eventually (Iio_mem_nhds (by norm_num : (0 : ℝ) < 1))).mono fun k hk => le_of_lt hk
  filter_upwards [hsmall] with k hk
  by_cases h0 : k = 0
  · subst h0; simp
  have hkp : 0 < |k| := abs_pos.mpr h0
  have hs : 0 < √|k| := Real.sqrt_pos.mpr hkp
  have hsq : √|k| ^ 2 = |k| := Real.sq_sqrt hkp.le
  have ht0 : transverse 0 d = d := by simp [transverse]
  have b := Flt.trig_bound (if k < 0 then .closed else .opened) hk
  have e : transverse k d - d - k * (d ^ 3 / 6) = (Flt.Curv.trig (if k < 0 then .closed else .opened) (√|k| * d) -
      (√|k| * d - Flt.Curv.sgn (if k < 0 then .closed else .opened) * (√|k| * d) ^ 3 / 6)) / √|k| := by
    rcases lt_or_gt_of_ne h0 with h | h
    · rw [abs_of_neg h] at hs hsq ⊢
      simp only [transverse, if_neg (not_lt.mpr h.le), if_pos h, Flt.Curv.trig, Flt.Curv.sgn]
      have : k = -√(-k) ^ 2 := by rw [hsq]; ring
      generalize √(-k) = s at *
      subst this
      field_simp; ring
    · rw [abs_of_pos h] at hs hsq ⊢
      simp only [transverse, if_neg (not_lt.mpr h.le), if_pos h, Flt.Curv.trig, Flt.Curv.sgn]
      have : k = √k ^ 2 := by rw [hsq]
      generalize √k = s at *
      subst this
      field_simp; ring
  rw [ht0, sub_zero, smul_eq_mul, e, norm_div, Real.norm_eq_abs, Real.norm_eq_abs, Real.norm_eq_abs, abs_of_pos hs]
  calc |k|⁻¹ * (|_| / √|k|) ≤ |k|⁻¹ * (|√|k| * d| ^ 4 * (5 / 96) / √|k|) := by gcongr
    _ = |d| ^ 4 * (5 / 96) * √|k| := by
      have hi : |k|⁻¹ = (√|k| ^ 2)⁻¹ := by rw [hsq]
      rw [abs_mul, abs_of_pos hs, hi]
      generalize √|k| = s at *
      field_simp


theorem sinh_bound5 {x : ℝ} (hx : |x| ≤ 1) : |Real.sinh x - (x + x ^ 3 / 6 + x ^ 5 / 120)| ≤ |x| ^ 6 * (7 / 4320) := by
  have h1 := Real.exp_bound hx (n := 6) (by norm_num)
  have h2 := Real.exp_bound (x := -x) (by rwa [abs_neg]) (n := 6) (by norm_num)
  simp only [Finset.sum_range_succ, Finset.sum_range_zero, Nat.factorial] at h1 h2
  norm_num at h1 h2
  rw [Real.sinh_eq]
  have e : (Real.exp x - Real.exp (-x)) / 2 - (x + x ^ 3 / 6 + x ^ 5 / 120) =
      ((Real.exp x - (1 + x + x ^ 2 / 2 + x ^ 3 / 6 + x ^ 4 / 24 + x ^ 5 / 120)) -
        (Real.exp (-x) - (1 + -x + x ^ 2 / 2 + (-x) ^ 3 / 6 + (-x) ^ 4 / 24 + (-x) ^ 5 / 120))) / 2 := by ring
  rw [e, abs_div, abs_of_pos (by norm_num : (0 : ℝ) < 2)]
  rw [div_le_iff₀ (by norm_num)]
  refine (abs_sub _ _).trans ?_
  have e1 : |Real.exp x - (1 + x + x ^ 2 / 2 + x ^ 3 / 6 + x ^ 4 / 24 + x ^ 5 / 120)| ≤ |x| ^ 6 * (7 / 4320) := h1
  have e2 : |Real.exp (-x) - (1 + -x + x ^ 2 / 2 + (-x) ^ 3 / 6 + (-x) ^ 4 / 24 + (-x) ^ 5 / 120)| ≤ |x| ^ 6 * (7 / 4320) := h2
  linarith

theorem sin_bound5 {x : ℝ} (hx : |x| ≤ 1) : |Real.sin x - (x - x ^ 3 / 6 + x ^ 5 / 120)| ≤ |x| ^ 6 * (7 / 4320) := by
  have h1 := Complex.exp_bound (x := x * I) (by rw [norm_mul, norm_I, mul_one, norm_real]; exact hx) (n := 6) (by norm_num)
  simp only [Finset.sum_range_succ, Finset.sum_range_zero, Nat.factorial] at h1
  norm_num at h1
  have h2 := (Complex.abs_im_le_norm _).trans h1
  have e : (cexp (x * I) - (1 + x * I + (x * I) ^ 2 / 2 + (x * I) ^ 3 / 6 + (x * I) ^ 4 / 24 + (x * I) ^ 5 / 120)).im =
      Real.sin x - (x - x ^ 3 / 6 + x ^ 5 / 120) := by
    have : cexp (x * I) - (1 + x * I + (x * I) ^ 2 / 2 + (x * I) ^ 3 / 6 + (x * I) ^ 4 / 24 + (x * I) ^ 5 / 120) =
        ((Real.cos x - (1 - x ^ 2 / 2 + x ^ 4 / 24) : ℝ) : ℂ) + ((Real.sin x - (x - x ^ 3 / 6 + x ^ 5 / 120) : ℝ) : ℂ) * I := by
      rw [exp_mul_I]
      push_cast
      have h3 : (I : ℂ) ^ 3 = -I := by rw [pow_succ, I_sq]; ring
      have h4 : (I : ℂ) ^ 4 = 1 := by rw [pow_succ, h3]; simp
      have h5 : (I : ℂ) ^ 5 = I := by rw [pow_succ, h4, one_mul]
      simp only [mul_pow, I_sq, h3, h4, h5]
      ring
    rw [this, Complex.add_im, Complex.ofReal_im, zero_add, Complex.im_ofReal_mul, Complex.I_im, mul_one]
  rw [e] at h2
  exact h2

/-- The exact derivative of the comoving volume with respect to the curvature, at 0. -/
theorem volumeSpec_hasDerivAt_zero (d : ℝ) : HasDerivAt (fun k => volumeSpec k d) (4 * Real.pi / 15 * d ^ 5) 0 := by
  rw [hasDerivAt_iff_tendsto]
  have hlim : Filter.Tendsto (fun k : ℝ => Real.pi * (2 * |d|) ^ 6 * (7 / 4320) * √|k|) (nhds 0) (nhds 0) := by
    have : Continuous fun k : ℝ => Real.pi * (2 * |d|) ^ 6 * (7 / 4320) * √|k| := by fun_prop
    simpa using this.tendsto 0
  refine squeeze_zero' (Filter.Eventually.of_forall fun k => by positivity) ?_ hlim
  have hsmall : ∀ᶠ k : ℝ in nhds 0, |√|k| * (2 * d)| ≤ 1 := by
    have : Continuous fun k : ℝ => |√|k| * (2 * d)| := by fun_prop
    have h0 := this.tendsto 0
    simp only [abs_zero, Real.sqrt_zero, zero_mul] at h0
    exact (h0.eventually (Iio_mem_nhds (by norm_num : (0 : ℝ) < 1))).mono fun k hk => le_of_lt hk
  filter_upwards [hsmall] with k hk
  by_cases h0 : k = 0
  · subst h0; simp
  have hkp : 0 < |k| := abs_pos.mpr h0
  have hs : 0 < √|k| := Real.sqrt_pos.mpr hkp
  have hsq : √|k| ^ 2 = |k| := Real.sq_sqrt hkp.le
  have ht0 : volumeSpec 0 d = 4 * Real.pi / 3 * d ^ 3 := by simp [volumeSpec]
  have key : |volumeSpec k d - 4 * Real.pi / 3 * d ^ 3 - k * (4 * Real.pi / 15 * d ^ 5)| ≤
      Real.pi / √|k| ^ 3 * (|√|k| * (2 * d)| ^ 6 * (7 / 4320)) := by
    rcases lt_or_gt_of_ne h0 with h | h
    · rw [abs_of_neg h] at hs hsq hk ⊢
      have b := sin_bound5 hk
      simp only [volumeSpec, if_neg h0, transverse, if_neg (not_lt.mpr h.le), if_pos h]
      have : k = -√(-k) ^ 2 := by rw [hsq]; ring
      generalize √(-k) = s at *
      subst this
      have e : 2 * Real.pi / -s ^ 2 * (Real.sin (s * (2 * d)) / s / 2 - d) - 4 * Real.pi / 3 * d ^ 3 - -s ^ 2 * (4 * Real.pi / 15 * d ^ 5) =
          -(Real.pi / s ^ 3) * (Real.sin (s * (2 * d)) - (s * (2 * d) - (s * (2 * d)) ^ 3 / 6 + (s * (2 * d)) ^ 5 / 120)) := by
        field_simp; ring
      rw [e, abs_mul, abs_neg, abs_of_pos (by positivity : 0 < Real.pi / s ^ 3)]
      gcongr
    · rw [abs_of_pos h] at hs hsq hk ⊢
      have b := sinh_bound5 hk
      simp only [volumeSpec, if_neg h0, transverse, if_pos h]
      have : k = √k ^ 2 := by rw [hsq]
      generalize √k = s at *
      subst this
      have e : 2 * Real.pi / s ^ 2 * (Real.sinh (s * (2 * d)) / s / 2 - d) - 4 * Real.pi / 3 * d ^ 3 - s ^ 2 * (4 * Real.pi / 15 * d ^ 5) =
          Real.pi / s ^ 3 * (Real.sinh (s * (2 * d)) - (s * (2 * d) + (s * (2 * d)) ^ 3 / 6 + (s * (2 * d)) ^ 5 / 120)) := by
        field_simp; ring
      rw [e, abs_mul, abs_of_pos (by positivity : 0 < Real.pi / s ^ 3)]
      gcongr
  rw [ht0, sub_zero, smul_eq_mul, Real.norm_eq_abs, Real.norm_eq_abs]
  have hi : |k|⁻¹ = (√|k| ^ 2)⁻¹ := by rw [hsq]
  calc |k|⁻¹ * |_| ≤ |k|⁻¹ * (Real.pi / √|k| ^ 3 * (|√|k| * (2 * d)| ^ 6 * (7 / 4320))) := by gcongr
    _ = Real.pi * (2 * |d|) ^ 6 * (7 / 4320) * √|k| := by
      rw [abs_mul, abs_of_pos hs, abs_mul, abs_of_pos (by norm_num : (0 : ℝ) < 2), hi]
      generalize √|k| = s at *
      field_simp

/-! ### The backward pass -/

/-- The derivative of `sinc` away from 0. -/
theorem sinc_hasDerivAt {x : ℂ} (hx : x ≠ 0) :
    HasDerivAt sinc ((x * Real.pi * cos (x * Real.pi) - sin (x * Real.pi)) / (x * x * Real.pi)) x := by
  have hpi : (Real.pi : ℂ) ≠ 0 := by exact_mod_cast Real.pi_ne_zero
  have hm : HasDerivAt (fun x : ℂ => x * Real.pi) Real.pi x := by simpa using (hasDerivAt_id x).mul_const (Real.pi : ℂ)
  have hne : x * Real.pi ≠ 0 := mul_ne_zero hx hpi
  have h := ((Complex.hasDerivAt_sin (x * Real.pi)).comp x hm).div hm hne
  refine (h.congr_deriv ?_).congr_of_eventuallyEq ?_
  · simp only [Function.comp]; field_simp
  · filter_upwards [isOpen_ne.mem_nhds hx] with y hy
    have : y * Real.pi ≠ 0 := mul_ne_zero hy hpi
    simp [sinc, this]

theorem isqrt_hasDerivAt {k : ℝ} (hk : k ≠ 0) :
    HasDerivAt isqrtOk0Pi (1 / Real.pi * I * (1 / 2 * (k : ℂ) ^ ((-1 / 2 : ℝ) : ℂ))) k := by
  have h := hasDerivAt_ofReal_cpow_const hk (r := ((1 / 2 : ℝ) : ℂ)) (by norm_num)
  have h2 := (h.const_mul I).div_const (Real.pi : ℂ)
  refine (h2.congr_deriv ?_)
  rw [show ((1 / 2 : ℝ) : ℂ) - 1 = ((-1 / 2 : ℝ) : ℂ) by push_cast; ring]
  push_cast
  ring

theorem backIsqrt_conj {k : ℝ} (hk : k ≠ 0) (w : ℂ) :
    backIsqrt (some (starRingEnd ℂ w)) k = some (w * (1 / Real.pi * I * (1 / 2 * (k : ℂ) ^ ((-1 / 2 : ℝ) : ℂ)))).re := by
  have hkc : (k : ℂ) ≠ 0 := by exact_mod_cast hk
  simp only [backIsqrt, sqrtBackward, powNegHalf, if_neg hkc, Num.mul, Num.conj, Num.re, cj, Option.bind_some, Option.map_some]
  congr 1
  rw [← Complex.conj_re]
  congr 1
  simp only [map_mul, Complex.conj_conj]
  ring

theorem backIsqrt_zero (g : Num) : backIsqrt g 0 = none := by
  cases g <;> simp [backIsqrt, sqrtBackward, powNegHalf, Num.mul, Num.conj, Num.re, cj]

theorem sincBackward_conj {x : ℂ} (hx : x ≠ 0) (w : ℂ) : sincBackward (some (starRingEnd ℂ w)) x =
    some (starRingEnd ℂ (w * ((x * Real.pi * cos (x * Real.pi) - sin (x * Real.pi)) / (x * x * Real.pi)))) := by
  have hpi : (Real.pi : ℂ) ≠ 0 := by exact_mod_cast Real.pi_ne_zero
  simp only [sincBackward, if_neg (mul_ne_zero (mul_ne_zero hx hx) hpi), Num.mul, cj, Option.bind_some, Option.map_some]
  rw [map_mul]

theorem sincBackward_zero (g : Num) : sincBackward g 0 = some 0 := by simp [sincBackward]

/-- The chain rule along the real axis of curvatures. -/
theorem chain_k {F : ℂ → ℂ} {F' : ℂ} {k : ℝ} (hk : k ≠ 0) (c : ℂ) (hF : HasDerivAt F F' (isqrtOk0Pi k * c)) (g : ℝ) :
    HasDerivAt (fun k => g * (F (isqrtOk0Pi k * c)).re)
      (((g : ℂ) * F' * c) * (1 / Real.pi * I * (1 / 2 * (k : ℂ) ^ ((-1 / 2 : ℝ) : ℂ)))).re k := by
  have h1 := (isqrt_hasDerivAt hk).mul_const c
  have h2 : HasDerivAt (fun k : ℝ => F (isqrtOk0Pi k * c)) _ k := HasDerivAt.comp_of_eq k hF h1 rfl
  have h3 := (Complex.reCLM.hasFDerivAt.comp_hasDerivAt k h2).const_mul g
  refine h3.congr_deriv ?_
  rw [Complex.reCLM_apply, ← Complex.re_ofReal_mul]
  congr 1
  ring

/-- The chain rule in the distance. -/
theorem chain_d {F : ℂ → ℂ} {F' : ℂ} {a : ℂ} {d : ℝ} (hF : HasDerivAt F F' (a * d)) :
    HasDerivAt (fun d : ℝ => (F (a * d)).re) (F' * a).re d := by
  have h1 : HasDerivAt (fun d : ℝ => a * (d : ℂ)) a d := by
    simpa using (Complex.ofRealCLM.hasDerivAt (x := d)).const_mul a
  have h2 : HasDerivAt (fun d : ℝ => F (a * d)) (F' * a) d := HasDerivAt.comp_of_eq d hF h1 rfl
  exact Complex.reCLM.hasFDerivAt.comp_hasDerivAt d h2

theorem isqrt_ne {k : ℝ} (hk : k ≠ 0) : isqrtOk0Pi k ≠ 0 := by
  have := isqrt_norm k 1
  intro h
  rw [h] at this
  have h2 : 0 < √|k| := Real.sqrt_pos.mpr (abs_pos.mpr hk)
  simp at this
  have h3 : 0 < 2 * √|k| / Real.pi := by positivity
  exact h3.ne this


/-! ### The claims -/

/-- **C117** at zero curvature the gradient of the transverse distance with respect to `Ok0` is not finite, although the distance is differentiable. -/
theorem C117_transverse_flat (d : ℝ) : (transformGrad 0 d).1 = none ∧ HasDerivAt (fun k => transformCurved false k d) (d ^ 3 / 6) 0 := by
  refine ⟨backIsqrt_zero _, ?_⟩
  have : (fun k => transformCurved false k d) = fun k => transverse k d := by
    funext k; exact (C47_transform k d).1
  rw [this]
  exact transverse_hasDerivAt_zero d

/-- **C117** the gradient of the transverse distance with respect to the distance is right for every curvature. -/
theorem C117_transverse_distance (k d : ℝ) : ∃ v, (transformGrad k d).2 = some v ∧ HasDerivAt (transformCurved false k) v d := by
  have hf : transformCurved false k = fun d : ℝ => d * (sinc (isqrtOk0Pi k * d)).re := by funext x; simp [transformCurved]
  rw [hf]
  by_cases hx : isqrtOk0Pi k * d = 0
  · refine ⟨1, ?_, ?_⟩
    · simp only [transformGrad, hx, sincBackward_zero, Num.mul, cj, Option.bind_some, Option.map_some, Num.re, addR]
      simp [sinc]
    · rw [← hf]
      by_cases hk : k = 0
      · have : transformCurved false k = fun x => x := by
          funext x; rw [(C47_transform k x).1, hk]; simp [transverse]
        rw [this]; exact hasDerivAt_id d
      · have hd : (d : ℂ) = 0 := (mul_eq_zero.mp hx).resolve_left (isqrt_ne hk)
        have hd0 : d = 0 := by exact_mod_cast hd
        subst hd0
        have : transformCurved false k = transverse k := funext fun x => (C47_transform k x).1
        rw [this]
        rcases lt_or_gt_of_ne hk with h | h
        · have hs : √(-k) ≠ 0 := (Real.sqrt_pos.mpr (by linarith)).ne'
          have e : transverse k = fun x => Real.sin (√(-k) * x) / √(-k) := by
            funext x; simp [transverse, not_lt.mpr h.le, h]
          rw [e]
          have h1 : HasDerivAt (fun x : ℝ => √(-k) * x) √(-k) 0 := by simpa using (hasDerivAt_id (0 : ℝ)).const_mul √(-k)
          refine (h1.sin.div_const √(-k)).congr_deriv ?_
          simp [hs]
        · have hs : √k ≠ 0 := (Real.sqrt_pos.mpr h).ne'
          have e : transverse k = fun x => Real.sinh (√k * x) / √k := by
            funext x; simp [transverse, h]
          rw [e]
          have h1 : HasDerivAt (fun x : ℝ => √k * x) √k 0 := by simpa using (hasDerivAt_id (0 : ℝ)).const_mul √k
          refine (h1.sinh.div_const √k).congr_deriv ?_
          simp [hs]
  · have hS := sinc_hasDerivAt hx
    generalize hS' : (isqrtOk0Pi k * d * Real.pi * cos (isqrtOk0Pi k * d * Real.pi) - sin (isqrtOk0Pi k * d * Real.pi)) /
      (isqrtOk0Pi k * d * (isqrtOk0Pi k * d) * Real.pi) = S' at hS
    refine ⟨(sinc (isqrtOk0Pi k * d)).re + ((d : ℂ) * S' * isqrtOk0Pi k).re, ?_, ?_⟩
    · have hg : (some (d : ℂ) : Num) = some (starRingEnd ℂ (d : ℂ)) := by rw [Complex.conj_ofReal]
      simp only [transformGrad, hg, sincBackward_conj hx, hS', Num.mul, cj, Option.bind_some, Option.map_some, Num.re, addR]
      rw [← map_mul, Complex.conj_re]
    · refine ((hasDerivAt_id d).mul (chain_d hS)).congr_deriv ?_
      rw [mul_assoc, Complex.re_ofReal_mul]
      simp

/-- **C117** and so is that with respect to the curvature, as long as it is not 0. What is missing for the full claim is zero curvature, where it fails. -/
theorem C117_transverse_partial (k d : ℝ) (hk : k ≠ 0) :
    ∃ v, (transformGrad k d).1 = some v ∧ HasDerivAt (fun k => transformCurved false k d) v k := by
  have hf : (fun k => transformCurved false k d) = fun k => d * (sinc (isqrtOk0Pi k * d)).re := by funext x; simp [transformCurved]
  rw [hf]
  by_cases hd : d = 0
  · subst hd
    refine ⟨0, ?_, ?_⟩
    · have h0 : (some (0 : ℂ) : Num) = some (starRingEnd ℂ 0) := by rw [map_zero]
      simp only [transformGrad, Complex.ofReal_zero, mul_zero, sincBackward_zero, Num.mul, cj, Option.bind_some, Option.map_some, zero_mul]
      rw [h0, backIsqrt_conj hk]
      simp
    · simp only [zero_mul]; exact hasDerivAt_const _ _
  · have hx : isqrtOk0Pi k * d ≠ 0 := mul_ne_zero (isqrt_ne hk) (by exact_mod_cast hd)
    have hS := sinc_hasDerivAt hx
    refine ⟨_, ?_, chain_k hk d hS d⟩
    have hg : (some (d : ℂ) : Num) = some (starRingEnd ℂ (d : ℂ)) := by rw [Complex.conj_ofReal]
    simp only [transformGrad, hg, sincBackward_conj hx, Num.mul, cj, Option.bind_some, Option.map_some]
    rw [← map_mul, backIsqrt_conj hk]

/-- `C117_transverse_partial`: `Ok0 = -1/10` at distance 2. -/
example := C117_transverse_partial (-(1 / 10)) 2 (by norm_num)

/-- **C117** at zero curvature, or at zero distance in any universe, neither gradient of the comoving volume is finite, although the volume is differentiable
in both variables. -/
theorem C117_volume_not_finite (eps k d : ℝ) (h : k = 0 ∨ d = 0) :
    volumeGrad eps k d = (none, none) ∧ HasDerivAt (volumeSpec k) (4 * Real.pi * transverse k d ^ 2) d ∧
      HasDerivAt (fun k => volumeSpec k d) (4 * Real.pi / 15 * d ^ 5) k := by
  have hder : HasDerivAt (fun k => volumeSpec k d) (4 * Real.pi / 15 * d ^ 5) k := by
    rcases h with rfl | rfl
    · exact volumeSpec_hasDerivAt_zero d
    · have : (fun k => volumeSpec k 0) = fun _ => 0 := by
        funext k; by_cases h : k = 0 <;> simp [volumeSpec, transverse, h]
      rw [this]
      simpa using hasDerivAt_const k (0 : ℝ)
  refine ⟨?_, volumeSpec_deriv k d, hder⟩
  have hx : 2 * isqrtOk0Pi k * (d : ℂ) = 0 := by
    rcases h with rfl | rfl
    · simp [isqrtOk0Pi, sqrtOk0]
    · simp
  simp only [volumeGrad, hx, zero_mul, ne_eq, OfNat.ofNat_ne_zero, not_false_eq_true, zero_pow, Num.div, Num.mul, Num.conj, Num.neg, Num.add, Num.re, cj, map_zero,
    Option.bind_some, if_true, Option.bind_none, Option.map_none, addR, backIsqrt, sqrtBackward]

/-- `C117_volume_not_finite`: a flat universe at distance 2; a curved one at distance 0. -/
example := C117_volume_not_finite 1e-8 0 2 (Or.inl rfl)
example := C117_volume_not_finite 1e-8 1 0 (Or.inr rfl)

/-- **C117** above the threshold of `csinc` both gradients are right; what is missing for the full claim is the rest, where it fails. -/
theorem C117_volume_partial (eps k d : ℝ) (he : 0 ≤ eps) (h : eps < ‖2 * isqrtOk0Pi k * d‖) :
    ∃ u v, volumeGrad eps k d = (some u, some v) ∧ HasDerivAt (fun k => comovingVolume false eps k d) u k ∧
      HasDerivAt (comovingVolume false eps k) v d := by
  have hx : 2 * isqrtOk0Pi k * (d : ℂ) ≠ 0 := by
    intro h0; rw [h0, norm_zero] at h; linarith
  have hk : k ≠ 0 := by rintro rfl; simp [isqrtOk0Pi, sqrtOk0] at hx
  have hpi : (Real.pi : ℂ) ≠ 0 := by exact_mod_cast Real.pi_ne_zero
  have hm : 2 * isqrtOk0Pi k * (d : ℂ) * Real.pi ≠ 0 := mul_ne_zero hx hpi
  have hS := sinc_hasDerivAt hx
  set x := 2 * isqrtOk0Pi k * (d : ℂ) with hxd
  generalize hS' : (x * Real.pi * cos (x * Real.pi) - sin (x * Real.pi)) / (x * x * Real.pi) = S' at hS
  have hden : (x * Real.pi) ^ 2 ≠ 0 := pow_ne_zero 2 hm
  have hdenc : (starRingEnd ℂ) ((x * Real.pi) ^ 2) ≠ 0 := by simpa using hm
  -- the derivative of csinc
  have hC : HasDerivAt (csinc eps) (-((1 - sinc x) / (x * Real.pi) ^ 2 / (x * Real.pi) ^ 2 * (2 * (x * Real.pi))) * Real.pi - S' / (x * Real.pi) ^ 2) x := by
    have h1 : HasDerivAt (fun x : ℂ => x * Real.pi) Real.pi x := by simpa using (hasDerivAt_id x).mul_const (Real.pi : ℂ)
    have h2 := (hS.const_sub 1).div (h1.pow 2) hden
    refine (h2.congr_deriv ?_).congr_of_eventuallyEq ?_
    · simp only [Pi.pow_apply]; field_simp; ring
    · filter_upwards [continuous_norm.continuousAt.eventually (Ioi_mem_nhds h)] with y hy
      rw [csinc, if_pos hy]; rfl
  set C' := -((1 - sinc x) / (x * Real.pi) ^ 2 / (x * Real.pi) ^ 2 * (2 * (x * Real.pi))) * Real.pi - S' / (x * Real.pi) ^ 2 with hC'
  have hk' : HasDerivAt (fun k => comovingVolume false eps k d)
      ((((8 * Real.pi * d ^ 3 : ℝ) : ℂ) * C' * (2 * d)) * (1 / Real.pi * I * (1 / 2 * (k : ℂ) ^ ((-1 / 2 : ℝ) : ℂ)))).re k := by
    have e : (fun k => comovingVolume false eps k d) = fun k => (8 * Real.pi * d ^ 3) * (csinc eps (isqrtOk0Pi k * (2 * d))).re := by
      funext k
      simp only [comovingVolume, Bool.false_eq_true, if_false]
      rw [show 2 * isqrtOk0Pi k * (d : ℂ) = isqrtOk0Pi k * (2 * d) by ring]
    rw [e]
    have hC2 : HasDerivAt (csinc eps) C' (isqrtOk0Pi k * (2 * d)) := by
      rwa [show isqrtOk0Pi k * (2 * (d : ℂ)) = x by rw [hxd]; ring]
    exact chain_k hk (2 * d) hC2 (8 * Real.pi * d ^ 3)
  have hd' : HasDerivAt (comovingVolume false eps k)
      (8 * Real.pi * (3 * d ^ 2) * (csinc eps x).re + 8 * Real.pi * d ^ 3 * (C' * (2 * isqrtOk0Pi k)).re) d := by
    have e : comovingVolume false eps k = fun d : ℝ => (8 * Real.pi * d ^ 3) * (csinc eps (2 * isqrtOk0Pi k * d)).re := by
      funext d
      simp only [comovingVolume, Bool.false_eq_true, if_false]
    rw [e]
    have h1 : HasDerivAt (fun d : ℝ => 8 * Real.pi * d ^ 3) (8 * Real.pi * (3 * d ^ 2)) d := by
      refine ((hasDerivAt_pow 3 d).const_mul (8 * Real.pi)).congr_deriv ?_
      norm_num
    exact h1.mul (chain_d hC)
  refine ⟨_, _, ?_, hk', hd'⟩
  have hg : (8 * Real.pi * d ^ 3 : ℂ) = starRingEnd ℂ ((8 * Real.pi * d ^ 3 : ℝ) : ℂ) := by rw [Complex.conj_ofReal]; push_cast; rfl
  have gN : -((8 * Real.pi * d ^ 3 : ℂ) / (starRingEnd ℂ) ((x * Real.pi) ^ 2)) =
      starRingEnd ℂ (-(((8 * Real.pi * d ^ 3 : ℝ) : ℂ) / (x * Real.pi) ^ 2)) := by rw [hg, map_neg, map_div₀]
  simp only [volumeGrad, ← hxd, if_pos h, Num.div, Num.mul, Num.conj, Num.neg, Num.add, Num.re, cj, Option.bind_some, Option.map_some, if_neg hden, if_neg hdenc, gN,
    sincBackward_conj hx, hS', addR]
  have hgx : -((8 * Real.pi * d ^ 3 : ℂ) * (starRingEnd ℂ) ((1 - sinc x) / (x * Real.pi) ^ 2 / (x * Real.pi) ^ 2)) * (starRingEnd ℂ) (2 * (x * Real.pi)) *
        (starRingEnd ℂ) (Real.pi : ℂ) + (starRingEnd ℂ) (-(((8 * Real.pi * d ^ 3 : ℝ) : ℂ) / (x * Real.pi) ^ 2) * S') =
      starRingEnd ℂ (((8 * Real.pi * d ^ 3 : ℝ) : ℂ) * C') := by
    rw [hg, ← map_mul, ← map_neg, ← map_mul, ← map_mul, ← map_add, hC']
    congr 1
    ring
  rw [hgx]
  simp only [← map_mul, backIsqrt_conj hk, Complex.conj_re]
  refine Prod.ext ?_ ?_
  · simp only
    congr 2
    ring
  · simp only
    congr 2
    rw [mul_assoc, Complex.re_ofReal_mul]

/-- `C117_volume_partial`: `Ok0 = 1` at distance 1. -/
example := C117_volume_partial 1e-8 1 1 (by norm_num) (by
  rw [isqrt_norm]
  simp only [abs_one, Real.sqrt_one, mul_one]
  have := Real.pi_lt_four
  rw [lt_div_iff₀ Real.pi_pos]
  linarith)

/-- **C117** below the threshold, other than at 0, the gradient with respect to the curvature is 0 (at zero curvature the derivative is `4 π d^5 / 15`). -/
theorem C117_volume_below (eps k d : ℝ) (h : ‖2 * isqrtOk0Pi k * d‖ ≤ eps) (hk : k ≠ 0) (hd : d ≠ 0) :
    volumeGrad eps k d = (some 0, some (4 * Real.pi * d ^ 2)) := by
  have hx : 2 * isqrtOk0Pi k * (d : ℂ) ≠ 0 := mul_ne_zero (mul_ne_zero two_ne_zero (isqrt_ne hk)) (by exact_mod_cast hd)
  have hpi : (Real.pi : ℂ) ≠ 0 := by exact_mod_cast Real.pi_ne_zero
  have hm : 2 * isqrtOk0Pi k * (d : ℂ) * Real.pi ≠ 0 := mul_ne_zero hx hpi
  set x := 2 * isqrtOk0Pi k * (d : ℂ) with hxd
  have hden : (x * Real.pi) ^ 2 ≠ 0 := pow_ne_zero 2 hm
  have hdenc : (starRingEnd ℂ) ((x * Real.pi) ^ 2) ≠ 0 := by simpa using hm
  have h0 : (some (0 : ℂ) : Num) = some (starRingEnd ℂ 0) := by rw [map_zero]
  have h6 : ((1 / 6 : ℂ)).re = 1 / 6 := by
    rw [show (1 / 6 : ℂ) = ((1 / 6 : ℝ) : ℂ) by push_cast; rfl, Complex.ofReal_re]
  simp only [volumeGrad, ← hxd, if_neg (not_lt.mpr h), Num.div, Num.mul, Num.conj, Num.neg, Num.add, Num.re, cj, Option.bind_some, Option.map_some, if_neg hden,
    if_neg hdenc, zero_div, neg_zero, zero_mul, h0, sincBackward_conj hx, addR, map_zero, add_zero, csinc, h6, Complex.zero_re]
  refine Prod.ext ?_ ?_
  · simp only
    rw [backIsqrt_conj hk]; simp
  · simp only
    congr 1; ring

/-- A curved universe at distance 1 is above the threshold. -/
example : (1e-8 : ℝ) < ‖2 * isqrtOk0Pi 1 * ((1 : ℝ) : ℂ)‖ := by
  rw [isqrt_norm]
  simp only [abs_one, Real.sqrt_one, mul_one]
  have := Real.pi_lt_four
  rw [lt_div_iff₀ Real.pi_pos]
  linarith

/-- And there are points below it. -/
example : ‖2 * isqrtOk0Pi 1 * ((1e-9 : ℝ) : ℂ)‖ ≤ (1e-8 : ℝ) := by
  rw [isqrt_norm]
  simp only [abs_one, Real.sqrt_one, mul_one]
  have := Real.pi_gt_three
  rw [abs_of_pos (by norm_num), div_le_iff₀ Real.pi_pos]
  norm_num
  linarith

end Verif.Cosmo.Grad
