import Verif.Ellred.ComplexD
import Verif.Ellred.CarlsonGrad

/-! # The duplication theorem for `R_J` at complex arguments -/

namespace Verif.Ellred

open MeasureTheory Set Filter Topology Verif.Carlson

section
variable {x y z p : ℂ} (hx : x ∈ Complex.slitPlane) (hy : y ∈ Complex.slitPlane) (hz : z ∈ Complex.slitPlane) (hp : p ∈ Complex.slitPlane)
include hx hy hz hp

theorem cA_dec {q : ℂ} (hq : q ∈ Complex.slitPlane) : Dec (5 / 2) fun t => 1 / (cS x y z t * (((t : ℂ) + q) * ((t : ℂ) + p))) :=
  (((cS_dec hx hy hz).mul ((Dec.inv hq).mul (Dec.inv hp))).mono (by norm_num)).congr fun t _ => by simp only [one_div_mul_one_div]

/-- The derivative of the integrand of `R_J` integrates to its boundary value. -/
theorem cA_sum : 1 / 2 * (cA x y z x p + cA x y z y p + cA x y z z p) + cA x y z p p = 1 / (csqrt x * csqrt y * csqrt z * p) := by
  have d1 := (cA_dec hx hy hz hp hx).cmul (-(1 / 2))
  have d2 := (cA_dec hx hy hz hp hy).cmul (-(1 / 2))
  have d3 := (cA_dec hx hy hz hp hz).cmul (-(1 / 2))
  have d4 := (cA_dec hx hy hz hp hp).cmul (-1)
  have h := Dec.boundary (RJ_dec hx hy hz hp) (by norm_num) (((d1.add d2).add d3).add d4) (by norm_num) fun t ht => by
    have hpd : HasDerivAt (fun t : ℝ => (t : ℂ) + p) 1 t := add_deriv p t
    have hne := far_ne hp ht.le
    have h2 := (sum_inv_deriv hx hy hz ht.le).mul (hpd.inv hne)
    have h3 : HasDerivAt (fun t : ℝ => 1 / (cS x y z t * ((t : ℂ) + p))) _ t := h2.congr_of_eventuallyEq (Eventually.of_forall fun t => by
      simp only [Pi.mul_apply, Pi.inv_apply, one_div, mul_inv])
    refine h3.congr_deriv ?_
    have n1 := far_ne hx ht.le
    have n2 := far_ne hy ht.le
    have n3 := far_ne hz ht.le
    have n4 := cS_ne hx hy hz ht.le
    simp only [Pi.inv_apply]
    field_simp
    ring
  rw [integral_add (((d1.add d2).add d3).integrable (by norm_num)) (d4.integrable (by norm_num)), integral_add ((d1.add d2).integrable (by norm_num)) (d3.integrable (by norm_num)),
    integral_add (d1.integrable (by norm_num)) (d2.integrable (by norm_num)), integral_const_mul, integral_const_mul, integral_const_mul, integral_const_mul] at h
  simp only [cS, Complex.ofReal_zero, zero_add] at h
  simp only [cA, cS]
  linear_combination -h

end

/-- The derivative of `R_J` when all arguments move alike. -/
theorem RJc_shift {u v w p : ℝ → ℂ} {m : ℂ} {s0 : ℝ} (hu : HasDerivAt u m s0) (hv : HasDerivAt v m s0) (hw : HasDerivAt w m s0) (hp : HasDerivAt p m s0)
    (h1 : u s0 ∈ Complex.slitPlane) (h2 : v s0 ∈ Complex.slitPlane) (h3 : w s0 ∈ Complex.slitPlane) (h4 : p s0 ∈ Complex.slitPlane) :
    HasDerivAt (fun s => RJc (u s) (v s) (w s) (p s)) (-(3 / 2) * (m / (csqrt (u s0) * csqrt (v s0) * csqrt (w s0) * p s0))) s0 := by
  refine (RJc_deriv hu hv hw hp h1 h2 h3 h4).congr_deriv ?_
  have h := cA_sum h1 h2 h3 h4
  linear_combination -(3 / 2) * m * h

/-- `R_J` is small for arguments with a large real part. -/
theorem RJc_small {x y z p : ℂ} {μ : ℝ} (hμ : 0 < μ) (hx : μ ≤ x.re) (hy : μ ≤ y.re) (hz : μ ≤ z.re) (hp : μ ≤ p.re) : ‖RJc x y z p‖ ≤ 3 / μ * RF μ μ μ := by
  have key : ∀ {w : ℂ}, μ ≤ w.re → ∀ t ∈ Ioi (0 : ℝ), √(t + μ) ≤ ‖csqrt ((t : ℂ) + w)‖ := by
    intro w hw t ht
    rw [norm_csqrt, ← Real.sqrt_eq_rpow]
    apply Real.sqrt_le_sqrt
    refine le_trans ?_ (Complex.re_le_norm _)
    rw [Complex.add_re, Complex.ofReal_re]
    linarith
  have hI := (Args.integrable (x := μ) (y := μ) (z := μ) ⟨hμ.le, hμ.le, hμ.le, by linarith, by linarith, by linarith⟩)
  have e : 3 / μ * RF μ μ μ = 3 / 2 * ∫ t in Ioi (0 : ℝ), 1 / (√(t + μ) * √(t + μ) * √(t + μ)) * (1 / μ) := by
    rw [integral_mul_const, RF]
    ring
  rw [e, RJc, norm_mul, show ‖(3 / 2 : ℂ)‖ = 3 / 2 by norm_num]
  apply mul_le_mul_of_nonneg_left _ (by norm_num)
  refine norm_integral_le_of_norm_le (hI.mul_const _) ?_
  rw [ae_restrict_iff' measurableSet_Ioi]
  refine Eventually.of_forall fun t ht => ?_
  have ht' := mem_Ioi.mp ht
  have hp' : 0 < √(t + μ) := Real.sqrt_pos.mpr (by linarith)
  rw [norm_div, norm_one, norm_mul, norm_mul, norm_mul, one_div_mul_one_div]
  apply one_div_le_one_div_of_le (by positivity)
  have a1 := key hx t ht
  have a2 := key hy t ht
  have a3 := key hz t ht
  have a4 : μ ≤ ‖(t : ℂ) + p‖ := by
    refine le_trans ?_ (Complex.re_le_norm _)
    rw [Complex.add_re, Complex.ofReal_re]
    linarith
  gcongr

/-- The complex arc tangent in the unit disc. -/
theorem arctan_deriv {w : ℂ} (hw : ‖w‖ < 1) : HasDerivAt Complex.arctan (1 / (1 + w ^ 2)) w := by
  have hI : ‖w * Complex.I‖ < 1 := by rwa [norm_mul, Complex.norm_I, mul_one]
  have n1 : 1 + w * Complex.I ≠ 0 := fun h => by
    have : w * Complex.I = -1 := by linear_combination h
    rw [this] at hI
    simp at hI
  have n2 : 1 - w * Complex.I ≠ 0 := fun h => by
    have : w * Complex.I = 1 := by linear_combination -h
    rw [this] at hI
    simp at hI
  have hre : 0 < ((1 + w * Complex.I) / (1 - w * Complex.I)).re := by
    rw [Complex.div_re, ← add_div]
    apply div_pos _ (Complex.normSq_pos.mpr n2)
    have : Complex.normSq (w * Complex.I) < 1 := by
      rw [Complex.normSq_eq_norm_sq]
      nlinarith [norm_nonneg (w * Complex.I)]
    rw [Complex.normSq_apply] at this
    simp only [Complex.add_re, Complex.sub_re, Complex.one_re, Complex.add_im, Complex.sub_im, Complex.one_im]
    nlinarith
  have h1 : HasDerivAt (fun w : ℂ => 1 + w * Complex.I) Complex.I w := by
    simpa using ((hasDerivAt_id w).mul_const Complex.I).const_add 1
  have h2 : HasDerivAt (fun w : ℂ => 1 - w * Complex.I) (-Complex.I) w := by
    simpa using ((hasDerivAt_id w).mul_const Complex.I).const_sub 1
  have h := (((h1.div h2 n2).clog (re_slit hre)).const_mul (-Complex.I / 2))
  refine HasDerivAt.congr_deriv (f := Complex.arctan) h ?_
  have hprod : (1 + w * Complex.I) * (1 - w * Complex.I) = 1 + w ^ 2 := by
    linear_combination -w ^ 2 * Complex.I_sq
  have hne : 1 + w ^ 2 ≠ 0 := by rw [← hprod]; exact mul_ne_zero n1 n2
  simp only [Pi.div_apply]
  have e : -Complex.I / 2 * ((Complex.I * (1 - w * Complex.I) - (1 + w * Complex.I) * -Complex.I) / (1 - w * Complex.I) ^ 2 /
      ((1 + w * Complex.I) / (1 - w * Complex.I))) = -Complex.I ^ 2 / ((1 + w * Complex.I) * (1 - w * Complex.I)) := by
    field_simp
    ring
  rw [e, Complex.I_sq, neg_neg, hprod]

theorem arctan_neg' {w : ℂ} (hw : ‖w‖ < 1) : Complex.arctan (-w) = -Complex.arctan w := by
  have h1 := (Complex.hasSum_arctan hw).neg
  have h2 := Complex.hasSum_arctan (z := -w) (by rwa [norm_neg])
  refine h2.unique ?_
  have e : (fun n : ℕ => (-1 : ℂ) ^ n * (-w) ^ (2 * n + 1) / ((2 * n + 1 : ℕ) : ℂ)) = fun n : ℕ => -((-1 : ℂ) ^ n * w ^ (2 * n + 1) / ((2 * n + 1 : ℕ) : ℂ)) := by
    funext n
    rw [Odd.neg_pow ⟨n, rfl⟩]
    ring
  rw [e]
  exact h1

/-- `d`, the product of the sums of the root of `p` with the other roots, along the shift of all arguments. -/
theorem dm_deriv {x y z p : ℂ} (hx : x ∈ Complex.slitPlane) (hy : y ∈ Complex.slitPlane) (hz : z ∈ Complex.slitPlane) (hp : p ∈ Complex.slitPlane) {s : ℝ} (hs : 0 ≤ s) :
    HasDerivAt (fun s : ℝ => dmOf ((s : ℂ) + x) ((s : ℂ) + y) ((s : ℂ) + z) ((s : ℂ) + p))
      (dmOf ((s : ℂ) + x) ((s : ℂ) + y) ((s : ℂ) + z) ((s : ℂ) + p) * lmOf ((s : ℂ) + x) ((s : ℂ) + y) ((s : ℂ) + z) /
        (2 * csqrt ((s : ℂ) + p) * (csqrt ((s : ℂ) + x) * csqrt ((s : ℂ) + y) * csqrt ((s : ℂ) + z)))) s := by
  have a := sqrt_deriv hx hs
  have b := sqrt_deriv hy hs
  have c := sqrt_deriv hz hs
  have q := sqrt_deriv hp hs
  simp only [dmOf, lmOf]
  refine (((q.add a).mul (q.add b)).mul (q.add c)).congr_deriv ?_
  have n1 := sqrt_ne hx hs
  have n2 := sqrt_ne hy hs
  have n3 := sqrt_ne hz hs
  have n4 := sqrt_ne hp hs
  simp only [Pi.mul_apply, Pi.add_apply]
  generalize csqrt ((s : ℂ) + x) = a at *
  generalize csqrt ((s : ℂ) + y) = b at *
  generalize csqrt ((s : ℂ) + z) = c at *
  generalize csqrt ((s : ℂ) + p) = q at *
  field_simp
  ring

theorem dm_large {x y z p : ℂ} {μ : ℝ} (hμ : 0 < μ) (hx : μ ≤ (csqrt x).re) (hy : μ ≤ (csqrt y).re) (hz : μ ≤ (csqrt z).re) (hp : μ ≤ (csqrt p).re) :
    μ ^ 3 ≤ ‖dmOf x y z p‖ := by
  have key : ∀ {w : ℂ}, μ ≤ (csqrt w).re → μ ≤ ‖csqrt p + csqrt w‖ := fun hw => by
    refine le_trans ?_ (Complex.re_le_norm _)
    rw [Complex.add_re]
    linarith
  have a1 := key hx
  have a2 := key hy
  have a3 := key hz
  rw [dmOf, norm_mul, norm_mul, show μ ^ 3 = μ * μ * μ by ring]
  gcongr

theorem csqrt_re_large {w : ℂ} {μ : ℝ} (hμ : 0 ≤ μ) (hw : μ ≤ w.re) : √(μ / 2) ≤ (csqrt w).re := by
  have h0 : 0 ≤ (csqrt w).re := csqrt_re w
  have h1 := csqrt_sq w
  rw [Real.sqrt_le_left h0]
  have h2 := congrArg Complex.re h1
  rw [Complex.mul_re] at h2
  nlinarith [mul_self_nonneg (csqrt w).im]

/-- The duplication theorem for `R_J` (DLMF 19.26.18) with complex arguments. `κ` is a square root of `(p-x)(p-y)(p-z)`. The conditions say that along the
common shift the arc tangent is taken in the unit disc and the new `p` is off the cut. -/
theorem RJc_dup {x y z p κ : ℂ} (hx : x ∈ Complex.slitPlane) (hy : y ∈ Complex.slitPlane) (hz : z ∈ Complex.slitPlane) (hp : p ∈ Complex.slitPlane)
    (hκ : κ ^ 2 = (p - x) * (p - y) * (p - z)) (hκ0 : κ ≠ 0)
    (hd : ∀ s : ℝ, 0 ≤ s → ‖κ / dmOf ((s : ℂ) + x) ((s : ℂ) + y) ((s : ℂ) + z) ((s : ℂ) + p)‖ < 1)
    (hl : ∀ s : ℝ, 0 ≤ s → ((s : ℂ) + p + lmOf ((s : ℂ) + x) ((s : ℂ) + y) ((s : ℂ) + z)) / 4 ∈ Complex.slitPlane) :
    RJc x y z p = 1 / 4 * RJc ((x + lmOf x y z) / 4) ((y + lmOf x y z) / 4) ((z + lmOf x y z) / 4) ((p + lmOf x y z) / 4) +
      6 * (Complex.arctan (κ / dmOf x y z p) / κ) := by
  have hsl : ∀ {w : ℂ}, w ∈ Complex.slitPlane → ∀ {s : ℝ}, 0 ≤ s → (s : ℂ) + w ∈ Complex.slitPlane := fun hw s hs => by
    rw [add_comm]; exact slit_add hw hs
  let L : ℝ → ℂ := fun s => lmOf ((s : ℂ) + x) ((s : ℂ) + y) ((s : ℂ) + z)
  let M : ℝ → ℂ := fun s => dmOf ((s : ℂ) + x) ((s : ℂ) + y) ((s : ℂ) + z) ((s : ℂ) + p)
  let D : ℝ → ℂ := fun s => 1 / 4 * RJc (((s : ℂ) + x + L s) / 4) (((s : ℂ) + y + L s) / 4) (((s : ℂ) + z + L s) / 4) (((s : ℂ) + p + L s) / 4) +
    6 / κ * Complex.arctan (κ / M s) - RJc ((s : ℂ) + x) ((s : ℂ) + y) ((s : ℂ) + z) ((s : ℂ) + p)
  have hD : ∀ s : ℝ, 0 ≤ s → HasDerivAt D 0 s := by
    intro s hs
    obtain ⟨k1, k2, k3⟩ := dup_slit (hsl hx hs) (hsl hy hs) (hsl hz hs)
    have hL := lm_deriv hx hy hz hs
    have hM := dm_deriv hx hy hz hp hs
    have m1 : csqrt ((s : ℂ) + x) + csqrt ((s : ℂ) + y) ≠ 0 := fun e => by simpa [e] using re_sum_pos (hsl hx hs) (hsl hy hs)
    have m2 : csqrt ((s : ℂ) + x) + csqrt ((s : ℂ) + z) ≠ 0 := fun e => by simpa [e] using re_sum_pos (hsl hx hs) (hsl hz hs)
    have m3 : csqrt ((s : ℂ) + y) + csqrt ((s : ℂ) + z) ≠ 0 := fun e => by simpa [e] using re_sum_pos (hsl hy hs) (hsl hz hs)
    have m4 : csqrt ((s : ℂ) + p) + csqrt ((s : ℂ) + x) ≠ 0 := fun e => by simpa [e] using re_sum_pos (hsl hp hs) (hsl hx hs)
    have m5 : csqrt ((s : ℂ) + p) + csqrt ((s : ℂ) + y) ≠ 0 := fun e => by simpa [e] using re_sum_pos (hsl hp hs) (hsl hy hs)
    have m6 : csqrt ((s : ℂ) + p) + csqrt ((s : ℂ) + z) ≠ 0 := fun e => by simpa [e] using re_sum_pos (hsl hp hs) (hsl hz hs)
    have hM0 : dmOf ((s : ℂ) + x) ((s : ℂ) + y) ((s : ℂ) + z) ((s : ℂ) + p) ≠ 0 := mul_ne_zero (mul_ne_zero m4 m5) m6
    have hA := HasDerivAt.comp s (h₂ := Complex.arctan) (h := fun s => κ / M s) (arctan_deriv (hd s hs)) ((hasDerivAt_const s κ).div hM hM0)
    have g := (((RJc_shift (((add_deriv x s).add hL).div_const 4) (((add_deriv y s).add hL).div_const 4) (((add_deriv z s).add hL).div_const 4)
      (((add_deriv p s).add hL).div_const 4) k1 k2 k3 (hl s hs)).const_mul (1 / 4)).add (hA.const_mul (6 / κ))).sub
      (RJc_shift (add_deriv x s) (add_deriv y s) (add_deriv z s) (add_deriv p s) (hsl hx hs) (hsl hy hs) (hsl hz hs) (hsl hp hs))
    refine g.congr_deriv ?_
    simp only [Pi.add_apply]
    rw [dup_sqrt (hsl hx hs) (hsl hy hs) (hsl hz hs)]
    have n1 := sqrt_ne hx hs
    have n2 := sqrt_ne hy hs
    have n3 := sqrt_ne hz hs
    have n4 := sqrt_ne hp hs
    have hlk := Complex.slitPlane_ne_zero (hl s hs)
    have e1 := csqrt_sq ((s : ℂ) + x)
    have e2 := csqrt_sq ((s : ℂ) + y)
    have e3 := csqrt_sq ((s : ℂ) + z)
    have e4 := csqrt_sq ((s : ℂ) + p)
    have hκ' : κ ^ 2 = (csqrt ((s : ℂ) + p) ^ 2 - csqrt ((s : ℂ) + x) ^ 2) * (csqrt ((s : ℂ) + p) ^ 2 - csqrt ((s : ℂ) + y) ^ 2) *
        (csqrt ((s : ℂ) + p) ^ 2 - csqrt ((s : ℂ) + z) ^ 2) := by
      rw [hκ, pow_two, pow_two, pow_two, pow_two, e1, e2, e3, e4]; ring
    clear hL hM hA g hd hl
    simp only [zero_mul, zero_sub, M, L, dmOf, lmOf] at *
    generalize csqrt ((s : ℂ) + x) = a at *
    generalize csqrt ((s : ℂ) + y) = b at *
    generalize csqrt ((s : ℂ) + z) = c at *
    generalize csqrt ((s : ℂ) + p) = q at *
    rw [← e4] at hlk ⊢
    have hq : q ^ 2 + (a * b + a * c + b * c) ≠ 0 := fun e => hlk (by rw [← pow_two, e, zero_div])
    have hden : 1 + (κ / ((q + a) * (q + b) * (q + c))) ^ 2 = 2 * q * (q ^ 2 + (a * b + a * c + b * c)) / ((q + a) * (q + b) * (q + c)) := by
      rw [div_pow, hκ']
      field_simp
      ring
    rw [hden, ← pow_two]
    clear hden hlk k1 k2 k3
    generalize a * b + a * c + b * c = l at *
    field_simp
    ring
  have hc : ∀ s : ℝ, 0 ≤ s → D s = D 0 := fun s hs =>
    constant_of_has_deriv_right_zero (f := D) (a := 0) (b := s) (fun t ht => (hD t ht.1).continuousAt.continuousWithinAt)
      (fun t ht => (hD t ht.1).hasDerivWithinAt) s ⟨hs, le_rfl⟩
  have ht : Tendsto D atTop (𝓝 0) := by
    obtain ⟨B, B0, hB⟩ : ∃ B : ℝ, 0 ≤ B ∧ -B ≤ x.re ∧ -B ≤ y.re ∧ -B ≤ z.re ∧ -B ≤ p.re :=
      ⟨|x.re| + |y.re| + |z.re| + |p.re|, by positivity, by linarith [neg_abs_le x.re, abs_nonneg y.re, abs_nonneg z.re, abs_nonneg p.re],
        by linarith [neg_abs_le y.re, abs_nonneg x.re, abs_nonneg z.re, abs_nonneg p.re], by linarith [neg_abs_le z.re, abs_nonneg y.re, abs_nonneg x.re, abs_nonneg p.re],
        by linarith [neg_abs_le p.re, abs_nonneg y.re, abs_nonneg x.re, abs_nonneg z.re]⟩
    have hs : Tendsto (fun s : ℝ => √(s - B)) atTop atTop := Real.tendsto_sqrt_atTop.comp (tendsto_atTop_add_const_right _ (-B) tendsto_id)
    have hid : Tendsto (fun s : ℝ => s - B) atTop atTop := tendsto_atTop_add_const_right _ (-B) tendsto_id
    have hb : Tendsto (fun s : ℝ => 3 / (s - B) * (1 / √(s - B))) atTop (𝓝 0) := by
      have h1 := hid.const_div_atTop 3
      have h2 := hs.const_div_atTop 1
      simpa using h1.mul h2
    have hF : ∀ {μ : ℝ}, 0 < μ → RF μ μ μ = 1 / √μ := fun {μ} hμ => by
      have := RF_scale μ 1 1 1 hμ
      simp only [mul_one] at this
      rw [this]
      congr 1
      have := RF_series 0 0 0 0 (by norm_num) (by simp) (by simp) (by simp) (by simp)
      simp only [sub_zero, mul_zero, add_zero, zero_div, ne_eq, OfNat.ofNat_ne_zero, not_false_eq_true, zero_pow, zero_mul] at this
      have := abs_nonpos_iff.mp this
      linarith
    have res : ∀ {w : ℂ}, -B ≤ w.re → ∀ s : ℝ, s - B ≤ ((s : ℂ) + w).re := fun hw s => by
      rw [Complex.add_re, Complex.ofReal_re]; linarith
    have t1 : Tendsto (fun s : ℝ => RJc (((s : ℂ) + x + L s) / 4) (((s : ℂ) + y + L s) / 4) (((s : ℂ) + z + L s) / 4) (((s : ℂ) + p + L s) / 4)) atTop (𝓝 0) := by
      refine squeeze_zero_norm' ?_ hb
      filter_upwards [eventually_gt_atTop B] with s hs
      have hμ : 0 < s - B := by linarith
      have r1 := res hB.1 s
      have r2 := res hB.2.1 s
      have r3 := res hB.2.2.1 s
      have r4 := res hB.2.2.2 s
      have rl := re_lmOf hμ r1 r2 r3
      rw [← hF hμ]
      refine RJc_small hμ ?_ ?_ ?_ ?_ <;> (rw [re_add_div4]; simp only [L]; linarith)
    have t2 : Tendsto (fun s : ℝ => RJc ((s : ℂ) + x) ((s : ℂ) + y) ((s : ℂ) + z) ((s : ℂ) + p)) atTop (𝓝 0) := by
      refine squeeze_zero_norm' ?_ hb
      filter_upwards [eventually_gt_atTop B] with s hs
      have hμ : 0 < s - B := by linarith
      rw [← hF hμ]
      exact RJc_small hμ (res hB.1 s) (res hB.2.1 s) (res hB.2.2.1 s) (res hB.2.2.2 s)
    have t3 : Tendsto (fun s => Complex.arctan (κ / M s)) atTop (𝓝 0) := by
      have h1 : Tendsto (fun s => κ / M s) atTop (𝓝 0) := by
        have hh : Tendsto (fun s : ℝ => √((s - B) / 2)) atTop atTop := Real.tendsto_sqrt_atTop.comp (hid.atTop_div_const (by norm_num))
        have h3 : Tendsto (fun s : ℝ => ‖κ‖ / (√((s - B) / 2)) ^ 3) atTop (𝓝 0) :=
          ((tendsto_pow_atTop (by norm_num : (3 : ℕ) ≠ 0)).comp hh).const_div_atTop ‖κ‖
        refine squeeze_zero_norm' ?_ h3
        filter_upwards [eventually_gt_atTop B] with s hs
        have hμ : 0 < s - B := by linarith
        have hq : 0 < √((s - B) / 2) := Real.sqrt_pos.mpr (by linarith)
        rw [norm_div]
        apply div_le_div_of_nonneg_left (norm_nonneg _) (by positivity)
        exact dm_large hq (csqrt_re_large hμ.le (res hB.1 s)) (csqrt_re_large hμ.le (res hB.2.1 s)) (csqrt_re_large hμ.le (res hB.2.2.1 s)) (csqrt_re_large hμ.le (res hB.2.2.2 s))
      have h2 := (arctan_deriv (w := 0) (by simp)).continuousAt.tendsto
      have h4 : Complex.arctan 0 = 0 := by simp [Complex.arctan]
      rw [h4] at h2
      exact h2.comp h1
    have := ((t1.const_mul (1 / 4 : ℂ)).add (t3.const_mul (6 / κ))).sub t2
    rw [show (1 / 4 : ℂ) * 0 + 6 / κ * 0 - 0 = 0 by ring] at this
    exact this
  have h0 : D 0 = 0 := tendsto_nhds_unique (tendsto_const_nhds.congr' (by filter_upwards [eventually_ge_atTop 0] with s hs using (hc s hs).symm)) ht
  simp only [D, L, M, Complex.ofReal_zero, zero_add] at h0
  linear_combination -h0

end Verif.Ellred
