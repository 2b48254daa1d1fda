import Verif.Ellred.ComplexJ
import Verif.Ellred.ComplexDRun

/-! # Homogeneity of `R_J` at complex arguments, and the domains of `elliprj` -/

namespace Verif.Ellred

open MeasureTheory Set Filter Topology Verif.Carlson

/-- Euler's relation for `R_J`. -/
theorem cA_euler {x y z p : ℂ} (hx : x ∈ Complex.slitPlane) (hy : y ∈ Complex.slitPlane) (hz : z ∈ Complex.slitPlane) (hp : p ∈ Complex.slitPlane) :
    1 / 2 * (x * cA x y z x p + y * cA x y z y p + z * cA x y z z p) + p * cA x y z p p = RJc x y z p := by
  have dB : Dec (1 / 2) fun t => (t : ℂ) * (1 / (cS x y z t * ((t : ℂ) + p))) := (Dec.id.mul (RJ_dec hx hy hz hp)).mono (by norm_num)
  have d0 := (RJ_dec hx hy hz hp).cmul (-(3 / 2))
  have d1 := ((cA_dec hx hy hz hp hx).cmul (x / 2)).mono (l := 3 / 2) (by norm_num)
  have d2 := ((cA_dec hx hy hz hp hy).cmul (y / 2)).mono (l := 3 / 2) (by norm_num)
  have d3 := ((cA_dec hx hy hz hp hz).cmul (z / 2)).mono (l := 3 / 2) (by norm_num)
  have d4 := ((cA_dec hx hy hz hp hp).cmul p).mono (l := 3 / 2) (by norm_num)
  have h := Dec.boundary dB (by norm_num) ((((d0.add d1).add d2).add d3).add d4) (by norm_num) fun t ht => by
    have hpd : HasDerivAt (fun t : ℝ => (t : ℂ) + p) 1 t := add_deriv p t
    have hne := far_ne hp ht.le
    have h2 := (sum_inv_deriv hx hy hz ht.le).mul (hpd.inv hne)
    have h3 : HasDerivAt (fun t : ℝ => 1 / (cS x y z t * ((t : ℂ) + p))) _ t := h2.congr_of_eventuallyEq (Eventually.of_forall fun t => by
      simp only [Pi.mul_apply, Pi.inv_apply, one_div, mul_inv])
    have h4 := ((hasDerivAt_id t).ofReal_comp).mul h3
    refine h4.congr_deriv ?_
    have n1 := far_ne hx ht.le
    have n2 := far_ne hy ht.le
    have n3 := far_ne hz ht.le
    have n4 := cS_ne hx hy hz ht.le
    simp only [Pi.inv_apply, id_eq]
    push_cast
    field_simp
    ring
  rw [integral_add ((((d0.add d1).add d2).add d3).integrable (by norm_num)) (d4.integrable (by norm_num)),
    integral_add (((d0.add d1).add d2).integrable (by norm_num)) (d3.integrable (by norm_num)), integral_add ((d0.add d1).integrable (by norm_num)) (d2.integrable (by norm_num)),
    integral_add (d0.integrable (by norm_num)) (d1.integrable (by norm_num)), integral_const_mul, integral_const_mul, integral_const_mul, integral_const_mul, integral_const_mul] at h
  simp only [Complex.ofReal_zero, zero_mul, neg_zero] at h
  rw [RJc_cS]
  simp only [cA]
  linear_combination h

theorem kPath_sqrt_deriv {k : ℂ} {θ : ℝ} (hsl : kPath k θ ∈ Complex.slitPlane) : HasDerivAt (fun θ => csqrt (kPath k θ)) (1 / (2 * csqrt (kPath k θ)) * (k - 1)) θ := by
  have hd : HasDerivAt (kPath k) (k - 1) θ := by
    have := HasDerivAt.const_add (1 : ℂ) ((hasDerivAt_id θ).ofReal_comp.mul_const (k - 1))
    rw [Complex.ofReal_one, one_mul] at this
    exact this
  have hn := Complex.slitPlane_ne_zero hsl
  have hc := ((hasDerivAt_id (kPath k θ)).cpow_const (c := (1 / 2 : ℂ)) hsl).comp θ hd
  refine hc.congr_deriv ?_
  have e : kPath k θ ^ ((1 / 2 : ℂ) - 1) = csqrt (kPath k θ) / kPath k θ := by rw [Complex.cpow_sub _ _ hn, Complex.cpow_one, csqrt]
  simp only [id_eq, mul_one]
  rw [e]
  have h2 := csqrt_sq (kPath k θ)
  have h3 := csqrt_ne0 hn
  generalize csqrt (kPath k θ) = s at *
  rw [← h2]
  field_simp

/-- `R_J` is homogeneous of degree `-3/2` under rotations that do not pass the cut. -/
theorem RJc_rotate {k x y z p : ℂ} (hk : k ≠ 0) (hx : KGood k x) (hy : KGood k y) (hz : KGood k z) (hp : KGood k p) :
    RJc (k * x) (k * y) (k * z) (k * p) = RJc x y z p / (k * csqrt k) := by
  have hks := hx.k_slit hk
  have hne : ∀ θ ∈ Icc (0 : ℝ) 1, kPath k θ ≠ 0 := fun θ hθ => kPath_ne hks hθ.1 hθ.2
  have hd : ∀ θ : ℝ, HasDerivAt (kPath k) (k - 1) θ := fun θ => by
    have := HasDerivAt.const_add (1 : ℂ) ((hasDerivAt_id θ).ofReal_comp.mul_const (k - 1))
    rw [Complex.ofReal_one, one_mul] at this
    exact this
  let H : ℝ → ℂ := fun θ => kPath k θ * csqrt (kPath k θ) * RJc (kPath k θ * x) (kPath k θ * y) (kPath k θ * z) (kPath k θ * p)
  have hH : ∀ θ ∈ Icc (0 : ℝ) 1, HasDerivAt H 0 θ := by
    intro θ hθ
    have g1 := hx.path hθ.1 hθ.2
    have g2 := hy.path hθ.1 hθ.2
    have g3 := hz.path hθ.1 hθ.2
    have g4 := hp.path hθ.1 hθ.2
    have hn := hne θ hθ
    have hf := RJc_deriv ((hd θ).mul_const x) ((hd θ).mul_const y) ((hd θ).mul_const z) ((hd θ).mul_const p) (g1.slit hn) (g2.slit hn) (g3.slit hn) (g4.slit hn)
    refine (((hd θ).mul (kPath_sqrt_deriv (g1.k_slit hn))).mul hf).congr_deriv ?_
    have eu := cA_euler (g1.slit hn) (g2.slit hn) (g3.slit hn) (g4.slit hn)
    have h2 := csqrt_sq (kPath k θ)
    have h3 := csqrt_ne0 hn
    simp only [Pi.mul_apply]
    generalize cA (kPath k θ * x) (kPath k θ * y) (kPath k θ * z) (kPath k θ * x) (kPath k θ * p) = A at *
    generalize cA (kPath k θ * x) (kPath k θ * y) (kPath k θ * z) (kPath k θ * y) (kPath k θ * p) = B at *
    generalize cA (kPath k θ * x) (kPath k θ * y) (kPath k θ * z) (kPath k θ * z) (kPath k θ * p) = C at *
    generalize cA (kPath k θ * x) (kPath k θ * y) (kPath k θ * z) (kPath k θ * p) (kPath k θ * p) = E at *
    generalize RJc (kPath k θ * x) (kPath k θ * y) (kPath k θ * z) (kPath k θ * p) = R at *
    generalize csqrt (kPath k θ) = s at *
    rw [← h2] at eu ⊢
    rw [← eu]
    field_simp
    ring
  have hc := constant_of_has_deriv_right_zero (f := H) (a := 0) (b := 1) (fun t ht => (hH t ht).continuousAt.continuousWithinAt)
    (fun t ht => (hH t ⟨ht.1, ht.2.le⟩).hasDerivWithinAt) 1 ⟨zero_le_one, le_rfl⟩
  have e0 : kPath k 0 = 1 := by simp [kPath]
  have e1 : kPath k 1 = k := by simp [kPath]
  simp only [H, e0, e1, one_mul] at hc
  have : csqrt 1 = 1 := by simp [csqrt]
  rw [this, one_mul] at hc
  rw [← hc, mul_div_cancel_left₀ _ (mul_ne_zero hk (csqrt_ne0 hk))]

/-! ### The domains -/

/-- All arguments in the right half plane. -/
def JRight (x y z p : ℂ) : Prop := 0 < x.re ∧ 0 < y.re ∧ 0 < z.re ∧ 0 < p.re

/-- `x` and `p` positive, `y` and `z` conjugate and off the cut. -/
def JConj (x y z p : ℂ) : Prop := ∃ X P : ℝ, 0 < X ∧ 0 < P ∧ x = X ∧ p = P ∧ y ∈ Complex.slitPlane ∧ z = (starRingEnd ℂ) y

theorem csqrt_conj' {y : ℂ} (hy : y ∈ Complex.slitPlane) : csqrt ((starRingEnd ℂ) y) = (starRingEnd ℂ) (csqrt y) := by
  rw [csqrt, csqrt, Complex.conj_cpow _ _ (Complex.mem_slitPlane_iff_arg.mp hy).1, map_div₀, map_one, map_ofNat]

theorem conj_slit {y : ℂ} (hy : y ∈ Complex.slitPlane) : (starRingEnd ℂ) y ∈ Complex.slitPlane := by
  rw [Complex.mem_slitPlane_iff] at hy ⊢
  simpa using hy

/-- The sum of products of roots is positive. -/
theorem lm_conj {X : ℝ} (hX : 0 < X) {y : ℂ} (hy : y ∈ Complex.slitPlane) :
    lmOf X y ((starRingEnd ℂ) y) = ((2 * √X * (csqrt y).re + Complex.normSq (csqrt y) : ℝ) : ℂ) := by
  have h1 : csqrt (X : ℂ) = (√X : ℝ) := csqrt_ofReal hX.le
  rw [lmOf, csqrt_conj' hy, h1, ← mul_add, Complex.add_conj, Complex.mul_conj]
  push_cast
  ring

theorem lm_conj_pos {X : ℝ} (hX : 0 < X) {y : ℂ} (hy : y ∈ Complex.slitPlane) : 0 < 2 * √X * (csqrt y).re + Complex.normSq (csqrt y) := by
  have := csqrt_re_pos hy
  have := Real.sqrt_pos.mpr hX
  have := Complex.normSq_nonneg (csqrt y)
  positivity

theorem JConj.step {x y z p : ℂ} (h : JConj x y z p) :
    JConj ((x + lmOf x y z) / 4) ((y + lmOf x y z) / 4) ((z + lmOf x y z) / 4) ((p + lmOf x y z) / 4) := by
  obtain ⟨X, P, hX, hP, rfl, rfl, hy, rfl⟩ := h
  have hl := lm_conj_pos hX hy
  rw [lm_conj hX hy]
  generalize 2 * √X * (csqrt y).re + Complex.normSq (csqrt y) = l at *
  refine ⟨(X + l) / 4, (P + l) / 4, by positivity, by positivity, by push_cast; ring, by push_cast; ring, ?_, ?_⟩
  · apply slit_quarter
    exact slit_add hy hl.le
  · rw [map_div₀, map_add, Complex.conj_ofReal, map_ofNat]

theorem JRight.step {x y z p : ℂ} (h : JRight x y z p) :
    JRight ((x + lmOf x y z) / 4) ((y + lmOf x y z) / 4) ((z + lmOf x y z) / 4) ((p + lmOf x y z) / 4) := by
  obtain ⟨h1, h2, h3, h4⟩ := h
  obtain ⟨μ, hμ, m1, m2, m3⟩ := min3 h1 h2 h3
  have := re_lmOf hμ m1 m2 m3
  refine ⟨?_, ?_, ?_, ?_⟩ <;> (rw [re_add_div4]; linarith)

/-- The domain on which the accuracy of `elliprj` is shown. -/
def JDom (x y z p : ℂ) : Prop := JRight x y z p ∨ JConj x y z p

theorem JDom.step {x y z p : ℂ} (h : JDom x y z p) :
    JDom ((x + lmOf x y z) / 4) ((y + lmOf x y z) / 4) ((z + lmOf x y z) / 4) ((p + lmOf x y z) / 4) := h.imp JRight.step JConj.step

theorem JDom.shift {x y z p : ℂ} (h : JDom x y z p) {s : ℝ} (hs : 0 ≤ s) : JDom ((s : ℂ) + x) ((s : ℂ) + y) ((s : ℂ) + z) ((s : ℂ) + p) := by
  rcases h with ⟨h1, h2, h3, h4⟩ | ⟨X, P, hX, hP, rfl, rfl, hy, rfl⟩
  · refine Or.inl ⟨?_, ?_, ?_, ?_⟩ <;> (rw [Complex.add_re, Complex.ofReal_re]; linarith)
  · refine Or.inr ⟨s + X, s + P, by linarith, by linarith, by push_cast; ring, by push_cast; ring, ?_, by simp⟩
    rw [add_comm]
    exact slit_add hy hs

theorem JDom.slit {x y z p : ℂ} (h : JDom x y z p) : x ∈ Complex.slitPlane ∧ y ∈ Complex.slitPlane ∧ z ∈ Complex.slitPlane ∧ p ∈ Complex.slitPlane := by
  rcases h with ⟨h1, h2, h3, h4⟩ | ⟨X, P, hX, hP, rfl, rfl, hy, rfl⟩
  · exact ⟨re_slit h1, re_slit h2, re_slit h3, re_slit h4⟩
  · exact ⟨Complex.ofReal_mem_slitPlane.mpr hX, hy, conj_slit hy, Complex.ofReal_mem_slitPlane.mpr hP⟩

theorem NC_right {x y : ℂ} (hx : 0 < x.re) (hy : 0 < y.re) : NC x y := by
  refine NC_of_arg (Complex.slitPlane_ne_zero (re_slit hx)) (Complex.slitPlane_ne_zero (re_slit hy)) ?_
  have h1 := Complex.abs_arg_lt_pi_div_two_iff.mpr (Or.inl hx)
  have h2 := Complex.abs_arg_lt_pi_div_two_iff.mpr (Or.inl hy)
  rw [abs_lt] at *
  constructor <;> linarith [h1.1, h1.2, h2.1, h2.2]

theorem NC_pos {P : ℝ} (hP : 0 < P) {y : ℂ} (hy : y ∈ Complex.slitPlane) : NC P y := by
  have h1 : csqrt (P : ℂ) = (√P : ℝ) := csqrt_ofReal hP.le
  rw [NC, h1, Complex.re_ofReal_mul, Complex.conj_re]
  exact mul_pos (Real.sqrt_pos.mpr hP) (csqrt_re_pos hy)

theorem JDom.nc {x y z p : ℂ} (h : JDom x y z p) : NC p x ∧ NC p y ∧ NC p z := by
  obtain ⟨s1, s2, s3, s4⟩ := h.slit
  rcases h with ⟨h1, h2, h3, h4⟩ | ⟨X, P, hX, hP, rfl, rfl, hy, rfl⟩
  · exact ⟨NC_right h4 h1, NC_right h4 h2, NC_right h4 h3⟩
  · exact ⟨NC_pos hP s1, NC_pos hP s2, NC_pos hP s3⟩

theorem NC_lt {p x : ℂ} (h : NC p x) : ‖csqrt p - csqrt x‖ < ‖csqrt p + csqrt x‖ := by
  rw [NC] at h
  rw [← abs_of_nonneg (norm_nonneg (csqrt p - csqrt x)), ← abs_of_nonneg (norm_nonneg (csqrt p + csqrt x)), ← sq_lt_sq, ← Complex.normSq_eq_norm_sq,
    ← Complex.normSq_eq_norm_sq, Complex.normSq_sub, Complex.normSq_add]
  linarith

theorem JDom.disc {x y z p κ : ℂ} (h : JDom x y z p) (hκ : κ ^ 2 = (p - x) * (p - y) * (p - z)) : ‖κ / dmOf x y z p‖ < 1 := by
  obtain ⟨n1, n2, n3⟩ := h.nc
  have l1 := NC_lt n1
  have l2 := NC_lt n2
  have l3 := NC_lt n3
  have hk : ‖κ‖ ^ 2 = (‖csqrt p - csqrt x‖ * ‖csqrt p - csqrt y‖ * ‖csqrt p - csqrt z‖) * (‖csqrt p + csqrt x‖ * ‖csqrt p + csqrt y‖ * ‖csqrt p + csqrt z‖) := by
    simp only [← norm_mul, ← norm_pow]
    congr 1
    rw [hκ]
    have e1 := csqrt_sq x
    have e2 := csqrt_sq y
    have e3 := csqrt_sq z
    have e4 := csqrt_sq p
    generalize csqrt x = a at *
    generalize csqrt y = b at *
    generalize csqrt z = c at *
    generalize csqrt p = q at *
    rw [← e1, ← e2, ← e3, ← e4]
    ring
  have hlt : ‖csqrt p - csqrt x‖ * ‖csqrt p - csqrt y‖ * ‖csqrt p - csqrt z‖ < ‖csqrt p + csqrt x‖ * ‖csqrt p + csqrt y‖ * ‖csqrt p + csqrt z‖ :=
    mul_lt_mul'' (mul_lt_mul'' l1 l2 (norm_nonneg _) (norm_nonneg _)) l3 (by positivity) (norm_nonneg _)
  have hd : ‖dmOf x y z p‖ = ‖csqrt p + csqrt x‖ * ‖csqrt p + csqrt y‖ * ‖csqrt p + csqrt z‖ := by rw [dmOf, norm_mul, norm_mul]
  have h0 : 0 ≤ ‖csqrt p - csqrt x‖ * ‖csqrt p - csqrt y‖ * ‖csqrt p - csqrt z‖ := by positivity
  rw [← hd] at hk hlt
  have hdp : 0 < ‖dmOf x y z p‖ := by linarith
  rw [norm_div, div_lt_one hdp]
  nlinarith [norm_nonneg κ]

/-- The duplication theorem on this domain. -/
theorem JDom.dup {x y z p κ : ℂ} (h : JDom x y z p) (hκ : κ ^ 2 = (p - x) * (p - y) * (p - z)) (hκ0 : κ ≠ 0) :
    RJc x y z p = 1 / 4 * RJc ((x + lmOf x y z) / 4) ((y + lmOf x y z) / 4) ((z + lmOf x y z) / 4) ((p + lmOf x y z) / 4) +
      6 * (Complex.arctan (κ / dmOf x y z p) / κ) := by
  obtain ⟨s1, s2, s3, s4⟩ := h.slit
  refine RJc_dup s1 s2 s3 s4 hκ hκ0 (fun s hs => (h.shift hs).disc ?_) fun s hs => (h.shift hs).step.slit.2.2.2
  rw [hκ]
  ring

end Verif.Ellred
