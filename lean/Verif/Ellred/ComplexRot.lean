import Verif.Ellred.ComplexDup

/-! # Rotating the arguments of `R_F` -/

namespace Verif.Ellred

open MeasureTheory Set Filter Topology Verif.Carlson

/-- `k w` has the argument `arg k + arg w`, without passing the cut, for `w` in the right half-plane. -/
def KGood (k w : ℂ) : Prop := 0 < w.re ∧ (k.re < 0 → 0 < (k * w).im * k.im)

variable {k w : ℂ}

theorem KGood.k_slit (h : KGood k w) (hk : k ≠ 0) : k ∈ Complex.slitPlane := by
  rw [Complex.mem_slitPlane_iff]
  by_contra hc
  push Not at hc
  obtain ⟨h1, h2⟩ := hc
  have h3 : k.re ≠ 0 := fun e => hk (Complex.ext e h2)
  have := h.2 (lt_of_le_of_ne h1 h3)
  rw [h2] at this
  simp at this

theorem KGood.slit (h : KGood k w) (hk : k ≠ 0) : k * w ∈ Complex.slitPlane := by
  rw [Complex.mem_slitPlane_iff]
  by_contra hc
  push Not at hc
  obtain ⟨h1, h2⟩ := hc
  have hr : k.re = (k * w).re * w.re / (w.re ^ 2 + w.im ^ 2) := by
    have h0 := h.1
    have hn : w.re ^ 2 + w.im ^ 2 ≠ 0 := by positivity
    rw [eq_div_iff hn]
    rw [Complex.mul_im] at h2
    rw [Complex.mul_re]
    linear_combination w.im * h2
  have h0 := h.1
  have h4 : k.re < 0 := by
    rw [hr]
    refine div_neg_of_neg_of_pos (mul_neg_of_neg_of_pos (lt_of_le_of_ne h1 fun e => ?_) h0) (by positivity)
    have : k * w = 0 := Complex.ext e h2
    rcases mul_eq_zero.mp this with e | e
    · exact hk e
    · rw [e] at h0; simp at h0
  have := h.2 h4
  rw [h2] at this
  simp at this

/-- The straight path from 1 to `k`. -/
noncomputable def kPath (k : ℂ) (θ : ℝ) : ℂ := 1 + θ * (k - 1)

theorem KGood.path (h : KGood k w) {θ : ℝ} (h0 : 0 ≤ θ) (h1 : θ ≤ 1) : KGood (kPath k θ) w := by
  refine ⟨h.1, fun hn => ?_⟩
  have e1 : (kPath k θ).re = 1 - θ + θ * k.re := by simp [kPath]; ring
  have e2 : (kPath k θ).im = θ * k.im := by simp [kPath]
  have e3 : (kPath k θ * w).im = (kPath k θ).re * w.im + (kPath k θ).im * w.re := Complex.mul_im _ _
  have hθ : 0 < θ := by
    rcases h0.lt_or_eq with h | h
    · exact h
    · rw [e1, ← h] at hn; norm_num at hn
  have hk : k.re < 0 := by
    rw [e1] at hn
    by_contra hc
    have := mul_nonneg h0 (not_lt.mp hc)
    linarith
  have hg := h.2 hk
  rw [Complex.mul_im] at hg
  have hki : k.im ≠ 0 := fun e => by rw [e] at hg; simp at hg
  have hw := h.1
  rw [e3, e2]
  have hsq : 0 < k.im ^ 2 := by positivity
  by_cases hs : 0 ≤ k.im * w.im
  · rw [e1]
    have e : ((1 - θ + θ * k.re) * w.im + θ * k.im * w.re) * (θ * k.im) = θ * ((1 - θ) * (k.im * w.im) + θ * ((k.re * w.im + k.im * w.re) * k.im)) := by ring
    rw [e]
    apply mul_pos hθ
    have a1 := mul_nonneg (sub_nonneg.mpr h1) hs
    have a2 := mul_pos hθ hg
    linarith
  · have hs' := not_le.mp hs
    have e : ((kPath k θ).re * w.im + θ * k.im * w.re) * (θ * k.im) = θ * ((kPath k θ).re * (k.im * w.im) + θ * (k.im ^ 2 * w.re)) := by ring
    rw [e]
    apply mul_pos hθ
    have a1 := mul_pos_of_neg_of_neg hn hs'
    have a2 := mul_pos hθ (mul_pos hsq hw)
    linarith

theorem kPath_ne {θ : ℝ} (hk : k ∈ Complex.slitPlane) (h0 : 0 ≤ θ) (h1 : θ ≤ 1) : kPath k θ ≠ 0 := by
  intro e
  have e1 := congrArg Complex.re e
  have e2 := congrArg Complex.im e
  simp [kPath] at e1 e2
  rcases Complex.mem_slitPlane_iff.mp hk with h | h
  · rcases h0.lt_or_eq with h' | h'
    · have := mul_pos h' h
      nlinarith
    · rw [← h'] at e1; norm_num at e1
  · rcases e2 with e | e
    · rw [e] at e1; norm_num at e1
    · exact h e

/-- `R_F` is homogeneous of degree `-1/2` under rotations that do not pass the cut. -/
theorem RFc_rotate {x y z : ℂ} (hk : k ≠ 0) (hx : KGood k x) (hy : KGood k y) (hz : KGood k z) : RFc (k * x) (k * y) (k * z) = RFc x y z / csqrt k := by
  have hks := hx.k_slit hk
  have hne : ∀ θ ∈ Icc (0 : ℝ) 1, kPath k θ ≠ 0 := fun θ hθ => kPath_ne hks hθ.1 hθ.2
  have hd : ∀ θ : ℝ, HasDerivAt (kPath k) (k - 1) θ := fun θ => by
    have := HasDerivAt.const_add (1 : ℂ) ((hasDerivAt_id θ).ofReal_comp.mul_const (k - 1))
    rw [Complex.ofReal_one, one_mul] at this
    exact this
  let H : ℝ → ℂ := fun θ => csqrt (kPath k θ) * RFc (kPath k θ * x) (kPath k θ * y) (kPath k θ * z)
  have hH : ∀ θ ∈ Icc (0 : ℝ) 1, HasDerivAt H 0 θ := by
    intro θ hθ
    have g1 := hx.path hθ.1 hθ.2
    have g2 := hy.path hθ.1 hθ.2
    have g3 := hz.path hθ.1 hθ.2
    have hn := hne θ hθ
    have hsl := g1.k_slit hn
    have hsq : HasDerivAt (fun θ => csqrt (kPath k θ)) (1 / (2 * csqrt (kPath k θ)) * (k - 1)) θ := by
      have hc := ((hasDerivAt_id (kPath k θ)).cpow_const (c := (1 / 2 : ℂ)) hsl).comp θ (hd θ)
      refine hc.congr_deriv ?_
      have e : kPath k θ ^ ((1 / 2 : ℂ) - 1) = csqrt (kPath k θ) / kPath k θ := by rw [Complex.cpow_sub _ _ hn, Complex.cpow_one, csqrt]
      simp only [id_eq, mul_one]
      rw [e]
      have h2 := csqrt_sq (kPath k θ)
      have h3 := csqrt_ne0 hn
      generalize csqrt (kPath k θ) = s at *
      rw [← h2]
      field_simp
    have hf := RFc_deriv ((hd θ).mul_const x) ((hd θ).mul_const y) ((hd θ).mul_const z) (g1.slit hn) (g2.slit hn) (g3.slit hn)
    refine (hsq.mul hf).congr_deriv ?_
    have eu := RD_euler (g1.slit hn) (g2.slit hn) (g3.slit hn)
    have h2 := csqrt_sq (kPath k θ)
    have h3 := csqrt_ne0 hn
    generalize RDc (kPath k θ * y) (kPath k θ * z) (kPath k θ * x) = A at *
    generalize RDc (kPath k θ * x) (kPath k θ * z) (kPath k θ * y) = B at *
    generalize RDc (kPath k θ * x) (kPath k θ * y) (kPath k θ * z) = C at *
    generalize RFc (kPath k θ * x) (kPath k θ * y) (kPath k θ * z) = R at *
    generalize csqrt (kPath k θ) = s at *
    rw [← h2] at eu
    field_simp
    linear_combination -2 * (k - 1) * eu
  have hc := constant_of_has_deriv_right_zero (f := H) (a := 0) (b := 1) (fun t ht => (hH t ht).continuousAt.continuousWithinAt)
    (fun t ht => (hH t ⟨ht.1, ht.2.le⟩).hasDerivWithinAt) 1 ⟨zero_le_one, le_rfl⟩
  have e0 : kPath k 0 = 1 := by simp [kPath]
  have e1 : kPath k 1 = k := by simp [kPath]
  simp only [H, e0, e1, one_mul] at hc
  have : csqrt 1 = 1 := by simp [csqrt]
  rw [this, one_mul] at hc
  rw [← hc, mul_div_cancel_left₀ _ (csqrt_ne0 hk)]

/-- Square roots multiply. -/
theorem KGood.csqrt (h : KGood k w) (hk : k ≠ 0) : csqrt (k * w) = csqrt k * csqrt w := by
  have e : (Carlson.csqrt k * Carlson.csqrt w) ^ 2 = k * w := by rw [mul_pow, pow_two, pow_two, csqrt_sq, csqrt_sq]
  rw [← e, csqrt_of_sq]
  have hks := h.k_slit hk
  have r1 := csqrt_re_pos hks
  have r2 := csqrt_re_pos (re_slit h.1)
  have r3 := csqrt_re_pos (h.slit hk)
  have q1 := csqrt_sq k
  have q2 := csqrt_sq w
  have q3 := csqrt_sq (k * w)
  have i1 : k.re = (Carlson.csqrt k).re * (Carlson.csqrt k).re - (Carlson.csqrt k).im * (Carlson.csqrt k).im := by rw [← Complex.mul_re, q1]
  have i2 : w.re = (Carlson.csqrt w).re * (Carlson.csqrt w).re - (Carlson.csqrt w).im * (Carlson.csqrt w).im := by rw [← Complex.mul_re, q2]
  have i3 : k.im = (Carlson.csqrt k).re * (Carlson.csqrt k).im + (Carlson.csqrt k).im * (Carlson.csqrt k).re := by rw [← Complex.mul_im, q1]
  have i4 : (k * w).im = (Carlson.csqrt (k * w)).re * (Carlson.csqrt (k * w)).im + (Carlson.csqrt (k * w)).im * (Carlson.csqrt (k * w)).re := by rw [← Complex.mul_im, q3]
  have hpm : Carlson.csqrt (k * w) = Carlson.csqrt k * Carlson.csqrt w ∨ Carlson.csqrt (k * w) = -(Carlson.csqrt k * Carlson.csqrt w) := by
    apply sq_eq_sq_iff_eq_or_eq_neg.mp
    rw [e, pow_two, q3]
  rcases hpm with hp | hp
  · rw [← hp]; exact r3
  exfalso
  have hw := h.1
  have hre := congrArg Complex.re hp
  have him := congrArg Complex.im hp
  rw [Complex.neg_re, Complex.mul_re] at hre
  rw [Complex.neg_im, Complex.mul_im] at him
  have hk2 := h.2
  rw [i1, i3, i4] at hk2
  rw [i2] at hw
  generalize Carlson.csqrt (k * w) = g at *
  generalize Carlson.csqrt k = a at *
  generalize Carlson.csqrt w = b at *
  have hb : |b.im| < b.re := by
    have : b.im ^ 2 < b.re ^ 2 := by nlinarith
    rw [sq_lt_sq, abs_of_pos r2] at this
    exact this
  obtain ⟨b1, b2⟩ := abs_lt.mp hb
  by_cases hka : a.re * a.re - a.im * a.im < 0
  · have h5 := hk2 hka
    have h6 : 0 < g.im * a.im := by
      have : 0 < (g.im * a.im) * (4 * g.re * a.re) := by linear_combination h5
      exact (pos_iff_pos_of_mul_pos this).mpr (by positivity)
    have h7 : g.im * a.im = -(a.re * (b.im * a.im) + a.im ^ 2 * b.re) := by rw [him]; ring
    have h8 : a.re ≤ |a.im| := by
      have : a.re ^ 2 < a.im ^ 2 := by nlinarith
      rw [sq_lt_sq, abs_of_pos r1] at this
      exact this.le
    have h9 : -(a.re * (b.im * a.im)) ≤ a.im ^ 2 * b.re := by
      calc -(a.re * (b.im * a.im)) ≤ |a.re * (b.im * a.im)| := neg_le_abs _
        _ = a.re * (|b.im| * |a.im|) := by rw [abs_mul, abs_mul, abs_of_pos r1]
        _ ≤ |a.im| * (b.re * |a.im|) := by gcongr
        _ = a.im ^ 2 * b.re := by rw [← sq_abs a.im]; ring
    linarith
  · have h8 : |a.im| ≤ a.re := by
      have : a.im ^ 2 ≤ a.re ^ 2 := by nlinarith
      rw [sq_le_sq, abs_of_pos r1] at this
      exact this
    have h9 : a.im * b.im ≤ a.re * b.re := by
      calc a.im * b.im ≤ |a.im * b.im| := le_abs_self _
        _ = |a.im| * |b.im| := abs_mul _ _
        _ ≤ a.re * b.re := by gcongr
    linarith

end Verif.Ellred
