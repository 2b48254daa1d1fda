import Verif.Ellred.Factors

/-! # Real roots and conjugate pairs -/

namespace Verif.Ellred

open MeasureTheory Set Filter Topology Verif.Carlson ComplexConjugate

variable {y x t : ℝ} {a b a1 b1 a2 b2 a3 b3 a4 b4 : ℂ}

/-- A real factor that is positive on `[y, x]`. -/
def RealFac (y x : ℝ) (a b : ℂ) : Prop := ∀ t ∈ Icc y x, Pos (a + b * (t : ℝ))

theorem RealFac.fac (h : RealFac y x a b) : Fac y x a b := fun t ht => Or.inl (h t ht).1

theorem RealFac.pos (h : RealFac y x a b) (ht : t ∈ Icc y x) : Pos (X a b t) := by
  have := h t ht
  rw [X, ← this.eq, csqrt_ofReal this.1.le]
  exact Pos.ofReal (Real.sqrt_pos.mpr this.1)

theorem realFac_one : RealFac y x 1 0 := fun t _ => by simpa using Pos.ofReal one_pos

theorem realFac_root {r : ℝ} (h : r < y) : RealFac y x (-(r : ℂ)) 1 := fun t ht => by
  rw [show -(r : ℂ) + 1 * t = ((t - r : ℝ) : ℂ) by push_cast; ring]
  exact Pos.ofReal (by linarith [ht.1])

theorem X_conj (h : a + b * t ∈ Complex.slitPlane) : X (conj a) (conj b) t = conj (X a b t) := by
  have e : conj a + conj b * t = conj (a + b * t) := by simp
  have e2 : conj (1 / 2 : ℂ) = 1 / 2 := by
    rw [map_div₀, map_one, Complex.conj_ofNat]
  rw [X, e, csqrt, Complex.conj_cpow _ _ (Complex.slitPlane_arg_ne_pi h), e2, X, csqrt]

/-- A factor with a non-real root. -/
theorem fac_root {r : ℂ} (h : r.im ≠ 0) : Fac y x (-r) 1 := fun t _ => Or.inr (by simpa using h)

theorem im_X {r : ℂ} (t : ℝ) : 2 * (X (-r) 1 t).re * (X (-r) 1 t).im = -r.im := by
  have := congrArg Complex.im (X_sq (-r) 1 t)
  simp [sq, Complex.mul_im] at this
  linarith

/-- The square roots at two points lie in the same quadrant. -/
theorem quadrant {r : ℂ} (h : r.im ≠ 0) (t u : ℝ) : 0 < (X (-r) 1 t * conj (X (-r) 1 u)).re := by
  have f : ∀ t : ℝ, 0 < (X (-r) 1 t).re := fun t => csqrt_re_pos (Or.inr (by simpa using h))
  have e1 := im_X (r := r) t
  have e2 := im_X (r := r) u
  have h1 := f t
  have h2 := f u
  rw [Complex.mul_re, Complex.conj_re, Complex.conj_im]
  have : 0 < (X (-r) 1 t).im * (X (-r) 1 u).im := by
    have h3 : 0 < r.im * r.im := mul_self_pos.mpr h
    have h4 : (2 * (X (-r) 1 t).re * (2 * (X (-r) 1 u).re)) * ((X (-r) 1 t).im * (X (-r) 1 u).im) = r.im * r.im := by
      calc _ = (2 * (X (-r) 1 t).re * (X (-r) 1 t).im) * (2 * (X (-r) 1 u).re * (X (-r) 1 u).im) := by ring
        _ = _ := by rw [e1, e2]; ring
    by_contra hc
    have : (2 * (X (-r) 1 t).re * (2 * (X (-r) 1 u).re)) * ((X (-r) 1 t).im * (X (-r) 1 u).im) ≤ 0 :=
      mul_nonpos_of_nonneg_of_nonpos (by positivity) (by linarith)
    linarith
  nlinarith [mul_pos h1 h2]

/-- All factors real. -/
theorem Config.of_real (hlt : y < x) (h1 : RealFac y x a1 b1) (h2 : RealFac y x a2 b2) (h3 : RealFac y x a3 b3)
    (h4 : RealFac y x a4 b4) : Config y x a1 b1 a2 b2 a3 b3 a4 b4 := by
  have hy : y ∈ Icc y x := ⟨le_rfl, hlt.le⟩
  have p13 : ∀ t ∈ Ioc y x, Pos (U y (X a1 b1) (X a3 b3) (X a2 b2) (X a4 b4) t) := fun t ht => by
    have ht' : t ∈ Icc y x := ⟨ht.1.le, ht.2⟩
    exact U_pos ht.1 ((h1.pos ht').mul (h3.pos ht')) ((h1.pos hy).mul (h3.pos hy)) ((h2.pos ht').mul (h4.pos ht')) ((h2.pos hy).mul (h4.pos hy))
  have p14 : ∀ t ∈ Ioc y x, Pos (U y (X a1 b1) (X a4 b4) (X a2 b2) (X a3 b3) t) := fun t ht => by
    have ht' : t ∈ Icc y x := ⟨ht.1.le, ht.2⟩
    exact U_pos ht.1 ((h1.pos ht').mul (h4.pos ht')) ((h1.pos hy).mul (h4.pos hy)) ((h2.pos ht').mul (h3.pos ht')) ((h2.pos hy).mul (h3.pos hy))
  exact ⟨hlt, h1.fac, h2.fac, h3.fac, h4.fac, fun t ht => (h1.pos ht).mul (h2.pos ht), fun t ht => (h3.pos ht).mul (h4.pos ht),
    fun t ht => (p13 t ht).1, fun t ht => (p14 t ht).1, fun t ht => (p13 t ht).mul (p14 t ht)⟩

theorem pos_mul_conj {z : ℂ} (h : z ≠ 0) : Pos (z * conj z) := by
  rw [Complex.mul_conj]
  exact Pos.ofReal (Complex.normSq_pos.mpr h)

theorem div_real_re {z : ℂ} {k : ℝ} (hk : 0 < k) (hz : 0 < z.re) : 0 < (z / k).re := by
  rw [Complex.div_ofReal_re]; exact div_pos hz hk

/-- Two real factors and a conjugate pair. -/
theorem Config.of_pair (hlt : y < x) (h1 : RealFac y x a1 b1) (h2 : RealFac y x a2 b2) {r : ℂ} (hr : r.im ≠ 0) :
    Config y x a1 b1 a2 b2 (-r) 1 (-conj r) 1 := by
  have hy : y ∈ Icc y x := ⟨le_rfl, hlt.le⟩
  have f3 : Fac y x (-r) 1 := fac_root hr
  have f4 : Fac y x (-conj r) 1 := fac_root (by simpa using hr)
  have e4 : ∀ t ∈ Icc y x, X (-conj r) 1 t = conj (X (-r) 1 t) := fun t ht => by
    have := X_conj (f3 t ht)
    simpa using this
  have c13 : ∀ t ∈ Ioc y x, conj (U y (X a1 b1) (X (-r) 1) (X a2 b2) (X (-conj r) 1) t) =
      U y (X a1 b1) (X (-conj r) 1) (X a2 b2) (X (-r) 1) t := fun t ht => by
    have ht' : t ∈ Icc y x := ⟨ht.1.le, ht.2⟩
    simp only [U]
    rw [e4 t ht', e4 y hy, ← (h1.pos ht').eq, ← (h1.pos hy).eq, ← (h2.pos ht').eq, ← (h2.pos hy).eq]
    simp
  have re13 : ∀ t ∈ Ioc y x, 0 < (U y (X a1 b1) (X (-r) 1) (X a2 b2) (X (-conj r) 1) t).re := fun t ht => by
    have ht' : t ∈ Icc y x := ⟨ht.1.le, ht.2⟩
    rw [U, ← Complex.ofReal_sub]
    apply div_real_re (sub_pos.mpr ht.1)
    rw [e4 t ht', e4 y hy, Complex.add_re]
    have q1 := quadrant hr t y
    have q2 := quadrant hr y t
    have k1 := ((h1.pos ht').mul (h2.pos hy)).re_mul q1
    have k2 := ((h1.pos hy).mul (h2.pos ht')).re_mul q2
    have r1 : X a1 b1 t * X (-r) 1 t * (X a2 b2 y * conj (X (-r) 1 y)) = X a1 b1 t * X a2 b2 y * (X (-r) 1 t * conj (X (-r) 1 y)) := by ring
    have r2 : X a1 b1 y * X (-r) 1 y * (X a2 b2 t * conj (X (-r) 1 t)) = X a1 b1 y * X a2 b2 t * (X (-r) 1 y * conj (X (-r) 1 t)) := by ring
    rw [r1, r2]
    exact add_pos k1 k2
  refine ⟨hlt, h1.fac, h2.fac, f3, f4, fun t ht => (h1.pos ht).mul (h2.pos ht), fun t ht => ?_, re13, fun t ht => ?_, fun t ht => ?_⟩
  · rw [e4 t ht]
    exact pos_mul_conj (f3.ne ht)
  · rw [← c13 t ht, Complex.conj_re]
    exact re13 t ht
  · rw [← c13 t ht]
    exact pos_mul_conj fun e => by
      have := re13 t ht
      rw [e] at this
      simp at this

end Verif.Ellred
