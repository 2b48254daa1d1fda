import Verif.Ellred.Kernel

/-! # The functions `X_i` and `U_ij` -/

namespace Verif.Ellred

open MeasureTheory Set Filter Topology Verif.Carlson

theorem csqrt_re_pos {z : ℂ} (h : z ∈ Complex.slitPlane) : 0 < (csqrt z).re := by
  have hz := Complex.slitPlane_ne_zero h
  have h0 := csqrt_re z
  rcases h0.lt_or_eq with h0 | h0
  · exact h0
  · exfalso
    have e := csqrt_sq z
    have e1 := congrArg Complex.re e
    have e2 := congrArg Complex.im e
    simp only [Complex.mul_re, Complex.mul_im, ← h0, zero_mul, mul_zero, zero_sub, add_zero] at e1 e2
    rcases Complex.mem_slitPlane_iff.mp h with h | h
    · nlinarith [mul_self_nonneg (csqrt z).im]
    · exact h e2.symm

/-- The square root of the linear factor `a + b t`. -/
noncomputable def X (a b : ℂ) (t : ℝ) : ℂ := csqrt (a + b * t)

theorem X_sq (a b : ℂ) (t : ℝ) : X a b t ^ 2 = a + b * t := by rw [sq, X, csqrt_sq]

/-- The factor stays off the cut on `[y, x]`. -/
def Fac (y x : ℝ) (a b : ℂ) : Prop := ∀ t ∈ Icc y x, a + b * (t : ℝ) ∈ Complex.slitPlane

variable {y x : ℝ} {a b : ℂ} {t : ℝ}

theorem Fac.re (h : Fac y x a b) (ht : t ∈ Icc y x) : 0 < (X a b t).re := csqrt_re_pos (h t ht)

theorem Fac.ne (h : Fac y x a b) (ht : t ∈ Icc y x) : X a b t ≠ 0 := fun e => by
  have := h.re ht
  rw [e] at this
  simp at this

theorem Fac.deriv (h : Fac y x a b) (ht : t ∈ Icc y x) : HasDerivAt (X a b) (b / (2 * X a b t)) t := by
  have h1 : HasDerivAt (fun z : ℂ => a + b * z) b (t : ℂ) := by
    simpa using ((hasDerivAt_id (t : ℂ)).const_mul b).const_add a
  have h2 : HasDerivAt (fun z : ℂ => (a + b * z) ^ (1 / 2 : ℂ)) _ (t : ℂ) := h1.cpow_const (h t ht)
  have h3 := h2.comp_ofReal
  refine h3.congr_deriv ?_
  have hne := h.ne ht
  have hz := Complex.slitPlane_ne_zero (h t ht)
  rw [show (1 / 2 : ℂ) - 1 = 1 / 2 + -1 by ring, Complex.cpow_add _ _ hz, Complex.cpow_neg_one]
  change 1 / 2 * (X a b t * (a + b * t)⁻¹) * b = _
  rw [← X_sq]
  field_simp

theorem Fac.cont (h : Fac y x a b) (ht : t ∈ Icc y x) : ContinuousAt (X a b) t := (h.deriv ht).continuousAt

/-- `U_12` (Carlson 1988, (4.12)), divided by `x - y`. -/
noncomputable def U (y : ℝ) (X1 X2 X3 X4 : ℝ → ℂ) (t : ℝ) : ℂ :=
  (X1 t * X2 t * (X3 y * X4 y) + X1 y * X2 y * (X3 t * X4 t)) / ((t : ℂ) - y)

variable {a1 b1 a2 b2 a3 b3 a4 b4 : ℂ}

/-- `U_12² - U_13² = d_14 d_23` (4.13). -/
theorem U_sq_sub (a1 b1 a2 b2 a3 b3 a4 b4 : ℂ) (hty : t ≠ y) :
    U y (X a1 b1) (X a2 b2) (X a3 b3) (X a4 b4) t ^ 2 - U y (X a1 b1) (X a3 b3) (X a2 b2) (X a4 b4) t ^ 2 =
      (a1 * b4 - a4 * b1) * (a2 * b3 - a3 * b2) := by
  have h : (t : ℂ) - y ≠ 0 := sub_ne_zero.mpr (by exact_mod_cast hty)
  have x1 := X_sq a1 b1 t
  have x2 := X_sq a2 b2 t
  have x3 := X_sq a3 b3 t
  have x4 := X_sq a4 b4 t
  have y1 := X_sq a1 b1 y
  have y2 := X_sq a2 b2 y
  have y3 := X_sq a3 b3 y
  have y4 := X_sq a4 b4 y
  simp only [U, div_pow]
  rw [← sub_div, div_eq_iff (pow_ne_zero 2 h)]
  generalize X a1 b1 t = X1 at *
  generalize X a2 b2 t = X2 at *
  generalize X a3 b3 t = X3 at *
  generalize X a4 b4 t = X4 at *
  generalize X a1 b1 y = Y1 at *
  generalize X a2 b2 y = Y2 at *
  generalize X a3 b3 y = Y3 at *
  generalize X a4 b4 y = Y4 at *
  calc _ = (X1 ^ 2 * Y4 ^ 2 - Y1 ^ 2 * X4 ^ 2) * (X2 ^ 2 * Y3 ^ 2 - Y2 ^ 2 * X3 ^ 2) := by ring
    _ = _ := by rw [x1, x2, x3, x4, y1, y2, y3, y4]; ring

/-- `dU_12/dt = -U_13 U_14 / (2 X_1 X_2 X_3 X_4)`. -/
theorem U_deriv (f1 : Fac y x a1 b1) (f2 : Fac y x a2 b2) (f3 : Fac y x a3 b3) (f4 : Fac y x a4 b4) (ht : t ∈ Ioc y x) :
    HasDerivAt (U y (X a1 b1) (X a2 b2) (X a3 b3) (X a4 b4))
      (-(U y (X a1 b1) (X a3 b3) (X a2 b2) (X a4 b4) t * U y (X a1 b1) (X a4 b4) (X a2 b2) (X a3 b3) t) /
        (2 * (X a1 b1 t * X a2 b2 t * X a3 b3 t * X a4 b4 t))) t := by
  have ht' : t ∈ Icc y x := ⟨ht.1.le, ht.2⟩
  have h : (t : ℂ) - y ≠ 0 := sub_ne_zero.mpr (by exact_mod_cast ht.1.ne')
  have d1 := f1.deriv ht'
  have d2 := f2.deriv ht'
  have d3 := f3.deriv ht'
  have d4 := f4.deriv ht'
  have n1 := f1.ne ht'
  have n2 := f2.ne ht'
  have n3 := f3.ne ht'
  have n4 := f4.ne ht'
  have dt : HasDerivAt (fun t : ℝ => (t : ℂ) - y) 1 t := (HasDerivAt.ofReal_comp (hasDerivAt_id t)).sub_const _
  have := (((d1.mul d2).mul_const (X a3 b3 y * X a4 b4 y)).add ((d3.mul d4).const_mul (X a1 b1 y * X a2 b2 y))).div dt h
  refine this.congr_deriv ?_
  simp only [Pi.mul_apply, Pi.add_apply, U]
  have e1 : b1 * (t - y) = X a1 b1 t ^ 2 - X a1 b1 y ^ 2 := by rw [X_sq, X_sq]; ring
  have e2 : b2 * (t - y) = X a2 b2 t ^ 2 - X a2 b2 y ^ 2 := by rw [X_sq, X_sq]; ring
  have e3 : b3 * (t - y) = X a3 b3 t ^ 2 - X a3 b3 y ^ 2 := by rw [X_sq, X_sq]; ring
  have e4 : b4 * (t - y) = X a4 b4 t ^ 2 - X a4 b4 y ^ 2 := by rw [X_sq, X_sq]; ring
  generalize (t : ℂ) - y = k at *
  generalize X a1 b1 t = X1 at *
  generalize X a2 b2 t = X2 at *
  generalize X a3 b3 t = X3 at *
  generalize X a4 b4 t = X4 at *
  generalize X a1 b1 y = Y1 at *
  generalize X a2 b2 y = Y2 at *
  generalize X a3 b3 y = Y3 at *
  generalize X a4 b4 y = Y4 at *
  rw [show b1 = (X1 ^ 2 - Y1 ^ 2) / k by rw [← e1]; field_simp, show b2 = (X2 ^ 2 - Y2 ^ 2) / k by rw [← e2]; field_simp,
    show b3 = (X3 ^ 2 - Y3 ^ 2) / k by rw [← e3]; field_simp, show b4 = (X4 ^ 2 - Y4 ^ 2) / k by rw [← e4]; field_simp]
  field_simp
  ring

/-- A complex number that is real and positive. -/
def Pos (z : ℂ) : Prop := 0 < z.re ∧ z.im = 0

theorem Pos.eq {z : ℂ} (h : Pos z) : (z.re : ℂ) = z := by
  apply Complex.ext <;> simp [h.2]

theorem Pos.mul {z w : ℂ} (hz : Pos z) (hw : Pos w) : Pos (z * w) := by
  refine ⟨?_, ?_⟩
  · rw [Complex.mul_re, hz.2, hw.2]; simp [mul_pos hz.1 hw.1]
  · rw [Complex.mul_im, hz.2, hw.2]; simp

theorem Pos.add {z w : ℂ} (hz : Pos z) (hw : Pos w) : Pos (z + w) :=
  ⟨by rw [Complex.add_re]; exact add_pos hz.1 hw.1, by rw [Complex.add_im, hz.2, hw.2, add_zero]⟩

theorem Pos.ofReal {r : ℝ} (h : 0 < r) : Pos (r : ℂ) := ⟨by simpa using h, by simp⟩

theorem Pos.div {z : ℂ} (hz : Pos z) {r : ℝ} (h : 0 < r) : Pos (z / r) := by
  rw [← hz.eq, ← Complex.ofReal_div]
  exact Pos.ofReal (div_pos hz.1 h)

theorem Pos.re_mul {z w : ℂ} (hz : Pos z) (hw : 0 < w.re) : 0 < (z * w).re := by
  rw [Complex.mul_re, hz.2]; simp [mul_pos hz.1 hw]

theorem Pos.ne {z : ℂ} (hz : Pos z) : z ≠ 0 := fun e => by
  have := hz.1; rw [e] at this; simp at this

theorem U_pos {X1 X2 X3 X4 : ℝ → ℂ} (ht : y < t) (h1 : Pos (X1 t * X2 t)) (h2 : Pos (X1 y * X2 y)) (h3 : Pos (X3 t * X4 t))
    (h4 : Pos (X3 y * X4 y)) : Pos (U y X1 X2 X3 X4 t) := by
  have := ((h1.mul h4).add (h2.mul h3)).div (sub_pos.mpr ht)
  rw [Complex.ofReal_sub] at this
  exact this

/-- What is needed of the four factors: `X_1 X_2` and `X_3 X_4` are real, `U_13 U_14` too, and real parts are positive. -/
structure Config (y x : ℝ) (a1 b1 a2 b2 a3 b3 a4 b4 : ℂ) : Prop where
  lt : y < x
  f1 : Fac y x a1 b1
  f2 : Fac y x a2 b2
  f3 : Fac y x a3 b3
  f4 : Fac y x a4 b4
  p12 : ∀ t ∈ Icc y x, Pos (X a1 b1 t * X a2 b2 t)
  p34 : ∀ t ∈ Icc y x, Pos (X a3 b3 t * X a4 b4 t)
  re13 : ∀ t ∈ Ioc y x, 0 < (U y (X a1 b1) (X a3 b3) (X a2 b2) (X a4 b4) t).re
  re14 : ∀ t ∈ Ioc y x, 0 < (U y (X a1 b1) (X a4 b4) (X a2 b2) (X a3 b3) t).re
  pU : ∀ t ∈ Ioc y x, Pos (U y (X a1 b1) (X a3 b3) (X a2 b2) (X a4 b4) t * U y (X a1 b1) (X a4 b4) (X a2 b2) (X a3 b3) t)

namespace Config

variable (C : Config y x a1 b1 a2 b2 a3 b3 a4 b4)
include C

theorem hasDerivAt_re {f : ℝ → ℂ} {f' : ℂ} {t : ℝ} (h : HasDerivAt f f' t) : HasDerivAt (fun t => (f t).re) f'.re t :=
  Complex.reCLM.hasFDerivAt.comp_hasDerivAt t h

theorem pos12 (ht : t ∈ Ioc y x) : Pos (U y (X a1 b1) (X a2 b2) (X a3 b3) (X a4 b4) t) :=
  U_pos ht.1 (C.p12 t ⟨ht.1.le, ht.2⟩) (C.p12 y ⟨le_rfl, C.lt.le⟩) (C.p34 t ⟨ht.1.le, ht.2⟩) (C.p34 y ⟨le_rfl, C.lt.le⟩)

theorem posS (ht : t ∈ Icc y x) : Pos (X a1 b1 t * X a2 b2 t * X a3 b3 t * X a4 b4 t) := by
  rw [mul_assoc (X a1 b1 t * X a2 b2 t)]
  exact (C.p12 t ht).mul (C.p34 t ht)

theorem kernel : Kernel y x (fun t => (X a1 b1 t * X a2 b2 t * X a3 b3 t * X a4 b4 t).re)
    (U y (X a1 b1) (X a2 b2) (X a3 b3) (X a4 b4)) (U y (X a1 b1) (X a3 b3) (X a2 b2) (X a4 b4))
    (U y (X a1 b1) (X a4 b4) (X a2 b2) (X a3 b3))
    (fun t => (U y (X a1 b1) (X a2 b2) (X a3 b3) (X a4 b4) t ^ 2 - U y (X a1 b1) (X a2 b2) (X a3 b3) (X a4 b4) x ^ 2).re)
    (fun t => (U y (X a1 b1) (X a2 b2) (X a3 b3) (X a4 b4) t * U y (X a1 b1) (X a3 b3) (X a2 b2) (X a4 b4) t *
      U y (X a1 b1) (X a4 b4) (X a2 b2) (X a3 b3) t).re) := by
  have hx : x ∈ Ioc y x := ⟨C.lt, le_rfl⟩
  have pW : ∀ t ∈ Ioc y x, Pos (U y (X a1 b1) (X a2 b2) (X a3 b3) (X a4 b4) t * U y (X a1 b1) (X a3 b3) (X a2 b2) (X a4 b4) t *
      U y (X a1 b1) (X a4 b4) (X a2 b2) (X a3 b3) t) := fun t ht => by
    rw [mul_assoc]
    exact (C.pos12 ht).mul (C.pU t ht)
  have eV : ∀ t ∈ Ioc y x, (((U y (X a1 b1) (X a2 b2) (X a3 b3) (X a4 b4) t ^ 2 -
      U y (X a1 b1) (X a2 b2) (X a3 b3) (X a4 b4) x ^ 2).re : ℝ) : ℂ) =
      U y (X a1 b1) (X a2 b2) (X a3 b3) (X a4 b4) t ^ 2 - U y (X a1 b1) (X a2 b2) (X a3 b3) (X a4 b4) x ^ 2 := fun t ht => by
    have h1 := (C.pos12 ht).2
    have h2 := (C.pos12 hx).2
    apply Complex.ext
    · simp
    · simp [sq, h1, h2]
  refine ⟨C.lt, fun t ht => (C.posS ⟨ht.1.le, ht.2⟩).1, ?_, fun t ht => (C.pos12 ht).1, C.re13, C.re14, fun t ht => (pW t ht).eq.symm,
    fun t ht => (pW t ht).1, ?_, ?_, ?_, ?_, ?_⟩
  · intro t ht
    apply ContinuousAt.continuousWithinAt
    exact Complex.continuous_re.continuousAt.comp (((C.f1.cont ht).mul (C.f2.cont ht)).mul (C.f3.cont ht) |>.mul (C.f4.cont ht))
  · intro t ht
    rw [eV t ht]; ring
  · intro t ht
    rw [eV t ht]
    have e1 := U_sq_sub a1 b1 a2 b2 a3 b3 a4 b4 ht.1.ne'
    have e2 := U_sq_sub a1 b1 a2 b2 a3 b3 a4 b4 C.lt.ne'
    linear_combination e2 - e1
  · intro t ht
    rw [eV t ht]
    have e1 := U_sq_sub a1 b1 a2 b2 a4 b4 a3 b3 ht.1.ne'
    have e2 := U_sq_sub a1 b1 a2 b2 a4 b4 a3 b3 C.lt.ne'
    have s1 : ∀ t, U y (X a1 b1) (X a2 b2) (X a4 b4) (X a3 b3) t = U y (X a1 b1) (X a2 b2) (X a3 b3) (X a4 b4) t := fun t => by
      simp only [U]; ring
    rw [s1] at e1 e2
    linear_combination e2 - e1
  · intro t ht
    have hd := (((U_deriv C.f1 C.f2 C.f3 C.f4 ht).fun_pow 2).sub_const
      (U y (X a1 b1) (X a2 b2) (X a3 b3) (X a4 b4) x ^ 2))
    refine (hasDerivAt_re C hd).congr_deriv ?_
    have hS := C.posS ⟨ht.1.le, ht.2⟩
    have hW := pW t ht
    rw [← Complex.ofReal_re (-(_ / _))]
    congr 1
    push_cast
    rw [hS.eq, hW.eq]
    have := hS.ne
    field_simp
  · have hy : y ∈ Icc y x := ⟨le_rfl, C.lt.le⟩
    have hN : ContinuousAt (fun t => (X a1 b1 t * X a2 b2 t * (X a3 b3 y * X a4 b4 y) + X a1 b1 y * X a2 b2 y * (X a3 b3 t * X a4 b4 t)).re) y := by
      refine Complex.continuous_re.continuousAt.comp ?_
      exact (((C.f1.cont hy).mul (C.f2.cont hy)).mul continuousAt_const).add (continuousAt_const.mul ((C.f3.cont hy).mul (C.f4.cont hy)))
    have hp : 0 < (X a1 b1 y * X a2 b2 y * (X a3 b3 y * X a4 b4 y) + X a1 b1 y * X a2 b2 y * (X a3 b3 y * X a4 b4 y)).re :=
      (((C.p12 y hy).mul (C.p34 y hy)).add ((C.p12 y hy).mul (C.p34 y hy))).1
    have hi : Tendsto (fun t : ℝ => (t - y)⁻¹) (𝓝[>] y) atTop := by
      refine tendsto_inv_nhdsGT_zero.comp (tendsto_nhdsWithin_iff.mpr ⟨?_, ?_⟩)
      · have : Tendsto (fun t : ℝ => t - y) (𝓝 y) (𝓝 (y - y)) := (continuous_id.sub continuous_const).tendsto y
        rw [sub_self] at this
        exact this.mono_left nhdsWithin_le_nhds
      · filter_upwards [self_mem_nhdsWithin] with t ht
        have ht : y < t := ht
        exact sub_pos.mpr ht
    have h1 := Tendsto.pos_mul_atTop hp (hN.tendsto.mono_left nhdsWithin_le_nhds) hi
    have h2 := (h1.atTop_mul_atTop₀ h1).atTop_add (tendsto_const_nhds (x := -(U y (X a1 b1) (X a2 b2) (X a3 b3) (X a4 b4) x ^ 2).re))
    refine h2.congr' ?_
    filter_upwards [Ioc_mem_nhdsGT C.lt] with t ht
    have hP := (C.pos12 ht)
    have e : (U y (X a1 b1) (X a2 b2) (X a3 b3) (X a4 b4) t).re =
        (X a1 b1 t * X a2 b2 t * (X a3 b3 y * X a4 b4 y) + X a1 b1 y * X a2 b2 y * (X a3 b3 t * X a4 b4 t)).re * (t - y)⁻¹ := by
      rw [U, ← Complex.ofReal_sub, Complex.div_ofReal_re, div_eq_mul_inv]
    rw [← e, Complex.sub_re, sq (U y _ _ _ _ t), Complex.mul_re, hP.2]
    ring

end Config

end Verif.Ellred
