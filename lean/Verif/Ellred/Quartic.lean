import Verif.Ellred.Cubic

/-! # The quartic case -/

namespace Verif.Ellred

open MeasureTheory Set Filter Topology Verif.Carlson ComplexConjugate

variable {y x t : ℝ} {r1 r2 r3 r4 : ℂ}

theorem Pos.of_im {z : ℂ} (h1 : 0 < z.re) (h2 : conj z = z) : Pos z := ⟨h1, Complex.conj_eq_iff_im.mp h2⟩

/-- Two conjugate pairs, with the upper roots to the left of `y` on average. -/
theorem Config.of_two_pairs (hlt : y < x) {r σ : ℂ} (hr : 0 < r.im) (hσ : 0 < σ.im) (hs : 0 ≤ σ.im * (y - r.re) + r.im * (y - σ.re)) :
    Config y x (-r) 1 (-conj r) 1 (-σ) 1 (-conj σ) 1 := by
  have hy : y ∈ Icc y x := ⟨le_rfl, hlt.le⟩
  have f1 : Fac y x (-r) 1 := fac_root hr.ne'
  have f2 : Fac y x (-conj r) 1 := fac_root (by simpa using hr.ne')
  have f3 : Fac y x (-σ) 1 := fac_root hσ.ne'
  have f4 : Fac y x (-conj σ) 1 := fac_root (by simpa using hσ.ne')
  have e2 : ∀ t ∈ Icc y x, X (-conj r) 1 t = conj (X (-r) 1 t) := fun t ht => by simpa using X_conj (f1 t ht)
  have e4 : ∀ t ∈ Icc y x, X (-conj σ) 1 t = conj (X (-σ) 1 t) := fun t ht => by simpa using X_conj (f3 t ht)
  -- the products over the two points
  have key : ∀ {ρ : ℂ}, 0 < ρ.im → ∀ t ∈ Ioc y x, 0 < (X (-ρ) 1 t * conj (X (-ρ) 1 y)).im ∧
      ((X (-ρ) 1 t * conj (X (-ρ) 1 y)) ^ 2).re = (t - ρ.re) * (y - ρ.re) + ρ.im ^ 2 ∧
      ((X (-ρ) 1 t * conj (X (-ρ) 1 y)) ^ 2).im = ρ.im * (t - y) := by
    intro ρ hρ t ht
    have e : (X (-ρ) 1 t * conj (X (-ρ) 1 y)) ^ 2 = (-ρ + 1 * t) * conj (-ρ + 1 * (y : ℝ)) := by
      rw [mul_pow, ← map_pow, X_sq, X_sq]
    have im2 : ((X (-ρ) 1 t * conj (X (-ρ) 1 y)) ^ 2).im = ρ.im * (t - y) := by
      rw [e]
      simp [Complex.mul_im]
      ring
    refine ⟨?_, ?_, im2⟩
    · have q := quadrant hρ.ne' t y
      rw [sq, Complex.mul_im] at im2
      have : 0 < ρ.im * (t - y) := mul_pos hρ (sub_pos.mpr ht.1)
      by_contra hn
      nlinarith
    · rw [e]
      simp [Complex.mul_re]
      ring
  have r13 : ∀ t ∈ Ioc y x, 0 < (X (-r) 1 t * conj (X (-r) 1 y) * (X (-σ) 1 t * conj (X (-σ) 1 y))).re := by
    intro t ht
    obtain ⟨a1, a2, a3⟩ := key hr t ht
    obtain ⟨b1, b2, b3⟩ := key hσ t ht
    have qa := quadrant hr.ne' t y
    have qb := quadrant hσ.ne' t y
    set A := X (-r) 1 t * conj (X (-r) 1 y)
    set B := X (-σ) 1 t * conj (X (-σ) 1 y)
    have him : 0 < (A * B).im := by rw [Complex.mul_im]; exact add_pos (mul_pos qa b1) (mul_pos a1 qb)
    have hsq : 0 < ((A * B) ^ 2).im := by
      rw [mul_pow, Complex.mul_im, a2, a3, b2, b3]
      have hk := sub_pos.mpr ht.1
      have e : ((t - r.re) * (y - r.re) + r.im ^ 2) * (σ.im * (t - y)) + r.im * (t - y) * ((t - σ.re) * (y - σ.re) + σ.im ^ 2) =
          (t - y) * ((t - y) * (σ.im * (y - r.re) + r.im * (y - σ.re)) +
            (σ.im * ((y - r.re) ^ 2 + r.im ^ 2) + r.im * ((y - σ.re) ^ 2 + σ.im ^ 2))) := by ring
      rw [e]
      apply mul_pos hk
      have : 0 < σ.im * ((y - r.re) ^ 2 + r.im ^ 2) := by positivity
      have : 0 < r.im * ((y - σ.re) ^ 2 + σ.im ^ 2) := by positivity
      have := mul_nonneg hk.le hs
      linarith
    rw [sq, Complex.mul_im] at hsq
    by_contra hn
    nlinarith
  have r14 : ∀ t ∈ Ioc y x, 0 < (X (-r) 1 t * conj (X (-r) 1 y) * conj (X (-σ) 1 t * conj (X (-σ) 1 y))).re := by
    intro t ht
    obtain ⟨a1, -, -⟩ := key hr t ht
    obtain ⟨b1, -, -⟩ := key hσ t ht
    have qa := quadrant hr.ne' t y
    have qb := quadrant hσ.ne' t y
    rw [Complex.mul_re, Complex.conj_re, Complex.conj_im, mul_neg, sub_neg_eq_add]
    exact add_pos (mul_pos qa qb) (mul_pos a1 b1)
  have p13 : ∀ t ∈ Ioc y x, Pos (U y (X (-r) 1) (X (-σ) 1) (X (-conj r) 1) (X (-conj σ) 1) t) := by
    intro t ht
    have ht' : t ∈ Icc y x := ⟨ht.1.le, ht.2⟩
    have h := r13 t ht
    rw [U, e2 t ht', e2 y hy, e4 t ht', e4 y hy, ← Complex.ofReal_sub]
    refine Pos.div ?_ (sub_pos.mpr ht.1)
    have e : X (-r) 1 t * X (-σ) 1 t * (conj (X (-r) 1 y) * conj (X (-σ) 1 y)) + X (-r) 1 y * X (-σ) 1 y * (conj (X (-r) 1 t) * conj (X (-σ) 1 t)) =
        X (-r) 1 t * conj (X (-r) 1 y) * (X (-σ) 1 t * conj (X (-σ) 1 y)) + conj (X (-r) 1 t * conj (X (-r) 1 y) * (X (-σ) 1 t * conj (X (-σ) 1 y))) := by
      simp only [map_mul, Complex.conj_conj]
      ring
    rw [e, Complex.add_conj]
    exact Pos.ofReal (by linarith)
  have p14 : ∀ t ∈ Ioc y x, Pos (U y (X (-r) 1) (X (-conj σ) 1) (X (-conj r) 1) (X (-σ) 1) t) := by
    intro t ht
    have ht' : t ∈ Icc y x := ⟨ht.1.le, ht.2⟩
    have h := r14 t ht
    rw [U, e2 t ht', e2 y hy, e4 t ht', e4 y hy, ← Complex.ofReal_sub]
    refine Pos.div ?_ (sub_pos.mpr ht.1)
    have e : X (-r) 1 t * conj (X (-σ) 1 t) * (conj (X (-r) 1 y) * X (-σ) 1 y) + X (-r) 1 y * conj (X (-σ) 1 y) * (conj (X (-r) 1 t) * X (-σ) 1 t) =
        X (-r) 1 t * conj (X (-r) 1 y) * conj (X (-σ) 1 t * conj (X (-σ) 1 y)) + conj (X (-r) 1 t * conj (X (-r) 1 y) * conj (X (-σ) 1 t * conj (X (-σ) 1 y))) := by
      simp only [map_mul, Complex.conj_conj]
      ring
    rw [e, Complex.add_conj]
    exact Pos.ofReal (by linarith)
  exact ⟨hlt, f1, f2, f3, f4, fun t ht => by rw [e2 t ht]; exact pos_mul_conj (f1.ne ht),
    fun t ht => by rw [e4 t ht]; exact pos_mul_conj (f3.ne ht), fun t ht => (p13 t ht).1, fun t ht => (p14 t ht).1,
    fun t ht => (p13 t ht).mul (p14 t ht)⟩

/-- The quartic. -/
noncomputable def quartic (b c d e t : ℝ) : ℝ := t ^ 4 + b * t ^ 3 + c * t ^ 2 + d * t + e

/-- The monic quartic with real coefficients that has the four roots, positive from `y` on; if there are two conjugate pairs, a condition
on where they lie. -/
structure QuarticOK (y : ℝ) (r1 r2 r3 r4 : ℂ) (b c d e : ℝ) : Prop where
  vieta : ∀ z : ℂ, (z - r1) * (z - r2) * (z - r3) * (z - r4) = z ^ 4 + b * z ^ 3 + c * z ^ 2 + d * z + e
  pos : ∀ t : ℝ, y ≤ t → 0 < quartic b c d e t
  slope : ∀ ρ σ : ℂ, 0 < ρ.im → 0 < σ.im →
    (∀ z : ℂ, (z - ρ) * (z - conj ρ) * (z - σ) * (z - conj σ) = z ^ 4 + b * z ^ 3 + c * z ^ 2 + d * z + e) →
    0 ≤ σ.im * (y - ρ.re) + ρ.im * (y - σ.re)

/-- The functions of the quartic form a kernel, whatever the order of the roots. -/
def HasKernel4 (y x : ℝ) (r1 r2 r3 r4 : ℂ) : Prop :=
  (∀ t ∈ Icc y x, t - r1 ∈ Complex.slitPlane) ∧ (∀ t ∈ Icc y x, t - r2 ∈ Complex.slitPlane) ∧ (∀ t ∈ Icc y x, t - r3 ∈ Complex.slitPlane) ∧
  (∀ t ∈ Icc y x, t - r4 ∈ Complex.slitPlane) ∧
  (∀ t ∈ Icc y x, Pos (Xr r1 t * Xr r2 t * Xr r3 t * Xr r4 t)) ∧
  ∃ V W, Kernel y x (fun t => (Xr r1 t * Xr r2 t * Xr r3 t * Xr r4 t).re) (U y (Xr r1) (Xr r2) (Xr r3) (Xr r4))
    (U y (Xr r1) (Xr r3) (Xr r2) (Xr r4)) (U y (Xr r1) (Xr r4) (Xr r2) (Xr r3)) V W

theorem U_swap34 (y : ℝ) (X1 X2 X3 X4 : ℝ → ℂ) : U y X1 X2 X4 X3 = U y X1 X2 X3 X4 := by
  funext t; simp only [U]; ring

theorem U_swap (y : ℝ) (X1 X2 X3 X4 : ℝ → ℂ) : U y X3 X4 X1 X2 = U y X1 X2 X3 X4 := by
  funext t; simp only [U]; ring

theorem U_swap12 (y : ℝ) (X1 X2 X3 X4 : ℝ → ℂ) : U y X2 X1 X3 X4 = U y X1 X2 X3 X4 := by
  funext t; simp only [U]; ring

namespace HasKernel4

theorem swap34 (h : HasKernel4 y x r1 r2 r3 r4) : HasKernel4 y x r1 r2 r4 r3 := by
  obtain ⟨s1, s2, s3, s4, p, V, W, K⟩ := h
  have e : ∀ t, Xr r1 t * Xr r2 t * Xr r4 t * Xr r3 t = Xr r1 t * Xr r2 t * Xr r3 t * Xr r4 t := fun t => by ring
  refine ⟨s1, s2, s4, s3, fun t ht => by rw [e]; exact p t ht, V, W, ?_⟩
  simp only [e]
  rw [U_swap34 y (Xr r1) (Xr r2) (Xr r3) (Xr r4)]
  exact K.swap23

theorem swap12 (h : HasKernel4 y x r1 r2 r3 r4) : HasKernel4 y x r2 r1 r3 r4 := by
  obtain ⟨s1, s2, s3, s4, p, V, W, K⟩ := h
  have e : ∀ t, Xr r2 t * Xr r1 t * Xr r3 t * Xr r4 t = Xr r1 t * Xr r2 t * Xr r3 t * Xr r4 t := fun t => by ring
  refine ⟨s2, s1, s3, s4, fun t ht => by rw [e]; exact p t ht, V, W, ?_⟩
  simp only [e]
  rw [U_swap12 y (Xr r1) (Xr r2) (Xr r3) (Xr r4),
    show U y (Xr r2) (Xr r3) (Xr r1) (Xr r4) = U y (Xr r1) (Xr r4) (Xr r2) (Xr r3) by funext t; simp only [U]; ring,
    show U y (Xr r2) (Xr r4) (Xr r1) (Xr r3) = U y (Xr r1) (Xr r3) (Xr r2) (Xr r4) by funext t; simp only [U]; ring]
  exact K.swap23

theorem swap23 (h : HasKernel4 y x r1 r2 r3 r4) : HasKernel4 y x r1 r3 r2 r4 := by
  obtain ⟨s1, s2, s3, s4, p, V, W, K⟩ := h
  have e : ∀ t, Xr r1 t * Xr r3 t * Xr r2 t * Xr r4 t = Xr r1 t * Xr r2 t * Xr r3 t * Xr r4 t := fun t => by ring
  refine ⟨s1, s3, s2, s4, fun t ht => by rw [e]; exact p t ht, V, W, ?_⟩
  simp only [e]
  rw [U_swap34 y (Xr r1) (Xr r4) (Xr r2) (Xr r3)]
  exact K.swap12

theorem of_config (C : Config y x (-r1) 1 (-r2) 1 (-r3) 1 (-r4) 1) : HasKernel4 y x r1 r2 r3 r4 := by
  have e : ∀ (r : ℂ) (t : ℝ), -r + 1 * t = t - r := fun r t => by ring
  have K := C.kernel
  have P := fun t ht => C.posS (t := t) ht
  simp only [X_eq_Xr] at K P
  exact ⟨fun t ht => by have := C.f1 t ht; rwa [e] at this, fun t ht => by have := C.f2 t ht; rwa [e] at this,
    fun t ht => by have := C.f3 t ht; rwa [e] at this, fun t ht => by have := C.f4 t ht; rwa [e] at this, P, _, _, K⟩

end HasKernel4

namespace QuarticOK

variable {b c d e : ℝ}

theorem swap12 (h : QuarticOK y r1 r2 r3 r4 b c d e) : QuarticOK y r2 r1 r3 r4 b c d e :=
  ⟨fun z => by rw [← h.vieta]; ring, h.pos, h.slope⟩

theorem swap23 (h : QuarticOK y r1 r2 r3 r4 b c d e) : QuarticOK y r1 r3 r2 r4 b c d e :=
  ⟨fun z => by rw [← h.vieta]; ring, h.pos, h.slope⟩

theorem swap34 (h : QuarticOK y r1 r2 r3 r4 b c d e) : QuarticOK y r1 r2 r4 r3 b c d e :=
  ⟨fun z => by rw [← h.vieta]; ring, h.pos, h.slope⟩

theorem lt (h : QuarticOK y r1 r2 r3 r4 b c d e) (hr : r1.im = 0) : r1.re < y := by
  by_contra hn
  have hp := h.pos r1.re (by linarith)
  have e' : (r1.re : ℂ) = r1 := CubicOK.re_eq hr
  have hv := h.vieta r1
  rw [sub_self, zero_mul, zero_mul, zero_mul, ← e'] at hv
  have : (0 : ℝ) = quartic b c d e r1.re := by rw [quartic]; exact_mod_cast hv
  linarith

theorem realFac (h : QuarticOK y r1 r2 r3 r4 b c d e) (hr : r1.im = 0) : RealFac y x (-r1) 1 := by
  have := realFac_root (x := x) (h.lt hr)
  rwa [CubicOK.re_eq hr] at this

/-- A root that is not real has its conjugate among the others. -/
theorem conj_mem (h : QuarticOK y r1 r2 r3 r4 b c d e) (hr : r1.im ≠ 0) : r2 = conj r1 ∨ r3 = conj r1 ∨ r4 = conj r1 := by
  have hv := h.vieta r1
  rw [sub_self, zero_mul, zero_mul, zero_mul] at hv
  have hc := congrArg conj hv
  simp only [map_zero, map_add, map_pow, map_mul, Complex.conj_ofReal] at hc
  have hk := h.vieta (conj r1)
  rw [← hc] at hk
  have hne : conj r1 - r1 ≠ 0 := fun e => hr (Complex.conj_eq_iff_im.mp (sub_eq_zero.mp e))
  rcases mul_eq_zero.mp hk with hk | hk
  · rcases mul_eq_zero.mp hk with hk | hk
    · rcases mul_eq_zero.mp hk with hk | hk
      · exact absurd hk hne
      · exact Or.inl (sub_eq_zero.mp hk).symm
    · exact Or.inr (Or.inl (sub_eq_zero.mp hk).symm)
  · exact Or.inr (Or.inr (sub_eq_zero.mp hk).symm)

/-- If two roots are conjugate, the other two are real or conjugate. -/
theorem rest (h : QuarticOK y r1 r2 r3 r4 b c d e) (hr : r2 = conj r1) (h1 : r1.im ≠ 0) : (r3.im = 0 ∧ r4.im = 0) ∨ r4 = conj r3 := by
  have hsum : (r1 + r2 + r3 + r4).im = 0 := by
    have e0 := h.vieta 0
    have e1 := h.vieta 1
    have e2 := h.vieta (-1)
    have e3 := h.vieta 2
    have e4 := h.vieta (-2)
    have : r1 + r2 + r3 + r4 = ((-b : ℝ) : ℂ) := by
      push_cast
      linear_combination (1 / 6) * e1 + (-1 / 6) * e2 + (-1 / 12) * e3 + (1 / 12) * e4
    rw [this]; simp
  rw [hr] at hsum
  simp only [Complex.add_im, Complex.conj_im] at hsum
  have h34 : r3.im = -r4.im := by linarith
  by_cases h3 : r3.im = 0
  · exact Or.inl ⟨h3, by linarith⟩
  · right
    rcases h.swap23.swap12.conj_mem h3 with e | e | e
    · -- r1 = conj r3
      have e' : r3 = r2 := by rw [hr, e, Complex.conj_conj]
      have := h.swap34.swap23.swap12.conj_mem (r1 := r4) (by intro h4; apply h3; rw [h34, h4, neg_zero])
      rcases this with e4 | e4 | e4
      · -- r1 = conj r4
        have : r4 = r2 := by rw [hr, e4, Complex.conj_conj]
        rw [this, ← e'] at h34
        exact absurd (by linarith) h3
      · have : r4 = r1 := by rw [← Complex.conj_conj r4, ← e4, hr, Complex.conj_conj]
        rw [this, e]
      · rw [e4, Complex.conj_conj]
    · have e' : r3 = r1 := by rw [← Complex.conj_conj r3, ← e, hr, Complex.conj_conj]
      have := h.swap34.swap23.swap12.conj_mem (r1 := r4) (by intro h4; apply h3; rw [h34, h4, neg_zero])
      rcases this with e4 | e4 | e4
      · have : r4 = r2 := by rw [hr, e4, Complex.conj_conj]
        rw [this, e]
      · have : r4 = r1 := by rw [← Complex.conj_conj r4, ← e4, hr, Complex.conj_conj]
        rw [this, ← e'] at h34
        exact absurd (by linarith) h3
      · rw [e4, Complex.conj_conj]
    · exact e

theorem kernel_two (h : QuarticOK y r1 r2 r3 r4 b c d e) (hlt : y < x) (h12 : r2 = conj r1) (h34 : r4 = conj r3) (h1 : r1.im ≠ 0)
    (h3 : r3.im ≠ 0) : HasKernel4 y x r1 r2 r3 r4 := by
  have gen : ∀ ρ σ : ℂ, 0 < ρ.im → 0 < σ.im → QuarticOK y ρ (conj ρ) σ (conj σ) b c d e → HasKernel4 y x ρ (conj ρ) σ (conj σ) :=
    fun ρ σ hρ hσ hq => HasKernel4.of_config (Config.of_two_pairs hlt hρ hσ (hq.slope ρ σ hρ hσ hq.vieta))
  subst h12 h34
  rcases lt_or_gt_of_ne h1 with n1 | n1 <;> rcases lt_or_gt_of_ne h3 with n3 | n3
  · have := gen (conj r1) (conj r3) (by simpa using n1) (by simpa using n3) (by simpa using h.swap12.swap34)
    rw [Complex.conj_conj, Complex.conj_conj] at this
    exact this.swap12.swap34
  · have := gen (conj r1) r3 (by simpa using n1) n3 (by simpa using h.swap12)
    rw [Complex.conj_conj] at this
    exact this.swap12
  · have := gen r1 (conj r3) n1 (by simpa using n3) (by simpa using h.swap34)
    rw [Complex.conj_conj] at this
    exact this.swap34
  · exact gen r1 r3 n1 n3 h

theorem kernel_pair (h : QuarticOK y r1 r2 r3 r4 b c d e) (hlt : y < x) (h12 : r2 = conj r1) (h1 : r1.im ≠ 0) : HasKernel4 y x r1 r2 r3 r4 := by
  rcases h.rest h12 h1 with ⟨h3, h4⟩ | h34
  · have f3 := (h.swap23.swap12).realFac (x := x) h3
    have f4 := (h.swap34.swap23.swap12).realFac (x := x) h4
    have := HasKernel4.of_config (Config.of_pair hlt f3 f4 h1)
    rw [← h12] at this
    -- order r3 r4 r1 r2
    exact this.swap23.swap34.swap12.swap23
  · by_cases h3 : r3.im = 0
    · have h4 : r4.im = 0 := by rw [h34, Complex.conj_im, h3, neg_zero]
      have f3 := (h.swap23.swap12).realFac (x := x) h3
      have f4 := (h.swap34.swap23.swap12).realFac (x := x) h4
      have := HasKernel4.of_config (Config.of_pair hlt f3 f4 h1)
      rw [← h12] at this
      exact this.swap23.swap34.swap12.swap23
    · exact h.kernel_two hlt h12 h34 h1 h3

theorem kernel_cpx (h : QuarticOK y r1 r2 r3 r4 b c d e) (hlt : y < x) (h1 : r1.im ≠ 0) : HasKernel4 y x r1 r2 r3 r4 := by
  rcases h.conj_mem h1 with e | e | e
  · exact h.kernel_pair hlt e h1
  · exact (h.swap23.kernel_pair hlt e h1).swap23
  · exact (h.swap34.swap23.kernel_pair hlt e h1).swap23.swap34

theorem kernel (h : QuarticOK y r1 r2 r3 r4 b c d e) (hlt : y < x) : HasKernel4 y x r1 r2 r3 r4 := by
  by_cases h1 : r1.im = 0
  · by_cases h2 : r2.im = 0
    · by_cases h3 : r3.im = 0
      · by_cases h4 : r4.im = 0
        · exact HasKernel4.of_config (Config.of_real hlt (h.realFac h1) (h.swap12.realFac h2) (h.swap23.swap12.realFac h3)
            (h.swap34.swap23.swap12.realFac h4))
        · exact (h.swap34.swap23.swap12.kernel_cpx hlt h4).swap12.swap23.swap34
      · exact (h.swap23.swap12.kernel_cpx hlt h3).swap12.swap23
    · exact (h.swap12.kernel_cpx hlt h2).swap12
  · exact h.kernel_cpx hlt h1

/-- `X_1 X_2 X_3 X_4` is the square root of the quartic. -/
theorem sqrt_eq (h : QuarticOK y r1 r2 r3 r4 b c d e) (ht : y ≤ t) :
    Xr r1 t * Xr r2 t * Xr r3 t * Xr r4 t = (√(quartic b c d e t) : ℝ) := by
  obtain ⟨-, -, -, -, p, -⟩ := h.kernel (x := t + 1) (by linarith)
  have hp := p t ⟨ht, by linarith⟩
  rw [← hp.eq]
  congr 1
  have : (Xr r1 t * Xr r2 t * Xr r3 t * Xr r4 t) ^ 2 = ((quartic b c d e t : ℝ) : ℂ) := by
    rw [mul_pow, mul_pow, mul_pow, Xr, Xr, Xr, Xr, sq (csqrt _), sq (csqrt _), sq (csqrt _), sq (csqrt _), csqrt_sq, csqrt_sq, csqrt_sq, csqrt_sq,
      h.vieta t, quartic]
    push_cast; ring
  rw [← hp.eq, ← Complex.ofReal_pow] at this
  have : (Xr r1 t * Xr r2 t * Xr r3 t * Xr r4 t).re ^ 2 = quartic b c d e t := by exact_mod_cast this
  rw [← this, Real.sqrt_sq hp.1.le]

end QuarticOK

end Verif.Ellred
