import Verif.Ellred.Configs
import Verif.Ellred.Model

/-! # The cubic case -/

namespace Verif.Ellred

open MeasureTheory Set Filter Topology Verif.Carlson ComplexConjugate

variable {y x t : ℝ} {r1 r2 r3 : ℂ}

theorem X_eq_Xr (r : ℂ) : X (-r) 1 = Xr r := by
  funext t
  rw [X, Xr]
  congr 1
  ring

theorem X_one : X 1 0 = fun _ => 1 := by
  funext t
  simp [X, csqrt]

/-- The function `U_{0 1}` of a cubic, divided by `t - y`. -/
noncomputable def Uc (y : ℝ) (r1 r2 r3 : ℂ) (t : ℝ) : ℂ :=
  (Xr r1 t * Xr r2 y * Xr r3 y + Xr r1 y * Xr r2 t * Xr r3 t) / ((t : ℂ) - y)

theorem Uc_swap (y : ℝ) (r1 r2 r3 : ℂ) : Uc y r1 r3 r2 = Uc y r1 r2 r3 := by
  funext t
  simp only [Uc]
  ring

/-- The monic cubic with real coefficients that has the three roots, positive from `y` on. -/
structure CubicOK (y : ℝ) (r1 r2 r3 : ℂ) (b c d : ℝ) : Prop where
  vieta : ∀ z : ℂ, (z - r1) * (z - r2) * (z - r3) = z ^ 3 + b * z ^ 2 + c * z + d
  pos : ∀ t : ℝ, y ≤ t → 0 < t ^ 3 + b * t ^ 2 + c * t + d

namespace CubicOK

variable {b c d : ℝ}

theorem swap12 (h : CubicOK y r1 r2 r3 b c d) : CubicOK y r2 r1 r3 b c d :=
  ⟨fun z => by rw [← h.vieta]; ring, h.pos⟩

theorem swap23 (h : CubicOK y r1 r2 r3 b c d) : CubicOK y r1 r3 r2 b c d :=
  ⟨fun z => by rw [← h.vieta]; ring, h.pos⟩

theorem lt (h : CubicOK y r1 r2 r3 b c d) (hr : r1.im = 0) : r1.re < y := by
  by_contra hn
  have hp := h.pos r1.re (by linarith)
  have e : (r1.re : ℂ) = r1 := by apply Complex.ext <;> simp [hr]
  have hv := h.vieta r1
  rw [sub_self, zero_mul, zero_mul, ← e] at hv
  have : (0 : ℝ) = r1.re ^ 3 + b * r1.re ^ 2 + c * r1.re + d := by exact_mod_cast hv
  linarith

theorem pair (h : CubicOK y r1 r2 r3 b c d) (hr : r1.im ≠ 0) : (r2 = conj r1 ∧ r3.im = 0) ∨ (r3 = conj r1 ∧ r2.im = 0) := by
  have hv := h.vieta r1
  rw [sub_self, zero_mul, zero_mul] at hv
  have hc := congrArg conj hv
  simp only [map_zero, map_add, map_pow, map_mul, Complex.conj_ofReal] at hc
  have hk := h.vieta (conj r1)
  rw [← hc] at hk
  have hne : conj r1 - r1 ≠ 0 := fun e => hr (Complex.conj_eq_iff_im.mp (sub_eq_zero.mp e))
  have hsum : (r1 + r2 + r3).im = 0 := by
    have e0 := h.vieta 0
    have e1 := h.vieta 1
    have e2 := h.vieta (-1)
    have : r1 + r2 + r3 = ((-b : ℝ) : ℂ) := by push_cast; linear_combination (-1 / 2) * e1 + (-1 / 2) * e2 + e0
    rw [this]; simp
  simp only [Complex.add_im] at hsum
  rcases mul_eq_zero.mp hk with hk | hk
  · rcases mul_eq_zero.mp hk with hk | hk
    · exact absurd hk hne
    · left
      have e : r2 = conj r1 := (sub_eq_zero.mp hk).symm
      refine ⟨e, ?_⟩
      rw [e, Complex.conj_im] at hsum
      linarith
  · right
    have e : r3 = conj r1 := (sub_eq_zero.mp hk).symm
    refine ⟨e, ?_⟩
    rw [e, Complex.conj_im] at hsum
    linarith

theorem re_eq {r : ℂ} (h : r.im = 0) : (r.re : ℂ) = r := by apply Complex.ext <;> simp [h]

theorem realFac (h : CubicOK y r1 r2 r3 b c d) (hr : r1.im = 0) : RealFac y x (-r1) 1 := by
  have := realFac_root (x := x) (h.lt hr)
  rwa [re_eq hr] at this

/-- The value of the cubic. -/
noncomputable def cubic (b c d t : ℝ) : ℝ := t ^ 3 + b * t ^ 2 + c * t + d

/-- The functions of the cubic form a kernel, whatever the order of the roots. -/
def HasKernel (y x : ℝ) (r1 r2 r3 : ℂ) : Prop :=
  (∀ t ∈ Icc y x, t - r1 ∈ Complex.slitPlane) ∧ (∀ t ∈ Icc y x, t - r2 ∈ Complex.slitPlane) ∧ (∀ t ∈ Icc y x, t - r3 ∈ Complex.slitPlane) ∧
  (∀ t ∈ Icc y x, Pos (Xr r1 t * Xr r2 t * Xr r3 t)) ∧
  ∃ V W, Kernel y x (fun t => (Xr r1 t * Xr r2 t * Xr r3 t).re) (Uc y r1 r2 r3) (Uc y r2 r1 r3) (Uc y r3 r1 r2) V W

theorem HasKernel.swap12 (h : HasKernel y x r1 r2 r3) : HasKernel y x r2 r1 r3 := by
  obtain ⟨s1, s2, s3, p, V, W, K⟩ := h
  refine ⟨s2, s1, s3, fun t ht => by rw [mul_comm (Xr r2 t)]; exact p t ht, V, W, ?_⟩
  have := K.swap12
  simp only [mul_comm (Xr r2 _)]
  rw [Uc_swap y r3 r1 r2]
  exact this

theorem HasKernel.swap23 (h : HasKernel y x r1 r2 r3) : HasKernel y x r1 r3 r2 := by
  obtain ⟨s1, s2, s3, p, V, W, K⟩ := h
  have e : ∀ t, Xr r1 t * Xr r3 t * Xr r2 t = Xr r1 t * Xr r2 t * Xr r3 t := fun t => by ring
  refine ⟨s1, s3, s2, fun t ht => by rw [e]; exact p t ht, V, W, ?_⟩
  have := K.swap23
  simp only [e]
  rw [Uc_swap y r1 r2 r3]
  exact this

theorem of_config (C : Config y x 1 0 (-r1) 1 (-r2) 1 (-r3) 1) : HasKernel y x r1 r2 r3 := by
  have e : ∀ (r : ℂ) (t : ℝ), -r + 1 * t = t - r := fun r t => by ring
  have K := C.kernel
  have P := fun t ht => C.posS (t := t) ht
  simp only [X_one, X_eq_Xr] at K P
  simp only [one_mul] at K P
  have u : ∀ r1 r2 r3 : ℂ, U y (fun _ => 1) (Xr r1) (Xr r2) (Xr r3) = Uc y r1 r2 r3 := fun r1 r2 r3 => by
    funext t
    simp only [U, Uc]
    ring
  simp only [u] at K
  exact ⟨fun t ht => by have := C.f2 t ht; rwa [e] at this, fun t ht => by have := C.f3 t ht; rwa [e] at this,
    fun t ht => by have := C.f4 t ht; rwa [e] at this, fun t ht => P t ht, _, _, K⟩

theorem kernel_of_im (h : CubicOK y r1 r2 r3 b c d) (hlt : y < x) (h1 : r1.im = 0) : HasKernel y x r1 r2 r3 := by
  apply of_config
  by_cases h2 : r2.im = 0
  · by_cases h3 : r3.im = 0
    · exact Config.of_real hlt realFac_one (h.realFac h1) (h.swap12.realFac h2) (h.swap23.swap12.realFac h3)
    · rcases h.swap23.swap12.pair h3 with ⟨e, -⟩ | ⟨e, -⟩
      · have := congrArg Complex.im e
        rw [h1, Complex.conj_im] at this
        exact absurd (by linarith) h3
      · have := congrArg Complex.im e
        rw [h2, Complex.conj_im] at this
        exact absurd (by linarith) h3
  · rcases h.swap12.pair h2 with ⟨e, -⟩ | ⟨e, -⟩
    · have := congrArg Complex.im e
      rw [h1, Complex.conj_im] at this
      exact absurd (by linarith) h2
    · subst e
      exact Config.of_pair hlt realFac_one (h.realFac h1) h2

theorem kernel (h : CubicOK y r1 r2 r3 b c d) (hlt : y < x) : HasKernel y x r1 r2 r3 := by
  by_cases h1 : r1.im = 0
  · exact h.kernel_of_im hlt h1
  · rcases h.pair h1 with ⟨-, h3⟩ | ⟨-, h2⟩
    · exact (h.swap23.swap12.kernel_of_im hlt h3).swap12.swap23
    · exact (h.swap12.kernel_of_im hlt h2).swap12

/-- `X_1 X_2 X_3` is the square root of the cubic. -/
theorem sqrt_eq (h : CubicOK y r1 r2 r3 b c d) (hlt : y < x) (ht : t ∈ Icc y x) :
    Xr r1 t * Xr r2 t * Xr r3 t = (√(cubic b c d t) : ℝ) := by
  obtain ⟨-, -, -, p, -⟩ := h.kernel hlt
  have hp := p t ht
  rw [← hp.eq]
  congr 1
  have : (Xr r1 t * Xr r2 t * Xr r3 t) ^ 2 = ((cubic b c d t : ℝ) : ℂ) := by
    rw [mul_pow, mul_pow, Xr, Xr, Xr, sq (csqrt _), sq (csqrt _), sq (csqrt _), csqrt_sq, csqrt_sq, csqrt_sq, h.vieta t, cubic]
    push_cast; ring
  rw [← hp.eq, ← Complex.ofReal_pow] at this
  have : (Xr r1 t * Xr r2 t * Xr r3 t).re ^ 2 = cubic b c d t := by exact_mod_cast this
  rw [← this, Real.sqrt_sq hp.1.le]

end CubicOK

end Verif.Ellred
