import Verif.Ellred.RedIqe
import Verif.Ellred.RedIm

/-! # The basic integrals of a cubic -/

namespace Verif.Ellred

open MeasureTheory Set Verif.Carlson
open CubicOK (cubic)

theorem RFc_swap12 (u v w : ℂ) : RFc u v w = RFc v u w := by
  simp only [RFc, mul_comm (csqrt (_ + u))]

theorem RFc_swap23 (u v w : ℂ) : RFc u v w = RFc u w v := by
  simp only [RFc, mul_right_comm _ (csqrt (_ + v))]

theorem RJc_swap12 (u v w p : ℂ) : RJc u v w p = RJc v u w p := by
  simp only [RJc, mul_comm (csqrt (_ + u))]

theorem RJc_swap23 (u v w p : ℂ) : RJc u v w p = RJc u w v p := by
  simp only [RJc, mul_right_comm _ (csqrt (_ + v))]

theorem RDc_swap12 (u v w : ℂ) : RDc u v w = RDc v u w := by
  simp only [RDc, mul_comm (csqrt (_ + u))]

namespace EllRed

variable {E : EllRed}

theorem X_eq {i : ℕ} (hi : 1 ≤ i) : E.X i = Xr (-E.av i) E.x := by rw [X, if_neg (by omega), Xr, sub_neg_eq_add, add_comm]

theorem Y_eq {i : ℕ} (hi : 1 ≤ i) : E.Y i = Xr (-E.av i) E.y := by rw [Y, if_neg (by omega), Xr, sub_neg_eq_add, add_comm]

theorem X_zero : E.X 0 = 1 := by rw [X, if_pos rfl]

theorem Y_zero : E.Y 0 = 1 := by rw [Y, if_pos rfl]

theorem idx3 (hh : E.h = 3) : E.idxSet = [0, 1, 2, 3] := by simp [idxSet, hh, List.range_succ]

theorem d_zero {j : ℕ} (hj : 1 ≤ j) : E.d 0 j = 1 := by simp [d, av]

theorem xmy_eq : E.xmy = ((E.x - E.y : ℝ) : ℂ) := by rw [xmy]; push_cast; ring

theorem s3 (hh : E.h = 3) (t : ℝ) : E.s t = Xr (-E.av 1) t * Xr (-E.av 2) t * Xr (-E.av 3) t := by
  simp [s, hh, List.range_succ, mul_assoc, Xr, add_comm]

/-- The cubic has real coefficients and is positive from the lower limit on; the upper limit is larger. -/
structure Cub (E : EllRed) (b c d : ℝ) : Prop where
  h3 : E.h = 3
  lt : E.y < E.x
  ok : CubicOK E.y (-E.av 1) (-E.av 2) (-E.av 3) b c d

variable {b c d : ℝ}

theorem Cub.s_eq (C : Cub E b c d) {t : ℝ} (ht : t ∈ Icc E.y E.x) : E.s t = ((√(cubic b c d t) : ℝ) : ℂ) := by
  rw [s3 C.h3, C.ok.sqrt_eq C.lt ht]

theorem Cub.J_eq (C : Cub E b c d) (q : ℤ) (j : ℕ) :
    E.J q j = ∫ t in Ioc E.y E.x, (E.av j + (t : ℂ)) ^ q / ((√(cubic b c d t) : ℝ) : ℂ) := by
  rw [J, intervalIntegral.integral_of_le C.lt.le]
  apply setIntegral_congr_fun measurableSet_Ioc
  intro t ht
  simp only
  rw [C.s_eq ⟨ht.1.le, ht.2⟩]

theorem Cub.U2_eq (C : Cub E b c d) : let u := params3 (-E.av 1) (-E.av 2) (-E.av 3) E.y E.x
    E.U2 0 1 = u.1 ∧ E.U2 2 3 = u.1 ∧ E.U2 1 3 = u.2.1 ∧ E.U2 0 2 = u.2.1 ∧ E.U2 1 2 = u.2.2 ∧ E.U2 0 3 = u.2.2 ∧
    E.U2 1 0 = u.1 ∧ E.U2 3 2 = u.1 ∧ E.U2 3 1 = u.2.1 ∧ E.U2 2 0 = u.2.1 ∧ E.U2 2 1 = u.2.2 ∧ E.U2 3 0 = u.2.2 := by
  have x1 := X_eq (E := E) (i := 1) (by omega)
  have x2 := X_eq (E := E) (i := 2) (by omega)
  have x3 := X_eq (E := E) (i := 3) (by omega)
  have y1 := Y_eq (E := E) (i := 1) (by omega)
  have y2 := Y_eq (E := E) (i := 2) (by omega)
  have y3 := Y_eq (E := E) (i := 3) (by omega)
  simp only [U2, rest, idx3 C.h3, params3]
  refine ⟨?_, ?_, ?_, ?_, ?_, ?_, ?_, ?_, ?_, ?_, ?_, ?_⟩ <;> simp [x1, x2, x3, y1, y2, y3, X_zero, Y_zero] <;> ring

theorem Cub.Ie0_eq (C : Cub E b c d) (j : ℕ) : E.Ie0 = E.J 0 j := by
  have := C.ok.rf_eq C.lt
  obtain ⟨-, u23, u13, -, u12, -⟩ := C.U2_eq
  simp only at this
  rw [Ie0, xmy_eq, u23, u13, u12, C.J_eq, RFc_swap12, RFc_swap23, RFc_swap12, this, ← integral_complex_ofReal]
  simp

/-- The linear integral, with the factors in any order. -/
theorem Cub.lin (C : Cub E b c d) {i j k : ℕ} (ho : CubicOK E.y (-E.av i) (-E.av j) (-E.av k) b c d) :
    let u := params3 (-E.av i) (-E.av j) (-E.av k) E.y E.x
    E.J 1 i = (E.av i - E.av j) * (E.av i - E.av k) * (2 * E.xmy * (E.xmy ^ 2 / 3) * RDc u.2.1 u.2.2 u.1) +
        2 * E.xmy * (Xr (-E.av i) E.y * Xr (-E.av i) E.x / csqrt u.1) := by
  have := ho.lin_eq C.lt
  simp only at this
  intro u
  rw [C.J_eq, xmy_eq]
  rw [show (∫ t in Ioc E.y E.x, (E.av i + (t : ℂ)) ^ (1 : ℤ) / ((√(cubic b c d t) : ℝ) : ℂ)) =
    ∫ t in Ioc E.y E.x, ((t : ℂ) - -E.av i) / ((√(cubic b c d t) : ℝ) : ℂ) by
      apply setIntegral_congr_fun measurableSet_Ioc
      intro t _
      simp only [zpow_one, sub_neg_eq_add, add_comm], this]
  ring

theorem Cub.sigma2 (C : Cub E b c d) {i j k : ℕ} (hi : 1 ≤ i) (hp : [i, j, k].Perm [1, 2, 3]) :
    E.sigma 2 i = (E.av j - E.av i) * (E.av k - E.av i) := by
  obtain ⟨-, -, e, -⟩ := sigma3 C.h3 i
  rw [e, d_eq (by omega) (by omega), d_eq (by omega) (by omega), d_eq (by omega) (by omega)]
  have hs := (hp.map E.av)
  have hi' : i ∈ [1, 2, 3] := hp.subset (by simp)
  have hj' : j ∈ [1, 2, 3] := hp.subset (by simp)
  have hk' : k ∈ [1, 2, 3] := hp.subset (by simp)
  have hn := hp.nodup_iff.mpr (by decide)
  simp only [List.mem_cons, List.not_mem_nil, or_false] at hi' hj' hk'
  simp only [List.nodup_cons, List.mem_cons, List.not_mem_nil, or_false] at hn
  rcases hi' with rfl | rfl | rfl <;> rcases hj' with rfl | rfl | rfl <;> rcases hk' with rfl | rfl | rfl <;> first | (exfalso; simp at hn; done) | ring

/-- DLMF 19.29.16. -/
theorem Cub.J_one (C : Cub E b c d) (h : Ok0 E) {i j k : ℕ} (hi : 1 ≤ i) (hi' : i ≤ 3) (hp : [i, j, k].Perm [1, 2, 3]) :
    E.J 1 i = (E.av j - E.av i) * (E.av k - E.av i) * E.J (-1) i + 2 * (E.s E.x / (E.av i + E.x) - E.s E.y / (E.av i + E.y)) := by
  have hle := h.le
  have := J_rec h hi (by have := C.h3; omega) (-2)
  have e0 := sigma_top (E := E) hi (by rw [C.h3]; exact hi')
  rw [C.h3] at e0 this
  obtain ⟨q0, q1, -, -⟩ := sigma3 C.h3 i
  simp only [Finset.sum_range_succ, Finset.sum_range_zero, IqePref, C.h3, Nat.sub_zero, Nat.reduceSub, e0, q0, C.sigma2 hi hp] at this
  norm_num at this
  rw [div_eq_mul_inv, div_eq_mul_inv]
  linear_combination -2 * this

/-- The inverse integral, with the factors in any order. -/
theorem Cub.inv (C : Cub E b c d) (h : Ok0 E) {i j k : ℕ} (hp : [i, j, k].Perm [1, 2, 3]) (nij : E.av j - E.av i ≠ 0) (nik : E.av k - E.av i ≠ 0)
    (ho : CubicOK E.y (-E.av i) (-E.av j) (-E.av k) b c d) :
    let u := params3 (-E.av i) (-E.av j) (-E.av k) E.y E.x
    E.J (-1) i = 2 * E.xmy * (1 / 3 * E.xmy ^ 2 * RDc u.2.1 u.2.2 u.1 + 1 / (Xr (-E.av i) E.x * Xr (-E.av i) E.y * csqrt u.1)) := by
  intro u
  have hle := h.le
  have h3 := C.h3
  have hi : i ∈ [1, 2, 3] := hp.subset (by simp)
  simp only [List.mem_cons, List.not_mem_nil, or_false] at hi
  have e1 := C.lin ho
  have e2 := C.J_one h (by omega) (by omega) hp
  simp only at e1
  have esx : E.s E.x = Xr (-E.av i) E.x * Xr (-E.av j) E.x * Xr (-E.av k) E.x := by
    rw [C.s_eq ⟨C.lt.le, le_rfl⟩, ho.sqrt_eq C.lt ⟨C.lt.le, le_rfl⟩]
  have esy : E.s E.y = Xr (-E.av i) E.y * Xr (-E.av j) E.y * Xr (-E.av k) E.y := by
    rw [C.s_eq ⟨le_rfl, C.lt.le⟩, ho.sqrt_eq C.lt ⟨le_rfl, C.lt.le⟩]
  obtain ⟨n1, n2, n3⟩ := ho.X_ne C.lt.le
  obtain ⟨m1, m2, m3⟩ := ho.X_ne le_rfl
  have a1 := Xr_sq (-E.av i) E.x
  have a2 := Xr_sq (-E.av j) E.x
  have a3 := Xr_sq (-E.av k) E.x
  have b1 := Xr_sq (-E.av i) E.y
  have b2 := Xr_sq (-E.av j) E.y
  have b3 := Xr_sq (-E.av k) E.y
  have hN := ho.N1_ne C.lt.le
  have hu : csqrt u.1 = CubicOK.N1 E.y (-E.av i) (-E.av j) (-E.av k) E.x := by
    obtain ⟨V, W, K⟩ := ho.kernel' C.lt
    have hk := sub_pos.mpr C.lt
    have hk' : (E.x : ℂ) - E.y ≠ 0 := sub_ne_zero.mpr (by exact_mod_cast C.lt.ne')
    have := mul_pos hk (K.re1 E.x ⟨C.lt, le_rfl⟩)
    rw [← Complex.re_ofReal_mul] at this
    rw [show u = _ from CubicOK.params3_eq C.lt]
    simp only
    rw [csqrt_of_sq this, CubicOK.Uc_eq_N1]
    push_cast
    field_simp
  have hx : E.av i + (E.x : ℂ) = Xr (-E.av i) E.x ^ 2 := by rw [a1]; ring
  have hy : E.av i + (E.y : ℂ) = Xr (-E.av i) E.y ^ 2 := by rw [b1]; ring
  change E.J 1 i = (E.av i - E.av j) * (E.av i - E.av k) * (2 * E.xmy * (E.xmy ^ 2 / 3) * RDc u.2.1 u.2.2 u.1) +
    2 * E.xmy * (Xr (-E.av i) E.y * Xr (-E.av i) E.x / csqrt u.1) at e1
  rw [hu] at e1 ⊢
  rw [e1, esx, esy, hx, hy] at e2
  rw [CubicOK.N1] at hN e2 ⊢
  generalize RDc u.2.1 u.2.2 u.1 = R at *
  have key : E.xmy * Xr (-E.av i) E.x ^ 2 * Xr (-E.av i) E.y ^ 2 - (Xr (-E.av j) E.x ^ 2 * Xr (-E.av k) E.x ^ 2 * Xr (-E.av i) E.y ^ 2 -
      Xr (-E.av j) E.y ^ 2 * Xr (-E.av k) E.y ^ 2 * Xr (-E.av i) E.x ^ 2) = (E.av j - E.av i) * (E.av k - E.av i) * E.xmy := by
    rw [a1, a2, a3, b1, b2, b3, xmy]; ring
  generalize Xr (-E.av i) E.x = X1 at *
  generalize Xr (-E.av j) E.x = X2 at *
  generalize Xr (-E.av k) E.x = X3 at *
  generalize Xr (-E.av i) E.y = Y1 at *
  generalize Xr (-E.av j) E.y = Y2 at *
  generalize Xr (-E.av k) E.y = Y3 at *
  have hδ := mul_ne_zero nij nik
  rw [show (E.av i - E.av j) * (E.av i - E.av k) = (E.av j - E.av i) * (E.av k - E.av i) by ring] at e2
  generalize (E.av j - E.av i) * (E.av k - E.av i) = δ at *
  apply mul_left_cancel₀ hδ
  clear hδ nij nik
  field_simp at e2 ⊢
  linear_combination (-1 : ℂ) * e2 + 6 * key

end EllRed

theorem CubicOK.shift {y : ℝ} {r1 r2 r3 : ℂ} {b c d : ℝ} (h : CubicOK y r1 r2 r3 b c d) (δ : ℝ) :
    CubicOK (y + δ) (r1 + δ) (r2 + δ) (r3 + δ) (b - 3 * δ) (c - 2 * b * δ + 3 * δ ^ 2) (d - c * δ + b * δ ^ 2 - δ ^ 3) where
  vieta z := by
    have := h.vieta (z - δ)
    push_cast
    linear_combination this
  pos t ht := by
    have := h.pos (t - δ) (by linarith)
    linarith [this]

theorem Xr_shift (r : ℂ) (t δ : ℝ) : Xr (r + δ) (t + δ) = Xr r t := by
  rw [Xr, Xr]; push_cast; congr 1; ring

namespace EllRed

variable {E : EllRed} {b c d : ℝ}

/-- The integral of the third kind. -/
theorem Cub.third (C : Cub E b c d) {nu : ℕ} {α : ℝ} (hα : E.av nu = α) (hy : 0 < α + E.y) :
    let u := params3 (-E.av 1) (-E.av 2) (-E.av 3) E.y E.x
    let p := (E.av nu - E.av 1) * E.xmy ^ 2 + u.1
    E.J (-1) nu = 2 * E.xmy * (1 / 3 * E.xmy ^ 2 * RJc u.1 u.2.1 u.2.2 p +
      RCc ((E.s E.x * (E.av nu + E.y) + E.s E.y * (E.av nu + E.x)) ^ 2) ((E.av nu + E.x) * (E.av nu + E.y) * p)) := by
  intro u p
  have ho := C.ok.shift (α - 1)
  have := ho.lookback_eq (x := E.x + (α - 1)) (by linarith) (by linarith [C.lt])
  simp only [Xr_shift] at this
  have hu : params3 (-E.av 1 + ((α - 1 : ℝ) : ℂ)) (-E.av 2 + ((α - 1 : ℝ) : ℂ)) (-E.av 3 + ((α - 1 : ℝ) : ℂ)) (E.y + (α - 1)) (E.x + (α - 1)) = u := by
    simp only [u, params3, Xr_shift]
  rw [hu, show E.x + (α - 1) - (E.y + (α - 1)) = E.x - E.y by ring, ← xmy_eq, ← s3 C.h3, ← s3 C.h3] at this
  rw [show (-E.av 1 + ((α - 1 : ℝ) : ℂ) + 1) * E.xmy ^ 2 + u.1 = p by simp only [p, hα]; push_cast; ring] at this
  rw [show ((E.x + (α - 1) : ℝ) : ℂ) + 1 = E.av nu + E.x by rw [hα]; push_cast; ring,
    show ((E.y + (α - 1) : ℝ) : ℂ) + 1 = E.av nu + E.y by rw [hα]; push_cast; ring] at this
  rw [show 2 * E.xmy * (1 / 3 * E.xmy ^ 2 * RJc u.1 u.2.1 u.2.2 p +
      RCc ((E.s E.x * (E.av nu + E.y) + E.s E.y * (E.av nu + E.x)) ^ 2) ((E.av nu + E.x) * (E.av nu + E.y) * p)) =
    2 * E.xmy * (RCc ((E.s E.x * (E.av nu + E.y) + E.s E.y * (E.av nu + E.x)) ^ 2) ((E.av nu + E.x) * (E.av nu + E.y) * p) +
      E.xmy ^ 2 / 3 * RJc u.1 u.2.1 u.2.2 p) by ring, this, C.J_eq]
  rw [← intervalIntegral.integral_of_le C.lt.le, ← intervalIntegral.integral_of_le (by linarith [C.lt]),
    ← intervalIntegral.integral_comp_add_right, ← intervalIntegral.integral_ofReal]
  apply intervalIntegral.integral_congr
  intro t _
  simp only
  rw [show cubic (b - 3 * (α - 1)) (c - 2 * b * (α - 1) + 3 * (α - 1) ^ 2) (d - c * (α - 1) + b * (α - 1) ^ 2 - (α - 1) ^ 3) (t + (α - 1)) =
    cubic b c d t by unfold cubic; ring, hα]
  push_cast
  rw [zpow_neg_one, div_eq_mul_inv _ (((√(cubic b c d t) : ℝ) : ℂ)), one_div, mul_inv]
  congr 2
  ring

theorem Cub.U2nu_eq (C : Cub E b c d) {nu : ℕ} (hnu : 1 ≤ nu) :
    E.U2nu 0 nu = (E.av nu - E.av 1) * E.xmy ^ 2 + (params3 (-E.av 1) (-E.av 2) (-E.av 3) E.y E.x).1 := by
  have hr : E.rest [0] = [1, 2, 3] := by simp [rest, idx3 C.h3]
  have hu := C.U2_eq.1
  rw [U2nu, hr]
  simp only
  rw [hu, d_zero (by omega), d_zero (by omega), d_zero hnu, d_eq (by omega) (by omega)]
  ring

/-- (4.27) for a cubic. -/
theorem Cub.IeOut_eq (C : Cub E b c d) {nu : ℕ} (hnu : 1 ≤ nu) {α : ℝ} (hα : E.av nu = α) (hy : 0 < α + E.y) :
    E.IeOut nu = E.J (-1) nu := by
  rw [C.third hα hy, IeOut, idx3 C.h3]
  simp only [if_true]
  have hr : E.rest [0] = [1, 2, 3] := by simp [rest, idx3 C.h3]
  have hS : E.S2 0 nu = (E.s E.x * (E.av nu + E.y) + E.s E.y * (E.av nu + E.x)) ^ 2 := by
    rw [S2, hr]
    simp only
    rw [X_eq (i := 1) (by omega), X_eq (i := 2) (by omega), X_eq (i := 3) (by omega), X_eq (i := nu) hnu, Y_eq (i := 1) (by omega),
      Y_eq (i := 2) (by omega), Y_eq (i := 3) (by omega), Y_eq (i := nu) hnu, X_zero, Y_zero, Xr_sq, Xr_sq, s3 C.h3, s3 C.h3]
    ring
  obtain ⟨-, u23, u13, -, u12, -⟩ := C.U2_eq
  rw [hS, Q2, X_zero, Y_zero, X_eq hnu, Y_eq hnu, Xr_sq, Xr_sq, C.U2nu_eq hnu, u23, u13, u12, d_zero (by omega), d_zero (by omega), d_zero (by omega),
    d_zero hnu, RJc_swap12, RJc_swap23, RJc_swap12]
  rw [show (↑E.x - -E.av nu) * (↑E.y - -E.av nu) / (1 ^ 2 * 1 ^ 2) *
      ((E.av nu - E.av 1) * E.xmy ^ 2 + (params3 (-E.av 1) (-E.av 2) (-E.av 3) E.y E.x).1) = (E.av nu + E.x) * (E.av nu + E.y) *
        ((E.av nu - E.av 1) * E.xmy ^ 2 + (params3 (-E.av 1) (-E.av 2) (-E.av 3) E.y E.x).1) by ring]
  ring

/-- (4.28) for a cubic. -/
theorem Cub.IeBr_eq (C : Cub E b c d) (h : Ok0 E) {i : ℕ} (hi : 1 ≤ i) (hi' : i ≤ 3)
    (hn : ∀ j, 1 ≤ j → j ≤ 3 → j ≠ i → E.av j ≠ E.av i) : E.IeBr i = E.J (-1) i := by
  obtain ⟨u01, u23, u13, u02, u12, u03, u10, u32, u31, u20, u21, u30⟩ := C.U2_eq
  have n : ∀ j, 1 ≤ j → j ≤ 3 → j ≠ i → E.av j - E.av i ≠ 0 := fun j j1 j2 j3 => sub_ne_zero.mpr (hn j j1 j2 j3)
  have hi3 : i = 1 ∨ i = 2 ∨ i = 3 := by omega
  rcases hi3 with rfl | rfl | rfl
  · have hr : E.rest [1] = [0, 2, 3] := by simp [rest, idx3 C.h3]
    rw [IeBr, hr, C.inv h (i := 1) (j := 2) (k := 3) (List.Perm.refl _) (n 2 (by omega) (by omega) (by omega)) (n 3 (by omega) (by omega) (by omega)) C.ok]
    simp only [if_true, d_zero (E := E) (j := 1) (by omega), d_zero (E := E) (j := 2) (by omega), d_zero (E := E) (j := 3) (by omega),
      X_zero, Y_zero, X_eq (E := E) (i := 1) (by omega), Y_eq (E := E) (i := 1) (by omega), u12, u02, u10]
    rw [RDc_swap12]
    ring
  · have hr : E.rest [2] = [0, 1, 3] := by simp [rest, idx3 C.h3]
    rw [IeBr, hr, C.inv h (i := 2) (j := 1) (k := 3) (by decide) (n 1 (by omega) (by omega) (by omega)) (n 3 (by omega) (by omega) (by omega)) C.ok.swap12]
    have eu : params3 (-E.av 2) (-E.av 1) (-E.av 3) E.y E.x = ((params3 (-E.av 1) (-E.av 2) (-E.av 3) E.y E.x).2.1,
        (params3 (-E.av 1) (-E.av 2) (-E.av 3) E.y E.x).1, (params3 (-E.av 1) (-E.av 2) (-E.av 3) E.y E.x).2.2) := by
      simp only [params3, Prod.mk.injEq]; refine ⟨?_, ?_, ?_⟩ <;> ring
    simp only [if_true, d_zero (E := E) (j := 1) (by omega), d_zero (E := E) (j := 2) (by omega), d_zero (E := E) (j := 3) (by omega),
      X_zero, Y_zero, X_eq (E := E) (i := 2) (by omega), Y_eq (E := E) (i := 2) (by omega), u21, u01, u20, eu]
    rw [RDc_swap12]
    ring
  · have hr : E.rest [3] = [0, 1, 2] := by simp [rest, idx3 C.h3]
    rw [IeBr, hr, C.inv h (i := 3) (j := 1) (k := 2) (by decide) (n 1 (by omega) (by omega) (by omega)) (n 2 (by omega) (by omega) (by omega)) C.ok.swap23.swap12]
    have eu : params3 (-E.av 3) (-E.av 1) (-E.av 2) E.y E.x = ((params3 (-E.av 1) (-E.av 2) (-E.av 3) E.y E.x).2.2,
        (params3 (-E.av 1) (-E.av 2) (-E.av 3) E.y E.x).1, (params3 (-E.av 1) (-E.av 2) (-E.av 3) E.y E.x).2.1) := by
      simp only [params3, Prod.mk.injEq]; refine ⟨?_, ?_, ?_⟩ <;> ring
    simp only [if_true, d_zero (E := E) (j := 1) (by omega), d_zero (E := E) (j := 2) (by omega), d_zero (E := E) (j := 3) (by omega),
      X_zero, Y_zero, X_eq (E := E) (i := 3) (by omega), Y_eq (E := E) (i := 3) (by omega), u31, u01, u30, eu]
    rw [RDc_swap12]
    ring

/-- DLMF 19.29.16 for a cubic. -/
theorem Cub.IePos_eq (C : Cub E b c d) (h : Ok0 E) {i : ℕ} (hi : 1 ≤ i) (hi' : i ≤ 3) : E.IePos i = E.J 1 i := by
  have gen : ∀ j k, 1 ≤ j → 1 ≤ k → [i, j, k].Perm [1, 2, 3] → [1, 2, 3].filter (· ∉ [i]) = [j, k] → E.IePos i = E.J 1 i := by
    intro j k j1 k1 hp hf
    rw [IePos, if_pos C.h3, C.J_one h hi hi' hp, hf]
    simp only
    rw [d_eq (by omega) (by omega), d_eq (by omega) (by omega)]
    rw [show (E.av i - E.av j) * (E.av i - E.av k) = (E.av j - E.av i) * (E.av k - E.av i) by ring]
    by_cases h0 : (E.av j - E.av i) * (E.av k - E.av i) = 0
    · rw [h0, zero_mul, zero_mul]
    · rw [mul_eq_zero, not_or] at h0
      rw [C.IeBr_eq h hi hi' fun l l1 l2 l3 => ?_]
      have hl : l ∈ [i, j, k] := hp.mem_iff.mpr (by simp only [List.mem_cons, List.not_mem_nil, or_false]; omega)
      simp only [List.mem_cons, List.not_mem_nil, or_false] at hl
      rcases hl with rfl | rfl | rfl
      · exact absurd rfl l3
      · exact sub_ne_zero.mp h0.1
      · exact sub_ne_zero.mp h0.2
  have hi3 : i = 1 ∨ i = 2 ∨ i = 3 := by omega
  rcases hi3 with rfl | rfl | rfl
  · exact gen 2 3 (by omega) (by omega) (List.Perm.refl _) (by decide)
  · exact gen 1 3 (by omega) (by omega) (by decide) (by decide)
  · exact gen 1 2 (by omega) (by omega) (by decide) (by decide)

/-- (4.30) in terms of the integrals. -/
theorem J_shift (h : Ok0 E) {j : ℕ} (h1 : 1 ≤ j) (h2 : j ≤ E.n) : E.J 1 j = E.J 1 1 + E.d j 1 * E.J 0 1 := by
  have hn : 1 ≤ E.n := by omega
  have i0 := J_int h le_rfl hn 0
  have i1 := J_int h le_rfl hn 1
  simp only [J]
  rw [← intervalIntegral.integral_const_mul, ← intervalIntegral.integral_add i1 (i0.const_mul _)]
  apply intervalIntegral.integral_congr
  intro t _
  simp only [zpow_one, zpow_zero]
  rw [d_eq (by omega) (by omega)]
  ring

/-- All the basic integrals of a cubic. -/
theorem Cub.Ie_eq0 (C : Cub E b c d) (h : Ok0 E) (hr : ∀ j, 3 < j → j ≤ E.n → ∃ α : ℝ, E.av j = α ∧ 0 < α + E.y)
    {j : ℕ} (hn : j ≤ 3 → ∀ i, 1 ≤ i → i ≤ 3 → i ≠ j → E.av i ≠ E.av j) (h1 : 1 ≤ j) (h2 : j ≤ E.n) {q : ℤ} (q1 : -1 ≤ q) (q2 : q ≤ 1) : E.Ie (q * j) = E.J q j := by
  have h3 := C.h3
  have hq : q = -1 ∨ q = 0 ∨ q = 1 := by omega
  rcases hq with rfl | rfl | rfl
  · rw [Ie]
    by_cases hj : 3 < j
    · obtain ⟨α, a1, a2⟩ := hr j hj h2
      rw [if_pos (by rw [h3]; push_cast; omega), show (-(-1 * (j : ℤ))).toNat = j by omega, C.IeOut_eq h1 a1 a2]
    · rw [if_neg (by rw [h3]; push_cast; omega), if_pos (by omega), show (-(-1 * (j : ℤ))).toNat = j by omega, C.IeBr_eq h h1 (by omega) (hn (by omega))]
  · rw [Ie, if_neg (by omega), if_neg (by omega), if_pos (by ring), C.Ie0_eq j]
  · rw [Ie, if_neg (by omega), if_neg (by omega), if_neg (by omega)]
    by_cases hj : 3 < j
    · rw [if_neg (by rw [h3]; push_cast; omega), C.IePos_eq h le_rfl (by omega), C.Ie0_eq 1, J_shift h h1 h2, show (1 * (j : ℤ)).toNat = j by omega]
    · rw [if_pos (by rw [h3]; push_cast; omega), show (1 * (j : ℤ)).toNat = j by omega, C.IePos_eq h h1 (by omega)]

theorem Cub.Ie_eq (C : Cub E b c d) (h : Ok E) (hr : ∀ j, 3 < j → j ≤ E.n → ∃ α : ℝ, E.av j = α ∧ 0 < α + E.y)
    {j : ℕ} (h1 : 1 ≤ j) (h2 : j ≤ E.n) {q : ℤ} (q1 : -1 ≤ q) (q2 : q ≤ 1) : E.Ie (q * j) = E.J q j := by
  have hle := h.le
  have h3 := C.h3
  exact C.Ie_eq0 h hr (fun a1 i a2 a3 a4 e => a4 (h.inj (by omega) (by omega) (by omega) (by omega) e)) h1 h2 q1 q2

end EllRed

end Verif.Ellred
