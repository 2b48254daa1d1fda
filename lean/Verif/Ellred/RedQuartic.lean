import Verif.Ellred.RedSwap
import Verif.Ellred.QuarticAbs

/-! # The basic integrals of a quartic -/

namespace Verif.Ellred

open MeasureTheory Set Verif.Carlson
open QuarticOK (lam W2 cJ M Good)

namespace EllRed

variable {E : EllRed}

theorem idx4 (hh : E.h = 4) : E.idxSet = [1, 2, 3, 4] := by simp [idxSet, hh, List.range_succ]

theorem s4 (hh : E.h = 4) (t : ℝ) : E.s t = Xr (-E.av 1) t * Xr (-E.av 2) t * Xr (-E.av 3) t * Xr (-E.av 4) t := by
  simp [s, hh, List.range_succ, mul_assoc, Xr, add_comm]

/-- The quartic has real coefficients and is positive from the lower limit on; the upper limit is larger. -/
structure Quar (E : EllRed) (b c d e : ℝ) : Prop where
  h4 : E.h = 4
  lt : E.y < E.x
  ok : QuarticOK E.y (-E.av 1) (-E.av 2) (-E.av 3) (-E.av 4) b c d e

variable {b c d e : ℝ}

theorem Quar.s_eq (C : Quar E b c d e) {t : ℝ} (ht : t ∈ Icc E.y E.x) : E.s t = ((√(quartic b c d e t) : ℝ) : ℂ) := by
  rw [s4 C.h4, C.ok.sqrt_eq ht.1]

theorem Quar.J_eq (C : Quar E b c d e) (q : ℤ) (j : ℕ) :
    E.J q j = ∫ t in Ioc E.y E.x, (E.av j + (t : ℂ)) ^ q / ((√(quartic b c d e t) : ℝ) : ℂ) := by
  rw [J, intervalIntegral.integral_of_le C.lt.le]
  apply setIntegral_congr_fun measurableSet_Ioc
  intro t ht
  simp only
  rw [C.s_eq ⟨ht.1.le, ht.2⟩]

/-- The roots in the order `i, j, k, l`. -/
structure Ord (E : EllRed) (b c d e : ℝ) (i j k l : ℕ) : Prop where
  pi : 1 ≤ i
  pj : 1 ≤ j
  pk : 1 ≤ k
  pl : 1 ≤ l
  ok : QuarticOK E.y (-E.av i) (-E.av j) (-E.av k) (-E.av l) b c d e
  uij : E.U2 i j = (params4 (-E.av i) (-E.av j) (-E.av k) (-E.av l) E.y E.x).1
  ujk : E.U2 j k = (params4 (-E.av i) (-E.av j) (-E.av k) (-E.av l) E.y E.x).2.2
  uik : E.U2 i k = (params4 (-E.av i) (-E.av j) (-E.av k) (-E.av l) E.y E.x).2.1
  uli : E.U2 l i = (params4 (-E.av i) (-E.av j) (-E.av k) (-E.av l) E.y E.x).2.2
  ulj : E.U2 l j = (params4 (-E.av i) (-E.av j) (-E.av k) (-E.av l) E.y E.x).2.1
  rj : ∀ p, RJc (E.U2 1 2) (E.U2 1 3) (E.U2 2 3) p = RJc (E.U2 i j) (E.U2 i k) (E.U2 j k) p

theorem Ord.dij {i j k l : ℕ} (o : Ord E b c d e i j k l) : E.d i j = E.av i - E.av j ∧ E.d i k = E.av i - E.av k ∧
    E.d i l = E.av i - E.av l := by
  have := o.pi
  have := o.pj
  have := o.pk
  have := o.pl
  exact ⟨d_eq (by omega) (by omega), d_eq (by omega) (by omega), d_eq (by omega) (by omega)⟩

theorem Quar.ord (C : Quar E b c d e) : Ord E b c d e 1 2 3 4 ∧ Ord E b c d e 2 1 3 4 ∧ Ord E b c d e 3 1 2 4 ∧ Ord E b c d e 4 1 2 3 ∧
    Ord E b c d e 2 3 4 1 ∧ Ord E b c d e 1 3 4 2 ∧ Ord E b c d e 1 2 4 3 := by
  have x1 := X_eq (E := E) (i := 1) (by omega)
  have x2 := X_eq (E := E) (i := 2) (by omega)
  have x3 := X_eq (E := E) (i := 3) (by omega)
  have x4 := X_eq (E := E) (i := 4) (by omega)
  have y1 := Y_eq (E := E) (i := 1) (by omega)
  have y2 := Y_eq (E := E) (i := 2) (by omega)
  have y3 := Y_eq (E := E) (i := 3) (by omega)
  have y4 := Y_eq (E := E) (i := 4) (by omega)
  have u12 : E.U2 1 2 = (E.X 1 * E.X 2 * E.Y 3 * E.Y 4 + E.Y 1 * E.Y 2 * E.X 3 * E.X 4) ^ 2 := by simp [U2, rest, idx4 C.h4]
  have u21 : E.U2 2 1 = E.U2 1 2 := by simp [U2, rest, idx4 C.h4]; ring
  have u34 : E.U2 3 4 = E.U2 1 2 := by simp [U2, rest, idx4 C.h4]; ring
  have u43 : E.U2 4 3 = E.U2 1 2 := by simp [U2, rest, idx4 C.h4]; ring
  have u13 : E.U2 1 3 = (E.X 1 * E.X 3 * E.Y 2 * E.Y 4 + E.Y 1 * E.Y 3 * E.X 2 * E.X 4) ^ 2 := by simp [U2, rest, idx4 C.h4]
  have u31 : E.U2 3 1 = E.U2 1 3 := by simp [U2, rest, idx4 C.h4]; ring
  have u24 : E.U2 2 4 = E.U2 1 3 := by simp [U2, rest, idx4 C.h4]; ring
  have u42 : E.U2 4 2 = E.U2 1 3 := by simp [U2, rest, idx4 C.h4]; ring
  have u23 : E.U2 2 3 = (E.X 2 * E.X 3 * E.Y 1 * E.Y 4 + E.Y 2 * E.Y 3 * E.X 1 * E.X 4) ^ 2 := by simp [U2, rest, idx4 C.h4]
  have u32 : E.U2 3 2 = E.U2 2 3 := by simp [U2, rest, idx4 C.h4]; ring
  have u14 : E.U2 1 4 = E.U2 2 3 := by simp [U2, rest, idx4 C.h4]; ring
  have u41 : E.U2 4 1 = E.U2 2 3 := by simp [U2, rest, idx4 C.h4]; ring
  rw [x1, x2, x3, x4, y1, y2, y3, y4] at u12 u13 u23
  have p1 : ∀ u v w p, RJc u v w p = RJc v u w p := RJc_swap12
  have p2 : ∀ u v w p, RJc u v w p = RJc u w v p := RJc_swap23
  refine ⟨⟨by omega, by omega, by omega, by omega, C.ok, ?_, ?_, ?_, ?_, ?_, fun p => rfl⟩,
    ⟨by omega, by omega, by omega, by omega, C.ok.swap12, ?_, ?_, ?_, ?_, ?_, fun p => by rw [u21, p2]⟩,
    ⟨by omega, by omega, by omega, by omega, C.ok.swap23.swap12, ?_, ?_, ?_, ?_, ?_, fun p => by rw [u31, u32, p1, p2]⟩,
    ⟨by omega, by omega, by omega, by omega, C.ok.swap34.swap23.swap12, ?_, ?_, ?_, ?_, ?_, fun p => by rw [u41, u42, p1, p2, p1]⟩,
    ⟨by omega, by omega, by omega, by omega, C.ok.swap12.swap23.swap34, ?_, ?_, ?_, ?_, ?_, fun p => by rw [u24, u34, p1, p2, p1]⟩,
    ⟨by omega, by omega, by omega, by omega, C.ok.swap23.swap34, ?_, ?_, ?_, ?_, ?_, fun p => by rw [u14, u34, p1, p2]⟩,
    ⟨by omega, by omega, by omega, by omega, C.ok.swap34, ?_, ?_, ?_, ?_, ?_, fun p => by rw [u14, u24, p2]⟩⟩
  all_goals
    simp only [u21, u34, u43, u31, u24, u42, u32, u14, u41, u12, u13, u23, params4]
    ring

theorem Quar.Ie0_eq (C : Quar E b c d e) (j : ℕ) : E.Ie0 = E.J 0 j := by
  have := C.ok.rf_eq C.lt
  have o := C.ord.1
  simp only at this
  rw [Ie0, xmy_eq, o.uij, o.uik, o.ujk, C.J_eq, this, ← integral_complex_ofReal]
  simp

/-- `∫ (a_i + t) / ((a_l + t) s)`. -/
theorem Quar.frac (C : Quar E b c d e) (h : Ok0 E) {i j k l : ℕ} (o : Ord E b c d e i j k l) (hi : i ≤ E.n) (hl : l ≤ E.n) :
    E.J 0 i + (E.av i - E.av l) * E.J (-1) l = 2 * E.xmy * ((E.av i - E.av j) * (E.av i - E.av k) / 3 * E.xmy ^ 2 *
      RDc (E.U2 i j) (E.U2 l j) (E.U2 l i) + E.X i * E.Y i / (E.X l * E.Y l * csqrt (E.U2 l i))) := by
  have := o.ok.frac_eq C.lt
  simp only at this
  rw [← o.uij, ← o.uli, ← o.ulj] at this
  have i0 := J_int h o.pi hi 0
  have i1 := J_int h o.pl hl (-1)
  rw [J, J, ← intervalIntegral.integral_const_mul, ← intervalIntegral.integral_add i0 (i1.const_mul _), intervalIntegral.integral_of_le C.lt.le]
  rw [show (∫ t in Ioc E.y E.x, ((E.av i + (t : ℂ)) ^ (0 : ℤ) / E.s t + (E.av i - E.av l) * ((E.av l + (t : ℂ)) ^ (-1 : ℤ) / E.s t))) =
    ∫ t in Ioc E.y E.x, ((t : ℂ) - -E.av i) / ((t - -E.av l) * √(quartic b c d e t)) by
      apply setIntegral_congr_fun measurableSet_Ioc
      intro t ht
      have ht' : t ∈ Icc E.y E.x := ⟨ht.1.le, ht.2⟩
      simp only
      rw [C.s_eq ht', zpow_zero, zpow_neg_one]
      have := o.ok.cs_ne ht'.1
      have n2 := h.u_ne o.pl hl (t := t) (by rw [uIcc_of_le C.lt.le]; exact ht')
      have n3 : (t : ℂ) - -E.av l ≠ 0 := by rwa [sub_neg_eq_add, add_comm]
      field_simp
      ring, this, X_eq o.pi, Y_eq o.pi, X_eq o.pl, Y_eq o.pl, xmy_eq]
  obtain ⟨n1, -, -, n4⟩ := o.ok.X_ne C.lt.le
  obtain ⟨m1, -, -, m4⟩ := o.ok.X_ne le_rfl
  rw [div_div, div_div]
  ring

/-- (4.28) for a quartic. -/
theorem Quar.IeBr_eq (C : Quar E b c d e) (h : Ok0 E) {i : ℕ} (hi : 1 ≤ i) (hi' : i ≤ 4)
    (hn : ∀ j, 1 ≤ j → j ≤ 2 → j ≠ i → E.d j i ≠ 0) : E.IeBr i = E.J (-1) i := by
  have hle := h.le
  have h4 := C.h4
  obtain ⟨o1, o2, o3, o4, o5, o6, o7⟩ := C.ord
  have gen : ∀ j k l, E.rest [i] = [j, k, l] → Ord E b c d e j k l i → j ≤ 2 → i ≠ j → E.IeBr i = E.J (-1) i := by
    intro j k l hr o hj hij
    have e1 := C.frac h o (by omega) (by omega)
    rw [IeBr, hr]
    simp only
    have nd := hn j o.pi hj (Ne.symm hij)
    rw [if_neg (by have := o.pi; omega), div_eq_iff nd]
    rw [o.dij.1, o.dij.2.1, o.dij.2.2, RDc_swap12, C.Ie0_eq j]
    linear_combination -e1
  have hi4 : i = 1 ∨ i = 2 ∨ i = 3 ∨ i = 4 := by omega
  rcases hi4 with rfl | rfl | rfl | rfl
  · exact gen 2 3 4 (by simp [rest, idx4 C.h4]) o5 (by omega) (by omega)
  · exact gen 1 3 4 (by simp [rest, idx4 C.h4]) o6 (by omega) (by omega)
  · exact gen 1 2 4 (by simp [rest, idx4 C.h4]) o7 (by omega) (by omega)
  · exact gen 1 2 3 (by simp [rest, idx4 C.h4]) o1 (by omega) (by omega)

/-- The argument of `R_J`. -/
theorem Ord.U2nu_W2 {i j k l : ℕ} (o : Ord E b c d e i j k l) (hlt : E.y < E.x) (hr : E.rest [i] = [j, k, l]) (nu : ℕ) (α β : ℝ)
    (di : lam α β (-E.av i) = -E.d i nu) (dj : lam α β (-E.av j) = -E.d j nu) :
    E.xmy ^ 2 * W2 α β E.y (-E.av i) (-E.av j) (-E.av k) (-E.av l) E.x = E.U2nu i nu := by
  rw [U2nu, hr]
  simp only
  rw [o.uij, QuarticOK.params4_eq hlt, W2, di, dj, o.dij.2.1, o.dij.2.2, xmy_eq]
  rw [mul_neg, neg_div_neg_eq]
  push_cast
  ring

/-- The integral of the third kind. -/
theorem Ord.third {i j k l : ℕ} (o : Ord E b c d e i j k l) (h4 : E.h = 4) (hlt : E.y < E.x) (hr : E.rest [i] = [j, k, l]) (nu : ℕ) (α β : ℝ)
    (di : lam α β (-E.av i) = -E.d i nu) (dj : lam α β (-E.av j) = -E.d j nu) (hd : E.d i nu ≠ 0)
    (hx : lam α β E.x = E.X nu ^ 2) (hy : lam α β E.y = E.Y nu ^ 2)
    (hlam : ∀ t ∈ Icc E.y E.x, 0 < α + β * t) (hg : Good α β E.y E.x (-E.av i) (-E.av j) (-E.av k) (-E.av l)) :
    ∫ t in Ioc E.y E.x, (E.av i + (t : ℂ)) / (lam α β t * √(quartic b c d e t)) =
      2 * E.xmy * (E.d i j * E.d i k * E.d i l / E.d i nu / 3 * E.xmy ^ 2 * RJc (E.U2 1 2) (E.U2 1 3) (E.U2 2 3) (E.U2nu i nu) +
        RCc (E.S2 i nu) (E.Q2 i nu)) := by
  have h3 := o.ok.third_good (α := α) (β := β) hlt (by rw [di]; exact neg_ne_zero.mpr hd) hlam hg
  simp only at h3
  have hS : E.S2 i nu = M α β E.y (-E.av i) (-E.av j) (-E.av k) (-E.av l) E.x ^ 2 := by
    rw [S2, hr]
    simp only
    rw [M, ← X_eq o.pi, ← X_eq o.pj, ← X_eq o.pk, ← X_eq o.pl, ← Y_eq o.pi, ← Y_eq o.pj, ← Y_eq o.pk, ← Y_eq o.pl, hx, hy]
  have hQ : E.Q2 i nu = lam α β E.x * lam α β E.y * (E.xmy ^ 2 * W2 α β E.y (-E.av i) (-E.av j) (-E.av k) (-E.av l) E.x) /
      (Xr (-E.av i) E.x ^ 2 * Xr (-E.av i) E.y ^ 2) := by
    rw [Q2, o.U2nu_W2 hlt hr nu α β di dj, hx, hy, X_eq o.pi, Y_eq o.pi]
    ring
  rw [← xmy_eq, ← hS, ← hQ, ← o.uij, ← o.uik, ← o.ujk, o.U2nu_W2 hlt hr nu α β di dj, ← o.rj, cJ, di] at h3
  have e0 : (∫ t in Ioc E.y E.x, (E.av i + (t : ℂ)) / (lam α β t * √(quartic b c d e t))) =
      ∫ t in Ioc E.y E.x, ((t : ℂ) - -E.av i) / (lam α β t * √(quartic b c d e t)) := by
    apply setIntegral_congr_fun measurableSet_Ioc
    intro t _
    simp only [sub_neg_eq_add, add_comm]
  rw [e0, h3, o.dij.1, o.dij.2.1, o.dij.2.2]
  field_simp
  ring

/-- The condition under which `R_J` and `R_C` give the integral. -/
structure Quar.Third (E : EllRed) : Prop where
  one : Good 1 0 E.y E.x (-E.av 1) (-E.av 2) (-E.av 3) (-E.av 4)
  two : Good 1 0 E.y E.x (-E.av 2) (-E.av 1) (-E.av 3) (-E.av 4)
  three : Good 1 0 E.y E.x (-E.av 3) (-E.av 1) (-E.av 2) (-E.av 4)
  four : Good 1 0 E.y E.x (-E.av 4) (-E.av 1) (-E.av 2) (-E.av 3)
  out : ∀ j, 4 < j → j ≤ E.n → ∃ α : ℝ, E.av j = α ∧ 0 < α + E.y ∧ Good α 1 E.y E.x (-E.av 1) (-E.av 2) (-E.av 3) (-E.av 4)

theorem d_to_zero {i : ℕ} (hi : 1 ≤ i) : E.d i 0 = -1 := by
  rw [d, if_pos (by omega)]; simp [av]

theorem Quar.IePos_gen (C : Quar E b c d e) {i j k l : ℕ} (hr : E.rest [i] = [j, k, l]) (o : Ord E b c d e i j k l)
    (hg : Good 1 0 E.y E.x (-E.av i) (-E.av j) (-E.av k) (-E.av l)) : E.IePos i = E.J 1 i := by
  have h4 := C.h4
  have hi0 := d_to_zero (E := E) o.pi
  have hj0 := d_to_zero (E := E) o.pj
  have := o.third C.h4 C.lt hr 0 1 0 (by rw [hi0]; simp [lam]) (by rw [hj0]; simp [lam]) (by rw [hi0]; simp)
    (by simp [lam, X_zero]) (by simp [lam, Y_zero]) (fun t _ => by norm_num) hg
  have e0 : (∫ t in Ioc E.y E.x, (E.av i + (t : ℂ)) / (lam 1 0 t * √(quartic b c d e t))) = E.J 1 i := by
    rw [C.J_eq]
    apply setIntegral_congr_fun measurableSet_Ioc
    intro t _
    simp [lam]
  rw [← e0, this, IePos, if_neg (by omega), hr]
  simp only
  rw [hi0]
  ring

/-- (4.29). -/
theorem Quar.IePos_eq (C : Quar E b c d e) (T : Quar.Third E) {i : ℕ} (hi : 1 ≤ i) (hi' : i ≤ 4) : E.IePos i = E.J 1 i := by
  obtain ⟨o1, o2, o3, o4, -⟩ := C.ord
  have hi4 : i = 1 ∨ i = 2 ∨ i = 3 ∨ i = 4 := by omega
  rcases hi4 with rfl | rfl | rfl | rfl
  · exact C.IePos_gen (by simp [rest, idx4 C.h4]) o1 T.one
  · exact C.IePos_gen (by simp [rest, idx4 C.h4]) o2 T.two
  · exact C.IePos_gen (by simp [rest, idx4 C.h4]) o3 T.three
  · exact C.IePos_gen (by simp [rest, idx4 C.h4]) o4 T.four

/-- (4.27) for a quartic. -/
theorem Quar.IeOut_eq (C : Quar E b c d e) (h : Ok E) (T : Quar.Third E) {nu : ℕ} (h1 : 4 < nu) (h2 : nu ≤ E.n) : E.IeOut nu = E.J (-1) nu := by
  obtain ⟨α, hα, hy, hg⟩ := T.out nu h1 h2
  have o := C.ord.1
  have hd := d_ne h (i := 1) (j := nu) le_rfl (by omega) (by omega) h2 (by omega)
  have hlam : ∀ t : ℝ, lam α 1 t = E.av nu + t := fun t => by rw [lam, hα]; simp
  have := o.third C.h4 C.lt (by simp [rest, idx4 C.h4]) nu α 1
    (by rw [d_eq (by omega) (by omega), hα, lam]; push_cast; ring) (by rw [d_eq (by omega) (by omega), hα, lam]; push_cast; ring) hd
    (by rw [hlam, X_eq (by omega), Xr_sq]; ring) (by rw [hlam, Y_eq (by omega), Xr_sq]; ring)
    (fun t ht => by linarith [ht.1]) hg
  rw [IeOut, idx4 C.h4]
  simp only
  rw [if_neg (by omega), div_eq_iff hd, ← this, C.Ie0_eq 1]
  have i0 := J_int h le_rfl (by omega : 1 ≤ E.n) 0
  have i1 := J_int h (by omega : 1 ≤ nu) h2 (-1)
  have e0 : (∫ t in Ioc E.y E.x, (E.av 1 + (t : ℂ)) / (lam α 1 t * √(quartic b c d e t))) = E.J 0 1 + E.d 1 nu * E.J (-1) nu := by
    rw [J, J, ← intervalIntegral.integral_const_mul, ← intervalIntegral.integral_add i0 (i1.const_mul _), intervalIntegral.integral_of_le C.lt.le]
    apply setIntegral_congr_fun measurableSet_Ioc
    intro t ht
    have ht' : t ∈ Icc E.y E.x := ⟨ht.1.le, ht.2⟩
    simp only
    rw [C.s_eq ht', zpow_zero, zpow_neg_one, hlam, d_eq (by omega) (by omega)]
    have := o.ok.cs_ne ht'.1
    have n2 := h.u_ne (by omega : 1 ≤ nu) h2 (t := t) (by rw [uIcc_of_le C.lt.le]; exact ht')
    field_simp
    ring
  rw [e0]
  ring

/-- All the basic integrals of a quartic. -/
theorem Quar.Ie_eq (C : Quar E b c d e) (h : Ok E) (T : Quar.Third E)
    {j : ℕ} (h1 : 1 ≤ j) (h2 : j ≤ E.n) {q : ℤ} (q1 : -1 ≤ q) (q2 : q ≤ 1) : E.Ie (q * j) = E.J q j := by
  have h4 := C.h4
  have hle := h.le
  have hq : q = -1 ∨ q = 0 ∨ q = 1 := by omega
  rcases hq with rfl | rfl | rfl
  · rw [Ie]
    by_cases hj : 4 < j
    · rw [if_pos (by rw [h4]; push_cast; omega), show (-(-1 * (j : ℤ))).toNat = j by omega, C.IeOut_eq h T hj h2]
    · rw [if_neg (by rw [h4]; push_cast; omega), if_pos (by omega), show (-(-1 * (j : ℤ))).toNat = j by omega, C.IeBr_eq h h1 (by omega) fun i i1 i2 i3 => d_ne h i1 (by omega) (by omega) (by omega) i3]
  · rw [Ie, if_neg (by omega), if_neg (by omega), if_pos (by ring), C.Ie0_eq j]
  · rw [Ie, if_neg (by omega), if_neg (by omega), if_neg (by omega)]
    by_cases hj : 4 < j
    · rw [if_neg (by rw [h4]; push_cast; omega), C.IePos_eq T le_rfl (by omega), C.Ie0_eq 1, J_shift h h1 h2, show (1 * (j : ℤ)).toNat = j by omega]
    · rw [if_pos (by rw [h4]; push_cast; omega), show (1 * (j : ℤ)).toNat = j by omega, C.IePos_eq T h1 (by omega)]

end EllRed

end Verif.Ellred
