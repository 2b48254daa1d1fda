import Verif.Ellred.RedModel
import Verif.Ellred.CubicAbs
import Verif.Roots.Lemmas
import Mathlib.Data.List.GetD

/-! # The recurrence for the powers of one factor -/

namespace Verif.Ellred

open MeasureTheory Set Verif.Carlson

namespace EllRed

variable {E : EllRed}

/-- The factors stay off the cut between the limits; there are at least `h` of them. -/
structure Ok0 (E : EllRed) : Prop where
  le : E.h ≤ E.n
  slit : ∀ b ∈ E.a, ∀ t ∈ uIcc E.y E.x, b + (t : ℂ) ∈ Complex.slitPlane

/-- Moreover they are distinct. -/
structure Ok (E : EllRed) : Prop extends Ok0 E where
  nodup : E.a.Nodup

instance : Coe (Ok E) (Ok0 E) := ⟨Ok.toOk0⟩

theorem d_eq {i j : ℕ} (hi : i ≠ 0) (hj : j ≠ 0) : E.d i j = E.av i - E.av j := by
  unfold d
  split_ifs <;> simp

theorem Ok0.mem (_h : Ok0 E) {j : ℕ} (h1 : 1 ≤ j) (h2 : j ≤ E.n) : E.av j ∈ E.a := by
  have : j - 1 < E.a.length := by unfold n at h2; omega
  rw [av, if_pos (by omega), List.getD_eq_getElem _ _ this]
  exact List.getElem_mem this

theorem Ok0.slit' (h : Ok0 E) {j : ℕ} (h1 : 1 ≤ j) (h2 : j ≤ E.n) {t : ℝ} (ht : t ∈ uIcc E.y E.x) : E.av j + (t : ℂ) ∈ Complex.slitPlane :=
  h.slit _ (h.mem h1 h2) t ht

theorem Ok0.u_ne (h : Ok0 E) {j : ℕ} (h1 : 1 ≤ j) (h2 : j ≤ E.n) {t : ℝ} (ht : t ∈ uIcc E.y E.x) : E.av j + (t : ℂ) ≠ 0 :=
  Complex.slitPlane_ne_zero (h.slit' h1 h2 ht)

theorem Ok.inj (h : Ok E) {i j : ℕ} (hi : 1 ≤ i) (hi' : i ≤ E.n) (hj : 1 ≤ j) (hj' : j ≤ E.n) (e : E.av i = E.av j) : i = j := by
  have a1 : i - 1 < E.a.length := by unfold n at hi'; omega
  have a2 : j - 1 < E.a.length := by unfold n at hj'; omega
  rw [av, av, if_pos (by omega), if_pos (by omega), List.getD_eq_getElem _ _ a1, List.getD_eq_getElem _ _ a2] at e
  have := (h.nodup.getElem_inj_iff).mp e
  omega

theorem csqrt_deriv {b : ℂ} {t : ℝ} (h : b + (t : ℂ) ∈ Complex.slitPlane) :
    HasDerivAt (fun t : ℝ => csqrt (b + t)) (1 / (2 * csqrt (b + t))) t := by
  have := Xr_deriv (r := -b) (t := t) (by rwa [sub_neg_eq_add, add_comm])
  have e : Xr (-b) = fun t : ℝ => csqrt (b + t) := by funext t; rw [Xr, sub_neg_eq_add, add_comm]
  rw [e] at this
  exact this

theorem csqrt_ne {z : ℂ} (h : z ≠ 0) : csqrt z ≠ 0 := fun e => h (by rw [← csqrt_sq z, e, zero_mul])

theorem s_ne (h : Ok0 E) {t : ℝ} (ht : t ∈ uIcc E.y E.x) : E.s t ≠ 0 := by
  rw [s]
  apply List.prod_ne_zero
  intro hc
  obtain ⟨i, hi, e⟩ := List.mem_map.mp hc
  have hi := List.mem_range.mp hi
  exact csqrt_ne (h.u_ne (by omega) (by have := h.le; omega) ht) e

theorem sigma3 (hh : E.h = 3) (j : ℕ) : E.sigma 0 j = 1 ∧ E.sigma 1 j = E.d 1 j + E.d 2 j + E.d 3 j ∧
    E.sigma 2 j = E.d 1 j * E.d 2 j + E.d 1 j * E.d 3 j + E.d 2 j * E.d 3 j ∧ E.sigma 3 j = E.d 1 j * E.d 2 j * E.d 3 j := by
  refine ⟨?_, ?_, ?_, ?_⟩ <;> simp [sigma, hh, List.range_succ, Roots.elementarySymmetric, Roots.combos, Roots.mapE, Roots.product]

theorem sigma4 (hh : E.h = 4) (j : ℕ) : E.sigma 0 j = 1 ∧ E.sigma 1 j = E.d 1 j + E.d 2 j + E.d 3 j + E.d 4 j ∧
    E.sigma 2 j = E.d 1 j * E.d 2 j + E.d 1 j * E.d 3 j + E.d 1 j * E.d 4 j + E.d 2 j * E.d 3 j + E.d 2 j * E.d 4 j + E.d 3 j * E.d 4 j ∧
    E.sigma 3 j = E.d 1 j * E.d 2 j * E.d 3 j + E.d 1 j * E.d 2 j * E.d 4 j + E.d 1 j * E.d 3 j * E.d 4 j + E.d 2 j * E.d 3 j * E.d 4 j ∧
    E.sigma 4 j = E.d 1 j * E.d 2 j * E.d 3 j * E.d 4 j := by
  refine ⟨?_, ?_, ?_, ?_, ?_⟩ <;> simp [sigma, hh, List.range_succ, Roots.elementarySymmetric, Roots.combos, Roots.mapE, Roots.product]

/-- `d(s u_j ^ (q+1)) / dt` (3.5). -/
theorem prim_deriv (h : Ok0 E) {j : ℕ} (h1 : 1 ≤ j) (h2 : j ≤ E.n) (q : ℤ) {t : ℝ} (ht : t ∈ uIcc E.y E.x) :
    HasDerivAt (fun t : ℝ => E.s t * (E.av j + (t : ℂ)) ^ (q + 1))
      (∑ r ∈ Finset.range (E.h + 1), E.IqePref q r j * ((E.av j + (t : ℂ)) ^ (q + r) / E.s t)) t := by
  have hu := h.u_ne h1 h2 ht
  have dq : HasDerivAt (fun t : ℝ => (E.av j + (t : ℂ)) ^ (q + 1)) (((q : ℂ) + 1) * (E.av j + t) ^ q) t := by
    have h3 : HasDerivAt (fun z : ℂ => (E.av j + z) ^ (q + 1)) (((q + 1 : ℤ) : ℂ) * (E.av j + (t : ℂ)) ^ (q + 1 - 1) * 1) (t : ℂ) :=
      (hasDerivAt_zpow (q + 1) (E.av j + (t : ℂ)) (Or.inl hu)).comp (t : ℂ) ((hasDerivAt_id (t : ℂ)).const_add _)
    have := h3.comp_ofReal
    refine this.congr_deriv ?_
    rw [mul_one, show q + 1 - 1 = q by ring]
    push_cast
    rfl
  have hs := s_ne h ht
  have hle := h.le
  have zp : ∀ r : ℕ, (E.av j + (t : ℂ)) ^ (q + r) = (E.av j + (t : ℂ)) ^ q * (E.av j + (t : ℂ)) ^ r := fun r => by
    rw [zpow_add₀ hu, zpow_natCast]
  have z1 : (E.av j + (t : ℂ)) ^ (q + 1) = (E.av j + (t : ℂ)) ^ q * (E.av j + (t : ℂ)) := zpow_add_one₀ hu q
  have key : ∀ i, i ≠ 0 → E.d i j = csqrt (E.av i + t) ^ 2 - (E.av j + t) := fun i hi => by
    rw [d_eq hi (by omega), sq, csqrt_sq]; ring
  rcases E.hh with hh | hh
  · have es : ∀ t, E.s t = csqrt (E.av 1 + t) * csqrt (E.av 2 + t) * csqrt (E.av 3 + t) := fun t => by simp [s, hh, List.range_succ, mul_assoc]
    have d1 := csqrt_deriv (h.slit' (j := 1) (by omega) (by omega) ht)
    have d2 := csqrt_deriv (h.slit' (j := 2) (by omega) (by omega) ht)
    have d3 := csqrt_deriv (h.slit' (j := 3) (by omega) (by omega) ht)
    have n1 := csqrt_ne (h.u_ne (j := 1) (by omega) (by omega) ht)
    have n2 := csqrt_ne (h.u_ne (j := 2) (by omega) (by omega) ht)
    have n3 := csqrt_ne (h.u_ne (j := 3) (by omega) (by omega) ht)
    have := ((d1.mul d2).mul d3).mul dq
    have e0 : (fun t : ℝ => E.s t * (E.av j + (t : ℂ)) ^ (q + 1)) =
        fun t : ℝ => csqrt (E.av 1 + t) * csqrt (E.av 2 + t) * csqrt (E.av 3 + t) * (E.av j + (t : ℂ)) ^ (q + 1) := by funext t; rw [es]
    rw [e0]
    refine this.congr_deriv ?_
    obtain ⟨s0, s1, s2, s3⟩ := sigma3 hh j
    simp only [Pi.mul_apply, IqePref, hh, Finset.sum_range_succ, Finset.sum_range_zero, Nat.sub_zero, Nat.reduceSub, s0, s1, s2, s3, es, zp, z1,
      key 1 one_ne_zero, key 2 two_ne_zero, key 3 three_ne_zero]
    generalize (E.av j + (t : ℂ)) ^ q = z at *
    generalize E.av j + (t : ℂ) = w at *
    generalize csqrt (E.av 1 + t) = c1 at *
    generalize csqrt (E.av 2 + t) = c2 at *
    generalize csqrt (E.av 3 + t) = c3 at *
    push_cast
    field_simp
    ring
  · have es : ∀ t, E.s t = csqrt (E.av 1 + t) * csqrt (E.av 2 + t) * csqrt (E.av 3 + t) * csqrt (E.av 4 + t) := fun t => by
      simp [s, hh, List.range_succ, mul_assoc]
    have d1 := csqrt_deriv (h.slit' (j := 1) (by omega) (by omega) ht)
    have d2 := csqrt_deriv (h.slit' (j := 2) (by omega) (by omega) ht)
    have d3 := csqrt_deriv (h.slit' (j := 3) (by omega) (by omega) ht)
    have d4 := csqrt_deriv (h.slit' (j := 4) (by omega) (by omega) ht)
    have n1 := csqrt_ne (h.u_ne (j := 1) (by omega) (by omega) ht)
    have n2 := csqrt_ne (h.u_ne (j := 2) (by omega) (by omega) ht)
    have n3 := csqrt_ne (h.u_ne (j := 3) (by omega) (by omega) ht)
    have n4 := csqrt_ne (h.u_ne (j := 4) (by omega) (by omega) ht)
    have := (((d1.mul d2).mul d3).mul d4).mul dq
    have e0 : (fun t : ℝ => E.s t * (E.av j + (t : ℂ)) ^ (q + 1)) =
        fun t : ℝ => csqrt (E.av 1 + t) * csqrt (E.av 2 + t) * csqrt (E.av 3 + t) * csqrt (E.av 4 + t) * (E.av j + (t : ℂ)) ^ (q + 1) := by
      funext t; rw [es]
    rw [e0]
    refine this.congr_deriv ?_
    obtain ⟨s0, s1, s2, s3, s4⟩ := sigma4 hh j
    simp only [Pi.mul_apply, IqePref, hh, Finset.sum_range_succ, Finset.sum_range_zero, Nat.sub_zero, Nat.reduceSub, s0, s1, s2, s3, s4, es, zp, z1,
      key 1 one_ne_zero, key 2 two_ne_zero, key 3 three_ne_zero, key 4 four_ne_zero]
    generalize (E.av j + (t : ℂ)) ^ q = z at *
    generalize E.av j + (t : ℂ) = w at *
    generalize csqrt (E.av 1 + t) = c1 at *
    generalize csqrt (E.av 2 + t) = c2 at *
    generalize csqrt (E.av 3 + t) = c3 at *
    generalize csqrt (E.av 4 + t) = c4 at *
    push_cast
    field_simp
    ring

/-- The integral of a power of one factor. -/
noncomputable def J (E : EllRed) (q : ℤ) (j : ℕ) : ℂ := ∫ t in E.y..E.x, (E.av j + (t : ℂ)) ^ q / E.s t

theorem s_cont (h : Ok0 E) : ContinuousOn E.s (uIcc E.y E.x) := by
  have e : E.s = fun t : ℝ => ((List.range E.h).map fun i => csqrt (E.av (i + 1) + (t : ℂ))).prod := rfl
  rw [e]
  apply continuousOn_list_prod
  intro i hi t ht
  have hi := List.mem_range.mp hi
  have := (csqrt_deriv (h.slit' (j := i + 1) (by omega) (by have := h.le; omega) ht)).continuousAt
  exact this.continuousWithinAt

theorem J_cont (h : Ok0 E) {j : ℕ} (h1 : 1 ≤ j) (h2 : j ≤ E.n) (q : ℤ) :
    ContinuousOn (fun t : ℝ => (E.av j + (t : ℂ)) ^ q / E.s t) (uIcc E.y E.x) := by
  refine ContinuousOn.div ?_ (s_cont h) fun t ht => s_ne h ht
  exact ContinuousOn.zpow₀ (by fun_prop) q fun t ht => Or.inl (h.u_ne h1 h2 ht)

theorem J_int (h : Ok0 E) {j : ℕ} (h1 : 1 ≤ j) (h2 : j ≤ E.n) (q : ℤ) :
    IntervalIntegrable (fun t : ℝ => (E.av j + (t : ℂ)) ^ q / E.s t) volume E.y E.x := (J_cont h h1 h2 q).intervalIntegrable

/-- The recurrence (3.5). -/
theorem J_rec (h : Ok0 E) {j : ℕ} (h1 : 1 ≤ j) (h2 : j ≤ E.n) (q : ℤ) :
    E.s E.x * (E.av j + (E.x : ℂ)) ^ (q + 1) - E.s E.y * (E.av j + (E.y : ℂ)) ^ (q + 1) =
      ∑ r ∈ Finset.range (E.h + 1), E.IqePref q r j * E.J (q + r) j := by
  have hi : ∀ r ∈ Finset.range (E.h + 1), IntervalIntegrable (fun t : ℝ => E.IqePref q r j * ((E.av j + (t : ℂ)) ^ (q + r) / E.s t)) volume E.y E.x :=
    fun r _ => (J_int h h1 h2 (q + r)).const_mul _
  have := intervalIntegral.integral_eq_sub_of_hasDerivAt (fun t ht => prim_deriv h h1 h2 q ht) (by
    have := IntervalIntegrable.sum _ hi
    refine this.congr ?_
    intro t _
    simp)
  rw [← this, intervalIntegral.integral_finset_sum hi]
  apply Finset.sum_congr rfl
  intro r _
  rw [intervalIntegral.integral_const_mul, J]

end EllRed

end Verif.Ellred
