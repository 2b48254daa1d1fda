import Verif.Ellred.RedRec
import Mathlib.Data.List.Indexes

/-! # `Iqe` is the integral of a power of one factor, if `Ie` is right -/

namespace Verif.Ellred

open MeasureTheory Set Verif.Carlson

namespace EllRed

variable {E : EllRed}

/-- The integrand is a rational function over `s`. -/
theorem v_eq (h : Ok0 E) {m : List ℤ} (hm : m.length = E.n) {z : ℝ} (hz : z ∈ uIcc E.y E.x) :
    E.v m z = (∏ j ∈ Finset.Icc 1 E.n, (E.av j + (z : ℂ)) ^ mget m j) / E.s z := by
  have hle := h.le
  have e1 : E.v m z = ∏ i ∈ Finset.range E.n, (E.av (i + 1) + (z : ℂ)) ^ ((mget m (i + 1) : ℂ) - (if i < E.h then 1 else 0) / 2) := by
    rw [v, List.mapIdx_eq_ofFn, List.prod_ofFn]
    have hl : (E.a.zip m).length = E.n := by rw [List.length_zip, hm]; exact min_self _
    rw [← hl, Finset.prod_range]
    apply Finset.prod_congr rfl
    intro i _
    have hi : (i : ℕ) < E.a.length := lt_of_lt_of_eq i.isLt hl
    have hi' : (i : ℕ) < m.length := by rw [hm]; exact hi
    simp [av, mget, hi, hi']
  have e2 : E.s z = ∏ i ∈ Finset.range E.n, if i < E.h then csqrt (E.av (i + 1) + z) else 1 := by
    rw [s, ← List.prod_toFinset _ List.nodup_range]
    have : (List.range E.h).toFinset = (Finset.range E.n).filter (· < E.h) := by
      ext i; simp; omega
    rw [this, Finset.prod_filter]
  have e3 : ∏ j ∈ Finset.Icc 1 E.n, (E.av j + (z : ℂ)) ^ mget m j = ∏ i ∈ Finset.range E.n, (E.av (i + 1) + (z : ℂ)) ^ mget m (i + 1) := by
    rw [Finset.range_eq_Ico, Finset.prod_Ico_add' (fun j => (E.av j + (z : ℂ)) ^ mget m j) 0 E.n 1]
    rfl
  rw [e1, e2, e3, ← Finset.prod_div_distrib]
  apply Finset.prod_congr rfl
  intro i hi
  have hi := Finset.mem_range.mp hi
  have hu := h.u_ne (j := i + 1) (by omega) (by omega) hz
  rw [Complex.cpow_sub _ _ hu, Complex.cpow_intCast]
  split_ifs with hc
  · rfl
  · simp

theorem mget_mvec {q : ℤ} {j i : ℕ} (hi : 1 ≤ i) (hi' : i ≤ E.n) :
    mget (E.mvec q j) i = (if i ≤ E.h then 1 else 0) + (q + 1) * (if i = j then 1 else 0) := by
  have hl : i - 1 < (E.mvec q j).length := by simp [mvec]; omega
  rw [mget, if_pos (by omega), List.getD_eq_getElem _ _ hl]
  simp only [mvec, List.getElem_map, List.getElem_range]
  rw [show i - 1 + 1 = i by omega]

theorem s_sq (h : Ok0 E) (z : ℝ) : E.s z ^ 2 = ∏ i ∈ Finset.Icc 1 E.n, (E.av i + (z : ℂ)) ^ (if i ≤ E.h then (1 : ℤ) else 0) := by
  have hle := h.le
  have e2 : E.s z = ∏ i ∈ Finset.range E.n, if i < E.h then csqrt (E.av (i + 1) + z) else 1 := by
    rw [s, ← List.prod_toFinset _ List.nodup_range]
    have : (List.range E.h).toFinset = (Finset.range E.n).filter (· < E.h) := by
      ext i; simp; omega
    rw [this, Finset.prod_filter]
  have e3 : ∏ i ∈ Finset.Icc 1 E.n, (E.av i + (z : ℂ)) ^ (if i ≤ E.h then (1 : ℤ) else 0) =
      ∏ i ∈ Finset.range E.n, (E.av (i + 1) + (z : ℂ)) ^ (if i + 1 ≤ E.h then (1 : ℤ) else 0) := by
    rw [Finset.range_eq_Ico, Finset.prod_Ico_add' (fun i => (E.av i + (z : ℂ)) ^ (if i ≤ E.h then (1 : ℤ) else 0)) 0 E.n 1]
    rfl
  rw [e2, e3, ← Finset.prod_pow]
  apply Finset.prod_congr rfl
  intro i _
  by_cases hc : i < E.h
  · rw [if_pos hc, if_pos (by omega), zpow_one, sq, csqrt_sq]
  · rw [if_neg hc, if_neg (by omega), zpow_zero, one_pow]

theorem v_mvec (h : Ok0 E) {j : ℕ} (h1 : 1 ≤ j) (h2 : j ≤ E.n) (q : ℤ) {z : ℝ} (hz : z ∈ uIcc E.y E.x) :
    E.v (E.mvec q j) z = E.s z * (E.av j + (z : ℂ)) ^ (q + 1) := by
  rw [v_eq h (by simp [mvec]) hz, div_eq_iff (s_ne h hz)]
  have : ∀ i ∈ Finset.Icc 1 E.n, (E.av i + (z : ℂ)) ^ mget (E.mvec q j) i =
      (E.av i + (z : ℂ)) ^ (if i ≤ E.h then (1 : ℤ) else 0) * (if i = j then (E.av j + (z : ℂ)) ^ (q + 1) else 1) := by
    intro i hi
    obtain ⟨a1, a2⟩ := Finset.mem_Icc.mp hi
    rw [mget_mvec a1 a2, zpow_add₀ (h.u_ne a1 a2 hz)]
    congr 1
    split_ifs with e
    · subst e; simp
    · simp
  rw [Finset.prod_congr rfl this, Finset.prod_mul_distrib, ← s_sq h, Finset.prod_ite_eq' _ j (fun _ => (E.av j + (z : ℂ)) ^ (q + 1)),
    if_pos (Finset.mem_Icc.mpr ⟨h1, h2⟩)]
  ring

/-- The recurrence (3.5), for `A`. -/
theorem A_rec (h : Ok0 E) {j : ℕ} (h1 : 1 ≤ j) (h2 : j ≤ E.n) (q : ℤ) :
    E.A (E.mvec q j) = ∑ r ∈ Finset.range (E.h + 1), E.IqePref q r j * E.J (q + r) j := by
  rw [← J_rec h h1 h2, A, v_mvec h h1 h2 q right_mem_uIcc, v_mvec h h1 h2 q left_mem_uIcc, ← sub_eq_add_neg]

theorem sigma_top (hj : 1 ≤ j) (hj' : j ≤ E.h) : E.sigma E.h j = 0 := by
  have hd : E.d j j = 0 := by rw [d_eq (by omega) (by omega), sub_self]
  rcases E.hh with hh | hh
  · rw [hh, (sigma3 hh j).2.2.2]
    have : j = 1 ∨ j = 2 ∨ j = 3 := by omega
    rcases this with rfl | rfl | rfl <;> rw [hd] <;> ring
  · rw [hh, (sigma4 hh j).2.2.2.2]
    have : j = 1 ∨ j = 2 ∨ j = 3 ∨ j = 4 := by omega
    rcases this with rfl | rfl | rfl | rfl <;> rw [hd] <;> ring

theorem d_ne (h : Ok E) {i j : ℕ} (hi : 1 ≤ i) (hi' : i ≤ E.n) (hj : 1 ≤ j) (hj' : j ≤ E.n) (hij : i ≠ j) : E.d i j ≠ 0 := by
  rw [d_eq (by omega) (by omega)]
  exact sub_ne_zero.mpr fun e => hij (h.inj hi hi' hj hj' e)

theorem sigma_top_ne (h : Ok E) (hj : E.h < j) (hj' : j ≤ E.n) : E.sigma E.h j ≠ 0 := by
  have n : ∀ i, 1 ≤ i → i ≤ E.h → E.d i j ≠ 0 := fun i a1 a2 => d_ne h a1 (by omega) (by omega) hj' (by omega)
  rcases E.hh with hh | hh
  · rw [hh, (sigma3 hh j).2.2.2]
    exact mul_ne_zero (mul_ne_zero (n 1 (by omega) (by omega)) (n 2 (by omega) (by omega))) (n 3 (by omega) (by omega))
  · rw [hh, (sigma4 hh j).2.2.2.2]
    exact mul_ne_zero (mul_ne_zero (mul_ne_zero (n 1 (by omega) (by omega)) (n 2 (by omega) (by omega))) (n 3 (by omega) (by omega)))
      (n 4 (by omega) (by omega))

theorem sigma_next_ne (h : Ok E) (hj : 1 ≤ j) (hj' : j ≤ E.h) : E.sigma (E.h - 1) j ≠ 0 := by
  have hd : E.d j j = 0 := by rw [d_eq (by omega) (by omega), sub_self]
  have hle := h.le
  have n : ∀ i, 1 ≤ i → i ≤ E.h → i ≠ j → E.d i j ≠ 0 := fun i a1 a2 a3 => d_ne h a1 (by omega) (by omega) (by omega) a3
  rcases E.hh with hh | hh
  · rw [hh, (sigma3 hh j).2.2.1]
    have : j = 1 ∨ j = 2 ∨ j = 3 := by omega
    rcases this with rfl | rfl | rfl <;> rw [hd] <;> simp only [zero_mul, mul_zero, zero_add, add_zero] <;>
      refine mul_ne_zero (n _ ?_ ?_ ?_) (n _ ?_ ?_ ?_) <;> omega
  · rw [hh, (sigma4 hh j).2.2.2.1]
    have : j = 1 ∨ j = 2 ∨ j = 3 ∨ j = 4 := by omega
    rcases this with rfl | rfl | rfl | rfl <;> rw [hd] <;> simp only [zero_mul, mul_zero, zero_add, add_zero] <;>
      refine mul_ne_zero (mul_ne_zero (n _ ?_ ?_ ?_) (n _ ?_ ?_ ?_)) (n _ ?_ ?_ ?_) <;> omega

theorem J_two (h : Ok0 E) {j : ℕ} (h1 : 1 ≤ j) (h2 : j ≤ E.n) : E.J 2 j = E.d j 1 ^ 2 * E.J 0 1 + 2 * E.d j 1 * E.J 1 1 + E.J 2 1 := by
  have hn : 1 ≤ E.n := by omega
  have i0 := J_int h le_rfl hn 0
  have i1 := J_int h le_rfl hn 1
  have i2 := J_int h le_rfl hn 2
  simp only [J]
  rw [← intervalIntegral.integral_const_mul, ← intervalIntegral.integral_const_mul,
    ← intervalIntegral.integral_add (i0.const_mul _) (i1.const_mul _), ← intervalIntegral.integral_add ((i0.const_mul _).add (i1.const_mul _)) i2]
  apply intervalIntegral.integral_congr
  intro t ht
  have hs := s_ne h ht
  simp only
  rw [d_eq (by omega) (by omega)]
  rw [zpow_zero, zpow_one, zpow_ofNat, zpow_ofNat]
  field_simp
  ring

theorem pref_ne (c : ℂ) (q : ℤ) (r : ℕ) (hc : c ≠ 0) (hq : 2 * q + r + 2 ≠ 0) : ((q : ℂ) + r / 2 + 1) * c ≠ 0 := by
  refine mul_ne_zero (fun e => hq ?_) hc
  have : ((2 * q + r + 2 : ℤ) : ℂ) = 0 := by push_cast; linear_combination 2 * e
  exact_mod_cast this

/-- `Iqe(q, j)` is the integral of `(a_j + t) ^ q / s`. -/
theorem Iqe_eq (h : Ok E) (hb : ∀ j, 1 ≤ j → j ≤ E.n → ∀ q : ℤ, -1 ≤ q → q ≤ 1 → E.Ie (q * j) = E.J q j) (q : ℤ) (j : ℕ) :
    1 ≤ j → j ≤ E.n → E.Iqe q j = E.J q j := by
  have hle := h.le
  have hh3 := E.hh
  induction q, j using EllRed.Iqe.induct E with
  | case1 q j h1 ih =>
    intro a1 a2
    rw [Iqe, dif_pos h1]
    obtain ⟨-, -, rfl⟩ := h1
    rw [Fin.sum_univ_three, ih 0 le_rfl (by omega), ih 1 le_rfl (by omega), ih 2 le_rfl (by omega), J_two h a1 a2]
    simp [Nat.choose]
  | case2 q j h1 h2 ih =>
    intro a1 a2
    rw [Iqe, dif_neg h1, dif_pos h2]
    have hr := A_rec h a1 a2 (q - E.h)
    have hs0 : E.sigma 0 j = 1 := by simp [sigma]
    have hne : E.IqePref (q - E.h) E.h j ≠ 0 := by
      rw [IqePref, Nat.sub_self, hs0]
      exact pref_ne _ _ _ one_ne_zero (by omega)
    rw [div_eq_iff hne, hr, Finset.sum_range_succ, show (q - E.h + (E.h : ℕ) : ℤ) = q by ring]
    have e1 : ∑ r : Fin (E.h - E.low j), E.IqePref (q - E.h) (E.low j + r) j * E.Iqe (q - E.h + (E.low j + r : ℕ)) j =
        ∑ r : Fin (E.h - E.low j), E.IqePref (q - E.h) (E.low j + r) j * E.J (q - E.h + (E.low j + r : ℕ)) j :=
      Finset.sum_congr rfl fun r _ => by rw [ih r a1 a2]
    rw [e1, Fin.sum_univ_eq_sum_range (fun r => E.IqePref (q - E.h) (E.low j + r) j * E.J (q - E.h + (E.low j + r : ℕ)) j)]
    have e2 : ∑ r ∈ Finset.range (E.h - E.low j), E.IqePref (q - E.h) (E.low j + r) j * E.J (q - E.h + (E.low j + r : ℕ)) j =
        ∑ r ∈ Finset.range E.h, E.IqePref (q - E.h) r j * E.J (q - E.h + (r : ℕ)) j := by
      unfold low
      split_ifs with hj
      · simp
      · obtain ⟨k, hk⟩ : ∃ k, E.h = k + 1 := ⟨E.h - 1, by omega⟩
        rw [hk, Finset.sum_range_succ', Nat.add_sub_cancel]
        have : E.IqePref (q - (k + 1 : ℕ)) 0 j = 0 := by
          rw [IqePref, Nat.sub_zero, sigma_top a1 (by omega), mul_zero]
        rw [this, zero_mul, add_zero]
        simp only [add_comm 1]
    rw [e2]
    ring
  | case3 q j h1 h2 h3 h4 ih =>
    intro a1 a2
    rw [Iqe, dif_neg h1, dif_neg h2, dif_pos h3, dif_pos h4]
    have hr := A_rec h a1 a2 (q - 0)
    have hne : E.IqePref (q - 0) 0 j ≠ 0 := by
      rw [IqePref, Nat.sub_zero]
      exact pref_ne _ _ _ (sigma_top_ne h h4 a2) (by push_cast; omega)
    rw [div_eq_iff hne, hr, Finset.sum_range_succ']
    have e1 : ∑ r : Fin E.h, E.IqePref (q - 0) (1 + r) j * E.Iqe (q - 0 + (1 + r : ℕ)) j =
        ∑ r : Fin E.h, E.IqePref (q - 0) (1 + r) j * E.J (q - 0 + (1 + r : ℕ)) j :=
      Finset.sum_congr rfl fun r _ => by rw [ih r a1 a2]
    rw [e1, Fin.sum_univ_eq_sum_range (fun r => E.IqePref (q - 0) (1 + r) j * E.J (q - 0 + (1 + r : ℕ)) j)]
    simp only [add_comm 1]
    rw [show (q - 0 + ((0 : ℕ) : ℤ)) = q by simp]
    ring
  | case4 q j h1 h2 h3 h4 ih =>
    intro a1 a2
    rw [Iqe, dif_neg h1, dif_neg h2, dif_pos h3, dif_neg h4]
    have hr := A_rec h a1 a2 (q - 1)
    have hne : E.IqePref (q - 1) 1 j ≠ 0 := by
      rw [IqePref]
      exact pref_ne _ _ _ (sigma_next_ne h a1 (by omega)) (by push_cast; omega)
    rw [div_eq_iff hne, hr, Finset.sum_range_succ']
    obtain ⟨k, hk⟩ : ∃ k, E.h = k + 1 := ⟨E.h - 1, by omega⟩
    have e1 : ∑ r : Fin (E.h - 1), E.IqePref (q - 1) (2 + r) j * E.Iqe (q - 1 + (2 + r : ℕ)) j =
        ∑ r : Fin (E.h - 1), E.IqePref (q - 1) (2 + r) j * E.J (q - 1 + (2 + r : ℕ)) j :=
      Finset.sum_congr rfl fun r _ => by rw [ih r a1 a2]
    have e0 : E.IqePref (q - 1) 0 j = 0 := by
      rw [IqePref, Nat.sub_zero, sigma_top a1 (by omega), mul_zero]
    rw [e1, Fin.sum_univ_eq_sum_range (fun r => E.IqePref (q - 1) (2 + r) j * E.J (q - 1 + (2 + r : ℕ)) j), e0, hk, Finset.sum_range_succ',
      Nat.add_sub_cancel]
    simp only [add_comm 2]
    rw [show (q - 1 + ((0 + 1 : ℕ) : ℤ)) = q by simp]
    ring
  | case5 q j h1 h2 h3 =>
    intro a1 a2
    rw [Iqe, dif_neg h1, dif_neg h2, dif_neg h3]
    exact hb j a1 a2 q (by omega) (by omega)

end EllRed

end Verif.Ellred
