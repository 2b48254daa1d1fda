import Verif.Ellred.PartExp
import Mathlib.Algebra.BigOperators.Intervals

/-! # Partial fractions of `∏ u_j ^ m_j` -/

namespace Verif.Ellred

open Finset

/-- `m + e_k`. -/
def bump (m : ℕ → ℤ) (k : ℕ) : ℕ → ℤ := fun j => m j + if j = k then 1 else 0

theorem bump_comm (m : ℕ → ℤ) (k l : ℕ) : bump (bump m k) l = bump (bump m l) k := by
  funext j; simp only [bump]; ring

/-- What is needed of the coefficients: `P m s` at infinity, `c m i s` at the point `i`. -/
structure PF (I : Finset ℕ) (α : ℕ → ℂ) (P : (ℕ → ℤ) → ℤ → ℂ) (c : (ℕ → ℤ) → ℕ → ℤ → ℂ) : Prop where
  inj : ∀ i ∈ I, ∀ j ∈ I, α i = α j → i = j
  one : 1 ∈ I
  P_neg : ∀ m s, s < 0 → P m s = 0
  P_zero : ∀ m, P m 0 = 1
  P_nil : ∀ m s, (∀ j ∈ I, m j = 0) → s ≠ 0 → P m s = 0
  P_bump : ∀ m s, ∀ k ∈ I, P (bump m k) s = P m s + (α k - α 1) * P m (s - 1)
  c_neg : ∀ m i s, s < 0 → c m i s = 0
  c_nil : ∀ m, ∀ i ∈ I, ∀ s, (∀ j ∈ I, j ≠ i → m j = 0) → c m i s = if s = 0 then 1 else 0
  c_bump : ∀ m s, ∀ i ∈ I, ∀ k ∈ I, k ≠ i → c (bump m k) i s = (α k - α i) * c m i s + c m i (s - 1)
  c_self : ∀ m s, ∀ i ∈ I, c (bump m i) i s = c m i s

namespace PF

variable {I : Finset ℕ} {α : ℕ → ℂ} {P : (ℕ → ℤ) → ℤ → ℂ} {c : (ℕ → ℤ) → ℕ → ℤ → ℂ} (h : PF I α P c)

/-- The total exponent. -/
def tot (I : Finset ℕ) (m : ℕ → ℤ) : ℤ := ∑ j ∈ I, m j

theorem tot_bump (m : ℕ → ℤ) {k : ℕ} (hk : k ∈ I) : tot I (bump m k) = tot I m + 1 := by
  simp [tot, bump, Finset.sum_add_distrib, hk]

/-- The polynomial part. -/
noncomputable def poly (P : (ℕ → ℤ) → ℤ → ℂ) (I : Finset ℕ) (α : ℕ → ℂ) (m : ℕ → ℤ) (t : ℂ) : ℂ :=
  ∑ q ∈ range (tot I m + 1).toNat, P m (tot I m - q) * (α 1 + t) ^ q

/-- The principal part at the point `i`. -/
noncomputable def prin (c : (ℕ → ℤ) → ℕ → ℤ → ℂ) (α : ℕ → ℂ) (m : ℕ → ℤ) (i : ℕ) (t : ℂ) : ℂ :=
  ∑ q ∈ range (-m i).toNat, c m i (-m i - (q + 1)) * (α i + t) ^ (-((q : ℤ) + 1))

noncomputable def F (I : Finset ℕ) (α : ℕ → ℂ) (P : (ℕ → ℤ) → ℤ → ℂ) (c : (ℕ → ℤ) → ℕ → ℤ → ℂ) (m : ℕ → ℤ) (t : ℂ) : ℂ :=
  poly P I α m t + ∑ i ∈ I, prin c α m i t

noncomputable def Del (I : Finset ℕ) (P : (ℕ → ℤ) → ℤ → ℂ) (c : (ℕ → ℤ) → ℕ → ℤ → ℂ) (m : ℕ → ℤ) : ℂ :=
  P m (tot I m + 1) - ∑ i ∈ I, c m i (-m i - 1)

include h

theorem poly_bump (m : ℕ → ℤ) {k : ℕ} (hk : k ∈ I) (t : ℂ) :
    poly P I α (bump m k) t = (α k + t) * poly P I α m t + P m (tot I m + 1) := by
  rw [poly, poly, tot_bump m hk]
  set M := tot I m
  rcases lt_or_ge (M + 1) 0 with hM | hM
  · rw [show (M + 1 + 1).toNat = 0 by omega, show (M + 1).toNat = 0 by omega, h.P_neg m _ hM]
    simp
  · obtain ⟨N, hN⟩ := Int.eq_ofNat_of_zero_le hM
    rw [show (M + 1 + 1).toNat = N + 1 by omega, show (M + 1).toNat = N by omega]
    have e1 : ∑ q ∈ range (N + 1), P (bump m k) (M + 1 - q) * (α 1 + t) ^ q =
        ∑ q ∈ range (N + 1), P m (M + 1 - q) * (α 1 + t) ^ q + (α k - α 1) * ∑ q ∈ range (N + 1), P m (M - q) * (α 1 + t) ^ q := by
      rw [mul_sum, ← sum_add_distrib]
      apply sum_congr rfl
      intro q _
      rw [h.P_bump m _ k hk, show M + 1 - q - 1 = M - q by ring]
      ring
    rw [e1, sum_range_succ', sum_range_succ (fun q : ℕ => P m (M - q) * (α 1 + t) ^ q), h.P_neg m (M - N) (by omega)]
    have e2 : ∑ q ∈ range N, P m (M + 1 - (q + 1 : ℕ)) * (α 1 + t) ^ (q + 1) = (α 1 + t) * ∑ q ∈ range N, P m (M - q) * (α 1 + t) ^ q := by
      rw [mul_sum]
      apply sum_congr rfl
      intro q _
      rw [show M + 1 - ((q + 1 : ℕ) : ℤ) = M - q by push_cast; ring]
      ring
    rw [e2]
    simp only [Nat.cast_zero, sub_zero, pow_zero]
    ring

theorem prin_bump_ne (m : ℕ → ℤ) {k i : ℕ} (hk : k ∈ I) (hi : i ∈ I) (hki : k ≠ i) (t : ℂ) (hu : α i + t ≠ 0) :
    prin c α (bump m k) i t = (α k + t) * prin c α m i t - c m i (-m i - 1) := by
  have e0 : bump m k i = m i := by simp [bump, Ne.symm hki]
  rw [prin, prin, e0]
  set N := (-m i).toNat with hN
  set u := α i + t with hudef
  set g : ℕ → ℂ := fun q => c m i (-m i - (q + 1)) * u ^ (-((q : ℤ) + 1)) with hg
  have e1 : ∑ q ∈ range N, c (bump m k) i (-m i - (q + 1)) * u ^ (-((q : ℤ) + 1)) =
      (α k - α i) * ∑ q ∈ range N, g q + u * ∑ q ∈ range N, g (q + 1) := by
    rw [mul_sum, mul_sum, ← sum_add_distrib]
    apply sum_congr rfl
    intro q _
    rw [h.c_bump m _ i hi k hk hki]
    simp only [hg]
    rw [show -m i - ((q : ℤ) + 1) - 1 = -m i - (((q + 1 : ℕ) : ℤ) + 1) by push_cast; ring,
      show -(((q + 1 : ℕ) : ℤ) + 1) = -((q : ℤ) + 1) - 1 by push_cast; ring, zpow_sub_one₀ hu]
    field_simp
  have e2 : ∑ q ∈ range N, g (q + 1) = ∑ q ∈ range N, g q + g N - g 0 := by
    rw [← sum_range_succ, sum_range_succ']; ring
  have e3 : g 0 = c m i (-m i - 1) * u⁻¹ := by simp [hg]
  have e4 : u * (g N - g 0) = -c m i (-m i - 1) := by
    rcases lt_or_ge (m i) 1 with hm | hm
    · have : g N = 0 := by
        simp only [hg]
        rw [h.c_neg _ _ _ (by omega), zero_mul]
      rw [this, e3]
      field_simp
      ring
    · rw [show N = 0 by omega, h.c_neg _ _ _ (by omega)]
      simp
  rw [e1, e2]
  have : α k + t = (α k - α i) + u := by rw [hudef]; ring
  rw [this]
  linear_combination e4

theorem prin_bump_self (m : ℕ → ℤ) {k : ℕ} (hk : k ∈ I) (t : ℂ) (hu : α k + t ≠ 0) :
    prin c α (bump m k) k t = (α k + t) * prin c α m k t - c m k (-m k - 1) := by
  have e0 : bump m k k = m k + 1 := by simp [bump]
  rw [prin, prin, e0]
  set u := α k + t with hudef
  set g : ℕ → ℂ := fun q => c m k (-m k - (q + 1)) * u ^ (-((q : ℤ) + 1)) with hg
  have e3 : u * g 0 = c m k (-m k - 1) := by simp [hg]; field_simp
  have e1 : ∀ N : ℕ, ∑ q ∈ range N, c (bump m k) k (-(m k + 1) - (q + 1)) * u ^ (-((q : ℤ) + 1)) = u * ∑ q ∈ range N, g (q + 1) := by
    intro N
    rw [mul_sum]
    apply sum_congr rfl
    intro q _
    rw [h.c_self m _ k hk]
    simp only [hg]
    rw [show -m k - (((q + 1 : ℕ) : ℤ) + 1) = -(m k + 1) - ((q : ℤ) + 1) by push_cast; ring,
      show -(((q + 1 : ℕ) : ℤ) + 1) = -((q : ℤ) + 1) - 1 by push_cast; ring, zpow_sub_one₀ hu]
    field_simp
  rw [e1]
  rcases lt_or_ge (m k) 0 with hm | hm
  · obtain ⟨N, hN⟩ : ∃ N : ℕ, (-m k).toNat = N + 1 := ⟨(-m k).toNat - 1, by omega⟩
    rw [hN, show (-(m k + 1)).toNat = N by omega, sum_range_succ' g]
    linear_combination -e3
  · rw [show (-(m k + 1)).toNat = 0 by omega, show (-m k).toNat = 0 by omega, h.c_neg _ _ _ (by omega)]
    simp

theorem F_bump (m : ℕ → ℤ) {k : ℕ} (hk : k ∈ I) (t : ℂ) (hu : ∀ i ∈ I, α i + t ≠ 0) :
    F I α P c (bump m k) t = (α k + t) * F I α P c m t + Del I P c m := by
  have : ∀ i ∈ I, prin c α (bump m k) i t = (α k + t) * prin c α m i t - c m i (-m i - 1) := by
    intro i hi
    by_cases e : k = i
    · subst e
      exact h.prin_bump_self m hk t (hu k hk)
    · exact h.prin_bump_ne m hk hi e t (hu i hi)
  rw [F, F, h.poly_bump m hk, sum_congr rfl this, sum_sub_distrib, ← mul_sum, Del]
  ring

theorem Del_rel (m : ℕ → ℤ) {k l : ℕ} (hk : k ∈ I) (hl : l ∈ I) {t : ℂ} (hu : ∀ i ∈ I, α i + t ≠ 0) :
    (α l - α k) * Del I P c m = Del I P c (bump m l) - Del I P c (bump m k) := by
  have e1 := h.F_bump (bump m k) hl t hu
  have e2 := h.F_bump (bump m l) hk t hu
  rw [bump_comm, e2, h.F_bump m hk t hu, h.F_bump m hl t hu] at e1
  linear_combination -e1

/-- No negative exponent: the expansion at infinity stops. -/
theorem P_deg (S : ℕ) : ∀ m : ℕ → ℤ, (∀ j ∈ I, 0 ≤ m j) → ∑ j ∈ I, (m j).toNat = S → ∀ s, tot I m < s → P m s = 0 := by
  induction S with
  | zero =>
    intro m hm hS s hs
    have hz : ∀ j ∈ I, m j = 0 := fun j hj => by
      have := Finset.sum_eq_zero_iff.mp hS j hj
      have := hm j hj
      omega
    have : tot I m = 0 := Finset.sum_eq_zero hz
    exact h.P_nil m s hz (by omega)
  | succ S ih =>
    intro m hm hS s hs
    obtain ⟨k, hk, hk0⟩ : ∃ k ∈ I, (m k).toNat ≠ 0 := by
      by_contra hc
      push Not at hc
      rw [Finset.sum_eq_zero hc] at hS
      omega
    have hm' : m = bump (fun j => m j - if j = k then 1 else 0) k := by funext j; simp [bump]
    set m' : ℕ → ℤ := fun j => m j - if j = k then 1 else 0 with hmdef
    have hp : ∀ j ∈ I, 0 ≤ m' j := by
      intro j hj
      have := hm j hj
      simp only [hmdef]
      split_ifs with e
      · subst e; omega
      · omega
    have ht := tot_bump m' hk
    rw [← hm'] at ht
    have hs' : ∑ j ∈ I, (m' j).toNat = S := by
      have e1 : ∑ j ∈ I, (m j).toNat = ∑ j ∈ I, ((m' j).toNat + if j = k then 1 else 0) := by
        apply sum_congr rfl
        intro j hj
        have := hp j hj
        simp only [hmdef] at this ⊢
        split_ifs at * with e
        · omega
        · simp
      rw [e1, sum_add_distrib] at hS
      simp [hk] at hS
      exact hS
    rw [hm', h.P_bump m' s k hk, ih m' hp hs' s (by omega), ih m' hp hs' (s - 1) (by omega)]
    ring

theorem Del_zero {t : ℂ} (hu : ∀ i ∈ I, α i + t ≠ 0) (N : ℕ) : ∀ S : ℕ, ∀ m : ℕ → ℤ, ∑ j ∈ I, (-m j).toNat = N → ∑ j ∈ I, (m j).toNat = S →
    Del I P c m = 0 := by
  induction N using Nat.strong_induction_on with
  | _ N ihN =>
    intro S
    induction S using Nat.strong_induction_on with
    | _ S ihS =>
      intro m hN hS
      have hlt : ∀ m' : ℕ → ℤ, ∑ j ∈ I, (-m' j).toNat < N → Del I P c m' = 0 := fun m' hm' => ihN _ hm' _ m' rfl rfl
      -- raising a negative exponent
      have hdec : ∀ k ∈ I, m k < 0 → Del I P c (bump m k) = 0 := by
        intro k hk hk0
        apply hlt
        rw [← hN]
        apply Finset.sum_lt_sum
        · intro j hj
          simp only [bump]
          split_ifs <;> omega
        · exact ⟨k, hk, by simp only [bump, if_true]; omega⟩
      by_cases hneg : ∃ k ∈ I, m k < 0
      · obtain ⟨k, hk, hk0⟩ := hneg
        by_cases htwo : ∃ l ∈ I, l ≠ k ∧ m l < 0
        · obtain ⟨l, hl, hlk, hl0⟩ := htwo
          have := h.Del_rel m hk hl hu
          rw [hdec k hk hk0, hdec l hl hl0, sub_zero] at this
          refine (mul_eq_zero.mp this).resolve_left fun e => hlk (h.inj l hl k hk (sub_eq_zero.mp e))
        · push Not at htwo
          by_cases hpos : ∃ l ∈ I, l ≠ k ∧ m l ≠ 0
          · obtain ⟨l, hl, hlk, hl0⟩ := hpos
            have hl1 : 0 < m l := lt_of_le_of_ne (htwo l hl hlk) (Ne.symm hl0)
            have hm' : m = bump (fun j => m j - if j = l then 1 else 0) l := by funext j; simp [bump]
            set m' : ℕ → ℤ := fun j => m j - if j = l then 1 else 0 with hmdef
            have e1 : ∑ j ∈ I, (-m' j).toNat = N := by
              rw [← hN]
              apply sum_congr rfl
              intro j _
              simp only [hmdef]
              split_ifs with e
              · subst e; omega
              · simp
            have e2 : ∑ j ∈ I, (m' j).toNat < S := by
              rw [← hS]
              apply Finset.sum_lt_sum
              · intro j hj
                simp only [hmdef]
                split_ifs <;> omega
              · exact ⟨l, hl, by simp only [hmdef, if_true]; omega⟩
            have e3 : Del I P c m' = 0 := ihS _ e2 m' e1 rfl
            have e4 : Del I P c (bump m' k) = 0 := by
              apply hlt
              rw [← e1]
              apply Finset.sum_lt_sum
              · intro j hj
                simp only [bump]
                split_ifs <;> omega
              · refine ⟨k, hk, ?_⟩
                simp only [bump, if_true, hmdef, if_neg (Ne.symm hlk)]
                omega
            have := h.Del_rel m' hk hl hu
            rw [e3, e4, ← hm'] at this
            linear_combination -this
          · push Not at hpos
            have ht : tot I m = m k := Finset.sum_eq_single_of_mem k hk fun j hj hjk => hpos j hj hjk
            have hc : ∑ i ∈ I, c m i (-m i - 1) = c m k (-m k - 1) :=
              Finset.sum_eq_single_of_mem k hk fun j hj hjk => by rw [hpos j hj hjk]; exact h.c_neg _ _ _ (by omega)
            rw [Del, ht, hc, h.c_nil m k hk _ hpos]
            by_cases e : m k = -1
            · rw [e]
              simp [h.P_zero]
            · rw [h.P_neg _ _ (by omega), if_neg (by omega), sub_zero]
      · push Not at hneg
        rw [Del, h.P_deg S m hneg hS _ (by omega), zero_sub, neg_eq_zero]
        exact Finset.sum_eq_zero fun i hi => h.c_neg _ _ _ (by have := hneg i hi; omega)

/-- **Partial fractions.** -/
theorem F_eq {t : ℂ} (hu : ∀ i ∈ I, α i + t ≠ 0) (S : ℕ) : ∀ m : ℕ → ℤ, ∑ j ∈ I, (m j).natAbs = S → F I α P c m t = ∏ j ∈ I, (α j + t) ^ m j := by
  have step : ∀ m : ℕ → ℤ, ∀ k ∈ I, F I α P c (bump m k) t = (α k + t) * F I α P c m t := fun m k hk => by
    rw [h.F_bump m hk t hu, h.Del_zero hu _ _ m rfl rfl, add_zero]
  have pstep : ∀ m : ℕ → ℤ, ∀ k ∈ I, ∏ j ∈ I, (α j + t) ^ bump m k j = (α k + t) * ∏ j ∈ I, (α j + t) ^ m j := fun m k hk => by
    rw [← Finset.mul_prod_erase I _ hk, ← Finset.mul_prod_erase I (fun j => (α j + t) ^ m j) hk, ← mul_assoc]
    congr 1
    · simp only [bump, if_true]
      rw [zpow_add_one₀ (hu k hk), mul_comm]
    · apply prod_congr rfl
      intro j hj
      simp [bump, Finset.ne_of_mem_erase hj]
  induction S using Nat.strong_induction_on with
  | _ S ih =>
    intro m hS
    by_cases hz : ∀ j ∈ I, m j = 0
    · have ht : tot I m = 0 := Finset.sum_eq_zero hz
      have e1 : ∑ i ∈ I, prin c α m i t = 0 := Finset.sum_eq_zero fun i hi => by rw [prin, hz i hi]; simp
      rw [F, e1, poly, ht, Finset.prod_congr rfl fun j hj => by rw [hz j hj, zpow_zero]]
      simp [h.P_zero]
    · push Not at hz
      obtain ⟨k, hk, hk0⟩ := hz
      rcases lt_or_gt_of_ne hk0 with hneg | hpos
      · have := ih (∑ j ∈ I, (bump m k j).natAbs) (by
          rw [← hS]
          apply Finset.sum_lt_sum
          · intro j hj
            simp only [bump]
            split_ifs with e
            · subst e; omega
            · simp
          · exact ⟨k, hk, by simp only [bump, if_true]; omega⟩) (bump m k) rfl
        rw [step m k hk, pstep m k hk] at this
        exact mul_left_cancel₀ (hu k hk) this
      · have hm' : m = bump (fun j => m j - if j = k then 1 else 0) k := by funext j; simp [bump]
        set m' : ℕ → ℤ := fun j => m j - if j = k then 1 else 0 with hmdef
        have := ih (∑ j ∈ I, (m' j).natAbs) (by
          rw [← hS]
          apply Finset.sum_lt_sum
          · intro j hj
            simp only [hmdef]
            split_ifs with e
            · subst e; omega
            · simp
          · exact ⟨k, hk, by simp only [hmdef, if_true]; omega⟩) m' rfl
        rw [hm', step m' k hk, pstep m' k hk, this]

end PF

end Verif.Ellred
