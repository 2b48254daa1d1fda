import Mathlib.Combinatorics.Enumerative.Partition.Basic
import Mathlib.Data.Finsupp.Multiset
import Mathlib.Algebra.BigOperators.Field
import Mathlib.Data.Complex.Basic
import Mathlib.RingTheory.PowerSeries.Derivative
import Mathlib.Data.Nat.Factorial.BigOperators
import Mathlib.Tactic.LinearCombination
import Mathlib.Tactic.FieldSimp

/-! # Sums over partitions are the coefficients of an exponential

`E μ s = ∑ over the partitions of s of ∏ μ_v ^ c / c!`, where `c` is the multiplicity of the part `v`. -/

namespace Verif.Ellred

open Finset

/-- The weight of a multiset of parts. -/
noncomputable def pwt (μ : ℕ → ℂ) (p : Multiset ℕ) : ℂ := ∏ v ∈ p.toFinset, μ v ^ p.count v / (p.count v).factorial

/-- The sum over the partitions. -/
noncomputable def psum (μ : ℕ → ℂ) (s : ℕ) : ℂ := ∑ p : s.Partition, pwt μ p.parts

theorem pwt_cons (μ : ℕ → ℂ) (p : Multiset ℕ) (v : ℕ) : ((v ::ₘ p).count v : ℂ) * pwt μ (v ::ₘ p) = μ v * pwt μ p := by
  have h : ∀ q : Multiset ℕ, ∀ S : Finset ℕ, q.toFinset ⊆ S → pwt μ q = ∏ v ∈ S, μ v ^ q.count v / (q.count v).factorial := by
    intro q S hS
    refine Finset.prod_subset hS fun w _ hw => ?_
    rw [Multiset.count_eq_zero_of_notMem (by simpa using hw)]
    simp
  rw [h (v ::ₘ p) (insert v p.toFinset) (by simp), h p (insert v p.toFinset) (Finset.subset_insert _ _),
    ← Finset.mul_prod_erase _ _ (Finset.mem_insert_self v p.toFinset), ← Finset.mul_prod_erase (insert v p.toFinset) _ (Finset.mem_insert_self v p.toFinset)]
  have e : ∏ x ∈ (insert v p.toFinset).erase v, μ x ^ (v ::ₘ p).count x / ((v ::ₘ p).count x).factorial =
      ∏ x ∈ (insert v p.toFinset).erase v, μ x ^ p.count x / (p.count x).factorial := by
    apply Finset.prod_congr rfl
    intro x hx
    rw [Multiset.count_cons_of_ne (Finset.ne_of_mem_erase hx)]
  rw [e, Multiset.count_cons_self]
  rw [Nat.factorial_succ, pow_succ]
  have : ((p.count v).factorial : ℂ) ≠ 0 := by exact_mod_cast Nat.factorial_ne_zero _
  have : ((p.count v + 1 : ℕ) : ℂ) ≠ 0 := by exact_mod_cast Nat.succ_ne_zero (p.count v)
  push_cast at *
  field_simp

theorem psum_zero (μ : ℕ → ℂ) : psum μ 0 = 1 := by
  simp [psum, pwt]

/-- The recurrence: `s E_s = ∑ v μ_v E_{s-v}`. -/
theorem psum_rec (μ : ℕ → ℂ) (s : ℕ) : (s : ℂ) * psum μ s = ∑ v ∈ Finset.Icc 1 s, (v : ℂ) * μ v * psum μ (s - v) := by
  have h1 : (s : ℂ) * psum μ s = ∑ p : s.Partition, ∑ v ∈ p.parts.toFinset, (v : ℂ) * ((p.parts.count v : ℂ) * pwt μ p.parts) := by
    rw [psum, Finset.mul_sum]
    apply Finset.sum_congr rfl
    intro p _
    have hs : (s : ℂ) = ∑ v ∈ p.parts.toFinset, (v : ℂ) * (p.parts.count v : ℂ) := by
      have := p.parts_sum
      rw [Finset.sum_multiset_count] at this
      conv_lhs => rw [← this]
      push_cast
      apply Finset.sum_congr rfl
      intro v _
      simp [mul_comm]
    rw [hs, Finset.sum_mul]
    apply Finset.sum_congr rfl
    intro v _
    ring
  have h2 : ∑ v ∈ Finset.Icc 1 s, (v : ℂ) * μ v * psum μ (s - v) =
      ∑ v ∈ Finset.Icc 1 s, ∑ q : (s - v).Partition, (v : ℂ) * (μ v * pwt μ q.parts) := by
    apply Finset.sum_congr rfl
    intro v _
    rw [psum, Finset.mul_sum]
    apply Finset.sum_congr rfl
    intro q _
    ring
  rw [h1, h2, Finset.sum_sigma', Finset.sum_sigma']
  refine Finset.sum_bij' (fun a ha => ⟨a.2, ⟨a.1.parts.erase a.2, fun hi => a.1.parts_pos (Multiset.mem_of_mem_erase hi), ?_⟩⟩)
    (fun b hb => ⟨⟨b.1 ::ₘ b.2.parts, ?_, ?_⟩, b.1⟩) ?_ ?_ ?_ ?_ ?_
  · have hm : a.2 ∈ a.1.parts := by simpa using ha
    have := congrArg Multiset.sum (Multiset.cons_erase hm)
    rw [Multiset.sum_cons, a.1.parts_sum] at this
    omega
  · intro i hi
    have hb' : 1 ≤ b.1 := by
      have := (Finset.mem_sigma.mp hb).1
      exact (Finset.mem_Icc.mp this).1
    rcases Multiset.mem_cons.mp hi with rfl | hi
    · omega
    · exact b.2.parts_pos hi
  · have hb' : b.1 ≤ s := by
      have := (Finset.mem_sigma.mp hb).1
      exact (Finset.mem_Icc.mp this).2
    rw [Multiset.sum_cons, b.2.parts_sum]
    omega
  · intro a ha
    have hm : a.2 ∈ a.1.parts := by simpa using ha
    simp only [Finset.mem_sigma, Finset.mem_univ, and_true, Finset.mem_Icc]
    refine ⟨a.1.parts_pos hm, ?_⟩
    have := Multiset.le_sum_of_mem hm
    rwa [a.1.parts_sum] at this
  · intro b hb
    simp
  · rintro ⟨p, v⟩ ha
    have hm : v ∈ p.parts := by simpa using ha
    simp only [Sigma.mk.injEq, heq_eq_eq, and_true]
    ext1
    simp only
    exact Multiset.cons_erase hm
  · rintro ⟨v, q⟩ hb
    simp only [Sigma.mk.injEq, heq_eq_eq, true_and]
    ext1
    simp
  · rintro ⟨p, v⟩ ha
    have hm : v ∈ p.parts := by simpa using ha
    simp only
    have := pwt_cons μ (p.parts.erase v) v
    rw [Multiset.cons_erase hm] at this
    rw [this]

/-- Multiplying the exponential by `1 - d X`. -/
theorem psum_mul (μ : ℕ → ℂ) (d : ℂ) (s : ℕ) : psum (fun v => μ v - d ^ v / v) s = psum μ s - d * (if s = 0 then 0 else psum μ (s - 1)) := by
  induction s using Nat.strong_induction_on with
  | _ s ih =>
    rcases Nat.eq_zero_or_pos s with rfl | hs
    · simp [psum_zero]
    have hs0 : (s : ℂ) ≠ 0 := by exact_mod_cast hs.ne'
    apply mul_left_cancel₀ hs0
    rw [psum_rec, if_neg hs.ne']
    set E := fun k : ℕ => psum μ k with hE
    -- the left side
    have e1 : ∑ v ∈ Finset.Icc 1 s, (v : ℂ) * (μ v - d ^ v / v) * psum (fun v => μ v - d ^ v / v) (s - v) =
        ∑ v ∈ Finset.Icc 1 s, ((v : ℂ) * μ v * E (s - v) - (v : ℂ) * μ v * (d * (if s - v = 0 then 0 else E (s - v - 1))) -
          (d ^ v * E (s - v) - d ^ (v + 1) * (if s - v = 0 then 0 else E (s - v - 1)))) := by
      apply Finset.sum_congr rfl
      intro v hv
      obtain ⟨v1, v2⟩ := Finset.mem_Icc.mp hv
      rw [ih (s - v) (by omega)]
      have : (v : ℂ) ≠ 0 := by exact_mod_cast (by omega : v ≠ 0)
      rw [show (v : ℂ) * (μ v - d ^ v / v) = v * μ v - d ^ v by field_simp, pow_succ]
      simp only [hE]
      ring
    rw [e1, Finset.sum_sub_distrib, Finset.sum_sub_distrib, ← psum_rec μ s]
    have e2 : ∑ v ∈ Finset.Icc 1 s, (d ^ v * E (s - v) - d ^ (v + 1) * (if s - v = 0 then 0 else E (s - v - 1))) = d * E (s - 1) := by
      obtain ⟨k, rfl⟩ : ∃ k, s = k + 1 := ⟨s - 1, by omega⟩
      have hsh := Finset.sum_Ico_add' (fun v => d ^ v * E (k + 1 - v) - d ^ (v + 1) * (if k + 1 - v = 0 then 0 else E (k + 1 - v - 1))) 0 (k + 1) 1
      rw [← Finset.range_eq_Ico, zero_add, show Finset.Ico 1 (k + 1 + 1) = Finset.Icc 1 (k + 1) from rfl] at hsh
      rw [← hsh]
      have := Finset.sum_range_sub' (fun v => d ^ (v + 1) * (if v = k + 1 then 0 else E (k - v))) (k + 1)
      simp only [if_true, mul_zero, sub_zero] at this
      rw [if_neg (by omega)] at this
      simp only [zero_add, pow_one, Nat.sub_zero] at this
      rw [show k + 1 - 1 = k by omega, ← this]
      apply Finset.sum_congr rfl
      intro v hv
      have hv := Finset.mem_range.mp hv
      rw [if_neg (by omega : v ≠ k + 1)]
      by_cases hvk : v = k
      · subst hvk
        simp
      · rw [if_neg (by omega), if_neg (by omega), show k + 1 - (v + 1) = k - v by omega, show k - (v + 1) = k - v - 1 by omega]
    have e3 : ∑ v ∈ Finset.Icc 1 s, (v : ℂ) * μ v * (d * (if s - v = 0 then 0 else E (s - v - 1))) = d * (((s - 1 : ℕ) : ℂ) * E (s - 1)) := by
      rw [hE]
      simp only
      rw [psum_rec μ (s - 1), Finset.mul_sum]
      rw [← Finset.sum_subset (Finset.Icc_subset_Icc_right (by omega : s - 1 ≤ s))]
      · apply Finset.sum_congr rfl
        intro v hv
        obtain ⟨v1, v2⟩ := Finset.mem_Icc.mp hv
        rw [if_neg (by omega), show s - v - 1 = s - 1 - v by omega]
        ring
      · intro v h1 h2
        obtain ⟨v1, v2⟩ := Finset.mem_Icc.mp h1
        rw [if_pos, mul_zero, mul_zero]
        simp only [Finset.mem_Icc, not_and, not_le] at h2
        have := h2 v1
        omega
    rw [e2, e3]
    obtain ⟨k, rfl⟩ : ∃ k, s = k + 1 := ⟨s - 1, by omega⟩
    simp only [hE, Nat.add_sub_cancel]
    push_cast
    ring

theorem psum_nil (s : ℕ) : psum (fun _ => 0) s = if s = 0 then 1 else 0 := by
  rcases Nat.eq_zero_or_pos s with rfl | hs
  · simp [psum_zero]
  rw [if_neg hs.ne']
  have := psum_rec (fun _ => 0) s
  simp only [mul_zero, zero_mul, Finset.sum_const_zero] at this
  have hs0 : (s : ℂ) ≠ 0 := by exact_mod_cast hs.ne'
  exact (mul_eq_zero.mp this).resolve_left hs0

theorem psum_congr {μ ν : ℕ → ℂ} (h : ∀ v, 0 < v → μ v = ν v) (s : ℕ) : psum μ s = psum ν s := by
  apply Finset.sum_congr rfl
  intro p _
  apply Finset.prod_congr rfl
  intro v hv
  rw [h v (p.parts_pos (by simpa using hv))]

end Verif.Ellred
