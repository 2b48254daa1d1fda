import Verif.Special.MeijerLemmas
import Verif.Special.TGammaSpec
import Verif.Special.IncGammaAlt
import Mathlib.Analysis.SpecificLimits.Normed

/-!
# Truncated alternating series

Nothing here models the code.
-/

open Finset

namespace Verif.Special

/-- The error of an alternating series that is decreasing from index `N` on. -/
theorem alternating_tail {f : ℕ → ℝ} (hs : Summable f) (N : ℕ) (hd : ∀ n, N ≤ n → f (n + 1) ≤ f n) :
    |(∑' n, (-1) ^ n * f n) - ∑ n ∈ range (N + 1), (-1) ^ n * f n| ≤ f N := by
  have hs1 : Summable fun n => (-1) ^ n * f n := hs.alternating
  set g : ℕ → ℝ := fun n => f (n + (N + 1)) with hg
  have hga : Antitone g := antitone_nat_of_succ_le fun n => by
    have := hd (n + (N + 1)) (by omega)
    simpa [hg, add_right_comm] using this
  have hgs : Summable g := (summable_nat_add_iff (N + 1)).2 hs
  have h := alternating_series_error_bound g hga hgs 0
  rw [range_zero, sum_empty, sub_zero] at h
  rw [← hs1.sum_add_tsum_nat_add (N + 1), add_sub_cancel_left]
  have e : ∀ i, (-1 : ℝ) ^ (i + (N + 1)) * f (i + (N + 1)) = (-1) ^ (N + 1) * ((-1) ^ i * g i) := by
    intro i; rw [hg]; ring
  simp_rw [e]
  rw [tsum_mul_left, abs_mul, abs_pow, abs_neg, abs_one, one_pow, one_mul]
  refine h.trans ?_
  simpa [hg] using hd N le_rfl

/-- A sequence with a decreasing ratio that starts above `eps` decreases once it is below. -/
theorem decreasing_of_lt {f r : ℕ → ℝ} {eps : ℝ} (k N : ℕ) (hf : ∀ n, 0 ≤ f n)
    (hr : ∀ n, f (n + 1) = r n * f n) (hra : ∀ n, k ≤ n → r (n + 1) ≤ r n) (hk : eps ≤ f k)
    (hkN : k ≤ N) (hN : f N < eps) : ∀ n, N ≤ n → f (n + 1) ≤ f n := by
  have hanti : ∀ n d, k ≤ n → r (n + d) ≤ r n := by
    intro n d hn
    induction d with
    | zero => exact le_rfl
    | succ d ih => exact (hra (n + d) (by omega)).trans ih
  -- some ratio between k and N is below one
  have hex : ∃ j, k ≤ j ∧ j < N ∧ r j < 1 := by
    by_contra hcon
    push Not at hcon
    have : ∀ d, k + d ≤ N → f k ≤ f (k + d) := by
      intro d
      induction d with
      | zero => intro _; exact le_rfl
      | succ d ih =>
        intro hd
        refine (ih (by omega)).trans ?_
        rw [← add_assoc, hr]
        exact le_mul_of_one_le_left (hf _) (hcon (k + d) (by omega) (by omega))
    have := this (N - k) (by omega)
    rw [Nat.add_sub_cancel' hkN] at this
    linarith
  obtain ⟨j, h1, h2, h3⟩ := hex
  intro n hn
  rw [hr]
  have := hanti j (n - j) h1
  rw [Nat.add_sub_cancel' (by omega)] at this
  exact mul_le_of_le_one_left (hf n) (by linarith)

end Verif.Special
