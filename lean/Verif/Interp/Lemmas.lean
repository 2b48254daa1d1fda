import Verif.Interp.Model
import Mathlib.Tactic.Linarith
import Mathlib.Tactic.Ring
import Mathlib.Tactic.FieldSimp
import Mathlib.Tactic.NormNum

/-! # Lemmas about projection onto a sorted grid -/

namespace Verif.Interp

@[simp] theorem at'_cons_zero (a : ℝ) (l : List ℝ) : at' (a :: l) 0 = a := rfl
@[simp] theorem at'_cons_succ (a : ℝ) (l : List ℝ) (i : ℕ) : at' (a :: l) (i + 1) = at' l i := by simp [at']

theorem at'_eq (l : List ℝ) (i : ℕ) (h : i < l.length) : at' l i = l[i] := by
  simp [at', List.getElem?_eq_getElem h]

theorem at'_mem (l : List ℝ) (i : ℕ) (h : i < l.length) : at' l i ∈ l := by
  rw [at'_eq l i h]; exact List.getElem_mem h

theorem sorted_le (l : List ℝ) (h : l.Pairwise (· ≤ ·)) (i j : ℕ) (hij : i ≤ j) (hj : j < l.length) :
    at' l i ≤ at' l j := by
  rcases Nat.lt_or_ge i j with h' | h'
  · rw [at'_eq l i (by omega), at'_eq l j hj]
    exact List.pairwise_iff_getElem.mp h i j (by omega) hj h'
  · rw [show i = j by omega]

theorem sorted_lt (l : List ℝ) (h : l.Pairwise (· < ·)) (i j : ℕ) (hij : i < j) (hj : j < l.length) :
    at' l i < at' l j := by
  rw [at'_eq l i (by omega), at'_eq l j hj]
  exact List.pairwise_iff_getElem.mp h i j (by omega) hj hij

theorem strict_weak {l : List ℝ} (h : l.Pairwise (· < ·)) : l.Pairwise (· ≤ ·) := h.imp le_of_lt

/-- A downward closed predicate on a sorted list holds exactly of the first `countP` entries. -/
theorem countP_iff (l : List ℝ) (h : l.Pairwise (· ≤ ·)) (p : ℝ → Bool) (hp : ∀ a b, a ≤ b → p b → p a) (i : ℕ)
    (hi : i < l.length) : p (at' l i) ↔ i < l.countP p := by
  induction l generalizing i with
  | nil => simp at hi
  | cons a l ih =>
    have ht := List.pairwise_cons.mp h
    by_cases ha : p a = true
    · rw [List.countP_cons_of_pos ha]
      cases i with
      | zero => simp [ha]
      | succ i => rw [at'_cons_succ, ih ht.2 i (by simpa using hi)]; omega
    · have h0 : l.countP p = 0 := by
        rw [List.countP_eq_zero]
        intro b hb hpb
        exact ha (hp a b (ht.1 b hb) hpb)
      rw [List.countP_cons_of_neg ha, h0]
      have hm : a ≤ at' (a :: l) i := by
        cases i with
        | zero => simp
        | succ i => rw [at'_cons_succ]; exact ht.1 _ (at'_mem l i (by simpa using hi))
      simp only [Nat.not_lt_zero, iff_false]
      exact fun hq => ha (hp _ _ hm hq)

theorem ssr_iff (l : List ℝ) (h : l.Pairwise (· ≤ ·)) (x : ℝ) (i : ℕ) (hi : i < l.length) :
    at' l i ≤ x ↔ i < searchsortedRight l x := by
  have := countP_iff l h (fun g => decide (g ≤ x)) (fun a b hab hb => by simp at hb ⊢; linarith) i hi
  simpa [searchsortedRight] using this

theorem ssl_iff (l : List ℝ) (h : l.Pairwise (· ≤ ·)) (x : ℝ) (i : ℕ) (hi : i < l.length) :
    at' l i < x ↔ i < searchsortedLeft l x := by
  have := countP_iff l h (fun g => decide (g < x)) (fun a b hab hb => by simp at hb ⊢; linarith) i hi
  simpa [searchsortedLeft] using this

theorem ssr_le (l : List ℝ) (x : ℝ) : searchsortedRight l x ≤ l.length := List.countP_le_length
theorem ssl_le (l : List ℝ) (x : ℝ) : searchsortedLeft l x ≤ l.length := List.countP_le_length

theorem length_diff (l : List ℝ) : (diff l).length = l.length - 1 := by
  induction l with
  | nil => rfl
  | cons a l ih =>
    cases l with
    | nil => rfl
    | cons b l => simp only [diff, List.length_cons] at ih ⊢; omega

theorem at'_diff (l : List ℝ) (i : ℕ) (h : i + 1 < l.length) : at' (diff l) i = at' l (i + 1) - at' l i := by
  induction l generalizing i with
  | nil => simp at h
  | cons a l ih =>
    cases l with
    | nil => simp at h
    | cons b l =>
      cases i with
      | zero => simp [diff]
      | succ i =>
        simp only [diff, at'_cons_succ]
        rw [ih i (by simpa using h), at'_cons_succ]

theorem at'_dydx (xs ys : List ℝ) (hl : xs.length = ys.length) (i : ℕ) (h : i + 1 < xs.length) :
    at' (dydx xs ys) i = (at' ys (i + 1) - at' ys i) / (at' xs (i + 1) - at' xs i) := by
  have h1 : i < (dydx xs ys).length := by simp [dydx, length_diff]; omega
  rw [at'_eq _ _ h1]
  simp only [dydx, List.getElem_zipWith]
  rw [← at'_eq, ← at'_eq, at'_diff xs i h, at'_diff ys i (by omega)]

/-- The projection as an interval index. -/
theorem project_lt (xs : List ℝ) (h2 : 2 ≤ xs.length) (x : ℝ) : projectOne xs x + 1 < xs.length := by
  unfold projectOne; omega

/-- Closed form of the value from the interval index. -/
theorem linear1d_eq (xs ys : List ℝ) (hl : xs.length = ys.length) (h2 : 2 ≤ xs.length) (x : ℝ) :
    linear1d xs ys x = at' ys (projectOne xs x) + (x - at' xs (projectOne xs x)) *
      ((at' ys (projectOne xs x + 1) - at' ys (projectOne xs x)) /
        (at' xs (projectOne xs x + 1) - at' xs (projectOne xs x))) := by
  unfold linear1d derivative
  rw [at'_dydx xs ys hl _ (project_lt xs h2 x)]

/-- The projection is determined by the bracket. -/
theorem project_eq (xs : List ℝ) (hs : xs.Pairwise (· ≤ ·)) (x : ℝ) (i : ℕ) (hi : i + 1 < xs.length)
    (h1 : at' xs i ≤ x ∨ i = 0) (h2 : x < at' xs (i + 1) ∨ i + 2 = xs.length) : projectOne xs x = i := by
  unfold projectOne
  have a1 : at' xs i ≤ x → i < searchsortedRight xs x := (ssr_iff xs hs x i (by omega)).mp
  have a2 : x < at' xs (i + 1) → ¬ i + 1 < searchsortedRight xs x :=
    fun h h' => absurd ((ssr_iff xs hs x (i + 1) hi).mpr h') (by linarith)
  have a3 := ssr_le xs x
  rcases h1 with h1 | h1 <;> rcases h2 with h2 | h2
  · have := a1 h1; have := a2 h2; omega
  · have := a1 h1; omega
  · have := a2 h2; omega
  · omega

end Verif.Interp
