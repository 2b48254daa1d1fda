import Verif.Roots.Poly
import Mathlib.Analysis.Calculus.Deriv.Mul
import Mathlib.Analysis.Calculus.Deriv.Pow
import Mathlib.Analysis.Calculus.Deriv.Add
import Mathlib.Analysis.Complex.Basic
import Mathlib.Data.List.FinRange
import Mathlib.Data.List.Nodup
import Mathlib.Data.List.GetD
import Mathlib.Algebra.BigOperators.Field

/-! # The backward pass of `roots` -/

namespace Verif.Roots

theorem combos_gt {α : Type*} (p : ℕ) (l : List α) (h : l.length < p) : combos p l = [] := by
  induction l generalizing p with
  | nil => cases p with
    | zero => simp at h
    | succ p => rfl
  | cons x xs ih =>
    cases p with
    | zero => simp at h
    | succ p =>
      simp only [List.length_cons] at h
      simp [combos, ih p (by omega), ih (p + 1) (by omega)]

theorem combos_all {α : Type*} (l : List α) : combos l.length l = [l] := by
  induction l with
  | nil => rfl
  | cons x xs ih => simp [combos, ih, combos_gt (xs.length + 1) xs (by omega)]

/-- Omitting one element: the last one first. -/
theorem combos_pred {α : Type*} (l : List α) (h : l ≠ []) :
    combos (l.length - 1) l = (List.range l.length).map fun i => l.eraseIdx (l.length - 1 - i) := by
  induction l with
  | nil => exact absurd rfl h
  | cons x xs ih =>
    cases xs with
    | nil => simp [combos]
    | cons y ys =>
      have := ih (by simp)
      simp only [List.length_cons, Nat.add_sub_cancel] at this ⊢
      rw [combos, this, ← List.length_cons (a := y), combos_all, List.length_cons, List.range_succ (n := ys.length + 1),
        List.map_append, List.map_map]
      congr 1
      · apply List.map_congr_left
        intro i hi
        rw [List.mem_range] at hi
        simp only [Function.comp]
        rw [show ys.length + 1 - i = (ys.length - i) + 1 by omega, List.eraseIdx_cons_succ]
      · simp

theorem flatten_getD {R : Type*} [Zero R] (n : ℕ) (rows : List (List R)) (hr : ∀ r ∈ rows, r.length = n)
    (i j : ℕ) (hj : j < n) : rows.flatten.getD (i * n + j) 0 = (rows.getD i []).getD j 0 := by
  induction rows generalizing i with
  | nil => simp
  | cons r rows ih =>
    have hrn := hr r (by simp)
    cases i with
    | zero =>
      simp [List.getD, List.getElem?_append, hrn, hj]
    | succ i =>
      rw [List.flatten_cons, List.getD_cons_succ, ← ih (fun s hs => hr s (by simp [hs]))]
      simp only [List.getD]
      rw [List.getElem?_append_right (by rw [hrn]; nlinarith), hrn]
      congr 2
      rw [Nat.succ_mul]
      omega

section
variable {R : Type*} [CommRing R]

/-- The coefficients (leading 1 included) of `∏ (x - r)`. -/
def fullCoeffs (l : List R) : List R :=
  1 :: (List.range l.length).map fun k => (-1) ^ (k + 1) * (l : Multiset R).esymm (k + 1)

theorem fullCoeffs_reverse (l : List R) : fullCoeffs l.reverse = fullCoeffs l := by
  unfold fullCoeffs
  rw [Multiset.coe_reverse, List.length_reverse]

theorem fullCoeffs_length (l : List R) : (fullCoeffs l).length = l.length + 1 := by simp [fullCoeffs]

theorem reverse_eraseIdx' {α : Type*} (l : List α) (i : ℕ) (h : i < l.length) :
    l.reverse.eraseIdx (l.length - 1 - i) = (l.eraseIdx i).reverse := by
  rw [List.eraseIdx_eq_take_drop_succ, List.eraseIdx_eq_take_drop_succ, List.reverse_append, List.take_reverse,
    List.drop_reverse]
  congr 3 <;> omega

theorem backwardMatrix_ok (rts : List R) (h : rts ≠ []) :
    backwardMatrix rts = .ok (Matrix.of fun i j => (fullCoeffs (rts.eraseIdx i)).getD j 0) := by
  have hn : 0 < rts.length := List.length_pos_iff.mpr h
  unfold backwardMatrix
  rw [mapE_ok _ (fullCoeffs (R := R)) _ (fun r _ => by rw [vieta_ok]; rfl)]
  simp only [Except.ok.injEq]
  have hc := combos_pred rts.reverse (by simpa using h)
  rw [List.length_reverse] at hc
  rw [hc, List.map_map]
  congr 1
  ext i j
  unfold unflatten
  rw [Matrix.of_apply]
  rw [flatten_getD]
  · rw [List.getD_eq_getElem (List.map _ _) _ (by simp)]
    simp only [List.getElem_map, List.getElem_range, Function.comp]
    rw [reverse_eraseIdx' _ _ i.isLt, fullCoeffs_reverse]
  · intro r hr
    simp only [List.mem_map, List.mem_range, Function.comp] at hr
    obtain ⟨k, hk, rfl⟩ := hr
    rw [fullCoeffs_length, List.length_eraseIdx_of_lt (by rw [List.length_reverse]; omega), List.length_reverse]
    omega
  · exact j.isLt

theorem fullCoeffs_eval (l : List R) (x : R) :
    ∑ j ∈ Finset.range (l.length + 1), (fullCoeffs l).getD j 0 * x ^ (l.length - j) = rootProd l x := by
  rw [vieta_areRoots, monicEval_range, Finset.sum_range_succ', add_comm]
  congr 1
  · simp [fullCoeffs]
  · apply Finset.sum_congr rfl
    intro k hk
    rw [Finset.mem_range] at hk
    rw [fullCoeffs, List.getD_cons_succ, List.getD_eq_getElem _ _ (by simpa using hk)]
    simp only [List.getElem_map, List.getElem_range]
    congr 2
    omega

theorem rootProd_eraseIdx (l : List R) (i : Fin l.length) (x : R) :
    rootProd (l.eraseIdx i) x = ∏ k ∈ Finset.univ.erase i, (x - l.get k) := by
  have hl : l = (List.finRange l.length).map l.get := by simp
  have h1 : l.eraseIdx i = ((List.finRange l.length).eraseIdx i).map l.get := by
    rw [← List.eraseIdx_map, ← hl]
  have h2 : (List.finRange l.length).eraseIdx i = (List.finRange l.length).erase i := by
    have := List.Nodup.erase_getElem (List.nodup_finRange l.length) i.val (by simp)
    simp only [List.getElem_finRange, Fin.cast_mk, Fin.eta] at this
    exact this.symm
  unfold rootProd
  rw [h1, h2, List.map_map]
  rfl

theorem backwardMatrix_mul (rts : List R) (i : Fin rts.length) (x : R) :
    ∑ j : Fin rts.length, (fullCoeffs (rts.eraseIdx i)).getD j 0 * x ^ (rts.length - 1 - j) =
      ∏ k ∈ Finset.univ.erase i, (x - rts.get k) := by
  rw [← rootProd_eraseIdx, ← fullCoeffs_eval]
  have hl : (rts.eraseIdx i).length = rts.length - 1 := List.length_eraseIdx_of_lt i.isLt
  have hn : 0 < rts.length := i.pos
  rw [hl, Nat.sub_add_cancel hn,
    ← Fin.sum_univ_eq_sum_range (fun j => (fullCoeffs (rts.eraseIdx i)).getD j 0 * x ^ (rts.length - 1 - j))]

end

/-- `P'(r_m) = ∏_{k ≠ m} (r_m - r_k)`. -/
theorem prod_ne_zero_of_nodup {K : Type*} [Field K] (rts : List K) (hd : rts.Nodup) (m : Fin rts.length) :
    ∏ k ∈ Finset.univ.erase m, (rts.get m - rts.get k) ≠ 0 := by
  rw [Finset.prod_ne_zero_iff]
  intro k hk
  rw [sub_ne_zero]
  intro h
  exact (Finset.mem_erase.mp hk).1 ((List.nodup_iff_injective_get.mp hd) h).symm

theorem grads_ok {K : Type*} [Field K] (rts : List K) (h : rts ≠ []) (hd : rts.Nodup) :
    grads rts = .ok (Matrix.of fun j m => - rts.get m ^ (rts.length - 1 - j) /
      ∏ k ∈ Finset.univ.erase m, (rts.get m - rts.get k)) := by
  unfold grads
  rw [backwardMatrix_ok rts h]
  have hinv : (Matrix.of fun i j => (fullCoeffs (rts.eraseIdx i)).getD j 0 : Matrix (Fin rts.length) (Fin rts.length) K) *
      (Matrix.of fun j m => rts.get m ^ (rts.length - 1 - j.val) / ∏ k ∈ Finset.univ.erase m, (rts.get m - rts.get k))
      = 1 := by
    ext i m
    rw [Matrix.mul_apply]
    simp only [Matrix.of_apply, ← mul_div_assoc]
    rw [← Finset.sum_div, backwardMatrix_mul]
    by_cases him : i = m
    · subst him
      rw [Matrix.one_apply_eq, div_self (prod_ne_zero_of_nodup rts hd i)]
    · rw [Matrix.one_apply_ne him, Finset.prod_eq_zero (i := m), zero_div]
      · simp [Ne.symm him]
      · simp
  simp only [Matrix.inv_eq_right_inv hinv]
  congr 1
  ext j m
  rw [Matrix.neg_apply, Matrix.of_apply, Matrix.of_apply, neg_div]

/-- Product rule where one factor vanishes. -/
theorem hasDerivAt_zero_mul {f g : ℝ → ℂ} {f' : ℂ} (hf : HasDerivAt f f' 0) (h0 : f 0 = 0) (hg : DifferentiableAt ℝ g 0) :
    HasDerivAt (fun t => f t * g t) (f' * g 0) 0 := by
  have := hf.fun_mul hg.hasDerivAt
  rwa [h0, zero_mul, add_zero] at this

/-- The derivative of `P_{c(t)}(r(t))` at a root of `P_{c(0)}`. -/
theorem hasDerivAt_monicEval {n : ℕ} (c : ℝ → Fin n → ℂ) (c' : Fin n → ℂ) (r : ℝ → ℂ) (r' : ℂ) (rts : List ℂ)
    (hl : rts.length = n) (hP : ∀ x, rootProd rts x = monicEval (List.ofFn (c 0)) x)
    (hc : ∀ j, HasDerivAt (fun t => c t j) (c' j) 0) (hr : HasDerivAt r r' 0) (m : Fin rts.length)
    (h0 : r 0 = rts.get m) :
    HasDerivAt (fun t => monicEval (List.ofFn (c t)) (r t))
      (∑ j, c' j * rts.get m ^ (n - 1 - j) + r' * ∏ k ∈ Finset.univ.erase m, (rts.get m - rts.get k)) 0 := by
  have hexp : ∀ (d : Fin n → ℂ) (x : ℂ), monicEval (List.ofFn d) x = x ^ n + ∑ j : Fin n, d j * x ^ (n - 1 - j) := by
    intro d x
    rw [monicEval_sum, List.length_ofFn,
      ← Fin.sum_univ_eq_sum_range (fun k => (List.ofFn d).getD k 0 * x ^ (n - 1 - k))]
    congr 1
    apply Finset.sum_congr rfl
    intro j _
    rw [List.getD_eq_getElem _ _ (by simp)]
    simp
  have hsplit : (fun t => monicEval (List.ofFn (c t)) (r t)) = fun t =>
      (∑ j : Fin n, (c t j - c 0 j) * r t ^ (n - 1 - j)) +
        (r t - rts.get m) * ∏ k ∈ Finset.univ.erase m, (r t - rts.get k) := by
    funext t
    have h1 : (r t - rts.get m) * ∏ k ∈ Finset.univ.erase m, (r t - rts.get k) = rootProd rts (r t) := by
      rw [Finset.mul_prod_erase _ (fun k => r t - rts.get k) (Finset.mem_univ m)]
      unfold rootProd
      rw [← List.prod_ofFn]
      congr 1
      conv_rhs => rw [← List.ofFn_get rts, List.map_ofFn]
      rfl
    rw [h1, hP, hexp, hexp]
    simp only [sub_mul, Finset.sum_sub_distrib]
    ring
  rw [hsplit]
  apply HasDerivAt.fun_add
  · apply HasDerivAt.fun_sum
    intro j _
    have := hasDerivAt_zero_mul ((hc j).sub_const (c 0 j)) (by simp) ((hr.fun_pow (n - 1 - j)).differentiableAt)
    rwa [h0] at this
  · have := hasDerivAt_zero_mul (g := fun t => ∏ k ∈ Finset.univ.erase m, (r t - rts.get k))
      (hr.sub_const (rts.get m)) (by simp [h0])
      (DifferentiableAt.fun_finset_prod fun k _ => hr.differentiableAt.sub_const _)
    rwa [h0] at this

end Verif.Roots
