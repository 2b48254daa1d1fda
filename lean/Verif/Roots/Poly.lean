import Verif.Roots.Lemmas
import Mathlib.LinearAlgebra.Matrix.Block
import Mathlib.LinearAlgebra.Matrix.Determinant.Basic

/-! # Horner evaluation, vieta and the companion matrix -/

namespace Verif.Roots

section
variable {R : Type*} [CommRing R]

theorem monicEval_append (cs : List R) (c x : R) : monicEval (cs ++ [c]) x = monicEval cs x * x + c := by
  simp [monicEval]

/-- Horner's scheme is the sum of monomials. -/
theorem monicEval_range (n : ℕ) (f : ℕ → R) (x : R) :
    monicEval ((List.range n).map f) x = x ^ n + ∑ k ∈ Finset.range n, f k * x ^ (n - 1 - k) := by
  induction n with
  | zero => simp [monicEval]
  | succ n ih =>
    rw [List.range_succ, List.map_append, List.map_singleton, monicEval_append, ih, Finset.sum_range_succ,
      add_mul, Finset.sum_mul]
    have h1 : ∑ k ∈ Finset.range n, f k * x ^ (n - 1 - k) * x = ∑ k ∈ Finset.range n, f k * x ^ (n + 1 - 1 - k) := by
      apply Finset.sum_congr rfl
      intro k hk
      rw [Finset.mem_range] at hk
      rw [mul_assoc, ← pow_succ]
      congr 2
      omega
    rw [h1]
    simp only [Nat.add_sub_cancel, Nat.sub_self, pow_zero, mul_one]
    ring

theorem list_eq_range (cs : List R) : cs = (List.range cs.length).map fun k => cs.getD k 0 := by
  apply List.ext_getElem
  · simp
  · intro i h1 h2
    simp [List.getElem?_eq_getElem h1]

theorem monicEval_sum (cs : List R) (x : R) :
    monicEval cs x = x ^ cs.length + ∑ k ∈ Finset.range cs.length, cs.getD k 0 * x ^ (cs.length - 1 - k) := by
  conv_lhs => rw [list_eq_range cs]
  rw [monicEval_range]

theorem vieta_areRoots (rts : List R) (x : R) :
    rootProd rts x = monicEval ((List.range rts.length).map fun k =>
      (-1) ^ (k + 1) * (rts : Multiset R).esymm (k + 1)) x := by
  rw [monicEval_range]
  have h := congrArg (Polynomial.eval x) (Multiset.prod_X_sub_X_eq_sum_esymm (rts : Multiset R))
  rw [Polynomial.eval_multiset_prod] at h
  simp only [Multiset.map_coe, List.map_map] at h
  simp only [Multiset.map_map, Function.comp_def, Polynomial.eval_sub, Polynomial.eval_X, Polynomial.eval_C,
    Multiset.map_coe, Multiset.prod_coe, Multiset.coe_card, Polynomial.eval_finset_sum, Polynomial.eval_mul,
    Polynomial.eval_pow, Polynomial.eval_neg, Polynomial.eval_one] at h
  rw [show rootProd rts x = (rts.map fun r => x - r).prod from rfl, h, Finset.sum_range_succ', add_comm]
  congr 1
  · simp [Multiset.esymm]
  · apply Finset.sum_congr rfl
    intro k hk
    rw [Finset.mem_range] at hk
    rw [show rts.length - (k + 1) = rts.length - 1 - k by omega]
    ring

theorem rootProd_perm {a b : List R} (h : a.Perm b) (x : R) : rootProd a x = rootProd b x :=
  (h.map _).prod_eq

theorem companion_det {n : ℕ} (c : Fin n → R) (x : R) :
    (Matrix.scalar (Fin n) x - companion c).det = monicEval (List.ofFn c) x := by
  induction n with
  | zero => simp [monicEval]
  | succ n ih =>
    cases n with
    | zero =>
      simp [monicEval, Matrix.det_unique, companion, List.ofFn_succ]
    | succ m =>
      rw [List.ofFn_succ', List.concat_eq_append, monicEval_append, ← ih, Matrix.det_succ_column _ (Fin.last (m + 1)),
        Fin.sum_univ_succ, Fin.sum_univ_castSucc]
      have hmid : ∀ k : Fin m, (Matrix.scalar (Fin (m + 1 + 1)) x - companion c) k.castSucc.succ (Fin.last (m + 1)) = 0 := by
        intro k
        have hk := k.isLt
        simp only [Matrix.sub_apply, Matrix.scalar_apply, companion, Fin.val_succ, Fin.val_castSucc,
          Nat.add_sub_cancel, Fin.val_last, Nat.succ_ne_zero, if_false]
        rw [Matrix.diagonal_apply_ne, if_neg (by omega), sub_zero]
        intro h
        have := congrArg Fin.val h
        simp at this
        omega
      have h0 : (Matrix.scalar (Fin (m + 1 + 1)) x - companion c) 0 (Fin.last (m + 1)) = c (Fin.last (m + 1)) := by
        simp only [Matrix.sub_apply, Matrix.scalar_apply, companion]
        rw [Matrix.diagonal_apply_ne _ (by intro h; have := congrArg Fin.val h; simp at this)]
        simp
      have hlast : (Matrix.scalar (Fin (m + 1 + 1)) x - companion c) (Fin.last m).succ (Fin.last (m + 1)) = x := by
        simp only [Matrix.sub_apply, Matrix.scalar_apply, companion, Fin.succ_last, Fin.val_last]
        rw [Matrix.diagonal_apply_eq, if_neg (by omega), if_neg (by omega), sub_zero]
      have hdet0 : ((Matrix.scalar (Fin (m + 1 + 1)) x - companion c).submatrix (Fin.succAbove 0)
          (Fin.succAbove (Fin.last (m + 1)))).det = (-1) ^ (m + 1) := by
        rw [Matrix.det_of_upperTriangular]
        · rw [Finset.prod_congr rfl (g := fun _ => (-1 : R))]
          · simp
          · intro i _
            simp only [Matrix.submatrix_apply, Fin.succAbove_zero, Fin.succAbove_last, Matrix.sub_apply,
              Matrix.scalar_apply, companion, Fin.val_succ, Fin.val_castSucc, Nat.succ_ne_zero, if_false,
              Nat.add_sub_cancel, if_true]
            rw [Matrix.diagonal_apply_ne]
            · simp
            · intro h
              have := congrArg Fin.val h
              simp at this
        · intro i j hij
          simp only [id] at hij
          have hij' : j.val < i.val := hij
          simp only [Matrix.submatrix_apply, Fin.succAbove_zero, Fin.succAbove_last, Matrix.sub_apply,
              Matrix.scalar_apply, companion, Fin.val_succ, Fin.val_castSucc, Nat.succ_ne_zero, if_false,
              Nat.add_sub_cancel]
          rw [Matrix.diagonal_apply_ne, if_neg (by omega), sub_zero]
          intro h
          have := congrArg Fin.val h
          simp at this
          omega
      have hsub : (Matrix.scalar (Fin (m + 1 + 1)) x - companion c).submatrix (Fin.succAbove (Fin.last m).succ)
          (Fin.succAbove (Fin.last (m + 1))) = Matrix.scalar (Fin (m + 1)) x - companion fun i => c i.castSucc := by
        ext i j
        simp only [Fin.succ_last, Matrix.submatrix_apply, Fin.succAbove_last, Matrix.sub_apply, Matrix.scalar_apply,
          companion, Fin.val_castSucc, Matrix.diagonal_apply, Fin.castSucc_inj]
      rw [h0, hlast, hdet0, hsub, Finset.sum_eq_zero (fun k _ => by rw [hmid k]; ring)]
      simp only [Fin.val_zero, Fin.val_last, zero_add, Fin.val_succ]
      have h1 : ((-1 : R)) ^ (m + 1) * (-1) ^ (m + 1) = 1 := by
        rw [← mul_pow]; simp
      have h2 : ((-1 : R)) ^ (m + 1 + (m + 1)) = 1 := by rw [pow_add]; exact h1
      rw [h2]
      linear_combination c (Fin.last (m + 1)) * h1

theorem monicEval_hom {S : Type*} [CommRing S] (φ : R →+* S) (cs : List R) (x : R) :
    φ (monicEval cs x) = monicEval (cs.map φ) (φ x) := by
  unfold monicEval
  rw [List.foldl_map]
  have : ∀ a : R, φ (cs.foldl (fun acc c => acc * x + c) a) = cs.foldl (fun acc c => acc * φ x + φ c) (φ a) := by
    induction cs with
    | nil => simp
    | cons c cs ih => intro a; simp [ih]
  simpa using this 1

open Polynomial in
theorem monicEval_poly_inj (cs cs' : List R) (hl : cs.length = cs'.length)
    (h : monicEval (cs.map C) X = monicEval (cs'.map C) (X : R[X])) : cs = cs' := by
  induction cs using List.reverseRecOn generalizing cs' with
  | nil => simp at hl; rw [List.length_eq_zero_iff.mp hl.symm]
  | append_singleton cs c ih =>
    rcases List.eq_nil_or_concat cs' with rfl | ⟨ds, d, rfl⟩
    · simp at hl
    · rw [List.concat_eq_append] at h hl ⊢
      rw [List.map_append, List.map_append, List.map_singleton, List.map_singleton, monicEval_append,
        monicEval_append] at h
      have hc := congrArg (fun p => coeff p 0) h
      simp only [coeff_add, mul_coeff_zero, coeff_X_zero, mul_zero, coeff_C_zero, zero_add] at hc
      subst hc
      have h2 := congrArg divX h
      have hdx : ∀ p : R[X], (p * X).divX = p := by
        intro p; ext n; rw [coeff_divX, coeff_mul_X]
      simp only [divX_add, divX_C, add_zero, hdx] at h2
      rw [ih ds (by simpa using hl) h2]

end

/-- Two coefficient lists of one length describing the same polynomial function over an infinite domain are
equal. -/
theorem monicEval_inj {R : Type*} [CommRing R] [IsDomain R] [Infinite R] (cs cs' : List R)
    (hl : cs.length = cs'.length) (h : ∀ x, monicEval cs x = monicEval cs' x) : cs = cs' := by
  apply monicEval_poly_inj cs cs' hl
  apply Polynomial.funext
  intro x
  have := h x
  have e : ∀ l : List R, Polynomial.eval x (monicEval (l.map Polynomial.C) Polynomial.X) = monicEval l x := by
    intro l
    have := monicEval_hom (Polynomial.evalRingHom x) (l.map Polynomial.C) Polynomial.X
    simp only [Polynomial.coe_evalRingHom, List.map_map, Polynomial.eval_X] at this
    rw [this]
    congr 1
    conv_rhs => rw [← List.map_id l]
    congr 1
    funext y
    simp
  rw [e, e, this]

end Verif.Roots
