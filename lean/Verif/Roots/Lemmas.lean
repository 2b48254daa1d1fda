import Verif.Roots.Spec
import Mathlib.RingTheory.Polynomial.Vieta
import Mathlib.Data.List.Sublists
import Mathlib.Tactic.LinearCombination
import Mathlib.Tactic.Ring
import Mathlib.Tactic.FieldSimp

/-! # Lemmas for polynomial roots -/

namespace Verif.Roots

theorem combos_perm {α : Type*} (p : ℕ) (l : List α) : (combos p l).Perm (l.sublistsLen p) := by
  induction l generalizing p with
  | nil => cases p <;> simp [combos]
  | cons x xs ih =>
    cases p with
    | zero => simp [combos]
    | succ p =>
      simp only [combos, List.sublistsLen_succ_cons]
      exact (List.perm_append_comm).trans ((ih (p + 1)).append ((ih p).map _))

theorem combos_length {α : Type*} {p : ℕ} {l : List α} : ∀ c ∈ combos p l, c.length = p := by
  intro c hc
  exact List.length_of_sublistsLen ((combos_perm p l).subset hc)

theorem mapE_ok {α β : Type*} (f : α → Except Err β) (g : α → β) (l : List α) (h : ∀ x ∈ l, f x = .ok (g x)) :
    mapE f l = .ok (l.map g) := by
  induction l with
  | nil => rfl
  | cons x xs ih =>
    simp only [mapE, h x (by simp), ih (fun y hy => h y (by simp [hy])), List.map_cons]

theorem product_ok {R : Type*} [CommRing R] (l : List R) (h : l ≠ []) : product l = .ok l.prod := by
  cases l with
  | nil => exact absurd rfl h
  | cons x xs =>
    simp only [product, Except.ok.injEq]
    rw [List.prod_cons, List.prod_eq_foldl]
    have : ∀ (y z : R) (l : List R), l.foldl (· * ·) (y * z) = y * l.foldl (· * ·) z := by
      intro y z l
      induction l generalizing z with
      | nil => rfl
      | cons a l ih => simp only [List.foldl_cons, mul_assoc, ih]
    have h1 := this x 1 xs
    rwa [mul_one] at h1

theorem foldl_add_sum {R : Type*} [CommRing R] (l : List R) : l.foldl (· + ·) 0 = l.sum := by
  rw [List.sum_eq_foldl]

theorem esymm_ok {R : Type*} [CommRing R] (p : ℕ) (hp : 0 < p) (a : List R) :
    elementarySymmetric p a = .ok ((a : Multiset R).esymm p) := by
  unfold elementarySymmetric
  rw [mapE_ok product List.prod (combos p a) (fun c hc => product_ok c (by
    intro h
    have := combos_length c hc
    rw [h] at this
    simp at this
    omega))]
  simp only [foldl_add_sum, Except.ok.injEq, Multiset.esymm]
  rw [((combos_perm p a).map List.prod).sum_eq]
  rw [Multiset.powersetCard_coe]
  simp [List.map_map, Function.comp_def]

theorem esymmSpec_eq {R : Type*} [CommRing R] (p : ℕ) (a : List R) : esymmSpec p a = (a : Multiset R).esymm p := by
  unfold esymmSpec
  have : (a : Multiset R) = (Finset.univ : Finset (Fin a.length)).val.map a.get := by
    simp [Fin.univ_val_map]
  rw [this, Finset.esymm_map_val]

/-- The coefficient of `vieta`. -/
theorem vieta_ok {R : Type*} [CommRing R] (rts : List R) :
    vieta rts = .ok ((List.range rts.length).map fun k => (-1) ^ (k + 1) * (rts : Multiset R).esymm (k + 1)) := by
  unfold vieta
  rw [mapE_ok _ (fun k => (-1) ^ k * (rts : Multiset R).esymm k)]
  · simp [List.map_map, Function.comp_def]
  · intro k hk
    simp only [List.mem_map, List.mem_range] at hk
    obtain ⟨j, -, rfl⟩ := hk
    rw [esymm_ok _ (Nat.succ_pos j)]

end Verif.Roots
