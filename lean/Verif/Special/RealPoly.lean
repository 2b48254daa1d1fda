import Verif.Special.ListPoly
import Mathlib.Analysis.Calculus.Deriv.Mul
import Mathlib.Analysis.Calculus.Deriv.Add

/-!
# Real values of coefficient lists

Nothing here models the code.
-/

namespace Verif.Special

/-- The value `l₀ + l₁ x + l₂ x² + …`. -/
def rev : List ℚ → ℝ → ℝ
  | [], _ => 0
  | c :: l, x => (c : ℝ) + x * rev l x

/-- `p(x + 1)`. -/
def pshift : List ℚ → List ℚ
  | [] => []
  | c :: l => padd [c] (pmul [1, 1] (pshift l))

/-- The derivative. -/
def pder : List ℚ → List ℚ
  | [] => []
  | _ :: l => padd l (0 :: pder l)

/-- Every coefficient of the first is bounded in absolute value by that of the second. -/
def pdom : List ℚ → List ℚ → Bool
  | [], m => m.all fun c => decide (0 ≤ c)
  | a :: l, [] => decide (a = 0) && pdom l []
  | a :: l, b :: m => decide (qabs a ≤ b) && pdom l m

theorem rev_add (l m : List ℚ) (x : ℝ) : rev (padd l m) x = rev l x + rev m x := by
  induction l generalizing m with
  | nil => simp [padd, rev]
  | cons a l ih =>
    cases m with
    | nil => simp [padd, rev]
    | cons b m => simp only [padd, rev, ih]; push_cast; ring

theorem rev_smul (c : ℚ) (l : List ℚ) (x : ℝ) : rev (psmul c l) x = c * rev l x := by
  induction l with
  | nil => simp [psmul, rev]
  | cons a l ih =>
    have : psmul c (a :: l) = (c * a) :: psmul c l := rfl
    rw [this]; simp only [rev, ih]; push_cast; ring

theorem rev_mul (l m : List ℚ) (x : ℝ) : rev (pmul l m) x = rev l x * rev m x := by
  induction l with
  | nil => simp [pmul, rev]
  | cons a l ih => simp only [pmul, rev_add, rev_smul, rev, ih]; push_cast; ring

theorem rev_pow (l : List ℚ) (n : ℕ) (x : ℝ) : rev (ppow l n) x = rev l x ^ n := by
  induction n with
  | zero => simp [ppow, rev]
  | succ n ih => simp only [ppow, rev_mul, ih, pow_succ]; ring

theorem rev_shift (l : List ℚ) (x : ℝ) : rev (pshift l) x = rev l (x + 1) := by
  induction l with
  | nil => rfl
  | cons c l ih => simp only [pshift, rev_add, rev_mul, rev, ih]; push_cast; ring

theorem rev_hasDerivAt (l : List ℚ) (x : ℝ) : HasDerivAt (rev l) (rev (pder l) x) x := by
  induction l with
  | nil => simpa [pder, rev] using hasDerivAt_const x (0 : ℝ)
  | cons c l ih =>
    have h := ((hasDerivAt_id x).mul ih).const_add (c : ℝ)
    simp only [id_eq, one_mul] at h
    refine h.congr_deriv ?_
    simp only [pder, rev_add, rev]; push_cast; ring

theorem rev_nonneg {l : List ℚ} (h : l.all (fun c => decide (0 ≤ c)) = true) {x : ℝ} (hx : 0 ≤ x) :
    0 ≤ rev l x := by
  induction l with
  | nil => simp [rev]
  | cons c l ih =>
    simp only [List.all_cons, Bool.and_eq_true, decide_eq_true_eq] at h
    have h1 : (0 : ℝ) ≤ c := by exact_mod_cast h.1
    have h2 := mul_nonneg hx (ih h.2)
    simp only [rev]; linarith

theorem abs_rev_le {l m : List ℚ} (h : pdom l m = true) {x : ℝ} (hx : 0 ≤ x) :
    |rev l x| ≤ rev m x := by
  induction l generalizing m with
  | nil => simpa [rev] using rev_nonneg (l := m) (by simpa [pdom] using h) hx
  | cons a l ih =>
    cases m with
    | nil =>
      simp only [pdom, Bool.and_eq_true, decide_eq_true_eq] at h
      have := ih h.2
      simp only [rev, h.1, Rat.cast_zero, zero_add] at this ⊢
      rw [abs_nonpos_iff.1 this]; simp
    | cons b m =>
      simp only [pdom, Bool.and_eq_true, decide_eq_true_eq, qabs_eq] at h
      have h1 : |(a : ℝ)| ≤ b := by exact_mod_cast h.1
      have h2 := mul_le_mul_of_nonneg_left (ih h.2) hx
      simp only [rev]
      refine (abs_add_le _ _).trans ?_
      rw [abs_mul, abs_of_nonneg hx]
      linarith

end Verif.Special
