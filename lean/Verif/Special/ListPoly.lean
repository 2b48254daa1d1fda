import Mathlib.Analysis.Complex.Basic
import Mathlib.Tactic.Ring
import Mathlib.Tactic.Positivity
import Mathlib.Tactic.Linarith
import Mathlib.Tactic.Push

/-!
# Polynomials as lists of rational coefficients

A small reflective tool used in the accuracy proofs of `gamma` and `loggamma`
(`phytorch-extensions/special/gamma.h`, `loggamma.h`): the value of a polynomial
with rational coefficients at a complex point, its arithmetic on lists, and the
bound of its norm by the same polynomial with absolute values of coefficients.
Nothing here models the code.
-/

namespace Verif.Special

/-- The value `l₀ + l₁ w + l₂ w² + …`. -/
def pev : List ℚ → ℂ → ℂ
  | [], _ => 0
  | c :: l, w => (c : ℂ) + w * pev l w

/-- Sum of two coefficient lists. -/
def padd : List ℚ → List ℚ → List ℚ
  | [], m => m
  | l, [] => l
  | a :: l, b :: m => (a + b) :: padd l m

/-- Multiplication by a constant. -/
def psmul (c : ℚ) (l : List ℚ) : List ℚ := l.map (c * ·)

/-- Product of two coefficient lists. -/
def pmul : List ℚ → List ℚ → List ℚ
  | [], _ => []
  | a :: l, m => padd (psmul a m) (0 :: pmul l m)

/-- Powers. -/
def ppow (l : List ℚ) : ℕ → List ℚ
  | 0 => [1]
  | n + 1 => pmul l (ppow l n)

/-- Absolute value, computably. -/
def qabs (c : ℚ) : ℚ := if c < 0 then -c else c

/-- `|l₀| + |l₁| r + |l₂| r² + …`. -/
def pabs : List ℚ → ℚ → ℚ
  | [], _ => 0
  | c :: l, r => qabs c + r * pabs l r

theorem qabs_eq (c : ℚ) : qabs c = |c| := by
  unfold qabs; split
  · rw [abs_of_neg ‹_›]
  · rw [abs_of_nonneg (not_lt.1 ‹_›)]

theorem pev_add (l m : List ℚ) (w : ℂ) : pev (padd l m) w = pev l w + pev m w := by
  induction l generalizing m with
  | nil => simp [padd, pev]
  | cons a l ih =>
    cases m with
    | nil => simp [padd, pev]
    | cons b m => simp only [padd, pev, ih]; push_cast; ring

theorem pev_smul (c : ℚ) (l : List ℚ) (w : ℂ) : pev (psmul c l) w = c * pev l w := by
  induction l with
  | nil => simp [psmul, pev]
  | cons a l ih =>
    have : psmul c (a :: l) = (c * a) :: psmul c l := rfl
    rw [this]; simp only [pev, ih]; push_cast; ring

theorem pev_mul (l m : List ℚ) (w : ℂ) : pev (pmul l m) w = pev l w * pev m w := by
  induction l with
  | nil => simp [pmul, pev]
  | cons a l ih => simp only [pmul, pev_add, pev_smul, pev, ih]; push_cast; ring

theorem pev_pow (l : List ℚ) (n : ℕ) (w : ℂ) : pev (ppow l n) w = pev l w ^ n := by
  induction n with
  | zero => simp [ppow, pev]
  | succ n ih => simp only [ppow, pev_mul, ih, pow_succ]; ring

theorem norm_pev_le (l : List ℚ) {w : ℂ} {r : ℚ} (h : ‖w‖ ≤ r) : ‖pev l w‖ ≤ (pabs l r : ℚ) := by
  induction l with
  | nil => simp [pev, pabs]
  | cons c l ih =>
    simp only [pev, pabs, qabs_eq]
    push_cast
    have h0 : ‖(c : ℂ)‖ = |(c : ℝ)| := by
      simpa using Complex.norm_real (c : ℝ)
    refine (norm_add_le _ _).trans (add_le_add h0.le ?_)
    rw [norm_mul]
    exact mul_le_mul h ih (norm_nonneg _) ((norm_nonneg _).trans h)

/-- Splitting off the `n` lowest coefficients. -/
theorem pev_split (l : List ℚ) (n : ℕ) (w : ℂ) :
    pev l w = pev (l.take n) w + w ^ n * pev (l.drop n) w := by
  induction n generalizing l with
  | zero => simp [pev]
  | succ n ih =>
    cases l with
    | nil => simp [pev]
    | cons c l =>
      simp only [List.take_succ_cons, List.drop_succ_cons, pev, ih l]; ring

/-- If the `n` lowest coefficients vanish, the value is `O(wⁿ)` with an explicit constant. -/
theorem norm_pev_le_pow (l : List ℚ) (n : ℕ) (hl : (l.take n).all (· = 0) = true)
    {w : ℂ} {r : ℚ} (h : ‖w‖ ≤ r) : ‖pev l w‖ ≤ ‖w‖ ^ n * (pabs (l.drop n) r : ℚ) := by
  have h0 : pev (l.take n) w = 0 := by
    generalize l.take n = m at hl
    induction m with
    | nil => rfl
    | cons c m ih =>
      simp only [List.all_cons, Bool.and_eq_true, decide_eq_true_eq] at hl
      simp [pev, hl.1, ih hl.2]
  rw [pev_split l n, h0, zero_add, norm_mul, norm_pow]
  exact mul_le_mul_of_nonneg_left (norm_pev_le _ h) (by positivity)

end Verif.Special
