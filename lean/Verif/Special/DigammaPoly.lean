import Verif.Special.DigammaModel
import Verif.Special.RealPoly

/-!
# Polynomial certificates for `digamma`

Nothing here models the code: numerator and denominator of the Lanczos sum of `digamma.h` as
coefficient lists in `t = z - 1/2`, and the inequalities between them that the kernel checks.
-/

open Complex

namespace Verif.Special

/-- `∏ (t + 1/2 + j)` over the indices `j ≥ k` of the list. -/
def dPi : ℕ → List ℚ → List ℚ
  | _, [] => [1]
  | k, _ :: l => pmul [(k : ℚ) + 1/2, 1] (dPi (k + 1) l)

/-- The numerator of `∑ c_j/(t + 1/2 + j)` over the product above. -/
def dNu : ℕ → List ℚ → List ℚ
  | _, [] => []
  | k, c :: l => padd (psmul c (dPi (k + 1) l)) (pmul [(k : ℚ) + 1/2, 1] (dNu (k + 1) l))

/-- The numerator of the Lanczos sum. -/
def digN : List ℚ := padd (psmul digammaC0 (dPi 0 digammaC)) (dNu 0 digammaC)

def digN1 : List ℚ := pshift digN
def dF : List ℚ := [607/128, 1]
def dF1 : List ℚ := [607/128 + 1, 1]
def dW : List ℚ := [2 * (607/128) + 1, 2]
def dA : List ℚ := [14 + 1/2, 1]

/-- `∑_{j<n} 2/(2j+1) w^(2(n-1-j))`. -/
def dS : ℕ → List ℚ
  | 0 => []
  | n + 1 => padd (pmul (ppow dW 2) (dS n)) [2 / (2 * n + 1)]

def dFF : List ℚ := pmul dF dF1
def dNN : List ℚ := pmul digN digN1

/-- The numerator of the defect. -/
def dP : List ℚ :=
  padd (pmul (pmul (padd (pmul (pder digN1) digN) (psmul (-1) (pmul (pder digN) digN1))) dA)
      (pmul dFF (ppow dW 15)))
    (padd (psmul (-1) (pmul dNN (pmul dFF (ppow dW 15))))
      (padd (pmul (pmul dNN dA) (pmul dFF (dS 8)))
        (psmul (607/128) (pmul (pmul dNN dA) (ppow dW 15)))))

/-- Its bound. -/
def dQ : List ℚ := pmul (pmul dNN dA) (ppow dW 15)

/-- `p(iy) = R(y²) + iy J(y²)`. -/
def pri : List ℚ → List ℚ × List ℚ
  | [] => ([], [])
  | c :: l => (c :: psmul (-1) (pri l).2, (pri l).1)

/-- `|p(iy)|²` as a polynomial in `y²`. -/
def pmod2 (l : List ℚ) : List ℚ :=
  padd (pmul (pri l).1 (pri l).1) (0 :: pmul (pri l).2 (pri l).2)

theorem pev_pri (l : List ℚ) (y : ℝ) :
    pev l (y * I) = (rev (pri l).1 (y ^ 2) : ℂ) + y * I * (rev (pri l).2 (y ^ 2) : ℂ) := by
  induction l with
  | nil => simp [pev, pri, rev]
  | cons c l ih =>
    have e : pri (c :: l) = (c :: psmul (-1) (pri l).2, (pri l).1) := rfl
    rw [e]
    simp only [pev, ih, rev, rev_smul]
    push_cast
    linear_combination (y : ℂ) ^ 2 * (rev (pri l).2 (y ^ 2) : ℂ) * I_sq

theorem normSq_pev (l : List ℚ) (y : ℝ) : ‖pev l (y * I)‖ ^ 2 = rev (pmod2 l) (y ^ 2) := by
  rw [pev_pri, ← normSq_eq_norm_sq, normSq_apply, pmod2, rev_add, rev_mul]
  simp only [add_re, mul_re, ofReal_re, ofReal_im, I_re, I_im, add_im, mul_im, rev, rev_mul]
  push_cast
  ring

theorem dP_dom : pdom (pmod2 dP) (psmul (3.7 / 10 ^ 13 * (3.7 / 10 ^ 13)) (pmod2 dQ)) = true := by
  decide +kernel

theorem dP_domR : pdom dP (psmul (1 / 10 ^ 14) dQ) = true := by decide +kernel

theorem pev_ofReal (l : List ℚ) (x : ℝ) : pev l (x : ℂ) = (rev l x : ℝ) := by
  induction l with
  | nil => simp [pev, rev]
  | cons c l ih => simp only [pev, rev, ih]; push_cast; ring

/-! Polynomials in two variables, outer `x`, inner `y`. -/

/-- The value. -/
def ev2 : List (List ℚ) → ℝ → ℝ → ℝ
  | [], _, _ => 0
  | c :: l, x, y => rev c y + x * ev2 l x y

def add2 : List (List ℚ) → List (List ℚ) → List (List ℚ)
  | [], m => m
  | l, [] => l
  | a :: l, b :: m => padd a b :: add2 l m

def smul2 (p : List ℚ) (l : List (List ℚ)) : List (List ℚ) := l.map (pmul p)

def mul2 : List (List ℚ) → List (List ℚ) → List (List ℚ)
  | [], _ => []
  | a :: l, m => add2 (smul2 a m) ([] :: mul2 l m)

theorem ev2_add (l m : List (List ℚ)) (x y : ℝ) : ev2 (add2 l m) x y = ev2 l x y + ev2 m x y := by
  induction l generalizing m with
  | nil => simp [add2, ev2]
  | cons a l ih =>
    cases m with
    | nil => simp [add2, ev2]
    | cons b m => simp only [add2, ev2, ih, rev_add]; ring

theorem ev2_smul (p : List ℚ) (l : List (List ℚ)) (x y : ℝ) :
    ev2 (smul2 p l) x y = rev p y * ev2 l x y := by
  induction l with
  | nil => simp [smul2, ev2]
  | cons a l ih =>
    have : smul2 p (a :: l) = pmul p a :: smul2 p l := rfl
    rw [this]; simp only [ev2, ih, rev_mul]; ring

theorem ev2_mul (l m : List (List ℚ)) (x y : ℝ) : ev2 (mul2 l m) x y = ev2 l x y * ev2 m x y := by
  induction l with
  | nil => simp [mul2, ev2]
  | cons a l ih => simp only [mul2, ev2_add, ev2_smul, ev2, ih, rev]; ring

theorem ev2_nonneg {l : List (List ℚ)} (h : l.all (fun c => c.all fun c => decide (0 ≤ c)) = true)
    {x y : ℝ} (hx : 0 ≤ x) (hy : 0 ≤ y) : 0 ≤ ev2 l x y := by
  induction l with
  | nil => simp [ev2]
  | cons c l ih =>
    simp only [List.all_cons, Bool.and_eq_true] at h
    have h1 := rev_nonneg h.1 hy
    have h2 := mul_nonneg hx (ih h.2)
    simp only [ev2]; linarith

/-- `p(x + iy)`: real and imaginary part. -/
def pxy : List ℚ → List (List ℚ) × List (List ℚ)
  | [] => ([], [])
  | c :: l =>
    (add2 [[c]] (add2 ([] :: (pxy l).1) (smul2 [0, -1] (pxy l).2)),
      add2 ([] :: (pxy l).2) (smul2 [0, 1] (pxy l).1))

theorem pev_pxy (l : List ℚ) (x y : ℝ) :
    pev l (x + y * I) = (ev2 (pxy l).1 x y : ℂ) + (ev2 (pxy l).2 x y : ℂ) * I := by
  induction l with
  | nil => simp [pev, pxy, ev2]
  | cons c l ih =>
    have e : pxy (c :: l) =
      (add2 [[c]] (add2 ([] :: (pxy l).1) (smul2 [0, -1] (pxy l).2)),
        add2 ([] :: (pxy l).2) (smul2 [0, 1] (pxy l).1)) := rfl
    rw [e]
    simp only [pev, ih, ev2_add, ev2_smul, ev2, rev]
    push_cast
    linear_combination (y : ℂ) * (ev2 (pxy l).2 x y : ℂ) * I_sq

/-- `|p(x + iy)|²`. -/
def pxy2 (l : List ℚ) : List (List ℚ) :=
  add2 (mul2 (pxy l).1 (pxy l).1) (mul2 (pxy l).2 (pxy l).2)

theorem normSq_pxy (l : List ℚ) (x y : ℝ) : ‖pev l (x + y * I)‖ ^ 2 = ev2 (pxy2 l) x y := by
  rw [pev_pxy, ← normSq_eq_norm_sq, normSq_apply, pxy2, ev2_add, ev2_mul, ev2_mul]
  simp

/-- All coefficients of `|N(x + iy)|² - 1` are nonnegative. -/
theorem digN_pos : (add2 [[-1]] (pxy2 digN)).all (fun c => c.all fun c => decide (0 ≤ c)) = true := by
  decide +kernel

/-- Conjugation. -/
theorem pev_conj (l : List ℚ) (w : ℂ) : pev l (starRingEnd ℂ w) = starRingEnd ℂ (pev l w) := by
  induction l with
  | nil => simp [pev]
  | cons c l ih =>
    simp only [pev, ih, map_add, map_mul]
    congr 1
    exact (map_ratCast (starRingEnd ℂ) c).symm

/-- The numerator stays away from `0` on the right half-plane. -/
theorem one_le_norm_digN {t : ℂ} (ht : 0 ≤ t.re) : 1 ≤ ‖pev digN t‖ := by
  wlog him : 0 ≤ t.im generalizing t with H
  · have := @H (starRingEnd ℂ t) (by simpa using ht) (by simp; linarith)
    rwa [pev_conj, norm_conj] at this
  have h := ev2_nonneg digN_pos ht him
  rw [ev2_add, ← normSq_pxy, re_add_im] at h
  have e : ev2 [[-1]] t.re t.im = -1 := by simp [ev2, rev]
  rw [e] at h
  nlinarith [norm_nonneg (pev digN t)]

end Verif.Special
