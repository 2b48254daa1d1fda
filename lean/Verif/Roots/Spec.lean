import Verif.Roots.Model
import Mathlib.Algebra.Polynomial.Eval.Defs
import Mathlib.Algebra.BigOperators.Fin
import Mathlib.LinearAlgebra.Matrix.Charpoly.Coeff

/-! # Specification vocabulary for polynomial roots -/

namespace Verif.Roots

/-- Value at `x` of the monic polynomial with coefficients `cs` in order of decreasing powers, leading 1
omitted (the convention documented in `roots`): Horner's scheme. -/
def monicEval {R : Type*} [CommRing R] (cs : List R) (x : R) : R := cs.foldl (fun acc c => acc * x + c) 1

/-- `∏ (x - r)` over a list of roots. -/
def rootProd {R : Type*} [CommRing R] (rts : List R) (x : R) : R := (rts.map (x - ·)).prod

/-- `rts` are the roots, with multiplicity, of the monic polynomial with coefficients `cs`. -/
def AreRoots {R : Type*} [CommRing R] (cs rts : List R) : Prop :=
  rts.length = cs.length ∧ ∀ x, rootProd rts x = monicEval cs x

/-- `torch.linalg.eigvals` returns the roots of the characteristic polynomial, with multiplicity. -/
def EigSpec (eig : (n : ℕ) → Matrix (Fin n) (Fin n) ℂ → List ℂ) : Prop :=
  ∀ (n : ℕ) (M : Matrix (Fin n) (Fin n) ℂ), (eig n M).length = n ∧
    ∀ x : ℂ, rootProd (eig n M) x = (Matrix.scalar (Fin n) x - M).det

/-- A complex square root: any branch. -/
def IsSqrt (sq : ℂ → ℂ) : Prop := ∀ z, sq z * sq z = z

/-- A complex cube root: any branch. -/
def IsCbrt (cb : ℂ → ℂ) : Prop := ∀ z, cb z * cb z * cb z = z

/-- The square root with non-negative real part (either branch on the negative real axis). -/
def IsPrincipalSqrt (sq : ℂ → ℂ) : Prop := IsSqrt sq ∧ ∀ z, 0 ≤ (sq z).re

/-- The sum over all `p`-element subsets of the positions of `a` of the product of the entries. -/
def esymmSpec {R : Type*} [CommRing R] (p : ℕ) (a : List R) : R :=
  ∑ s ∈ (Finset.univ : Finset (Fin a.length)).powersetCard p, ∏ i ∈ s, a.get i

/-- The cubic is not of the degenerate form `(x + b/3)^3 = i y` with real `y ≠ 0` (on which the code sits on
the branch cut of the square root). -/
def CubicRegular (b c d : ℂ) : Prop := b * b = 3 * c → (27 * d - b * b * b).re = 0 → 27 * d = b * b * b

/-- The resolvent cubic of the depressed quartic is regular (or not needed). -/
def QuarticRegular (b c d e : ℂ) : Prop :=
  let p := (8 * c - 3 * b * b) / 8
  let q := (b * b * b - 4 * b * c + 8 * d) / 8
  let r := (-3 * b * b * b * b + 256 * e - 64 * b * d + 16 * b * b * c) / 256
  q = 0 ∨ CubicRegular (2 * p) (p * p - 4 * r) (-q * q)

/-- Regularity of the coefficients handed to a closed form. -/
def Regular : List ℂ → Prop
  | [b, c, d] => CubicRegular b c d
  | [b, c, d, e] => QuarticRegular b c d e
  | _ => True

end Verif.Roots
