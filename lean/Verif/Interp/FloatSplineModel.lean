import Verif.Interp.Model
import Verif.Common.Near

/-! # Splines in floating point

The evaluation of a spline with the roundings that torch makes.  The coefficients that `torch.linalg.solve` returns are an
argument: its algorithm is not modelled (the theorems give it as much credit as a data type allows).  Overflow and underflow
are not represented (`Verif.Common.Round`). -/

namespace Verif.Interp

variable (fl : ℝ → ℝ)

/-- The loop of `polyval` of phytorchx, from the accumulator `acc`, may return `r`: each step is `acc * x + c` with the product
rounded or with a fused multiply-add. -/
def FlHorner (x : ℝ) : ℝ → List ℝ → ℝ → Prop
  | acc, [], r => r = acc
  | acc, c :: cs, r => ∃ a, (a = fl (fl (acc * x) + c) ∨ a = fl (acc * x + c)) ∧ FlHorner x a cs r

/-- `evaluate` (splines.py:227-244) from the coefficients `c` returned by the solver may return `r`.  Comparisons
(`searchsorted`) are exact. -/
def FlEvaluate (x0 : List ℝ) (degree : ℕ) (c : List ℝ) (x r : ℝ) : Prop :=
  FlHorner fl x 0 (block degree c (pickPoly x0 x)) r

/-- `weights` (splines.py:205-225) from the columns `A` of the operator of the same name may return `w`. -/
def FlWeights (x0 : List ℝ) (degree : ℕ) (A : List (List ℝ)) (x : ℝ) (w : List ℝ) : Prop :=
  List.Forall₂ (fun col r => FlHorner fl x 0 (block degree col (pickPoly x0 x)) r) A w

/-- A sum of products may be `r`: in any order, with rounded products or fused multiplications and additions. -/
inductive FlDot : List (ℝ × ℝ) → ℝ → Prop
  | zero : FlDot [] 0
  | one (a b : ℝ) : FlDot [(a, b)] (fl (a * b))
  | add {l l' : List (ℝ × ℝ)} {r r' : ℝ} : FlDot l r → FlDot l' r' → FlDot (l ++ l') (fl (r + r'))
  | fma {l : List (ℝ × ℝ)} {r : ℝ} (a b : ℝ) : FlDot l r → FlDot ((a, b) :: l) (fl (r + a * b))
  | perm {l l' : List (ℝ × ℝ)} {r : ℝ} : l.Perm l' → FlDot l r → FlDot l' r

/-- `SplineNd.evaluate` (splines.py:275-300) in one dimension may return `r`: `einsum` of the weights with the data. -/
def FlNd1 (x0 : List ℝ) (degree : ℕ) (A : List (List ℝ)) (x : ℝ) (y0 : List ℝ) (r : ℝ) : Prop :=
  ∃ w, FlWeights fl x0 degree A x w ∧ FlDot fl (w.zip y0) r

/-! ### Specification -/

/-- `c'` are the numbers `c`, each with at most `K` roundings to `p` bits. -/
def NearList (p K : ℕ) (c' c : List ℝ) : Prop := List.Forall₂ (fun a b => ∃ t, Round.NearOne p K t ∧ a = b * t) c' c

/-- What the coefficients of the polynomial used at `x` contribute in absolute value, `Σ |c_j| |x|^j`. -/
noncomputable def magnitude (x0 : List ℝ) (degree : ℕ) (c : List ℝ) (x : ℝ) : ℝ :=
  polyval ((block degree c (pickPoly x0 x)).map fun a => |a|) |x|

end Verif.Interp
