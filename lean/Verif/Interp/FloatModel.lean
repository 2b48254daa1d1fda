import Verif.Interp.Model
import Verif.Common.Round

/-! # The linear interpolators in floating point

`Verif.Interp.Model` has exact reals; here every operation of torch is followed by a rounding `fl`.  Overflow and
underflow are not represented (`Verif.Common.Round`). -/

namespace Verif.Interp

variable (fl : ℝ → ℝ)

/-- `torch.diff` with rounding. -/
def flDiff : List ℝ → List ℝ
  | a :: b :: l => fl (b - a) :: flDiff (b :: l)
  | _ => []

/-- `dydx` (Linear1dInterpolator.py:36-38). -/
noncomputable def flDydx (xs ys : List ℝ) : List ℝ :=
  List.zipWith (fun a b => fl (a / b)) (flDiff fl ys) (flDiff fl xs)

/-- `Linear1dInterpolator.__call__` (Linear1dInterpolator.py:40-49) with rounding.  Comparisons (`searchsorted`) are exact. -/
noncomputable def flLinear1d (xs ys : List ℝ) (x : ℝ) : ℝ :=
  fl (at' ys (projectOne xs x) +
    fl (fl (x - at' xs (projectOne xs x)) * at' (flDydx fl xs ys) (projectOne xs x)))

/-- What a torch reduction (`sum`, `prod`) with the rounded operation `op` and the neutral element `e` may return: the order
and the bracketing are unspecified. -/
inductive FlFold (op : ℝ → ℝ → ℝ) (e : ℝ) : List ℝ → ℝ → Prop
  | nil : FlFold op e [] e
  | single (x : ℝ) : FlFold op e [x] x
  | node {l r : List ℝ} {a b : ℝ} : FlFold op e l a → FlFold op e r b → FlFold op e (l ++ r) (op a b)
  | perm {l l' : List ℝ} {a : ℝ} : l.Perm l' → FlFold op e l a → FlFold op e l' a

/-- `w = 1 - (x - g[idx]) / dg[idx]` (LinearNDGridInterpolator.py:36). -/
noncomputable def flWeight1 (g : List ℝ) (x : ℝ) : ℝ :=
  fl (1 - fl (fl (x - at' g (projectOne g x)) / at' (flDiff fl g) (projectOne g x)))

/-- `LinearNDGridInterpolator.__call__` (LinearNDGridInterpolator.py:27-42) may return `r`: `P` are the products of
`di - ws` (line 40), `N` and `D` the two sums of line 42. -/
def FlLinearNd (grids : List (List ℝ)) (values : List ℝ) (x : List ℝ) (r : ℝ) : Prop :=
  let idxs := List.zipWith projectOne grids x
  let ws := List.zipWith (flWeight1 fl) grids x
  let str := strides (grids.map List.length)
  let di := corners grids.length
  ∃ (P : List ℕ → ℝ) (N D : ℝ),
    (∀ d ∈ di, FlFold (fun a b => fl (a * b)) 1 (List.zipWith (fun (d : ℕ) w => fl ((d : ℝ) - w)) d ws) (P d)) ∧
    FlFold (fun a b => fl (a + b)) 0 (di.map fun d => fl (|P d| * at' values (flatIndex idxs d str))) N ∧
    FlFold (fun a b => fl (a + b)) 0 (di.map fun d => |P d|) D ∧
    r = fl (N / D)

end Verif.Interp
