import Mathlib.Data.Real.Basic
import Mathlib.Data.List.Rotate
import Mathlib.Data.List.GetD
import Mathlib.Algebra.BigOperators.Group.List.Basic

/-! # Model of `phytorch/interpolate` and `phytorch/distributions`

Tensors are modelled elementwise over the batch dimensions: a grid is the list along the last dimension, a value is
an exact real (rounding is not modelled).  `torch.searchsorted` on a sorted list is the number of entries below the
query; `torch.gather` along a dimension is indexing. -/

namespace Verif.Interp

/-- Indexing of a 1-d tensor (all indices used below are proved in range). -/
def at' (l : List ℝ) (i : ℕ) : ℝ := l.getD i 0

/-- `torch.searchsorted(grid, x, right=True)` on a sorted grid: the number of entries `≤ x`. -/
noncomputable def searchsortedRight (grid : List ℝ) (x : ℝ) : ℕ := grid.countP fun g => decide (g ≤ x)

/-- `torch.searchsorted(grid, x)` on a sorted grid: the number of entries `< x`. -/
noncomputable def searchsortedLeft (grid : List ℝ) (x : ℝ) : ℕ := grid.countP fun g => decide (g < x)

/-- `AbstractBatchedInterpolator.project_one` (abc.py:39-43), for grids of at least two points (`clamp_(1, n-1)`
followed by `sub_(1)`). -/
noncomputable def projectOne (grid : List ℝ) (x : ℝ) : ℕ :=
  min (max (searchsortedRight grid x) 1) (grid.length - 1) - 1

/-- `torch.diff`. -/
def diff : List ℝ → List ℝ
  | a :: b :: l => (b - a) :: diff (b :: l)
  | _ => []

/-! ### Linear1dInterpolator -/

/-- `dydx` (Linear1dInterpolator.py:36-38). -/
noncomputable def dydx (xs ys : List ℝ) : List ℝ := List.zipWith (· / ·) (diff ys) (diff xs)

/-- `derivative` (Linear1dInterpolator.py:40-43). -/
noncomputable def derivative (xs ys : List ℝ) (x : ℝ) : ℝ := at' (dydx xs ys) (projectOne xs x)

/-- `__call__` (Linear1dInterpolator.py:45-49). -/
noncomputable def linear1d (xs ys : List ℝ) (x : ℝ) : ℝ :=
  at' ys (projectOne xs x) + (x - at' xs (projectOne xs x)) * derivative xs ys x

/-! ### merge_grids -/

/-- `torch.searchsorted(left, right) + torch.arange(right.shape[-1])` (Linear1dInterpolator.py:19). -/
noncomputable def mergePositions (left right : List ℝ) : List ℕ :=
  right.mapIdx fun j r => searchsortedLeft left r + j

/-- The mask `mright` (Linear1dInterpolator.py:18-19): `True` at those positions. -/
noncomputable def maskRight (left right : List ℝ) : List Bool :=
  (List.range (left.length + right.length)).map fun i => decide (i ∈ mergePositions left right)

/-- `grid[mleft], grid[mright] = left, right` (Linear1dInterpolator.py:22-23): boolean-mask assignment writes the
source's entries, in order, to the positions where the mask holds. `none` if the number of entries does not match
(torch raises). -/
def scatter : List Bool → List ℝ → List ℝ → Option (List ℝ)
  | [], [], [] => some []
  | false :: ms, a :: l, r => (scatter ms l r).map (a :: ·)
  | true :: ms, l, b :: r => (scatter ms l r).map (b :: ·)
  | _, _, _ => none

/-- `merge_grids` (Linear1dInterpolator.py:15-24) for grids without batch dimensions: the grid and the masks
`(mleft, mright)`. (With batch dimensions line 19 indexes the first dimension instead of the last and raises or
garbles; not modelled.) -/
noncomputable def mergeGrids (left right : List ℝ) : Option (List ℝ × List Bool × List Bool) :=
  let m := maskRight left right
  (scatter m left right).map fun g => (g, m.map (!·), m)

/-! ### LinearNDGridInterpolator -/

/-- `tuple(product(*ndim*((0, 1),)))` (LinearNDGridInterpolator.py:21). -/
def corners : ℕ → List (List ℕ)
  | 0 => [[]]
  | n + 1 => [0, 1].flatMap fun d => (corners n).map (d :: ·)

/-- The comprehension building the strides (LinearNDGridInterpolator.py:22-25): the list of `p`s before the final
reversal, over the reversed shape, starting from `_p`. -/
def stridesFrom (p : ℕ) : List ℕ → List ℕ
  | [] => []
  | s :: l => p :: stridesFrom (p * s) l

/-- `self.strides`. -/
def strides (shape : List ℕ) : List ℕ := (stridesFrom 1 shape.reverse).reverse

/-- `((idxs + di) * strides).sum(-1)` (LinearNDGridInterpolator.py:39). -/
def flatIndex (idxs di str : List ℕ) : ℕ := (List.zipWith (· * ·) (List.zipWith (· + ·) idxs di) str).sum

/-- `w = 1 - (x - g[idx]) / dg[idx]` (LinearNDGridInterpolator.py:36), with `dg = diff(g)`. -/
noncomputable def weight1 (g : List ℝ) (x : ℝ) : ℝ :=
  1 - (x - at' g (projectOne g x)) / at' (diff g) (projectOne g x)

/-- `(di - ws).prod(-1).abs()` (LinearNDGridInterpolator.py:40) for one corner. -/
noncomputable def cornerWeight (ws : List ℝ) (di : List ℕ) : ℝ :=
  |(List.zipWith (fun (d : ℕ) w => (d : ℝ) - w) di ws).prod|

/-- `__call__` (LinearNDGridInterpolator.py:27-42), `values` flattened over the last `ndim` dimensions. -/
noncomputable def linearNd (grids : List (List ℝ)) (values : List ℝ) (x : List ℝ) : ℝ :=
  let idxs := List.zipWith projectOne grids x
  let ws := List.zipWith weight1 grids x
  let str := strides (grids.map List.length)
  let di := corners grids.length
  (di.map fun d => cornerWeight ws d * at' values (flatIndex idxs d str)).sum / (di.map (cornerWeight ws)).sum

/-! ### Splines -/

/-- `polyderiv_coeff` (splines.py:16-17): the product of `polydegree, polydegree-1, …` (`derivdegree` factors). -/
def polyderivCoeff (d dd : ℕ) : ℤ := ((List.range dd).map fun k => (d : ℤ) - k).prod

/-- `torch.roll(·, shift, 0)` on a list, for a shift taken modulo the length. -/
def roll {α} (l : List α) (shift : ℤ) : List α := l.rotate ((-shift) % l.length).toNat

/-- Python indexing of the knots with `i ≥ 0` or `i = -1`. -/
def knot (x0 : List ℝ) (i : ℤ) : ℝ := if i < 0 then at' x0 (x0.length - i.natAbs) else at' x0 i.toNat

/-- Numbers `npolys`, `nvarsp`, `nvars` (splines.py:47-51). -/
def npolys (x0 : List ℝ) : ℕ := x0.length - 1
@[inherit_doc npolys] def nvarsp (degree : ℕ) : ℕ := degree + 1
@[inherit_doc npolys] def nvars (x0 : List ℝ) (degree : ℕ) : ℕ := nvarsp degree * npolys x0

/-- Degrees `range(degree, -1, -1)`. -/
def degrees (degree : ℕ) : List ℕ := (List.range (degree + 1)).reverse

/-- `torch.stack([x0p[d][i] for d in …])` (splines.py:71-73). -/
def powRow (degree : ℕ) (x : ℝ) : List ℝ := (degrees degree).map fun d => x ^ d

/-- `[m * polyderiv_coeff(d, dd) * x0p[d-dd][i] if d>=dd else 0 for d in …]` (splines.py:81-82, 91-92). -/
def derivRow (degree dd : ℕ) (m : ℤ) (x : ℝ) : List ℝ :=
  (degrees degree).map fun d => if dd ≤ d then ((m * polyderivCoeff d dd : ℤ) : ℝ) * x ^ (d - dd) else 0

/-- A block padded with zeros to length `n` and rolled. -/
def padRoll (block : List ℝ) (n : ℕ) (shift : ℤ) : List ℝ := roll (block ++ List.replicate (n - block.length) 0) shift

/-- `X0` (splines.py:58-97): the list of rows. -/
def X0 (x0 : List ℝ) (degree : ℕ) : List (List ℝ) :=
  let n := nvars x0 degree
  let v := nvarsp degree
  ((List.range (npolys x0)).flatMap fun i =>
    [i, i + 1].map fun i' => padRoll (powRow degree (at' x0 i')) n (i * v : ℕ)) ++
  ((List.range' 1 (degree - 1)).flatMap fun dd => (List.range' 1 (npolys x0 - 1)).map fun i =>
    padRoll (derivRow degree dd 1 (at' x0 i) ++ derivRow degree dd (-1) (at' x0 i)) n ((i - 1) * v : ℕ)) ++
  ((List.range' 2 (degree - 2)).reverse.flatMap fun dd => [(0 : ℤ), -1].map fun i =>
    padRoll (derivRow degree dd 1 (knot x0 i)) n (i * v))

/-- `y0.repeat_interleave(2)[1:-1]` (splines.py:159). -/
def repeat2 (y0 : List ℝ) : List ℝ := (y0.flatMap fun y => [y, y]).tail.dropLast

/-- `Y0` (splines.py:140-159). -/
def Y0 (x0 : List ℝ) (degree : ℕ) (y0 : List ℝ) : List ℝ :=
  repeat2 y0 ++ List.replicate (nvars x0 degree - 2 * npolys x0) 0

/-- Inner product of a row with a vector. -/
def dot (a b : List ℝ) : ℝ := (List.zipWith (· * ·) a b).sum

/-- What `torch.linalg.solve(X0, Y0)` returns: a vector of the right length that solves the system. -/
def Solves (x0 : List ℝ) (degree : ℕ) (y0 c : List ℝ) : Prop :=
  c.length = nvars x0 degree ∧ (X0 x0 degree).map (dot · c) = Y0 x0 degree y0

/-- `.unflatten(-1, (npolys, nvarsp))` (splines.py:175): the coefficients of polynomial `i`. -/
def block (degree : ℕ) (c : List ℝ) (i : ℕ) : List ℝ := (c.drop (i * nvarsp degree)).take (nvarsp degree)

/-- `polyval` of phytorchx: Horner, highest degree first. -/
def polyval (cs : List ℝ) (x : ℝ) : ℝ := cs.foldl (fun acc c => acc * x + c) 0

/-- `pick_poly` (splines.py:120-138). -/
noncomputable def pickPoly (x0 : List ℝ) (x : ℝ) : ℕ := min (searchsortedLeft x0 x - 1) (x0.length - 2)

/-- `evaluate` (splines.py:227-244) from the coefficients `c` returned by the solver. -/
noncomputable def evaluate (x0 : List ℝ) (degree : ℕ) (c : List ℝ) (x : ℝ) : ℝ :=
  polyval (block degree c (pickPoly x0 x)) x

/-- `starmap(operator.add, ichunked(…, 2))` (splines.py:115-117) on columns. -/
def chunkAdd : List (List ℝ) → List (List ℝ)
  | a :: b :: l => List.zipWith (· + ·) a b :: chunkAdd l
  | _ => []

/-- What `torch.Tensor.inverse` returns for `X0`, as the list of its columns. -/
def IsInverse (x0 : List ℝ) (degree : ℕ) (inv : List (List ℝ)) : Prop :=
  inv.length = nvars x0 degree ∧ ∀ j (h : j < inv.length), inv[j].length = nvars x0 degree ∧
    (X0 x0 degree).map (dot · inv[j]) = (List.range (nvars x0 degree)).map fun i => if i = j then 1 else 0

/-- `A` (splines.py:99-118) as the list of its columns: `X0inv[..., 0]`, sums of pairs of `X0inv[..., 1:-1]`,
`X0inv[..., -1]`, of the first `2 * npolys` columns of the inverse. -/
def Acols (x0 : List ℝ) (inv : List (List ℝ)) : List (List ℝ) :=
  match inv.take (2 * npolys x0) with
  | [] => []
  | f :: g => f :: (chunkAdd g.dropLast ++ [g.getLastD []])

/-- `weights` (splines.py:205-225). -/
noncomputable def weights (x0 : List ℝ) (degree : ℕ) (inv : List (List ℝ)) (x : ℝ) : List ℝ :=
  (Acols x0 inv).map fun col => polyval (block degree col (pickPoly x0 x)) x

/-- `SplineNd.evaluate` (splines.py:275-300): the `einsum` of the weights in each dimension with the values. -/
def einsum : List (List ℝ) → (List ℕ → ℝ) → ℝ
  | [], F => F []
  | w :: ws, F => ((List.range w.length).map fun i => at' w i * einsum ws fun idx => F (i :: idx)).sum

/-! ### NDIDistribution (distributions/__init__.py) -/

inductive Err | valueError
  deriving DecidableEq, Repr

/-- `cumsum`. -/
def cumsumFrom (acc : ℝ) : List ℝ → List ℝ
  | [] => []
  | a :: l => (acc + a) :: cumsumFrom (acc + a) l

/-- `torch.cat((zeros_like(norm), cprob / norm), i)` with `cprob = mprob.cumsum(i)`, `norm = cprob.narrow(i, -1, 1)`
(distributions/__init__.py:25-32), along dimension `i`. -/
noncomputable def cprobs (mprob : List ℝ) : List ℝ :=
  0 :: (cumsumFrom 0 mprob).map (· / (cumsumFrom 0 mprob).getLastD 0)

/-- All multi-indices of a shape. -/
def indices : List ℕ → List (List ℕ)
  | [] => [[]]
  | s :: sh => (List.range s).flatMap fun i => (indices sh).map (i :: ·)

/-- `mprob` (distributions/__init__.py:28-31): midpoints along a dimension (`mid_many` averages neighbours), summed
over the dimensions before it, for fixed indices `post` in the dimensions after it.  `F` is the tensor `probs`,
`pre` the sizes of the dimensions before, `n` the size of this one. -/
noncomputable def mprob (F : List ℕ → ℝ) (pre : List ℕ) (n : ℕ) (post : List ℕ) : List ℝ :=
  (List.range (n - 1)).map fun j =>
    ((indices pre).map fun i => (F (i ++ j :: post) + F (i ++ (j + 1) :: post)) / 2).sum

/-- The flattened (row-major) tensor of shape `shape` with entries `F idx`: how `torch`
lays out (and `flatten()`s, interpolate/LinearNDGridInterpolator.py:42) a contiguous tensor; also used in the specifications. -/
def table : List ℕ → (List ℕ → ℝ) → List ℝ
  | [], F => [F []]
  | s :: sh, F => (List.range s).flatMap fun i => table sh fun idx => F (i :: idx)

/-- `cinterp(x)` (distributions/__init__.py:33-36, 56): the marginal cumulative probabilities along one dimension
interpolated linearly in the later coordinates. -/
noncomputable def condCprobs (F : List ℕ → ℝ) (pre : List ℕ) (n : ℕ) (post : List (List ℝ)) (x : List ℝ) : List ℝ :=
  (List.range n).map fun j =>
    linearNd post (table (post.map List.length) fun idx => at' (cprobs (mprob F pre n idx)) j) x

/-- The items generated in `icdf` (distributions/__init__.py:53-61): `rev` are the remaining grids, last dimension
first (`self.grids[-2::-1]`), `us` the remaining values, `post` the grids already done, `x` the coordinates so far. -/
noncomputable def icdfItems (F : List ℕ → ℝ) : List (List ℝ) → List ℝ → List (List ℝ) → List ℝ → List (List ℝ)
  | g :: rev, u :: us, post, x =>
    let x' := linear1d (condCprobs F (rev.reverse.map List.length) g.length post x) g u :: x
    x' :: icdfItems F rev us (g :: post) x'
  | _, _, _, _ => []

/-- `icdf(value)` (distributions/__init__.py:53-61). `more_itertools.last` of an empty iterable raises
`ValueError`. (`value[0]` of an empty sequence and a distribution without dimensions are not modelled.) -/
noncomputable def icdf (grids : List (List ℝ)) (F : List ℕ → ℝ) (us : List ℝ) : Except Err (List ℝ) :=
  match grids.reverse, us with
  | g :: rev, u :: us =>
    let x := [linear1d (cprobs (mprob F (rev.reverse.map List.length) g.length [])) g u]
    match (icdfItems F rev us [g] x).getLast? with
    | some r => .ok r
    | none => .error .valueError
  | _, _ => .error .valueError

end Verif.Interp
