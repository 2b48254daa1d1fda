import Verif.Common.Tensor
import Verif.Interp.Model

/-! # The interpolators on tensors with batch and channel dimensions

Shapes and indices are listed last dimension first (Verif/Common/Tensor.lean). `broadcast_except` and
`broadcast_gather` are functions of the package phytorchx, taken as their names and uses say: the first broadcasts all
dimensions but the last; the second gathers along the last dimension after broadcasting the others. Grids have at
least two points (see `projectOne`). -/

namespace Verif.Interp.Batch

open Verif.Tensor

/-- Exceptions. -/
inductive Err
  | assertion | runtime | index | type | value
  deriving DecidableEq, Repr

/-- A failed broadcast is a `RuntimeError`. -/
def orRuntime {α : Type} : Option α → Except Err α
  | some a => .ok a
  | none => .error .runtime

/-- The last dimension of a shape; `shape[-1]` of a 0-dimensional tensor raises `IndexError`. -/
def lastDim : Shape → Except Err (ℕ × Shape)
  | n :: s => .ok (n, s)
  | [] => .error .index

/-- The entries along the last dimension at index `i` of the others. -/
def row {α : Type} (t : Tens α) (n : ℕ) (i : List ℕ) : List α := (List.range n).map fun j => t.get (j :: i)

/-- Attributes set by `AbstractBatchedInterpolator.__init__`. -/
structure Attrs where
  gridShape : Shape
  channelShape : Shape
  batchShape : Shape

/-- All last dimensions and remaining shapes. -/
def lastDims : List Shape → Except Err (List ℕ × List Shape)
  | [] => .ok ([], [])
  | g :: gs => do
    let (n, b) ← lastDim g
    let (ns, bs) ← lastDims gs
    return (n :: ns, b :: bs)

/-- `AbstractBatchedInterpolator.__init__` (abc.py:14-27) for at least one grid: `gridShape` is in the order of the
dimensions of `values`, last first. A negative `channel_ndim` stands for all dimensions but those of the grid
(abc.py:21-22); Python's slices cut off what is too long. -/
def init (gridShapes : List Shape) (values : Shape) (channelNdim : ℤ) : Except Err Attrs := do
  let (ns, bs) ← lastDims gridShapes
  let g := ns.reverse
  if values.take g.length ≠ g then .error .assertion
  else
    let rest := values.drop g.length
    let c := if channelNdim < 0 then rest.length else channelNdim.toNat
    let Z ← orRuntime (bcAll (bs ++ [rest.drop c]))
    return ⟨g, rest.take c, Z⟩

/-- `t.unsqueeze(-1)`. -/
def unsqueezeLast {α : Type} (t : Tens α) : Tens α := ⟨1 :: t.shape, fun i => t.get i.tail⟩

/-- `t.squeeze(-1)` for a last dimension of 1. -/
def squeezeLast {α : Type} (t : Tens α) : Tens α := ⟨t.shape.tail, fun i => t.get (0 :: i)⟩

/-- `_unsqueeeze_channels(t, pos=-2)` (abc.py:33-36): `c` dimensions of size 1 before the last one. -/
def unsqueezeChannels {α : Type} (c : ℕ) (t : Tens α) : Tens α :=
  ⟨t.shape.take 1 ++ List.replicate c 1 ++ t.shape.drop 1, fun i => t.get (i.take 1 ++ i.drop (1 + c))⟩

/-- `torch.diff(t, dim=-1)`. -/
def diffLast (t : Tens ℝ) : Tens ℝ :=
  ⟨(t.shape.headD 1 - 1) :: t.shape.tail, fun i => t.get ((i.headD 0 + 1) :: i.tail) - t.get i⟩

/-- `project_one` (abc.py:39-43). -/
noncomputable def projectOneT (x grid : Tens ℝ) : Except Err (Tens ℕ) := do
  let (m, s) ← lastDim x.shape
  let (n, b) ← lastDim grid.shape
  let Z ← orRuntime (bc b s)
  return ⟨m :: Z, fun i => projectOne (row grid n (proj b i.tail)) (x.get (i.headD 0 :: proj s i.tail))⟩

/-- `broadcast_gather(t, -1, idx)`. -/
def gatherLast {α : Type} (t : Tens α) (idx : Tens ℕ) : Except Err (Tens α) := do
  let (_, a) ← lastDim t.shape
  let (m, s) ← lastDim idx.shape
  let Z ← orRuntime (bc a s)
  return ⟨m :: Z, fun i => t.get (idx.get (i.headD 0 :: proj s i.tail) :: proj a i.tail)⟩

/-- A `Linear1dInterpolator` (Linear1dInterpolator.py:27-30): the grid, the values, the number of channel dimensions. -/
structure Lin where
  x : Tens ℝ
  y : Tens ℝ
  c : ℕ

/-- `Linear1dInterpolator(x, y, channel_ndim)` (Linear1dInterpolator.py:27-30). -/
def Lin.new (x y : Tens ℝ) (channelNdim : ℤ) : Except Err Lin := do
  let a ← init [x.shape] y.shape channelNdim
  return ⟨x, y, a.channelShape.length⟩

/-- `dydx` (Linear1dInterpolator.py:32-38). -/
noncomputable def Lin.dydx (L : Lin) : Except Err (Tens ℝ) :=
  orRuntime (map2 (· / ·) (diffLast L.y) (unsqueezeChannels L.c (diffLast L.x)))

/-- `derivative(x, return_idx=True)` (Linear1dInterpolator.py:40-43). -/
noncomputable def Lin.derivative (L : Lin) (x : Tens ℝ) : Except Err (Tens ℕ × Tens ℝ) := do
  let idx ← projectOneT x L.x
  let s ← L.dydx
  let d ← gatherLast s (unsqueezeChannels L.c idx)
  return (idx, d)

/-- `__call__` (Linear1dInterpolator.py:45-49). -/
noncomputable def Lin.call (L : Lin) (x : Tens ℝ) : Except Err (Tens ℝ) := do
  let x := unsqueezeLast x
  let (idx, deriv) ← L.derivative x
  let x0 ← gatherLast L.x idx
  let dx ← orRuntime (map2 (· - ·) x x0)
  let dy ← orRuntime (map2 (· * ·) (unsqueezeChannels L.c dx) deriv)
  let y0 ← gatherLast L.y (unsqueezeChannels L.c idx)
  let r ← orRuntime (map2 (· + ·) y0 dy)
  return squeezeLast r

/-! ### `LinearNDGridInterpolator`

The dimensions that are private to `__call__` - the coordinates (`torch.stack(_, -1)`) and the corners of a cell - are
kept inside the entries, as lists. -/

/-- `torch.stack(ts, -1)`: all shapes must be equal. -/
def stack {α : Type} : List (Tens α) → Except Err (Tens (List α))
  | [] => .error .runtime
  | t :: ts =>
    if ∀ u ∈ ts, u.shape = t.shape then .ok ⟨t.shape, fun i => (t :: ts).map fun u => u.get i⟩ else .error .runtime

/-- A `LinearNDGridInterpolator` (LinearNDGridInterpolator.py:12-25). -/
structure Nd where
  grids : List (Tens ℝ)
  values : Tens ℝ
  c : ℕ

/-- `LinearNDGridInterpolator(grids, values, channel_ndim)` (LinearNDGridInterpolator.py:12-25). -/
def Nd.new (grids : List (Tens ℝ)) (values : Tens ℝ) (channelNdim : ℤ) : Except Err Nd := do
  let a ← init (grids.map (·.shape)) values.shape channelNdim
  return ⟨grids, values, a.channelShape.length⟩

/-- Index and weight along one dimension (LinearNDGridInterpolator.py:30-36), `x` being the coordinate. -/
noncomputable def ndOne (g x : Tens ℝ) : Except Err (Tens ℕ × Tens ℝ) := do
  let idx ← projectOneT x g
  let dgrid ← gatherLast (diffLast g) idx
  let g0 ← gatherLast g idx
  let d ← orRuntime (map2 (· - ·) x g0)
  let q ← orRuntime (map2 (· / ·) d dgrid)
  return (idx, q.map fun v => 1 - v)

/-- `x.split(1, -1)[k]`. -/
def splitAt (x : Tens ℝ) (k : ℕ) : Tens ℝ := ⟨1 :: x.shape.tail, fun i => x.get (k :: i.tail)⟩

/-- The generator of LinearNDGridInterpolator.py:32-36 from dimension `k` on, unzipped. -/
noncomputable def ndParts (x : Tens ℝ) : List (Tens ℝ) → ℕ → Except Err (List (Tens ℕ) × List (Tens ℝ))
  | [], _ => .ok ([], [])
  | g :: gs, k => do
    let (idx, w) ← ndOne g (splitAt x k)
    let (idxs, ws) ← ndParts x gs (k + 1)
    return (idx :: idxs, w :: ws)

/-- The number of points of a grid. -/
def npoints (g : Tens ℝ) : ℕ := g.shape.headD 0

/-- `values.flatten(-ndim)` (LinearNDGridInterpolator.py:42) with the flattened dimension inside the entries; `sh` are the
sizes of the grid in the order of the dimensions (indices are last dimension first, hence `reverse`). -/
def flattenLast (sh : List ℕ) (values : Tens ℝ) : Tens (List ℝ) :=
  ⟨values.shape.drop sh.length, fun i => table sh fun idx => values.get (idx.reverse ++ i)⟩

/-- `broadcast_gather(flat, -1, idxs, index_ndim=2)` (LinearNDGridInterpolator.py:42): `idxs` has a last dimension (of size
1) and the corners inside its entries. -/
noncomputable def gatherCorners (flat : Tens (List ℝ)) (idxs : Tens (List ℕ)) : Except Err (Tens (List ℝ)) := do
  let (m, s) ← lastDim idxs.shape
  let Z ← orRuntime (bc flat.shape s)
  return ⟨m :: Z, fun i => (idxs.get (i.headD 0 :: proj s i.tail)).map (at' (flat.get (proj flat.shape i.tail)))⟩

/-- `__call__` (LinearNDGridInterpolator.py:27-42). -/
noncomputable def Nd.call (L : Nd) (x : Tens ℝ) : Except Err (Tens ℝ) := do
  let (d, _) ← lastDim x.shape
  if d ≠ L.grids.length then .error .assertion
  else
    let (idxs, ws) ← ndParts x L.grids 0
    let idxs ← stack idxs
    let ws ← stack ws
    let idxs := unsqueezeChannels L.c idxs
    let ws := unsqueezeChannels L.c ws
    let sh := L.grids.map npoints
    let idxs := idxs.map fun is => (corners d).map fun di => flatIndex is di (strides sh)
    let ws := ws.map fun w => (corners d).map (cornerWeight w)
    let v ← gatherCorners (flattenLast sh L.values) idxs
    let num ← orRuntime (map2 (fun w v => (List.zipWith (· * ·) w v).sum) ws v)
    let r ← orRuntime (map2 (· / ·) num (ws.map List.sum))
    return squeezeLast r

end Verif.Interp.Batch
