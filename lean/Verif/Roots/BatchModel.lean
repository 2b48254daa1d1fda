import Verif.Roots.Model
import Verif.Common.Tensor
import Mathlib.Data.Fintype.BigOperators
import Mathlib.Algebra.BigOperators.Fin

/-! # Model of `phytorch/roots/__init__.py` on tensors

Shapes and indices are listed from the last dimension to the first (see `Verif.Common.Tensor`). Numbers are exact complex numbers; the
conversion to a complex dtype (`as_complex_tensors`) does not change values or shapes and is left out. -/

namespace Verif.Roots.Batch

open Verif.Tensor

/-- Exceptions. -/
inductive Err | valueError | notImplemented | typeError | runtime | index | linalg
  deriving DecidableEq, Repr

/-- The entries of all tensors that stand at index `i` of a shape they are broadcast to. -/
def entries {α : Type} (ts : List (Tens α)) (i : List ℕ) : List α := ts.map fun t => t.get (proj t.shape i)

/-- `torch.broadcast_tensors(*ts)` and what an elementwise kernel sees (phytorch-extensions/common/implement.h:28-44): the common shape and,
at every index, the entries of all tensors. Shapes that do not broadcast are a `RuntimeError`. -/
def broadcast {α : Type} (ts : List (Tens α)) : Except Err (Tens (List α)) :=
  match bcAll (ts.map (·.shape)) with
  | none => .error .runtime
  | some Z => .ok ⟨Z, entries ts⟩

/-- `t.unbind(-1)`, or the outputs of a kernel with several outputs (implement.h:51-64): the `n` components of the entries. -/
def unbind (n : ℕ) (t : Tens (List ℂ)) : List (Tens ℂ) := (List.range n).map fun k => t.map fun l => l.getD k 0

/-- `companion_matrix(*coeffs)` (roots/__init__.py:38-43): the row of negated coefficients, and under it (`torch.cat(_, -2)`) the expanded
`torch.eye(n - 1, n)`. `torch.stack` of no tensors raises `RuntimeError`. -/
noncomputable def companionT (coeffs : List (Tens ℂ)) : Except Err (Tens ℂ) :=
  if coeffs = [] then .error .runtime
  else match broadcast coeffs with
    | .error e => .error e
    | .ok b =>
      let n := coeffs.length
      let top : Tens ℂ := ⟨n :: 1 :: b.shape, fun i => -(b.get (i.drop 2)).getD (i.getD 0 0) 0⟩
      let eye : Tens ℂ := ⟨n :: (n - 1) :: b.shape, fun i => if i.getD 1 0 = i.getD 0 0 then 1 else 0⟩
      .ok ⟨n :: (1 + (n - 1)) :: b.shape, fun i =>
        if i.getD 1 0 < 1 then top.get i else eye.get (i.getD 0 0 :: (i.getD 1 0 - 1) :: i.drop 2)⟩

/-- `torch.linalg.eigvals(m)`: `eig` on every matrix in the last two dimensions. -/
noncomputable def eigvals (eig : (n : ℕ) → Matrix (Fin n) (Fin n) ℂ → List ℂ) (m : Tens ℂ) : Except Err (Tens (List ℂ)) :=
  match m.shape with
  | n :: k :: Z =>
    if k ≠ n then .error .linalg
    else .ok ⟨Z, fun i => eig n fun r c => m.get (c.val :: r.val :: i)⟩
  | _ => .error .linalg

/-- `Roots.forward` (roots/__init__.py:54-67) through `roots` (roots/__init__.py:79-111): `sq`, `cb`, `eig` as in `Verif.Roots.solve`. -/
noncomputable def rootsT (sq cb : ℂ → ℂ) (eig : (n : ℕ) → Matrix (Fin n) (Fin n) ℂ → List ℂ) (force : Bool)
    (coeffs : List (Tens ℂ)) : Except Err (List (Tens ℂ)) :=
  let n := coeffs.length
  if n = 0 then .error .valueError
  else if n = 1 then .error .notImplemented
  else if force = false ∧ (n = 2 ∨ n = 3 ∨ n = 4) then
    -- the kernels roots2, roots3, roots4
    match broadcast coeffs with
    | .error e => .error e
    | .ok b => .ok (unbind n (b.map (solve sq cb eig false)))
  else
    match companionT coeffs with
    | .error e => .error e
    | .ok m => match eigvals eig m with
      | .error e => .error e
      | .ok t => .ok (unbind n t)

/-- `torch.stack(ts, dim)`: the new dimension is number `dim` of the result, counted from the first, or from the last if negative. -/
def stackDim (dim : ℤ) : List (Tens ℂ) → Except Err (Tens ℂ)
  | [] => .error .runtime
  | t :: ts =>
    let d := t.shape.length
    if ¬ ∀ u ∈ ts, u.shape = t.shape then .error .runtime
    else if dim < -(d + 1 : ℤ) ∨ (d : ℤ) < dim then .error .index
    else
      let p := if dim < 0 then (-dim - 1).toNat else ((d : ℤ) - dim).toNat
      .ok ⟨t.shape.insertIdx p (t :: ts).length, fun i => ((t :: ts).getD (i.getD p 0) t).get (i.eraseIdx p)⟩

/-- `sroots(*coeffs, dim, force_numeric)` (roots/__init__.py:114-122). -/
noncomputable def srootsT (sq cb : ℂ → ℂ) (eig : (n : ℕ) → Matrix (Fin n) (Fin n) ℂ → List ℂ) (force : Bool) (dim : ℤ)
    (coeffs : List (Tens ℂ)) : Except Err (Tens ℂ) :=
  match rootsT sq cb eig force coeffs with
  | .error e => .error e
  | .ok rs => stackDim dim rs

/-- A binary operation on tensors. -/
def op (f : ℂ → ℂ → ℂ) (s t : Tens ℂ) : Except Err (Tens ℂ) :=
  match map2 f s t with
  | none => .error .runtime
  | some u => .ok u

/-- `reduce(f, ts, t)` with a binary operation on tensors. -/
def fold (f : ℂ → ℂ → ℂ) : Tens ℂ → List (Tens ℂ) → Except Err (Tens ℂ)
  | t, [] => .ok t
  | t, u :: us => match op f t u with
    | .error e => .error e
    | .ok v => fold f v us

/-- `product(ts)` (utils/symmetry.py:11). -/
def productT : List (Tens ℂ) → Except Err (Tens ℂ)
  | [] => .error .typeError
  | t :: ts => fold (· * ·) t ts

/-- Apply a function that may raise to all elements, in order. -/
def mapE {α β : Type} (f : α → Except Err β) : List α → Except Err (List β)
  | [] => .ok []
  | x :: xs => match f x with
    | .error e => .error e
    | .ok y => match mapE f xs with
      | .error e => .error e
      | .ok ys => .ok (y :: ys)

/-- `elementary_symmetric(p, ts)` (utils/symmetry.py:18-19): `sum` starts from the number 0, which is also the result if there is no
combination. -/
def esymT (p : ℕ) (ts : List (Tens ℂ)) : Except Err (Tens ℂ) :=
  match mapE productT (combos p ts) with
  | .error e => .error e
  | .ok us => fold (· + ·) ⟨[], fun _ => 0⟩ us

/-- `vieta(rts)` (roots/__init__.py:21-35). -/
def vietaT (rts : List (Tens ℂ)) : Except Err (List (Tens ℂ)) :=
  mapE (fun k => match esymT k rts with
    | .error e => .error e
    | .ok e => .ok (e.map fun v => (-1) ^ k * v)) ((List.range rts.length).map (· + 1))

/-! ### Gradients -/

/-- `prepend(torch.ones_like(r[0]), vieta(r))` (roots/__init__.py:72-75). -/
def backwardRow (r : List (Tens ℂ)) : Except Err (List (Tens ℂ)) :=
  match vietaT r with
  | .error e => .error e
  | .ok cs => .ok (⟨(r.head?.map (·.shape)).getD [], fun _ => 1⟩ :: cs)

/-- The tensors stacked in `Roots.backward` (roots/__init__.py:72-75): `backwardRow` for every combination of all but one of the reversed
roots. -/
def backwardRows (rts : List (Tens ℂ)) : Except Err (List (Tens ℂ)) :=
  match mapE backwardRow (combos (rts.length - 1) rts.reverse) with
  | .error e => .error e
  | .ok rows => .ok rows.flatten

/-- All indices of a shape. -/
def indices : Shape → List (List ℕ)
  | [] => [[]]
  | d :: s => (List.range d).flatMap fun k => (indices s).map (k :: ·)

/-- `-torch.stack(_, -1).unflatten(-1, (n, n)).inverse()` (roots/__init__.py:72-75), the two last dimensions being inside the entries:
`torch.stack` needs equal shapes; `inverse` raises if *any* of the matrices is singular. -/
noncomputable def gradsT (rts : List (Tens ℂ)) : Except Err (Tens (Matrix (Fin rts.length) (Fin rts.length) ℂ)) :=
  let n := rts.length
  match backwardRows rts with
  | .error e => .error e
  | .ok [] => .error .runtime
  | .ok (t :: ts) =>
    if ¬ ∀ u ∈ ts, u.shape = t.shape then .error .runtime
    else
      let M : List ℕ → Matrix (Fin n) (Fin n) ℂ := fun i r c => ((t :: ts).map fun u => u.get i).getD (r.val * n + c.val) 0
      open Classical in
      if ∃ i ∈ indices t.shape, (M i).det = 0 then .error .linalg
      else .ok ⟨t.shape, fun i => -(M i)⁻¹⟩

/-- `Roots.backward` (roots/__init__.py:69-76) without the leading `None`: `(grads.conj() * torch.stack(grad_outputs)).sum(1).unbind(0)`;
all `grad_outputs` have the shape of the roots. -/
noncomputable def backwardT (rts gouts : List (Tens ℂ)) : Except Err (List (Tens ℂ)) :=
  match gradsT rts with
  | .error e => .error e
  | .ok g => .ok ((List.finRange rts.length).map fun k =>
      ⟨g.shape, fun i => ∑ m, (starRingEnd ℂ) (g.get i k m) * ((gouts.getD m ⟨[], fun _ => 0⟩).get i)⟩)

/-- What autograd does with a gradient `g` for an input of shape `s` that had been broadcast (`at::sum_to`): it adds up the entries that
the same entry of the input was broadcast to. -/
def sumTo (s : Shape) (g : Tens ℂ) : Tens ℂ := ⟨s, fun j => (((indices g.shape).filter fun i => proj s i = j).map g.get).sum⟩

end Verif.Roots.Batch
