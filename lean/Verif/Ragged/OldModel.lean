import Verif.Ragged.Model
import Mathlib.Algebra.BigOperators.Group.List.Basic

/-! # Model of `phytorch/ragged/ragged_old.py` and `phytorch/meta.py`

A tensor is its shape and its rows: the entries along the last dimension at every index of the leading
dimensions, in row-major order (a 0-dimensional tensor has one row of one entry).  Entries are in an
additive commutative monoid: rounding, and the order in which `scatter_add_` adds, are not modelled.
Devices and dtypes are not modelled. -/

namespace Verif.Ragged.Old

/-- Exceptions: from torch kernels, and a missing attribute. -/
inductive Err
  | torch | attribute
  deriving DecidableEq, Repr

/-- A plain tensor. -/
structure Tens (R : Type) where
  shape : List Nat
  rows : List (List R)

/-- The shape agrees with the contents. -/
structure Tens.WF {R : Type} (t : Tens R) : Prop where
  count : t.rows.length = t.shape.dropLast.prod
  width : ∀ r ∈ t.rows, r.length = t.shape.getLastD 1

/-- `torch.repeat_interleave(torch.arange(len(sizes)), torch.tensor(sizes))` (ragged_old.py:34).
`torch.tensor([])` is a float tensor, which `repeat_interleave` does not accept; negative repeats are
rejected too. -/
def groupIndices (sizes : List Int) : Except Err (List Nat) :=
  if sizes = [] then .error .torch
  else if sizes.any (· < 0) then .error .torch
  else .ok (repI (List.range sizes.length) (sizes.map Int.toNat))

/-- `torch.broadcast_to(v, shape)` for a vector `v` (ragged_old.py:33-35): the row every leading index
sees.  The last dimension must be that of `v` or `v` must have one entry; a vector does not broadcast to
a 0-dimensional shape. -/
def broadcastRow {α : Type} (v : List α) (shape : List Nat) : Except Err (List α) :=
  match shape.getLast? with
  | none => .error .torch
  | some m =>
    if v.length = m then .ok v
    else match v with
      | [x] => .ok (List.replicate m x)
      | _ => .error .torch

variable {R : Type} [AddCommMonoid R]

/-- One row of `scatter_add_(-1, index, src)` (ragged_old.py:42): `out[index[j]] += src[j]` for every `j`;
an index out of range raises. -/
def scatterRow : List R → List Nat → List R → Except Err (List R)
  | out, [], _ => .ok out
  | _, _ :: _, [] => .error .torch
  | out, i :: is, x :: xs =>
    if i < out.length then scatterRow (out.modify i (· + x)) is xs else .error .torch

/-- A `RaggedTensor` object (ragged_old.py:16-39): the tensor, the attribute `sizes` if it has been set,
and what the two `cached_property`s have stored. -/
structure Obj (R : Type) where
  t : Tens R
  sizes : Option (List Int)
  cachedIndices : Option (List Nat)
  cachedShape : Option (List Nat)

/-- A new object without cached values. -/
def Obj.fresh (t : Tens R) (sizes : Option (List Int)) : Obj R := ⟨t, sizes, none, none⟩

/-- `RaggedTensor(data, sizes=sizes)` (ragged_old.py:19-20 with meta.py:27-30: `sizes` is taken out of the
keyword arguments, the rest goes to `Tensor.__new__`, and `_meta_update` sets the attribute).  Nothing is
checked. -/
def Obj.new (t : Tens R) (sizes : List Int) : Obj R := Obj.fresh t (some sizes)

/-- `reduced_shape` (ragged_old.py:37-39), a `cached_property`. -/
def Obj.reducedShape (o : Obj R) : Except Err (Obj R × List Nat) :=
  match o.cachedShape with
  | some s => .ok (o, s)
  | none => match o.sizes with
    | none => .error .attribute
    | some sz =>
      let s := o.t.shape.dropLast ++ [sz.length]
      .ok ({ o with cachedShape := some s }, s)

/-- `reduce_indices` (ragged_old.py:31-35), a `cached_property`: one row of it (all rows are equal). -/
def Obj.reduceIndices (o : Obj R) : Except Err (Obj R × List Nat) :=
  match o.cachedIndices with
  | some s => .ok (o, s)
  | none => match o.sizes with
    | none => .error .attribute
    | some sz => do
      let v ← groupIndices sz
      let s ← broadcastRow v o.t.shape
      return ({ o with cachedIndices := some s }, s)

/-- All rows of `scatter_add_`. -/
def scatterRows (n : Nat) (idx : List Nat) : List (List R) → Except Err (List (List R))
  | [] => .ok []
  | r :: rs => do
    let x ← scatterRow (List.replicate n 0) idx r
    let xs ← scatterRows n idx rs
    return x :: xs

/-- `reduce_add` (ragged_old.py:41-42): the object afterwards and the result.  `new_zeros` and
`scatter_add_` are torch functions, so the result gets the `sizes` of `self` (ragged_old.py:27-29). -/
def Obj.reduceAdd (o : Obj R) : Except Err (Obj R × Obj R) := do
  let (o, shape) ← o.reducedShape
  let (o, idx) ← o.reduceIndices
  let rows ← scatterRows (shape.getLastD 1) idx o.t.rows
  return (o, Obj.fresh ⟨shape, rows⟩ o.sizes)

/-- An argument of a torch function: a `RaggedTensor` or any other tensor. -/
inductive Arg (R : Type)
  | ragged (o : Obj R)
  | plain (t : Tens R)

/-- The plain tensor a kernel sees. -/
def Arg.tens : Arg R → Tens R
  | .ragged o => o.t
  | .plain t => t

/-- What a torch kernel returns: one tensor, or a tuple of tensors. -/
inductive Out (R : Type)
  | one (t : Tens R)
  | many (ts : List (Tens R))

/-- What the call returns: one object, or a tuple of objects. -/
inductive Ret (R : Type)
  | one (o : Obj R)
  | many (os : List (Obj R))

/-- The object whose `__torch_function__` is called: the leftmost `RaggedTensor` (torch). -/
def dispatcher : List (Arg R) → Option (Obj R)
  | [] => none
  | .ragged o :: _ => some o
  | .plain _ :: as => dispatcher as

/-- `RaggedTensor.__torch_function__` (ragged_old.py:27-29) for an out-of-place torch function with kernel
`F`: `Tensor.__torch_function__` runs the kernel and turns every resulting tensor into a `RaggedTensor`
(also inside a tuple) without attributes; `_meta_update` (ragged_old.py:22-25, meta.py:32-37) then copies
`sizes` from the dispatching object, if it has them, to a single result only. -/
def torchFn (F : List (Tens R) → Except Err (Out R)) (args : List (Arg R)) : Except Err (Ret R) :=
  match dispatcher args with
  | none => .error .attribute
  | some self => do
    let out ← F (args.map Arg.tens)
    match out with
    | .one t => return .one (Obj.fresh t self.sizes)
    | .many ts => return .many (ts.map fun t => Obj.fresh t none)

/-- What can be done with an object between two calls of `reduce_add`: assign `sizes`, overwrite the
contents in place (the shape stays), read one of the cached properties, or call `reduce_add`. -/
inductive Op (R : Type)
  | setSizes (s : List Int)
  | fill (rows : List (List R))
  | readIndices
  | readShape
  | reduce

/-- One operation; a failing one leaves what it stored before failing. -/
def Obj.step (o : Obj R) : Op R → Obj R
  | .setSizes s => { o with sizes := some s }
  | .fill rows => { o with t := ⟨o.t.shape, rows⟩ }
  | .readIndices => match o.reduceIndices with
    | .ok (o', _) => o'
    | .error _ => o
  | .readShape => match o.reducedShape with
    | .ok (o', _) => o'
    | .error _ => o
  | .reduce => match o.reducedShape with
    | .ok (o', _) => (match o'.reduceIndices with
      | .ok (o'', _) => o''
      | .error _ => o')
    | .error _ => o

end Verif.Ragged.Old
