import Verif.Quant.Table

/-! # The two functions `__torch_function__` treats specially (tensor_quantity.py:51-59) -/

namespace Verif.Quant.Special

open Verif.Units (SetOrder)

/-- Exceptions: those of a dispatched call, `IndexError` (tuple index out of range), `TypeError` of a method called on
something that is not a tensor, and `UnequalIterablesError` of `zip_equal`. -/
inductive SErr
  | call (e : Err)
  | index
  | notATensor
  | unequal
  deriving DecidableEq

/-- Wrap the exceptions of a dispatched call. -/
def lift {α : Type} : Except Err α → Except SErr α
  | .ok a => .ok a
  | .error e => .error (.call e)

variable {V : Type} [Ring V] [Algebra ℝ V]

/-- `torch.where(*args, **kwargs)` (tensor_quantity.py:58-59): `Tensor.where(args[1], args[0], args[2])`.  Keyword
arguments are not looked at, so `args` are the positional ones; further positional arguments are ignored too.  If
`args[1]` is not a tensor the unbound method raises `TypeError`; otherwise the method is dispatched with the spec of
`where` (dimspec.py:318-320) on `self, condition, other`. `F` is the kernel of `Tensor.where`. -/
noncomputable def whereCall (σ : SetOrder) (F : Kernel V) : List (Leaf V) → Except SErr (List (Res V))
  | cond :: x :: y :: _ => match x with
    | .q _ _ => lift (torchCall σ "where" F [[x], [cond], [y]])
    | .num _ => lift (torchCall σ "where" F [[x], [cond], [y]])
    | .unit _ => .error .notATensor
    | .other => .error .notATensor
  | _ => .error .index

/-- The `dim` argument of `torch.gradient`: left out, `None`, an integer, or a sequence. -/
inductive DimArg
  | absent
  | none
  | int (d : ℤ)
  | seq (ds : List ℤ)

/-- The `spacing` argument: left out, one value, or a tuple or list. -/
inductive SpArg (V : Type)
  | absent
  | one (a : Leaf V)
  | seq (as : List (Leaf V))

/-- The leaves of the `spacing` argument when it is passed on as it is; the signature's default is 1. -/
def SpArg.leaves : SpArg V → List (Leaf V)
  | .absent => [.num 1]
  | .one a => [a]
  | .seq as => as

/-- `torch.gradient(x, spacing=..., dim=...)` with an integer `dim` or `None`: the usual dispatch with the spec of
`gradient` (dimspec.py:250), tensor_quantity.py:61-79. `F d` is the kernel for `dim = d`. -/
noncomputable def gradientPlain (σ : SetOrder) (F : Option ℤ → Kernel V) (x : Leaf V) (dim : Option ℤ)
    (sp : List (Leaf V)) : Except Err (List (Res V)) :=
  torchCall σ "gradient" (F dim) [[x], sp]

/-- The tuple comprehension of tensor_quantity.py:56-57: `zip_equal` raises when one list ends first; each call is
with an integer `dim`, and only the first tensor of its result is kept (there is one). -/
noncomputable def gradientEach (σ : SetOrder) (F : Option ℤ → Kernel V) (x : Leaf V) :
    List (Leaf V) → List ℤ → Except SErr (List (Res V))
  | [], [] => .ok []
  | sp :: sps, d :: ds => do
    let r ← lift (gradientPlain σ F x (some d) [sp])
    match r with
    | [] => .error .index
    | g :: _ => do
      let gs ← gradientEach σ F x sps ds
      return g :: gs
  | _, _ => .error .unequal

/-- `torch.gradient` (tensor_quantity.py:51-57); `ndim` is the number of dimensions of the first argument. -/
noncomputable def gradientCall (σ : SetOrder) (F : Option ℤ → Kernel V) (x : Leaf V) (ndim : ℕ) (dim : DimArg)
    (sp : SpArg V) : Except SErr (List (Res V)) :=
  let each (ds : List ℤ) : Except SErr (List (Res V)) :=
    gradientEach σ F x (match sp with
      | .absent => List.replicate ds.length (.num 1)
      | .one a => List.replicate ds.length a
      | .seq as => as) ds
  match dim with
  | .absent => each ((List.range ndim).map Int.ofNat)
  | .seq ds => each ds
  | .none => lift (gradientPlain σ F x none sp.leaves)
  | .int d => lift (gradientPlain σ F x (some d) sp.leaves)

end Verif.Quant.Special
