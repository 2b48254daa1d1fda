import Verif.Quant.Table

/-! # `DetDimSpec`, and the tensors of linear algebra functions -/

namespace Verif.Quant

variable {V : Type} [Ring V] [Algebra ℝ V]

/-- `DetDimSpec.__call__` (dimspec.py:87-89, used for `det`, dimspec.py:306) with the rest of
`__torch_function__`: the unit is raised to the last dimension `n` of the argument, which must be a
quantity (`AttributeError` otherwise; then the function is not dispatched here at all). `det` is the
kernel. -/
noncomputable def callDet (det : V → Except Err (V × Bool)) (n : Nat) : Leaf V → Except Err (Res V)
  | .q x u => do
    let w ← liftErr (u.pow n)
    let o ← det x
    return post (some w) o
  | _ => .error .attributeError

end Verif.Quant
