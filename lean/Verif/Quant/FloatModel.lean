import Verif.Quant.Model
import Verif.Units.NumModel
import Verif.Common.Near

/-! # Quantities in floating point

Conversion, comparison and addition of quantities with the roundings that torch and Python make.  `P` is the arithmetic of
Python's numbers, used for the values of units (`Verif.Units.NumModel`), `fl` the rounding to the data type of the tensors.
Simplifications: real floating point data types without overflow or underflow, tensors already broadcast to common indices
`ι`; dimensions as in `Verif.Units`. -/

namespace Verif.Quant

open Verif.Units (NUnit SetOrder dictEq Plat)
open Verif.Round (NearOne)

variable {ι : Type}

/-- A quantity: a tensor with a unit (quantity.py:24-42). -/
structure FQ (ι : Type) where
  value : ι → ℝ
  unit : NUnit

/-- The measured value (in base units): the specification. -/
def FQ.si (q : FQ ι) (i : ι) : ℝ := q.value i * q.unit.value.val

variable (P : Plat) (fl : ℝ → ℝ)

/-- `q.to(u)` (quantity.py:44-62): `self` if the units are equal, else a clone multiplied in place by
`float(self.unit.to(unit))`, which torch first rounds to the data type of the tensor. -/
noncomputable def FQ.to (q : FQ ι) (u : NUnit) : Except Units.Err (FQ ι) :=
  if q.unit.eq u then .ok q
  else do
    let f ← q.unit.to P u
    return ⟨fun i => fl (q.value i * fl f), u⟩

/-- The loop of `DimSpec.__call__` for an argument that is a quantity, once `unit` is known (dimspec.py:176-180). -/
noncomputable def FQ.require (q : FQ ι) (u : NUnit) : Except Err (FQ ι) :=
  if !dictEq q.unit.dims u.dims then .error .unitError
  else liftErr (q.to P fl u)

/-- A comparison `a R b` of the family `same_to_nounit` (dimspec.py:219, 225-227): both arguments are converted to the unit of
the first and torch compares the numbers, exactly. -/
noncomputable def FQ.compare (R : ℝ → ℝ → Prop) (a b : FQ ι) : Except Err (ι → Prop) := do
  let a' ← a.require P fl a.unit
  let b' ← b.require P fl a.unit
  return fun i => R (a'.value i) (b'.value i)

/-- `torch.add(x, y, alpha=c)` for numbers: `x + c * y`, with the product rounded or with a fused multiply-add. -/
def AddKernel (c x y r : ℝ) : Prop := r = fl (x + fl (c * y)) ∨ r = fl (x + c * y)

open Classical in
/-- `a + b` (`s = 1`) or `a - b` (`s = -1`), DimSpec `('unit', 'unit2', Eval('unit / unit2'))` (dimspec.py:232): neither `a` nor `b`
is converted; the default `alpha = 1` is divided by `float((unit / unit2).value)` unless that is 1 (dimspec.py:182-187) and
then rounded to the data type.  For `-` torch negates `alpha`.  The result has the unit of `a`. -/
noncomputable def FQ.Add (σ : SetOrder) (s : ℝ) (a b : FQ ι) (r : Except Err (FQ ι)) : Prop :=
  match a.unit.div P σ b.unit with
  | .error e => r = liftErr (.error e)
  | .ok w =>
    if w.dims ≠ [] then r = .error .unitError
    else
      let alpha : ℝ := if w.value.val = 1 then 1 else P.fl (1 / w.value.toFloat P)
      if w.value.toFloat P = 0 then r = .error .zeroDivision
      else ∃ v : ι → ℝ, (∀ i, AddKernel fl (s * fl alpha) (a.value i) (b.value i) (v i)) ∧ r = .ok ⟨v, a.unit⟩

end Verif.Quant
