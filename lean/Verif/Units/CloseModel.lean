import Verif.Units.NumModel

/-! # `Unit.isclose` (`phytorch/units/unit.py`)

Values are Python numbers as in `Verif.Units.NumModel`; `math.isclose` is transcribed from CPython. -/

namespace Verif.Units

open Verif.Round

variable (P : Plat)

/-- What the modelled functions can raise. -/
inductive CErr | valueError
  deriving DecidableEq, Repr

open Classical in
/-- `math.isclose(a, b, rel_tol=…, abs_tol=…)` of CPython (mathmodule.c, `math_isclose_impl`), after the conversion of `a` and `b` to
`double`.  (Infinities are not represented.) -/
noncomputable def mathIsclose (a b rel abs : ℝ) : Except CErr Bool :=
  if rel < 0 ∨ abs < 0 then .error .valueError
  else if a = b then .ok true
  else .ok (decide (|P.fl (b - a)| ≤ |P.fl (rel * b)|) || decide (|P.fl (b - a)| ≤ |P.fl (rel * a)|) ||
    decide (|P.fl (b - a)| ≤ abs))

/-- The second argument of `isclose`: a `Unit` or anything else. -/
inductive Arg
  | unit (v : NUnit)
  | other

/-- `Unit.isclose` (unit.py 192-193). -/
noncomputable def NUnit.isclose (u : NUnit) (o : Arg) (rel abs : ℝ) : Except CErr Bool :=
  match o with
  | .other => .ok false
  | .unit v => do
    if ← mathIsclose P (u.value.toFloat P) (v.value.toFloat P) rel abs then return dictEq u.dims v.dims
    else return false

/-- The default tolerances of `math.isclose`: the `double` nearest to `1e-9`, and 0. -/
noncomputable def defaultRel : ℝ := P.fl (1 / 10 ^ 9)

end Verif.Units
