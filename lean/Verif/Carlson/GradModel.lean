import Verif.Carlson.Spec
import Mathlib.Analysis.SpecialFunctions.Pow.Real

/-! # Model of the gradient formulas of `phytorch/special/ellipr.py`

Real arguments; the forward functions the formulas call are the exact integrals (`C32`, `C79`-`C82` bound how far the
routines are from them). `dmc` is `ctx.devil_may_care`; `tol` is the threshold of `feq` (ellipr.py:12-13: `1e-4` if the
default dtype is `float`, else `1e-9`). `where` selects one of two values that are both computed; a NaN in the branch that
is not selected does not reach the result, so the model has `if`. -/

namespace Verif.Carlson.Grad

/-- `feq`, ellipr.py:12-13. -/
def feq (tol a b : ℝ) : Prop := |a - b| < tol

/-- The default threshold, ellipr.py:13. -/
noncomputable def defaultTol (isFloat : Bool) : ℝ := if isFloat then 1 / 10 ^ 4 else 1 / 10 ^ 9

open Classical in
/-- `torch.where`. -/
noncomputable def sel (c : Prop) (a b : ℝ) : ℝ := if c then a else b

/-- `Elliprc.grad_x`, ellipr.py:21-30. -/
noncomputable def rcGradX (dmc : Bool) (tol x y Rc : ℝ) : ℝ :=
  let general := (Rc - x ^ (-(1 / 2) : ℝ)) / (2 * (y - x))
  if dmc then general else sel (feq tol x y) (-(1 / 6) * y ^ (-(3 / 2) : ℝ)) general

/-- `Elliprc.grad_y`, ellipr.py:32-41. -/
noncomputable def rcGradY (dmc : Bool) (tol x y Rc : ℝ) : ℝ :=
  let general := (Rc - x ^ (1 / 2 : ℝ) / y) / (2 * (x - y))
  if dmc then general else sel (feq tol x y) (-(1 / 3) * y ^ (-(3 / 2) : ℝ)) general

/-- `Elliprd.grad_x`, ellipr.py:49-60. -/
noncomputable def rdGradX (dmc : Bool) (tol x y z : ℝ) : ℝ :=
  let general := (RD y z x - RD x y z) / (2 * (x - z))
  if dmc then general
  else
    let case1 := -(3 / 10) * x ^ (-(5 / 2) : ℝ)
    let case2 := 3 / 16 * ((5 * x - 2 * y) * y ^ (1 / 2 : ℝ) / x ^ 2 - 3 * RC y x) / (x - y) ^ 2
    sel (feq tol x z) (sel (feq tol x y) case1 case2) general

/-- `Elliprd.grad_y`, ellipr.py:62-64. -/
noncomputable def rdGradY (dmc : Bool) (tol x y z : ℝ) : ℝ := rdGradX dmc tol y x z

/-- `Elliprd.grad_z`, ellipr.py:66-80. -/
noncomputable def rdGradZ (dmc : Bool) (tol x y z Rd : ℝ) : ℝ :=
  let rzx := 1 / (z - x)
  let rzy := 1 / (z - y)
  let srz := rzx + rzy
  let prz := rzx * rzy
  let general := 3 / 2 * prz * (RF x y z - x ^ (1 / 2 : ℝ) * y ^ (1 / 2 : ℝ) * z ^ (-(3 / 2) : ℝ)) - srz * Rd
  if dmc then general
  else
    let case1 := -(9 / 10) * z ^ (-(5 / 2) : ℝ)
    let case2 := -(9 / 16) * ((2 * y - 5 * z) * y ^ (1 / 2 : ℝ) / z ^ 2 + 3 * RC y z) * rzy ^ 2
    let case3 := -(9 / 16) * ((2 * x - 5 * z) * x ^ (1 / 2 : ℝ) / z ^ 2 + 3 * RC x z) * rzx ^ 2
    sel (feq tol x z) (sel (feq tol y z) case1 case2) (sel (feq tol y z) case3 general)

/-- `more_itertools.circular_shifts` of the saved tensors, ellipr.py:96. -/
def circularShifts {α : Type} (args : List α) : List (List α) := (List.range args.length).map args.rotate

/-- `SymmetricElliprMixin._backward`, ellipr.py:89-95: `_grad(*args[::-1][:-1], args[0])` for each shift whose input needs a
gradient. -/
def symBackward {α : Type} (grad : α → α → α → α) (needs : List Bool) (saved : List α) : List (Option α) :=
  (needs.zip (circularShifts saved)).map fun (nig, args) =>
    if nig then
      match args.reverse.dropLast ++ args.head?.toList with
      | [a, b, c] => some (grad a b c)
      | _ => none
    else none

/-- `Elliprf._grad`, ellipr.py:103-106. -/
noncomputable def rfGrad (x y z : ℝ) : ℝ := RD x y z / (-6)

/-- `Elliprg._grad`, ellipr.py:114-117. -/
noncomputable def rgGrad (x y z : ℝ) : ℝ := (3 * RF x y z - z * RD x y z) / 12

/-- `Elliprj.grad_x`, ellipr.py:126-145. -/
noncomputable def rjGradX (dmc : Bool) (tol x y z p Rj : ℝ) : ℝ :=
  let Rd := RD y z x
  let general := (Rj - Rd) / (2 * (p - x))
  if dmc then general
  else
    let x2 := x ^ 2
    let c316 := 3 / 16 / x2
    let c3x2 := 3 * x2
    let rxy := 1 / (x - y)
    let rxz := 1 / (x - z)
    let case1 := -(3 / 10) * x ^ (-(5 / 2) : ℝ)
    let case2 := c316 * ((5 * x - 2 * z) * z ^ (1 / 2 : ℝ) - c3x2 * RC z x) * rxz ^ 2
    let case3 := c316 * ((5 * x - 2 * y) * y ^ (1 / 2 : ℝ) - c3x2 * RC y x) * rxy ^ 2
    let case4 := (RF x y z + 2 / 3 * (y + z - 2 * x) * Rd - y ^ (1 / 2 : ℝ) * z ^ (1 / 2 : ℝ) * x ^ (-(3 / 2) : ℝ)) *
      (1 / 2) * rxy * rxz
    sel (feq tol x p) (sel (feq tol x y) (sel (feq tol x z) case1 case2) (sel (feq tol x z) case3 case4)) general

/-- `Elliprj.grad_y`, ellipr.py:147-149. -/
noncomputable def rjGradY (dmc : Bool) (tol x y z p Rj : ℝ) : ℝ := rjGradX dmc tol y x z p Rj

/-- `Elliprj.grad_z`, ellipr.py:151-153. -/
noncomputable def rjGradZ (dmc : Bool) (tol x y z p Rj : ℝ) : ℝ := rjGradX dmc tol z y x p Rj

open Classical in
/-- `Elliprj.grad_p`, ellipr.py:155-187. -/
noncomputable def rjGradP (dmc : Bool) (tol x y z p Rj : ℝ) : ℝ :=
  let sx := x ^ (1 / 2 : ℝ)
  let sy := y ^ (1 / 2 : ℝ)
  let sz := z ^ (1 / 2 : ℝ)
  let rpx := 1 / (p - x)
  let rpy := 1 / (p - y)
  let rpz := 1 / (p - z)
  let srp := rpx + rpy + rpz
  let prp := rpx * rpy * rpz
  let general := (3 * prp * (p * RF x y z - 2 * RG x y z + sx * sy * sz / p) - srp * Rj) / 2
  if dmc then general
  else
    let pm32 := p ^ (-(3 / 2) : ℝ)
    let rp2 := p ^ (-2 : ℝ)
    let case1 := -(6 / 10) * p ^ (-(5 / 2) : ℝ)
    let case2 := -(375 / 1000) * ((2 * z - 5 * p) * sz * rp2 + 3 * RC z p) * rpz ^ 2
    let case3 := -(375 / 1000) * ((2 * y - 5 * p) * sy * rp2 + 3 * RC y p) * rpy ^ 2
    let case4 := -(375 / 1000) * ((2 * x - 5 * p) * sx * rp2 + 3 * RC x p) * rpx ^ 2
    let case5 := (RF y z p + 2 / 3 * (y + z - 2 * p) * RD y z p - sy * sz * pm32) * rpy * rpz
    let case6 := (RF x z p + 2 / 3 * (x + z - 2 * p) * RD x z p - sx * sz * pm32) * rpx * rpz
    let case7 := (RF x y p + 2 / 3 * (x + y - 2 * p) * RD x y p - sx * sy * pm32) * rpx * rpy
    let pen := (if feq tol p x then 1 else 0) + (if feq tol p y then 1 else 0) + if feq tol p z then 1 else 0
    sel (pen ≥ 2) (sel (pen = 3) case1 (sel (feq tol p x) (sel (feq tol p y) case2 case3) case4))
      (sel (pen = 0) general (sel (feq tol p x) case5 (sel (feq tol p y) case6 case7)))

end Verif.Carlson.Grad
