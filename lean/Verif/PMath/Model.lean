import Mathlib.Analysis.SpecialFunctions.Arsinh
import Mathlib.Analysis.SpecialFunctions.Log.Base
import Mathlib.Analysis.SpecialFunctions.Arcosh
import Mathlib.Analysis.SpecialFunctions.Complex.Log
import Mathlib.Analysis.SpecialFunctions.Pow.Complex
import Mathlib.Analysis.SpecialFunctions.Trigonometric.Inverse

/-! # The functions of `phytorch/math.py`

Modelled: the whole of `phytorch/math.py`: `realise`, `conjugate`, `complexify`, `where`, `sinc`, `csinc` and the eleven functions made by `_overload`, for
Python numbers and for tensors.

Simplifications: one entry of each tensor (all functions work entry by entry); exact arithmetic, no overflow; the sign of zero is not represented (so on
branch cuts the value is that for a positive zero); `torch`'s functions and `cmath`'s are modelled after their documentation, and Python integers are taken
as floats. -/

namespace Verif.PMath

/-- An entry of a real tensor. -/
inductive RVal
  | fin (x : ℝ)
  | ninf
  | nan

/-- An entry of a complex tensor; `other` is one with an infinite part or a NaN. -/
inductive CVal
  | fin (z : ℂ)
  | other

/-- What may be passed: a Python `float` or `complex`, a real tensor, a complex tensor. -/
inductive Val
  | pyFloat (x : ℝ)
  | pyComplex (z : ℂ)
  | real (x : RVal)
  | cplx (z : CVal)

inductive Err
  | valueError
  | zeroDivision
  | attribute
  | conversion
deriving DecidableEq

/-- The functions made by `_overload` (math.py:44-54). -/
inductive Fn
  | exp | log | log10 | sin | cos | asin | acos | sinh | cosh | asinh | acosh

/-- Principal square root. -/
noncomputable def csqrt (z : ℂ) : ℂ := z ^ (1 / 2 : ℂ)

/-- The value of the complex functions, shared by `cmath` and `torch`: principal branches, by their formulas in terms of `log` and `sqrt`. -/
noncomputable def Fn.cval : Fn → ℂ → ℂ
  | .exp, z => Complex.exp z
  | .log, z => Complex.log z
  | .log10, z => Complex.log z / Real.log 10
  | .sin, z => Complex.sin z
  | .cos, z => Complex.cos z
  | .asin, z => -Complex.I * Complex.log (Complex.I * z + csqrt (1 - z ^ 2))
  | .acos, z => Real.pi / 2 + Complex.I * Complex.log (Complex.I * z + csqrt (1 - z ^ 2))
  | .sinh, z => Complex.sinh z
  | .cosh, z => Complex.cosh z
  | .asinh, z => Complex.log (z + csqrt (1 + z ^ 2))
  | .acosh, z => Complex.log (z + csqrt (z + 1) * csqrt (z - 1))

open Classical in
/-- The functions of Python's `cmath` (math.py:44-54, second arguments): `log` and `log10` of 0 are a `ValueError`. -/
noncomputable def Fn.cmath (f : Fn) (z : ℂ) : Except Err ℂ :=
  match f with
  | .log | .log10 => if z = 0 then .error .valueError else .ok (f.cval z)
  | _ => .ok (f.cval z)

open Classical in
/-- The functions of `torch` for complex tensors (math.py:44-54, first arguments). -/
noncomputable def Fn.torchC (f : Fn) (z : ℂ) : CVal :=
  match f with
  | .log | .log10 => if z = 0 then .other else .fin (f.cval z)
  | _ => .fin (f.cval z)

open Classical in
/-- The functions of `torch` for real tensors (math.py:44-54, first arguments): NaN outside the real domain. -/
noncomputable def Fn.torchR : Fn → ℝ → RVal
  | .exp, x => .fin (Real.exp x)
  | .log, x => if 0 < x then .fin (Real.log x) else if x = 0 then .ninf else .nan
  | .log10, x => if 0 < x then .fin (Real.logb 10 x) else if x = 0 then .ninf else .nan
  | .sin, x => .fin (Real.sin x)
  | .cos, x => .fin (Real.cos x)
  | .asin, x => if |x| ≤ 1 then .fin (Real.arcsin x) else .nan
  | .acos, x => if |x| ≤ 1 then .fin (Real.arccos x) else .nan
  | .sinh, x => .fin (Real.sinh x)
  | .cosh, x => .fin (Real.cosh x)
  | .asinh, x => .fin (Real.arsinh x)
  | .acosh, x => if 1 ≤ x then .fin (Real.arcosh x) else .nan

/-- Real tensor functions of an infinity or NaN that the statements do not use are NaN (a simplification). -/
noncomputable def Fn.torchRV (f : Fn) : RVal → RVal
  | .fin x => f.torchR x
  | _ => .nan

noncomputable def Fn.torchCV (f : Fn) : CVal → CVal
  | .fin z => f.torchC z
  | .other => .other

/-- `_overload(torchfunc, cmathfunc)` (math.py:38-41): `cmath` for everything that is not a tensor. -/
noncomputable def Fn.call (f : Fn) : Val → Except Err Val
  | .real x => .ok (.real (f.torchRV x))
  | .cplx z => .ok (.cplx (f.torchCV z))
  | .pyFloat x => (f.cmath x).map .pyComplex
  | .pyComplex z => (f.cmath z).map .pyComplex

/-- `realise(x)` (math.py:9-10): `x` for real tensors, `x.real` for all others. -/
def realise : Val → Val
  | .real x => .real x
  | .cplx (.fin z) => .real (.fin z.re)
  | .cplx .other => .real .nan
  | .pyFloat x => .pyFloat x
  | .pyComplex z => .pyFloat z.re

/-- `conjugate(x)` (math.py:13-14). -/
def conjugate : Val → Val
  | .real x => .real x
  | .cplx (.fin z) => .cplx (.fin ((starRingEnd ℂ) z))
  | .cplx .other => .cplx .other
  | .pyFloat x => .pyFloat x
  | .pyComplex z => .pyComplex ((starRingEnd ℂ) z)

/-- `complexify(x)` (math.py:17-18; utils/complex.py:19-22). -/
def complexify : Val → Val
  | .real (.fin x) => .cplx (.fin x)
  | .real _ => .cplx .other
  | .cplx z => .cplx z
  | .pyFloat x => .pyComplex x
  | .pyComplex z => .pyComplex z

/-- A condition: a Python `bool` or an entry of a `bool` tensor. -/
inductive Cond
  | py (b : Bool)
  | tensor (b : Bool)

/-- `torch.as_tensor(y, dtype=x.dtype)` for the second operand of `where` (math.py:22-24): the real part is kept if the dtype is real (a Python `complex` there is refused by `torch`). -/
def asLike : Val → Val → Except Err Val
  | .real _, .real y => .ok (.real y)
  | .real _, .pyFloat y => .ok (.real (.fin y))
  | .real _, .cplx (.fin z) => .ok (.real (.fin z.re))
  | .real _, .cplx .other => .ok (.real .nan)
  | .cplx _, .cplx z => .ok (.cplx z)
  | .cplx _, .real (.fin y) => .ok (.cplx (.fin y))
  | .cplx _, .real _ => .ok (.cplx .other)
  | .cplx _, .pyFloat y => .ok (.cplx (.fin y))
  | .cplx _, .pyComplex z => .ok (.cplx (.fin z))
  | _, _ => .error .conversion

/-- Is it a tensor? -/
def Val.isTensor : Val → Bool
  | .real _ | .cplx _ => true
  | _ => false

/-- `where(cond, x, y)` (math.py:21-24). With a tensor condition and a Python number `x`, `x.dtype` (and `x.where`) is an `AttributeError`. -/
def where_ (c : Cond) (x y : Val) : Except Err Val := do
  let y ← if x.isTensor then asLike x y else pure y
  match c with
  | .tensor b => if x.isTensor then do let y ← asLike x y; pure (if b then x else y) else .error .attribute
  | .py b => pure (if b then x else y)

open Classical in
/-- `sin(pi x)/(pi x)`, 1 at 0: `torch.sinc` of reals. -/
noncomputable def sincR (x : ℝ) : ℝ := if x * Real.pi = 0 then 1 else Real.sin (x * Real.pi) / (x * Real.pi)

open Classical in
/-- The same of complex numbers; also math.py:30-31. -/
noncomputable def sincC (z : ℂ) : ℂ := if z * Real.pi = 0 then 1 else Complex.sin (z * Real.pi) / (z * Real.pi)

open Classical in
/-- `sinc(x)` (math.py:27-31): for Python numbers a `complex`, or the integer 1. -/
noncomputable def sinc : Val → Val
  | .real (.fin x) => .real (.fin (sincR x))
  | .real _ => .real .nan
  | .cplx (.fin z) => .cplx (.fin (sincC z))
  | .cplx .other => .cplx .other
  | .pyFloat x => if x * Real.pi = 0 then .pyFloat 1 else .pyComplex (sincC x)
  | .pyComplex z => if z * Real.pi = 0 then .pyFloat 1 else .pyComplex (sincC z)

open Classical in
/-- `(1 - s) / (x*pi)**2` for `s = sinc(x)` (math.py:35): 0/0 is a NaN for tensors and a `ZeroDivisionError` for Python numbers. -/
noncomputable def quotient : Val → Val → Except Err Val
  | .real (.fin s), .real (.fin x) => .ok (.real (if (x * Real.pi) ^ 2 = 0 then .nan else .fin ((1 - s) / (x * Real.pi) ^ 2)))
  | .cplx (.fin s), .cplx (.fin z) => .ok (.cplx (if (z * Real.pi) ^ 2 = 0 then .other else .fin ((1 - s) / (z * Real.pi) ^ 2)))
  | .pyFloat s, .pyFloat x => if (x * Real.pi) ^ 2 = 0 then .error .zeroDivision else .ok (.pyFloat ((1 - s) / (x * Real.pi) ^ 2))
  | .pyComplex s, .pyFloat x => if (x * Real.pi) ^ 2 = 0 then .error .zeroDivision else .ok (.pyComplex ((1 - s) / (x * Real.pi) ^ 2))
  | .pyFloat s, .pyComplex z => if (z * Real.pi) ^ 2 = 0 then .error .zeroDivision else .ok (.pyComplex ((1 - s) / (z * Real.pi) ^ 2))
  | .pyComplex s, .pyComplex z => if (z * Real.pi) ^ 2 = 0 then .error .zeroDivision else .ok (.pyComplex ((1 - s) / (z * Real.pi) ^ 2))
  | .real _, _ => .ok (.real .nan)
  | _, _ => .ok (.cplx .other)

open Classical in
/-- `abs(x) > eps` (math.py:35): comparisons with NaN are false. -/
noncomputable def absGt (eps : ℝ) : Val → Cond
  | .pyFloat x => .py (decide (eps < |x|))
  | .pyComplex z => .py (decide (eps < ‖z‖))
  | .real (.fin x) => .tensor (decide (eps < |x|))
  | .real .ninf => .tensor true
  | .real .nan => .tensor false
  | .cplx (.fin z) => .tensor (decide (eps < ‖z‖))
  | .cplx .other => .tensor false

/-- `csinc(x, eps)` (math.py:34-35): both branches are computed before `where` is called. -/
noncomputable def csinc (eps : ℝ) (x : Val) : Except Err Val := do
  let q ← quotient (sinc x) x
  where_ (absGt eps x) q (.pyFloat (1 / 6))

end Verif.PMath
