import Verif.Units.Spec
import Verif.Common.Round

/-! # Units with Python's number types (`phytorch/units/unit.py`)

`Verif.Units.Model` has units whose `value` is an exact real.  Here `value` is what it is in Python: an
`int`, a `fractions.Fraction` (the default, `Fraction(1)`, unit.py 136) or a `float`, with Python's
arithmetic between them.  Simplifications: floats are finite and neither overflow nor underflow is
represented (`Verif.Common.Round`); `**` is modelled for integer powers; names are not modelled. -/

namespace Verif.Units

open Verif.Round

/-- A Python number (`numbers.Real`): `int`, `Fraction` or (finite) `float`. -/
inductive Num
  | int (n : ℤ)
  | frac (q : ℚ)
  | flt (x : ℝ)

/-- The number represented. -/
def Num.val : Num → ℝ
  | .int n => n
  | .frac q => q
  | .flt x => x

/-- What can be stored: a `float` has 53 significant bits. -/
def Num.OK : Num → Prop
  | .flt x => IsFl 53 x
  | _ => True

/-- The floating point arithmetic of the platform: `fl` is the rounding of IEEE 754 (any rule for ties), which
the conversions `float(int)`, `float(Fraction)` and true division of `int`s also use; `pw x n` is
`pow(x, n)` of the C library, of which only an error below one unit in the last place is assumed: it is
a float, exact where the result is a float, and within `2 ^ (-52)` relative to the result. -/
structure Plat where
  fl : ℝ → ℝ
  near : Nearest 53 fl
  pw : ℝ → ℤ → ℝ
  pw_mem : ∀ x n, IsFl 53 (pw x n)
  pw_exact : ∀ x n, IsFl 53 (x ^ n) → pw x n = x ^ n
  pw_near : ∀ x n, |pw x n - x ^ n| ≤ |x ^ n| / 2 ^ 52

variable (P : Plat)

/-- `float(a)`. -/
def Num.toFloat : Num → ℝ
  | .int n => P.fl n
  | .frac q => P.fl q
  | .flt x => x

/-- `a * b`: exact between `int`s and `Fraction`s, otherwise the rounded product of the two floats. -/
def Num.mul : Num → Num → Num
  | .int a, .int b => .int (a * b)
  | .int a, .frac b => .frac (a * b)
  | .frac a, .int b => .frac (a * b)
  | .frac a, .frac b => .frac (a * b)
  | a, b => .flt (P.fl (a.toFloat P * b.toFloat P))

open Classical in
/-- `a / b`: between `int`s the correctly rounded quotient (a `float`), exact if a `Fraction` and no
`float` is involved, otherwise the rounded quotient of the two floats. -/
noncomputable def Num.div (a b : Num) : Except Err Num :=
  if b.val = 0 then .error .zeroDivision
  else match a, b with
    | .int a, .int b => .ok (.flt (P.fl (a / b)))
    | .int a, .frac b => .ok (.frac (a / b))
    | .frac a, .int b => .ok (.frac (a / b))
    | .frac a, .frac b => .ok (.frac (a / b))
    | a, b => .ok (.flt (P.fl (a.toFloat P / b.toFloat P)))

open Classical in
/-- `a ** n` for an `int` `n`: an `int` with a negative power is converted to `float` first. -/
noncomputable def Num.pow (a : Num) (n : ℤ) : Except Err Num :=
  if a.val = 0 ∧ n < 0 then .error .zeroDivision
  else match a with
    | .int a => if 0 ≤ n then .ok (.int (a ^ n.toNat)) else .ok (.flt (P.pw (P.fl a) n))
    | .frac q => .ok (.frac (q ^ n))
    | .flt x => .ok (.flt (P.pw x n))

/-- `Unit` (unit.py 121-143) with a Python number as its value. -/
structure NUnit where
  dims : Dict
  value : Num

/-- The unit in the model with exact reals. -/
def NUnit.toUnit (u : NUnit) : Unit := ⟨u.dims, u.value.val⟩

/-- `Unit(items, value=v)` (unit.py 136-143). -/
def NUnit.mk' (items : List (Dim × ℚ)) (v : Num) : NUnit := ⟨mkDims items, v⟩

/-- `Unit.__mul__` with a `Unit` (unit.py 169-171). -/
def NUnit.mul (σ : SetOrder) (u v : NUnit) : NUnit := ⟨dmul σ u.dims v.dims, u.value.mul P v.value⟩

/-- `Unit.__mul__` with a number (unit.py 172-173). -/
def NUnit.mulNum (u : NUnit) (x : Num) : NUnit := ⟨mkDims u.dims, u.value.mul P x⟩

/-- `Unit.__invert__` (unit.py 163-164): `1/self.value`. -/
noncomputable def NUnit.inv (u : NUnit) : Except Err NUnit := do
  let v ← (Num.int 1).div P u.value
  return ⟨dinv u.dims, v⟩

/-- `Unit.__pow__` (unit.py 166-167) with an integer. -/
noncomputable def NUnit.pow (u : NUnit) (n : ℤ) : Except Err NUnit := do
  let v ← u.value.pow P n
  return ⟨dpow u.dims n, v⟩

/-- `self / other` for units (unit.py 92-93): `self * other**(-1)`. -/
noncomputable def NUnit.div (σ : SetOrder) (u v : NUnit) : Except Err NUnit := do
  let w ← v.pow P (-1)
  return u.mul P σ w

/-- `self / x` for a number (unit.py 92-93): `self * x**(-1)`. -/
noncomputable def NUnit.divNum (u : NUnit) (x : Num) : Except Err NUnit := do
  let y ← x.pow P (-1)
  return u.mulNum P y

/-- `x / self` for a number (unit.py 95-96): `(~self) * x`. -/
noncomputable def NUnit.rdivNum (u : NUnit) (x : Num) : Except Err NUnit := do
  let w ← u.inv P
  return w.mulNum P x

/-- `Unit.to` (unit.py 148-151): `ValuedFloat(self.value / other.value)`, a `float`. -/
noncomputable def NUnit.to (u v : NUnit) : Except Err ℝ :=
  if !dictEq u.dims v.dims then .error .typeError
  else do
    let q ← u.value.div P v.value
    return q.toFloat P

open Classical in
/-- `Unit.__eq__` (unit.py 186-187): Python compares `int`s, `Fraction`s and `float`s exactly. -/
noncomputable def NUnit.eq (u v : NUnit) : Bool :=
  decide (u.value.val = v.value.val) && dictEq u.dims v.dims

/-! ### Specification -/

/-- A Python expression that computes a unit. -/
inductive NExpr
  | lit (items : List (Dim × ℚ)) (value : Num)
  | mul (σ : SetOrder) (a b : NExpr)
  | mulNum (a : NExpr) (x : Num)
  | inv (a : NExpr)
  | pow (a : NExpr) (n : ℤ)
  | div (σ : SetOrder) (a b : NExpr)
  | divNum (a : NExpr) (x : Num)
  | rdivNum (a : NExpr) (x : Num)

/-- Evaluation with Python's numbers. -/
noncomputable def NExpr.eval : NExpr → Except Err NUnit
  | .lit items v => .ok (NUnit.mk' items v)
  | .mul σ a b => do return (← a.eval).mul P σ (← b.eval)
  | .mulNum a x => do return (← a.eval).mulNum P x
  | .inv a => do (← a.eval).inv P
  | .pow a n => do (← a.eval).pow P n
  | .div σ a b => do (← a.eval).div P σ (← b.eval)
  | .divNum a x => do (← a.eval).divNum P x
  | .rdivNum a x => do (← a.eval).rdivNum P x

/-- The same expression over the exact reals. -/
def NExpr.ideal : NExpr → UExpr
  | .lit items v => .lit items v.val
  | .mul σ a b => .mul σ a.ideal b.ideal
  | .mulNum a x => .mulReal a.ideal x.val
  | .inv a => .inv a.ideal
  | .pow a n => .pow a.ideal n
  | .div σ a b => .div σ a.ideal b.ideal
  | .divNum a x => .divReal a.ideal x.val
  | .rdivNum a x => .rdivReal a.ideal x.val

/-- The number is a `Fraction`. -/
def Num.IsFrac : Num → Prop
  | .frac _ => True
  | _ => False

/-- The number is an `int` or a `Fraction`. -/
def Num.IsRat : Num → Prop
  | .flt _ => False
  | _ => True

/-- All units start from `Fraction`s (as those without a `value` do), and the numbers are `int`s or
`Fraction`s, but `Fraction`s where a unit is divided by one. -/
def NExpr.Fractional : NExpr → Prop
  | .lit _ v => v.IsFrac
  | .mul _ a b | .div _ a b => a.Fractional ∧ b.Fractional
  | .mulNum a x | .rdivNum a x => a.Fractional ∧ x.IsRat
  | .divNum a x => a.Fractional ∧ x.IsFrac
  | .inv a | .pow a _ => a.Fractional

/-- A bound on the number of roundings the value can have gone through. -/
def NExpr.cost : NExpr → ℕ
  | .lit _ _ => 0
  | .mul _ a b => a.cost + b.cost + 3
  | .mulNum a _ => a.cost + 3
  | .inv a => a.cost + 3
  | .pow a n => n.natAbs * (a.cost + 1) + 3
  | .div _ a b => a.cost + b.cost + 7
  | .divNum a _ => a.cost + 7
  | .rdivNum a _ => a.cost + 6

/-- `t` is within `K` roundings of one. -/
def Within (K : ℕ) (t : ℝ) : Prop := (1 - (2 ^ 53)⁻¹ : ℝ) ^ K ≤ t ∧ t * (1 - (2 ^ 53)⁻¹ : ℝ) ^ K ≤ 1

end Verif.Units
