import Verif.Units.Model
import Mathlib.Data.Int.Log
import Mathlib.Data.Rat.Floor

/-! # `Latexifier` of `phytorch/units/_utils.py` (51-103)

Strings are represented by what they consist of: the digits of a number by the rational number they write, a power by the shape in which it is written, a unit symbol by its name. Values of units are exact reals; the double that is printed is a rational number. -/

namespace Verif.Units.Latex
open Verif.Units

/-- Exceptions: a missing key of the mapping, or those of the operations on units. -/
inductive LErr
  | key
  | unit (e : Err)

/-- Exceptions of unit operations propagate. -/
def lift {α : Type} : Except Err α → Except LErr α
  | .ok a => .ok a
  | .error e => .error (.unit e)

/-- A unit with its `name` (unit.py 136-139; `None` is possible). -/
structure Named where
  unit : Unit
  name : Option String

/-- The dataclass `Latexifier` (51-56): `base_units` is a mapping, in insertion order. -/
structure Latexifier where
  base : List (Dim × Named)
  powerAsFrac : Bool := true
  keepUnitPower : Bool := false

/-- `self.base_units[dim]`. -/
def Latexifier.get (L : Latexifier) (d : Dim) : Except LErr Named :=
  match L.base.lookup d with
  | some n => .ok n
  | none => .error .key

/-- One step of the `product` of `base_from` (58-62). -/
noncomputable def Latexifier.baseStep (L : Latexifier) (σ : SetOrder) (acc : Unit) (dp : Dim × ℚ) : Except LErr Unit := do
  let b ← L.get dp.1
  let w ← lift (b.unit.pow dp.2)
  return acc.mul σ w

/-- `base_from` (58-62): `reduce(mul, (base_units[dim]**p ...), Unit())`. -/
noncomputable def Latexifier.baseFrom (L : Latexifier) (σ : SetOrder) (u : Unit) : Except LErr Unit :=
  u.dims.foldlM (L.baseStep σ) Unit.one

/-- `to_base` (64-65), before `float`. -/
noncomputable def Latexifier.toBase (L : Latexifier) (σ : SetOrder) (u : Unit) : Except LErr ℝ := do
  let b ← L.baseFrom σ u
  lift (u.to b)

/-- Rounding to an integer, ties to even (`decimal.ROUND_HALF_EVEN`, the default). -/
def roundHalfEven (c : ℚ) : ℤ :=
  let f := ⌊c⌋
  if c - f < 1 / 2 then f else if 1 / 2 < c - f then f + 1 else if f % 2 = 0 then f else f + 1

/-- The exponent of the first digit: `len(digits) + exponent - 1` (71) of a `Decimal` that is not zero. -/
def adjusted (x : ℚ) : ℤ := Int.log 10 |x|

/-- Rounding of a `Decimal` to `n` digits (`Decimal._fix`). -/
def roundSig (n : ℕ) (x : ℚ) : ℚ :=
  if x = 0 then 0 else
  let s : ℚ := (10 : ℚ) ^ (adjusted x - (n - 1 : ℤ))
  roundHalfEven (x / s) * s

/-- What `format_value` gets (`float(value)`). -/
inductive PyFloat
  | fin (x : ℚ)
  | inf
  | nan

/-- `format_value` (67-76): the number written before `10^`, and the exponent. `scaleb` rounds to the 28 digits of the default context, `normalize` to `prec` digits. (The decimal 10 is written `1E+1`; a zero exponent is not written.) For infinities and NaN `exponent` is a string, and adding an integer to it (71) a `TypeError`. -/
def formatValue (x : PyFloat) (prec : ℕ := 16) : Except LErr (ℚ × ℤ) :=
  match x with
  | .fin x =>
    if x = 0 then .ok (0, 0) else
    .ok (roundSig prec (roundSig 28 (x * (10 : ℚ) ^ (-adjusted x))), adjusted x)
  | _ => .error (.unit .typeError)

/-- How a power is written: as an integer, as `-\frac{a}{b}` (with or without sign), or as `a / b`. -/
inductive PowerText
  | int (n : ℤ)
  | frac (neg : Bool) (a b : ℕ)
  | slash (a : ℤ) (b : ℕ)

/-- `format_power` (78-84). -/
def Latexifier.formatPower (L : Latexifier) (p : ℚ) : PowerText :=
  if p.den = 1 then .int p.num
  else if L.powerAsFrac then .frac (decide (p < 0)) p.num.natAbs p.den
  else .slash p.num p.den

/-- One entry of `format_units` (86-93): name of the base unit, and power unless it is omitted. -/
structure Factor where
  name : Option String
  power : Option PowerText

/-- One entry of `format_units`. -/
def Latexifier.formatUnit (L : Latexifier) (dp : Dim × ℚ) : Except LErr (Dim × Factor) := do
  let b ← L.get dp.1
  return (dp.1, ⟨b.name, if dp.2 = 1 ∧ ¬ L.keepUnitPower then none else some (L.formatPower dp.2)⟩)

/-- `format_units` (86-93). -/
def Latexifier.formatUnits (L : Latexifier) (u : Unit) : Except LErr (List (Dim × Factor)) := u.dims.mapM L.formatUnit

/-- The printed text: mantissa, exponent of ten, symbols with powers. -/
structure Text where
  mant : ℚ
  exp : ℤ
  factors : List Factor

/-- `__call__` (95-103), with `toFloat` the conversion of the exact quotient to a double. The argument `prec` is not used. -/
noncomputable def Latexifier.call (L : Latexifier) (σ : SetOrder) (toFloat : ℝ → PyFloat) (u : Unit) (_prec : ℕ := 16) : Except LErr Text := do
  let fu ← L.formatUnits u
  let x ← L.toBase σ u
  let v ← formatValue (toFloat x)
  return ⟨v.1, v.2, L.base.filterMap fun b => fu.lookup b.1⟩

end Verif.Units.Latex
