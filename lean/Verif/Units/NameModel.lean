import Verif.Units.Model

/-! # Display names of units, and conversion to Astropy (`phytorch/units/unit.py`)

A name is a list of tokens: symbols (names given by `set_name`, taken to contain neither spaces nor brackets), numbers, spaces, brackets, powers `^(p)`, the multiplication sign and the bracketed list of dimensions of `UnitBase.__str__`. -/

namespace Verif.Units.Name
open Verif.Units

/-- Parts of a displayed name. -/
inductive Tok
  | sym (s : String)
  | num (x : ℝ)
  | space
  | lpar
  | rpar
  /-- `^(p)` -/
  | pow (p : ℚ)
  /-- the `x` of `Unit.__str__` (154) -/
  | times
  /-- `[L^(1) T^(-1)]` of `UnitBase.__str__` (61-62) -/
  | dims (d : Dict)

/-- Is the token the blank? -/
def Tok.isSpace : Tok → Bool
  | .space => true
  | _ => false

/-- A unit with its `name` (unit.py 136-142). -/
structure NUnit where
  unit : Unit
  name : Option (List Tok)

/-- `Unit.__str__` (153-154): an empty name counts as none. -/
def NUnit.str (u : NUnit) : List Tok :=
  match u.name with
  | some (t :: ts) => t :: ts
  | _ => [.num u.unit.value, .space, .times, .space, .dims u.unit.dims]

/-- `bracketed_name` (159-161). -/
def NUnit.bracketed (u : NUnit) : List Tok :=
  if u.str.any Tok.isSpace then .lpar :: u.str ++ [.rpar] else u.str

/-- `Unit(items, value=v, name=s)` (136-142). -/
def NUnit.lit (items : List (Dim × ℚ)) (v : ℝ) (s : Option String) : NUnit := ⟨Unit.mk' items v, s.map fun s => [.sym s]⟩

/-- `set_name` (144-146). -/
def NUnit.setName (u : NUnit) (s : String) : NUnit := { u with name := some [.sym s] }

/-- `__invert__` (163-164). -/
noncomputable def NUnit.inv (u : NUnit) : Except Err NUnit := do
  let w ← u.unit.inv
  return ⟨w, some (u.bracketed ++ [.pow (-1)])⟩

/-- `__pow__` (166-167). -/
noncomputable def NUnit.pow (u : NUnit) (p : ℚ) : Except Err NUnit := do
  let w ← u.unit.pow p
  return ⟨w, some (u.bracketed ++ [.pow (limDen p)])⟩

/-- `__mul__` with a unit (170-171). -/
def NUnit.mul (σ : SetOrder) (u v : NUnit) : NUnit := ⟨u.unit.mul σ v.unit, some (u.str ++ .space :: v.str)⟩

/-- `__mul__` with a real number (172-173). -/
def NUnit.mulReal (u : NUnit) (x : ℝ) : NUnit := ⟨u.unit.mulReal x, some (.num x :: .space :: u.bracketed)⟩

/-- `__truediv__` (92-93). -/
noncomputable def NUnit.div (σ : SetOrder) (u v : NUnit) : Except Err NUnit := do
  let w ← v.pow (-1)
  return u.mul σ w

/-- `__rtruediv__` by a real number (95-96). -/
noncomputable def NUnit.rdivReal (u : NUnit) (x : ℝ) : Except Err NUnit := do
  let w ← u.inv
  return w.mulReal x

/-! ### Astropy -/

/-- Exceptions of the conversion: `reduce` of nothing, missing key. -/
inductive AErr | emptyReduce | key
  deriving DecidableEq

/-- A unit of Astropy: a scale and powers of the SI base units (metre, second, kilogram, ampere, kelvin, in this order). -/
structure AUnit where
  scale : ℝ
  m : ℚ
  s : ℚ
  kg : ℚ
  A : ℚ
  K : ℚ

/-- `_dimmap[dim]**pwr` (106-112, 115). -/
def dimmap (d : Dim) (p : ℚ) : Except AErr AUnit :=
  if d = "L" then .ok ⟨1, p, 0, 0, 0, 0⟩
  else if d = "T" then .ok ⟨1, 0, p, 0, 0, 0⟩
  else if d = "M" then .ok ⟨1, 0, 0, p, 0, 0⟩
  else if d = "I" then .ok ⟨1, 0, 0, 0, p, 0⟩
  else if d = "Θ" then .ok ⟨1, 0, 0, 0, 0, p⟩
  else .error .key

/-- Product of Astropy units. -/
def AUnit.mul (a b : AUnit) : AUnit := ⟨a.scale * b.scale, a.m + b.m, a.s + b.s, a.kg + b.kg, a.A + b.A, a.K + b.K⟩

/-- The rest of `product(...)` after the first factor. -/
def mulAll : Dict → AUnit → Except AErr AUnit
  | [], a => .ok a
  | (d, p) :: l, a => do mulAll l (a.mul (← dimmap d p))

/-- `UnitBase._toAstropy.__call__` (114-115): `reduce(mul, ...)` without an initial value. -/
def baseToAstropy : Dict → Except AErr AUnit
  | [] => .error .emptyReduce
  | (d, p) :: l => do mulAll l (← dimmap d p)

/-- `Unit._toAstropy.__call__` (204-206): `def_unit(name, super().__call__() * value)`. -/
def toAstropy (u : Unit) : Except AErr AUnit := do
  let a ← baseToAstropy u.dims
  return { a with scale := a.scale * u.value }

end Verif.Units.Name
