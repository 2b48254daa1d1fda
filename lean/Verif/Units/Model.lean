import Mathlib.Analysis.SpecialFunctions.Pow.Real
import Mathlib.Data.String.Basic
import Mathlib.Data.Prod.Lex
import Mathlib.Data.List.Sort

/-!
# Model of `phytorch/units/unit.py`

`UnitBase` is a `dict[Dimension, Fraction]`; `Unit` adds a real `value`.
Unit *names* (display strings) are not modelled here.  Values are exact reals: float rounding of
`value` is not modelled.
-/

namespace Verif.Units

/-- Exceptions the modelled functions can raise. `complexValue` marks the one case that leaves the
real numbers (a negative value raised to a non-integer power gives a Python `complex`). -/
inductive Err | typeError | zeroDivision | complexValue
  deriving DecidableEq, Repr

/-- `Dimension(str)` (unit.py 25-26). -/
abbrev Dim := String

/-- A Python `dict[Dimension, Fraction]`: insertion ordered list of items (unit.py 38). -/
abbrev Dict := List (Dim × ℚ)

/-! ### `fractions.Fraction.limit_denominator` (Python standard library, called at unit.py 43) -/

/-- The `while True` loop of `limit_denominator`, on `(p0, q0, p1, q1, n, d)`.  `d` strictly
decreases, so `fuel = d + 1` is never exhausted (`limLoop_fuel` in Lemmas). Python's `//` with a
positive divisor is `Int` floor division. -/
def limLoop (M : ℕ) : ℕ → ℤ → ℕ → ℤ → ℕ → ℤ → ℕ → ℤ × ℕ × ℤ × ℕ
  | 0, p0, q0, p1, q1, _, _ => (p0, q0, p1, q1)
  | fuel + 1, p0, q0, p1, q1, n, d =>
    let a := n / (d : ℤ)
    let q2 := q0 + a.toNat * q1
    if q2 > M then (p0, q0, p1, q1)
    else limLoop M fuel p1 q1 (p0 + a * p1) q2 (d : ℤ) (n - a * d).toNat

/-- `Fraction.limit_denominator(max_denominator=M)`.  (In the first loop step `a` may be negative,
but there `q1 = 0`, so using `a.toNat` in `q2` is exact; afterwards `a ≥ 0`.) -/
def limDenTo (M : ℕ) (x : ℚ) : ℚ :=
  if x.den ≤ M then x
  else
    let (p0, q0, p1, q1) := limLoop M (x.den + 1) 0 1 1 0 x.num x.den
    let k := (M - q0) / q1
    let bound1 : ℚ := (p0 + k * p1 : ℤ) / (q0 + k * q1 : ℕ)
    let bound2 : ℚ := (p1 : ℤ) / (q1 : ℕ)
    if |bound2 - x| ≤ |bound1 - x| then bound2 else bound1

/-- Default `max_denominator` of `limit_denominator`. -/
def maxDen : ℕ := 1000000

/-- `.limit_denominator()` as called in unit.py 43. -/
def limDen (x : ℚ) : ℚ := limDenTo maxDen x

/-! ### Python dictionaries -/

/-- `d[k] = v`: overwrite in place, or append. -/
def dset (d : Dict) (k : Dim) (v : ℚ) : Dict :=
  if k ∈ d.map Prod.fst then d.map (fun kv => if kv.1 = k then (k, v) else kv) else d ++ [(k, v)]

/-- `dict(iterable_of_pairs)`. -/
def dictOf (items : List (Dim × ℚ)) : Dict :=
  items.foldl (fun d kv => dset d kv.1 kv.2) []

/-- `d[k]` with `UnitBase.__missing__` returning `Fraction()` (unit.py 52-56). -/
def dget (d : Dict) (k : Dim) : ℚ := (d.lookup k).getD 0

/-- `dict.keys()`. -/
def keys (d : Dict) : List Dim := d.map Prod.fst

/-- `dict.__eq__`: same length, and every item of the left found in the right with an equal value. -/
def dictEq (a b : Dict) : Bool :=
  a.length == b.length && a.all (fun kv => b.lookup kv.1 == some kv.2)

/-- The order in which Python iterates over a `set` of strings is unspecified (hash randomisation):
an arbitrary rearrangement of the distinct elements. -/
structure SetOrder where
  ord : List Dim → List Dim
  perm : ∀ l, (ord l).Perm l

/-! ### `UnitBase` -/

/-- `UnitBase.__init__` (unit.py 39-45): `dict(*args)`, then `limit_denominator`, then drop zeros. -/
def mkDims (items : List (Dim × ℚ)) : Dict :=
  ((dictOf items).map (fun kv => (kv.1, limDen kv.2))).filter (fun kv => kv.2 ≠ 0)

/-- `UnitBase._operate_other` (unit.py 64-65). -/
def operateOther (σ : SetOrder) (a b : Dict) (op : ℚ → ℚ → ℚ) : Dict :=
  mkDims ((σ.ord (keys a ++ keys b).dedup).map (fun k => (k, op (dget a k) (dget b k))))

/-- `UnitBase._operate_self` (unit.py 67-68). -/
def operateSelf (a : Dict) (op : ℚ → ℚ) : Dict :=
  mkDims (a.map (fun kv => (kv.1, op kv.2)))

/-- `UnitBase.__invert__` (unit.py 70-71). -/
def dinv (a : Dict) : Dict := operateSelf a (fun v => -v)

/-- `UnitBase.__pow__` (unit.py 73-76) for a rational power. -/
def dpow (a : Dict) (p : ℚ) : Dict := operateSelf a (fun v => v * p)

/-- `UnitBase.__mul__` (unit.py 78-81). -/
def dmul (σ : SetOrder) (a b : Dict) : Dict := operateOther σ a b (· + ·)

/-! ### `Unit` -/

/-- `Unit` (unit.py 124-143): exponents and scale. -/
structure Unit where
  dims : Dict
  value : ℝ

/-- `Unit(items, value=v)` (unit.py 136-143). -/
def Unit.mk' (items : List (Dim × ℚ)) (v : ℝ := 1) : Unit := ⟨mkDims items, v⟩

/-- `Unit()`: dimensionless, value 1 (unit.py 136). -/
def Unit.one : Unit := Unit.mk' []

/-- `Unit.__mul__` with a `Unit` (unit.py 169-171); also `__matmul__`, `__rmul__` (83-90). -/
def Unit.mul (σ : SetOrder) (u v : Unit) : Unit := ⟨dmul σ u.dims v.dims, u.value * v.value⟩

/-- `Unit.__mul__` with a real number (unit.py 172-173). -/
def Unit.mulReal (u : Unit) (x : ℝ) : Unit := ⟨mkDims u.dims, u.value * x⟩

open Classical in
/-- `Unit.__invert__` (unit.py 163-164): `1/self.value` raises on zero. -/
noncomputable def Unit.inv (u : Unit) : Except Err Unit :=
  if u.value = 0 then .error .zeroDivision else .ok ⟨dinv u.dims, 1 / u.value⟩

open Classical in
/-- `self.value ** power` for real `value` and rational `power`. -/
noncomputable def pyPow (x : ℝ) (p : ℚ) : Except Err ℝ :=
  if x = 0 ∧ p < 0 then .error .zeroDivision
  else if x < 0 ∧ p.den ≠ 1 then .error .complexValue
  else .ok (x ^ (p : ℝ))

/-- `Unit.__pow__` (unit.py 166-167). -/
noncomputable def Unit.pow (u : Unit) (p : ℚ) : Except Err Unit := do
  let v ← pyPow u.value p
  return ⟨dpow u.dims p, v⟩

/-- `Unit.__truediv__` / `__mod__` by a `Unit` (unit.py 92-93, 98): `self * other**(-1)`. -/
noncomputable def Unit.div (σ : SetOrder) (u v : Unit) : Except Err Unit := do
  let w ← v.pow (-1)
  return u.mul σ w

/-- `x / self` for a real number (unit.py 95-96, 99): `(~self) * x`. -/
noncomputable def Unit.rdivReal (u : Unit) (x : ℝ) : Except Err Unit := do
  let w ← u.inv
  return w.mulReal x

/-- `self / x` for a real number (unit.py 92-93): `self * x**(-1)`. -/
noncomputable def Unit.divReal (u : Unit) (x : ℝ) : Except Err Unit := do
  let y ← pyPow x (-1)
  return u.mulReal y

open Classical in
/-- `Unit.to` (unit.py 148-151): compares dimensions, then divides values. -/
noncomputable def Unit.to (u v : Unit) : Except Err ℝ :=
  if !dictEq u.dims v.dims then .error .typeError
  else if v.value = 0 then .error .zeroDivision
  else .ok (u.value / v.value)

open Classical in
/-- `Unit.__eq__` with another `Unit` (unit.py 186-187). -/
noncomputable def Unit.eq (u v : Unit) : Bool := decide (u.value = v.value) && dictEq u.dims v.dims

/-- `u != v`: `Unit` defines `__eq__` but not `__ne__`, and `dict.__ne__` precedes `object.__ne__`
in the MRO (unit.py 38, 124, 186), so `!=` compares the exponent dictionaries only. -/
def Unit.ne (u v : Unit) : Bool := !dictEq u.dims v.dims

/-- `==` between a `Unit` and a bare dimension `UnitBase`: `isinstance(other, Unit)` fails
(unit.py 187); the reflected call from the `UnitBase` side also reaches `Unit.__eq__` (subclass
priority). -/
def Unit.eqBase (_u : Unit) (_d : Dict) : Bool := false

/-- `tuple(sorted(self.items()))` (unit.py 102): lexicographic order on (key, value). -/
def sortedItems (d : Dict) : List (Dim × ℚ) :=
  (List.insertionSort (fun a b : Dim ×ₗ ℚ => a ≤ b) (d.map toLex)).map ofLex

/-- `UnitBase.__hash__` (unit.py 101-102) for an arbitrary tuple hash `h`. -/
def dhash (h : List (Dim × ℚ) → ℤ) (d : Dict) : ℤ := h (sortedItems d)

/-- `Unit.__hash__` (unit.py 189-190): `hash((float(value), dimension))`, for an arbitrary rounding
`fl` and arbitrary hashes. -/
def Unit.hash {F : Type} (fl : ℝ → F) (h : List (Dim × ℚ) → ℤ) (h2 : F × ℤ → ℤ) (u : Unit) : ℤ :=
  h2 (fl u.value, dhash h u.dims)

end Verif.Units
