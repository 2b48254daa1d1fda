import Verif.Consts.Model

/-! # Model of the dimensionful part of `phytorch/cosmology/core.py` (class `FLRW`, core.py:295-520)

One element of the tensors at a time, exact reals. The dimensionless methods are modelled elsewhere: here their result is an argument. -/

namespace Verif.Cosmo.Dimful

open Verif Verif.Consts

abbrev Unit := Units.Unit

/-- What `H0` may be: a bare `Unit`, or a `TensorQuantity` with this value and unit. -/
inductive GQ
  | unit (u : Unit)
  | quant (v : ℝ) (u : Unit)

/-- A dimensionless number: a Python number or an element of a tensor. -/
inductive Num
  | py (x : ℝ)
  | tensor (x : ℝ)

/-- `x.unit` (unit.py:141, quantity.py:36). -/
def GQ.getUnit : GQ → Unit
  | .unit u => u
  | .quant _ u => u

variable (σ : SetOrder)

/-! ### Arithmetic (unit.py:78-99, 163-182; dimspec.py:137-150, 242-255)

Multiplying or dividing a tensor (quantity) by a `Unit` ends in `Unit.__mul__`: torch's own method rejects the `Unit` with a `TypeError`, upon
which Python calls the reflected method of `Unit`. -/

/-- `g * x` for a dimensionless number. A bare unit times a number is a unit (unit.py:172-173), times a tensor a quantity (unit.py:176-180). A quantity
times either has unit `unit * Unit()` (dimspec.py:242). -/
def GQ.mulNum : GQ → Num → GQ
  | .unit u, .py x => .unit (u.mulReal x)
  | .unit u, .tensor x => .quant x u
  | .quant v u, .py x => .quant (v * x) (u.mul σ Units.Unit.one)
  | .quant v u, .tensor x => .quant (v * x) (u.mul σ Units.Unit.one)

/-- `u * g` for a bare unit on the left (unit.py:170-175): the quantity's value with unit `g.unit * u`. -/
def unitMul (w : Unit) : GQ → GQ
  | .unit u => .unit (w.mul σ u)
  | .quant v u => .quant v (u.mul σ w)

/-- `g ** p` (unit.py:166-167; dimspec.py:137-150). For tensors, `0 ** negative` is infinite and not modelled (theorems assume `v ≠ 0`). A `Fraction`
exponent of a tensor is rejected by torch and passed on by `Fraction.__rpow__` as a number. -/
noncomputable def GQ.pow (p : ℚ) : GQ → Except Err GQ
  | .unit u => do return .unit (← u.pow p)
  | .quant v u => do return .quant (v ^ (p : ℝ)) (← u.pow p)

/-- `w / g` for a bare unit on the left (unit.py:92-93): `w * g**(-1)`. -/
noncomputable def unitDiv (w : Unit) (g : GQ) : Except Err GQ := do
  return unitMul σ w (← g.pow (-1))

/-- `g / w` for a bare unit on the right: unit.py:92-93, or (after torch's `TypeError`) unit.py:95-96 and 174-175. -/
noncomputable def GQ.divUnit (w : Unit) : GQ → Except Err GQ
  | .unit u => do return .unit (← u.div σ w)
  | .quant v u => do return .quant v (u.mul σ (← w.inv))

/-- `x / y` for any two: a quantity over a quantity is dimspec.py:250. -/
noncomputable def GQ.div (x y : GQ) : Except Err GQ :=
  match x, y with
  | .unit w, g => unitDiv σ w g
  | .quant v u, .unit w => GQ.divUnit σ w (.quant v u)
  | .quant v u, .quant v' u' => do return .quant (v / v') (← u.div σ u')

/-- `x / g` for a Python number: unit.py:95-96; `__rdiv__`, dimspec.py:251 (`unit2 / unit1` with `unit2 = Unit()`). -/
noncomputable def GQ.rdiv (x : ℝ) : GQ → Except Err GQ
  | .unit u => do return .unit (← u.rdivReal x)
  | .quant v u => do return .quant (x / v) (← Units.Unit.one.div σ u)

/-- `g.to(w)`: a float for a bare unit (unit.py:148-151); a quantity stays one, with unit `w` (quantity.py:42-61). -/
noncomputable def GQ.to (w : Unit) : GQ → Except Err (ℝ ⊕ (ℝ × Unit))
  | .unit u => do return .inl (← u.to w)
  | .quant v u =>
    if Units.Unit.eq u w then .ok (.inr (v, u))
    else do return .inr (v * (← u.to w), w)

/-- `.value` of the result of `to` (unit.py:118-121, tensor_quantity.py:20-23). -/
def valueOf : ℝ ⊕ (ℝ × Unit) → ℝ
  | .inl x => x
  | .inr (v, _) => v

/-! ### Units and constants -/

/-- `arcsec` (angular.py:9-14): `rad = Unit()`, `deg = pi/180 * rad`, `arcmin = deg / 60`, `arcsec = arcmin / 60`. -/
noncomputable def arcsec : Except Err Unit := do
  let arcmin ← (Units.Unit.one.mulReal (Real.pi / 180)).divReal 60
  arcmin.divReal 60

/-- `steradian = rad**2` (angular.py:10). -/
noncomputable def steradian : Except Err Unit := Units.Unit.one.pow 2

/-- `pc = AU / arcsec` (astro.py:18), `AU = 149_597_870_700 * m` (additional.py:16). -/
noncomputable def pc : Except Err Unit := do
  ((baseUnit "L").mulReal 149597870700).div σ (← arcsec)

/-- `Mpc = Fraction(10)**6 * pc` (_prefixes.py:38). -/
noncomputable def Mpc : Except Err Unit := do return (← pc σ).mulReal (10 ^ 6)

/-- `km = Fraction(10)**3 * m` (_prefixes.py:38). -/
def km : Unit := (baseUnit "L").mulReal (10 ^ 3)

/-- `km/s/Mpc` (core.py:320). -/
noncomputable def kmsMpc : Except Err Unit := do
  (← km.div σ (baseUnit "T")).div σ (← Mpc σ)

/-- `H100 = 100 * km/s/Mpc` (core.py:23), the default of `H0` (core.py:303). -/
noncomputable def H100 : Except Err Unit := do
  (← (km.mulReal 100).div σ (baseUnit "T")).div σ (← Mpc σ)

variable (c : Vals)

/-- `G`: `N * m**2 / kg**2` (codata.py:35). -/
noncomputable def G_ : Except Err Unit := do
  let l2 ← (baseUnit "L").pow 2
  let m2 ← (baseUnit "M").pow 2
  return basic c.G (← ((← newton σ).mul σ l2).div σ m2)

/-! ### `FLRW` -/

/-- `_critical_density_constant = 3 / (8 * pi * Newton_G)` (core.py:301). -/
noncomputable def criticalConst : Except Err Unit := do
  ((← G_ σ c).mulReal (8 * Real.pi)).rdivReal 3

/-- `H` (core.py:310-316); `E` is `efunc(z)`. -/
def H (H0 : GQ) (E : Num) : GQ := H0.mulNum σ E

/-- `hubble_time` (core.py:322-330). -/
noncomputable def hubbleTime (H0 : GQ) : Except Err GQ := H0.rdiv σ 1

/-- `hubble_distance` (core.py:332-340). -/
noncomputable def hubbleDistance (H0 : GQ) : Except Err GQ := do unitDiv σ (← c_ σ c) H0

/-- `hubble_distance_in_10pc` (core.py:342-345). -/
noncomputable def hubbleDistanceIn10pc (H0 : GQ) : Except Err ℝ := do
  return valueOf (← (← hubbleDistance σ c H0).to ((← pc σ).mulReal 10))

/-- `hubble_volume` (core.py:347-350). -/
noncomputable def hubbleVolume (H0 : GQ) : Except Err GQ := do (← hubbleDistance σ c H0).pow 3

/-- `critical_density0` (core.py:352-362). -/
noncomputable def criticalDensity0 (H0 : GQ) : Except Err GQ := do
  let r ← H0.pow 2
  return unitMul σ (← criticalConst σ c) r

/-- `critical_density` (core.py:364-373); `E2` is `e2func(z)`. -/
noncomputable def criticalDensity (H0 : GQ) (E2 : Num) : Except Err GQ := do
  return (← criticalDensity0 σ c H0).mulNum σ E2

/-- The methods that scale a dimensionless result (core.py:375-520). -/
inductive Method
  | lookbackTime | lookbackDistance | age | comovingDistance | comovingDistanceZ1Z2 | comovingTransverseDistance
  | comovingTransverseDistanceZ1Z2 | angularDiameterDistance | angularDiameterDistanceZ1Z2 | luminosityDistance
  | differentialComovingVolume | comovingVolume
  deriving DecidableEq

/-- The result of a method, given that of its `_dimless` counterpart. -/
noncomputable def Method.run (H0 : GQ) (d : Num) : Method → Except Err GQ
  | .lookbackTime => do return (← hubbleTime σ H0).mulNum σ d                          -- core.py:385
  | .lookbackDistance => do return (← hubbleDistance σ c H0).mulNum σ d                -- core.py:393
  | .age => do return (← hubbleTime σ H0).mulNum σ d                                   -- core.py:404
  | .comovingDistance => do return (← hubbleDistance σ c H0).mulNum σ d                -- core.py:434
  | .comovingDistanceZ1Z2 => do return (← hubbleDistance σ c H0).mulNum σ d            -- core.py:442
  | .comovingTransverseDistance => do return (← hubbleDistance σ c H0).mulNum σ d      -- core.py:452
  | .comovingTransverseDistanceZ1Z2 => do return (← hubbleDistance σ c H0).mulNum σ d  -- core.py:459
  | .angularDiameterDistance => do return (← hubbleDistance σ c H0).mulNum σ d         -- core.py:470
  | .angularDiameterDistanceZ1Z2 => do return (← hubbleDistance σ c H0).mulNum σ d     -- core.py:481
  | .luminosityDistance => do return (← hubbleDistance σ c H0).mulNum σ d              -- core.py:492
  | .differentialComovingVolume => do                                                 -- core.py:505
      let v ← (← hubbleVolume σ c H0).divUnit σ (← steradian)
      return v.mulNum σ d
  | .comovingVolume => do return (← hubbleVolume σ c H0).mulNum σ d                    -- core.py:520

/-- `Hunit = Unit(**{Hdim: 1})`, `Hdim = Dimension('H')` (cosmology/utils.py:45-46). -/
def Hunit : Unit := Units.Unit.mk' [("H", 1)]

/-- `h = h100 = Hunit / 100` (cosmology/utils.py:47-48). -/
noncomputable def h100 : Except Err Unit := Hunit.divReal 100

/-- `eval_hunit` (core.py:318-320): `x / (Hunit / self.H0.to(km/s/Mpc))**x.unit[Hdim]`. -/
noncomputable def evalHunit (H0 x : GQ) : Except Err GQ := do
  let h ← H0.to (← kmsMpc σ)
  let r : GQ ← match h with
    | .inl y => do pure (GQ.unit (← Hunit.divReal y))
    | .inr (v, u) => unitDiv σ Hunit (.quant v u)
  GQ.div σ x (← r.pow (Units.dget x.getUnit.dims "H"))

end Verif.Cosmo.Dimful
