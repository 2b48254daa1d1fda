import Verif.Cosmo.Model

/-! # Reverse-mode gradients of the curvature functions (phytorch/cosmology/core.py, phytorch/math.py)

What torch's automatic differentiation computes for `transform_curved` and `comoving_volume_dimless` as functions of `Ok0` and of the comoving distance,
operation by operation. `none` stands for a value that is not finite (an infinity or NaN in some component): every sum or product with one is not finite, as
in IEEE arithmetic once the other factor is finite or 0 (`0 * inf = nan`). Overflow, underflow and rounding are not modelled. The backward formulas are
those of torch (FunctionsManual.cpp); they are not in /repo. -/

namespace Verif.Cosmo.Grad

open Complex ComplexConjugate

/-- A number that may fail to be finite. -/
abbrev Num := Option ℂ

def Num.mul (a b : Num) : Num := a.bind fun x => b.map fun y => x * y
def Num.add (a b : Num) : Num := a.bind fun x => b.map fun y => x + y
def Num.neg (a : Num) : Num := a.map fun x => -x
noncomputable def Num.conj (a : Num) : Num := a.map fun x => starRingEnd ℂ x
/-- The conjugate of a finite number. -/
noncomputable def cj (x : ℂ) : Num := some (starRingEnd ℂ x)
noncomputable def Num.re (a : Num) : Option ℝ := a.map Complex.re
open Classical in
/-- `a / b`: not finite for `b = 0` (`x/0 = inf`, `0/0 = nan`). -/
noncomputable def Num.div (a b : Num) : Num := a.bind fun x => b.bind fun y => if y = 0 then none else some (x / y)

def addR (a b : Option ℝ) : Option ℝ := a.bind fun x => b.map fun y => x + y

open Classical in
/-- `x ** -0.5`, not finite at 0. -/
noncomputable def powNegHalf (x : ℂ) : Num := if x = 0 then none else some (x ^ ((-1 / 2 : ℝ) : ℂ))

/-- The backward of `x ** 0.5`: `grad * (0.5 * x**(0.5 - 1)).conj()`. -/
noncomputable def sqrtBackward (g : Num) (x : ℂ) : Num := g.mul (Num.mul (some (1 / 2)) (powNegHalf x)).conj

open Classical in
/-- The backward of `sinc`: `where(x*x*pi == 0, 0, grad * ((x*pi*cos(x*pi) - sin(x*pi)) / (x*x*pi)).conj())`. -/
noncomputable def sincBackward (g : Num) (x : ℂ) : Num :=
  if x * x * Real.pi = 0 then some 0
  else g.mul (cj ((x * Real.pi * cos (x * Real.pi) - sin (x * Real.pi)) / (x * x * Real.pi)))

/-- From the gradient with respect to `isqrtOk0_pi` to that with respect to `Ok0` (core.py:154-162): division by `pi`, multiplication by `1j`, `**0.5`,
conversion to complex. -/
noncomputable def backIsqrt (g : Num) (k : ℝ) : Option ℝ :=
  (sqrtBackward ((g.mul (cj (1 / Real.pi))).mul (cj I)) k).re

/-- The gradients of `transform_curved` (core.py:164-186) with respect to `Ok0` and to its argument. -/
noncomputable def transformGrad (k d : ℝ) : Option ℝ × Option ℝ :=
  let q := isqrtOk0Pi k
  let x := q * d
  let gSinc : Num := some d                          -- `distance * realise(sinc)`
  let gx := sincBackward gSinc x
  (backIsqrt (gx.mul (cj d)) k, addR (some (sinc x).re) (gx.mul (cj q)).re)

open Classical in
/-- The gradients of `comoving_volume_dimless` (core.py:288-291, math.py:34-35) with respect to `Ok0` and to the comoving distance. -/
noncomputable def volumeGrad (eps k d : ℝ) : Option ℝ × Option ℝ :=
  let q := isqrtOk0Pi k
  let a := 2 * q
  let x := a * d
  let num := 1 - sinc x
  let m := x * Real.pi
  let den := m ^ 2
  let quot : Num := Num.div (some num) (some den)
  let gC : ℂ := 8 * Real.pi * d ^ 3                  -- `8*pi*dc**3 * realise(csinc)`
  let gQuot : Num := some (if eps < ‖x‖ then gC else 0)   -- `where`
  let gNum := gQuot.div (cj den)        -- `num / den`
  let gDen := (gQuot.mul (quot.div (some den)).conj).neg
  let gM := gDen.mul (cj (2 * m))       -- `m**2`
  let gx := (gM.mul (cj (Real.pi : ℂ))).add (sincBackward gNum.neg x)
  let gA := gx.mul (cj (d : ℂ))         -- `a * dc`
  (backIsqrt (gA.mul (cj 2)) k,
    addR (some (8 * Real.pi * (3 * d ^ 2) * (csinc eps x).re)) (gx.mul (cj a)).re)

end Verif.Cosmo.Grad
