import Verif.Ellred.RedDriver
import Verif.Ellred.RedGrad

/-! # Model: backpropagation through the differentiable LambdaCDM driver (cosmology/drivers/analytic_diff.py)

What torch's automatic differentiation computes for a distance of `LambdaCDM` and `FlatLambdaCDM` of analytic_diff.py, operation by operation
(one element; arithmetic is exact).  `g` is the gradient of a real loss with respect to the distance; gradients of complex tensors follow torch's
convention (`dL = Re (conj (gradient) dw)`).  The backward formulas of division, power, `real`, negation, subtraction and of the conversion to
complex are torch's (they are not in /repo); those of `EllipticIntegral` and `Roots` are the code's.  The gradient of a limit is left complex, as
`EllipticIntegral.backward` returns it; what torch does with a complex gradient of a real tensor is not modelled.  The leaves are the
attributes `Om0` and (not flat) `_Ode0`. -/

namespace Verif.Ellred

open Verif.Cosmo ComplexConjugate

/-- What a backward pass raises: `LinAlgError` of `inverse`, or an error of the forward pass. -/
inductive BErr | linalg | forward
  deriving DecidableEq

open Classical in
/-- `Roots.backward` (roots/__init__.py:68-76) for one polynomial; `inverse` of a singular matrix raises. -/
noncomputable def rootsBackward (rts gout : List ℂ) : Except BErr (List ℂ) :=
  match Roots.backwardMatrix rts with
  | .error _ => .error .forward
  | .ok M => if M.det = 0 then .error .linalg else .ok (List.ofFn fun j => ∑ k : Fin rts.length, conj ((-M⁻¹) j k) * gout.getD k 0)

/-- `_fix_dimless` (_analytic_base.py:36-37), backward: `val.real / leading**0.5`.  The gradients of `val` and of `leading`. -/
noncomputable def fixBackward (g L : ℝ) (val : ℂ) : ℂ × ℝ :=
  let den := L ^ (0.5 : ℝ)
  (((g / den : ℝ) : ℂ), -g * (val.re / den / den) * (0.5 * L ^ (0.5 - 1 : ℝ)))

/-- `_epoly_coeffs` (_analytic_base.py:24-27), backward: `c / leading` for every coefficient.  The gradients of the coefficients and of
`leading`. -/
noncomputable def coeffsBackward (L : ℝ) (cs gs : List ℝ) : List ℝ × ℝ :=
  (gs.map fun g => g / L, (List.zipWith (fun c g => -g * (c / L / L)) cs gs).sum)

/-- The gradients of the leaves `Om0` and `Ode0`. -/
structure ParamGrad where
  Om0 : ℝ
  Ode0 : ℝ

/-- From the gradients of `_epoly_leading`, `Ok0` and `Ode0` (_analytic_base.py:44-50) to the leaves: `Ok0 = 1. - Om0 - Ode0` (decdm.py:97-104) with
`Ode0` a leaf, or, if flat, `Ok0 = 0.` (flat.py:15) and `Ode0 = 1. - Ok0 - Om0` (decdm.py:30-31). -/
def leaves (flat : Bool) (gL gk gd : ℝ) : ParamGrad :=
  if flat then ⟨gL - gd, 0⟩ else ⟨gL - gk, gd - gk⟩

/-- The call of `elliptic_integral` by the three methods (analytic_diff.py:12-31): the arguments `*a` and `m`; `ex` lists the exponents of the
factors `1 + z` (none for the comoving distance, -1 for the lookback time, 2 for the absorption distance). -/
def args3 (rs : List ℂ) (ex : List ℤ) : List ℂ × List ℤ := (rs.map Neg.neg ++ ex.map fun _ => 1, List.replicate 3 0 ++ ex)

/-- The distance with exponents `ex`: `diffComoving3`, `diffLookback3` and `diffAbsorption3` are instances (see below). -/
noncomputable def diffDist3 (ex : List ℤ) (L : ℝ) (r1 r2 r3 : ℂ) (z1 z2 : ℝ) : ℝ :=
  let am := args3 [r1, r2, r3] ex
  fixDimless L (ellipticIntegral3 z1 z2 am.1 am.2)

/-- The gradients of `z1` and `z2`. -/
noncomputable def limitsBackward (solve : List ℝ → List ℂ) (c : Cls) (o : Obj) (n : ℕ) (ex : List ℤ) (z1 z2 g : ℝ) : Except BErr (ℂ × ℂ) :=
  match ok0 c o n with
  | .error _ => .error .forward
  | .ok k => match ode0 c o n with
    | .error _ => .error .forward
    | .ok d =>
      let am := args3 (epolyRoots solve c o k d) ex
      let gv := fixBackward g (epolyLeading c o) (forward am.2 ⟨3, Or.inl rfl⟩ z1 z2 am.1)
      let b := backward am.2 ⟨3, Or.inl rfl⟩ z1 z2 am.1 gv.1
      .ok (b.1, b.2.1)

/-- The gradients of `Om0` and `Ode0` (analytic_diff.py:12-31, _analytic_base.py:24-50): through `_fix_dimless`, `elliptic_integral`, the
negation and subtraction of 1, `roots`, the conversion of its coefficients to complex, the division by `_epoly_leading`. -/
noncomputable def paramsBackward (solve : List ℝ → List ℂ) (c : Cls) (o : Obj) (n : ℕ) (ex : List ℤ) (z1 z2 g : ℝ) : Except BErr ParamGrad :=
  match ok0 c o n with
  | .error _ => .error .forward
  | .ok k => match ode0 c o n with
    | .error _ => .error .forward
    | .ok d =>
      let L := epolyLeading c o
      let am := args3 (epolyRoots solve c o k d) ex
      let gv := fixBackward g L (forward am.2 ⟨3, Or.inl rfl⟩ z1 z2 am.1)
      let ga := (backward am.2 ⟨3, Or.inl rfl⟩ z1 z2 am.1 gv.1).2.2
      match rootsBackward (solve (epolyCoeffs c o k d)) ((ga.take 3).map Neg.neg) with
      | .error e => .error e
      | .ok gc =>
        let gcs := coeffsBackward L (epolyCoeffs_ c o k d) (gc.map Complex.re)
        .ok (leaves c.flat (gv.2 + gcs.2) (gcs.1.getD 0 0) (gcs.1.getD 2 0))

theorem diffComoving3_eq (L : ℝ) (r1 r2 r3 : ℂ) (z1 z2 : ℝ) : diffComoving3 L r1 r2 r3 z1 z2 = diffDist3 [] L r1 r2 r3 z1 z2 := rfl
theorem diffLookback3_eq (L : ℝ) (r1 r2 r3 : ℂ) (z : ℝ) : diffLookback3 L r1 r2 r3 z = diffDist3 [-1] L r1 r2 r3 0 z := rfl
theorem diffAbsorption3_eq (L : ℝ) (r1 r2 r3 : ℂ) (z : ℝ) : diffAbsorption3 L r1 r2 r3 z = diffDist3 [2] L r1 r2 r3 0 z := rfl

end Verif.Ellred
