import Verif.Ellred.DriverGradModel
import Verif.Ellred.LambdaR
import Verif.Carlson.GradModel
import Verif.Ellred.CarlsonGradModel

/-! # Model: backpropagation through the analytic drivers (cosmology/drivers/analytic.py)

The operations that the comoving distances of `LambdaCDM` and `LambdaCDMR`, and the lookback time and absorption distance of `LambdaCDM`, perform on
tensors, as expressions over input tensors, and what torch's backward pass computes for such an expression.  One element; exact arithmetic; `elliprf`,
`elliprc`, `elliprd` and `elliprj` stand for their integrals.  A tensor that is
used twice receives the sum of the gradients of its uses, so an expression in which it is written out twice gives the same gradients.
Gradients follow torch's convention (`dL = Re (conj (gradient) dw)`).  The backward formulas of `+ - * / **` and `.real` are torch's (not in
/repo); those of the Carlson functions are the code's (`CGrad`, `rfBackward`). -/

namespace Verif.Ellred

open Verif.Carlson Verif.Cosmo ComplexConjugate

/-- Expressions over `n` input tensors. -/
inductive Ex (n : ℕ) : Type
  | var (i : Fin n)
  | const (c : ℂ)
  | add (a b : Ex n)
  | sub (a b : Ex n)
  | mul (a b : Ex n)
  | div (a b : Ex n)
  /-- `.real`, and a real tensor entering a complex operation. -/
  | re (a : Ex n)
  | sq (a : Ex n)
  /-- `a ** 0.5`. -/
  | sqrt (a : Ex n)
  | rf (a b c : Ex n)
  /-- `elliprc`; `tol` is the threshold of the gradient formulas (ellipr.py:12-13). -/
  | rc (tol : ℝ) (a b : Ex n)
  | rd (tol : ℝ) (a b c : Ex n)
  | rj (tol : ℝ) (a b c d : Ex n)

namespace Ex

variable {n : ℕ}

/-- The value. -/
noncomputable def eval (ρ : Fin n → ℂ) : Ex n → ℂ
  | var i => ρ i
  | const c => c
  | add a b => eval ρ a + eval ρ b
  | sub a b => eval ρ a - eval ρ b
  | mul a b => eval ρ a * eval ρ b
  | div a b => eval ρ a / eval ρ b
  | re a => ((eval ρ a).re : ℂ)
  | sq a => eval ρ a ^ 2
  | sqrt a => csqrt (eval ρ a)
  | rf a b c => RFc (eval ρ a) (eval ρ b) (eval ρ c)
  | rc _ a b => RCc (eval ρ a) (eval ρ b)
  | rd _ a b c => RDc (eval ρ a) (eval ρ b) (eval ρ c)
  | rj _ a b c d => RJc (eval ρ a) (eval ρ b) (eval ρ c) (eval ρ d)

/-- `Elliprf.backward` (ellipr.py:89-106, function_context.py:64-75 and 122-125): the gradients of the three arguments, conjugated and multiplied
by the gradient `g` of the value. -/
noncomputable def rfBackward (x y z g : ℂ) : ℂ × ℂ × ℂ :=
  match Grad.symBackward (fun x y z => RDc x y z / (-6)) [true, true, true] [x, y, z] with
  | [some a, some b, some c] => (conj a * g, conj b * g, conj c * g)
  | _ => 0

/-- The gradients of the inputs, given the gradient `g` of the value. -/
noncomputable def back (ρ : Fin n → ℂ) : Ex n → ℂ → Fin n → ℂ
  | var i, g => fun j => if j = i then g else 0
  | const _, _ => 0
  | add a b, g => back ρ a g + back ρ b g
  | sub a b, g => back ρ a g + back ρ b (-g)
  | mul a b, g => back ρ a (g * conj (eval ρ b)) + back ρ b (g * conj (eval ρ a))
  | div a b, g => back ρ a (g / conj (eval ρ b)) + back ρ b (-g * conj (eval ρ a / eval ρ b / eval ρ b))
  | re a, g => back ρ a (g.re : ℂ)
  | sq a, g => back ρ a (g * conj (2 * eval ρ a))
  | sqrt a, g => back ρ a (g * conj (0.5 * eval ρ a ^ (0.5 - 1 : ℂ)))
  | rf a b c, g =>
    let G := rfBackward (eval ρ a) (eval ρ b) (eval ρ c) g
    back ρ a G.1 + back ρ b G.2.1 + back ρ c G.2.2
  | rc tol a b, g =>
    let G := CGrad.rcBackward tol (eval ρ a) (eval ρ b) g
    back ρ a G.1 + back ρ b G.2
  | rd tol a b c, g =>
    let G := CGrad.rdBackward tol (eval ρ a) (eval ρ b) (eval ρ c) g
    back ρ a G.1 + back ρ b G.2.1 + back ρ c G.2.2
  | rj tol a b c d, g =>
    let G := CGrad.rjBackward tol (eval ρ a) (eval ρ b) (eval ρ c) (eval ρ d) g
    back ρ a G.1 + back ρ b G.2.1 + back ρ c G.2.2.1 + back ρ d G.2.2.2

/-- `2 * (z2-z1) * self._fix_dimless(elliprf(*u))` (analytic.py:112-113 and 183-184, _analytic_base.py:36-37) for expressions `L` (leading
coefficient), `z1`, `z2` and `u`. -/
def comoving (L z1 z2 : Ex n) (u : Ex n × Ex n × Ex n) : Ex n :=
  mul (mul (const 2) (sub z2 z1)) (div (re (rf u.1 u.2.1 u.2.2)) (sqrt L))

/-- `(z - r)**0.5` for a real tensor `z`. -/
def d (z r : Ex n) : Ex n := sqrt (sub (re z) r)

/-- `LambdaCDM._get_ellipr_params` (analytic.py:101-110). -/
def params3 (r1 r2 r3 z1 z2 : Ex n) : Ex n × Ex n × Ex n :=
  let d11 := d z1 r1
  let d12 := d z1 r2
  let d13 := d z1 r3
  let d21 := d z2 r1
  let d22 := d z2 r2
  let d23 := d z2 r3
  (sq (add (mul (mul d11 d22) d23) (mul (mul d21 d12) d13)), sq (add (mul (mul d11 d22) d13) (mul (mul d21 d12) d23)),
    sq (add (mul (mul d11 d12) d23) (mul (mul d21 d22) d13)))

/-- `LambdaCDMR._get_ellipr_params` (analytic.py:172-181), the roots already reversed. -/
def params4 (r1 r2 r3 r4 z1 z2 : Ex n) : Ex n × Ex n × Ex n :=
  let d11 := d z1 r1
  let d12 := d z1 r2
  let d13 := d z1 r3
  let d14 := d z1 r4
  let d21 := d z2 r1
  let d22 := d z2 r2
  let d23 := d z2 r3
  let d24 := d z2 r4
  (sq (add (mul (mul (mul d11 d12) d23) d24) (mul (mul (mul d21 d22) d13) d14)),
    sq (add (mul (mul (mul d11 d22) d13) d24) (mul (mul (mul d21 d12) d23) d14)),
    sq (add (mul (mul (mul d11 d22) d23) d14) (mul (mul (mul d21 d12) d13) d24)))

/-- `self._fix_dimless(val)` (_analytic_base.py:36-37). -/
def fix (L val : Ex n) : Ex n := div (re val) (sqrt L)

/-- `LambdaCDM._ellipr_lookback_time_dimless` (analytic.py:115-122). -/
def lookback3 (tol : ℝ) (L r1 r2 r3 z : Ex n) : Ex n :=
  let z1 := const 0
  let u := params3 r1 r2 r3 z1 z
  let p := add (mul (add r1 (const 1)) (re (sq z))) u.1
  mul (mul (const 2) z) (fix L (add
    (rc tol (sq (add (mul (mul (mul (d z1 r1) (d z1 r2)) (d z1 r3)) (re (add z (const 1)))) (mul (mul (d z r1) (d z r2)) (d z r3))))
      (mul (re (add z (const 1))) p))
    (mul (re (div (sq z) (const 3))) (rj tol u.1 u.2.1 u.2.2 p))))

/-- `LambdaCDM._ellipr_absorption_distance_dimless_z1z2` (analytic.py:124-137). -/
noncomputable def absorption3 (tol : ℝ) (L r1 r2 r3 z1 z2 : Ex n) : Ex n :=
  let dz := sub z2 z1
  let u := params3 r1 r2 r3 z1 z2
  let dijdik := mul (sub r2 r1) (sub r3 r1)
  mul (mul (const (2 / 3)) dz) (fix L (add (add
    (div (sub (mul (mul (d z2 r1) (d z2 r2)) (d z2 r3)) (mul (mul (d z1 r1) (d z1 r2)) (d z1 r3))) (re dz))
    (mul (sub (mul (const 3) (sq (add r1 (const 1)))) dijdik) (rf u.1 u.2.1 u.2.2)))
    (mul (mul (const 2) (add (add (add r1 r2) r3) (const 3)))
      (add (mul (mul (re (div (sq dz) (const 3))) dijdik) (rd tol u.2.1 u.2.2 u.1)) (div (mul (d z1 r1) (d z2 r1)) (sqrt u.1))))))

end Ex

/-- The comoving distance of the analytic driver with `m` roots as an expression in the tensors 0: leading coefficient, 1: `z1`, 2: `z2`,
3...: what `roots` returned; `_epoly_roots` subtracts 1 (_analytic_base.py:31-33). -/
def comovingEx : (m : ℕ) → Option (Ex (3 + m))
  | 3 => some (Ex.comoving (.var 0) (.var 1) (.var 2) (Ex.params3 (.sub (.var 3) (.const 1)) (.sub (.var 4) (.const 1)) (.sub (.var 5) (.const 1)) (.var 1) (.var 2)))
  | 4 => some (Ex.comoving (.var 0) (.var 1) (.var 2)
      (Ex.params4 (.sub (.var 6) (.const 1)) (.sub (.var 5) (.const 1)) (.sub (.var 4) (.const 1)) (.sub (.var 3) (.const 1)) (.var 1) (.var 2)))
  | _ => none

/-- `lookback_time_dimless` of the driver with three roots (analytic.py:115-122, 143); the tensor 1 is not used. -/
def lookbackEx (tol : ℝ) : (m : ℕ) → Option (Ex (3 + m))
  | 3 => some (Ex.lookback3 tol (.var 0) (.sub (.var 3) (.const 1)) (.sub (.var 4) (.const 1)) (.sub (.var 5) (.const 1)) (.var 2))
  | _ => none

/-- `absorption_distance_dimless` of the driver with three roots (analytic.py:124-140, 144); the tensor 1 is not used. -/
noncomputable def absorptionEx (tol : ℝ) : (m : ℕ) → Option (Ex (3 + m))
  | 3 => some (Ex.absorption3 tol (.var 0) (.sub (.var 3) (.const 1)) (.sub (.var 4) (.const 1)) (.sub (.var 5) (.const 1)) (.const 0) (.var 2))
  | _ => none

/-- The input tensors. -/
noncomputable def inputs {m : ℕ} (L z1 z2 : ℝ) (rts : Fin m → ℂ) : Fin (3 + m) → ℂ := Fin.append ![(L : ℂ), (z1 : ℂ), (z2 : ℂ)] rts

/-- The gradients of the attributes and redshifts. -/
structure DistGrad where
  Om0 : ℝ
  Or0 : ℝ
  Ode0 : ℝ
  z1 : ℝ
  z2 : ℝ

/-- From the gradients `gL` of `_epoly_leading` and `gc` of the coefficients (_analytic_base.py:44-50, 56-60: leading `Om0`, coefficients
`Ok0, 0, Ode0`, or leading `Or0`, coefficients `Om0, Ok0, 0, Ode0`) to the leaves `Om0`, `Or0`, `Ode0`: `Ok0 = 1 - Om0 - Or0 - Ode0` with `Ode0`
a leaf, or, if flat, `Ok0 = 0.` and `Ode0 = 1 - Ok0 - Om0 - Or0` (decdm.py:25-31, 97-104, flat.py:15). -/
def leavesOf (rad flat : Bool) (gL : ℝ) (gc : List ℝ) (z : ℝ × ℝ) : DistGrad :=
  let m := if rad then gc.getD 0 0 else gL
  let r := if rad then gL else 0
  let k := if rad then gc.getD 1 0 else gc.getD 0 0
  let de := if rad then gc.getD 3 0 else gc.getD 2 0
  if flat then ⟨m - de, if rad then r - de else 0, 0, z.1, z.2⟩ else ⟨m - k, if rad then r - k else 0, de - k, z.1, z.2⟩

/-- Backpropagation through a method of the analytic drivers, given the roots: the operations `ex` of the method, `roots`, the conversion of its
coefficients to complex, the division by `_epoly_leading`. -/
noncomputable def methodBackwardAt (ex : (m : ℕ) → Option (Ex (3 + m))) (rts : List ℂ) (c : Cls) (o : Obj) (k d z1 z2 g : ℝ) : Except BErr DistGrad :=
  match ex rts.length with
  | none => .error .forward
  | some e =>
    let L := epolyLeading c o
    let G := e.back (inputs L z1 z2 rts.get) g
    match rootsBackward rts (List.ofFn fun i : Fin rts.length => G (Fin.natAdd 3 i)) with
    | .error e => .error e
    | .ok gc =>
      let gcs := coeffsBackward L (epolyCoeffs_ c o k d) (gc.map Complex.re)
      .ok (leavesOf c.rad c.flat ((G (Fin.castAdd _ 0)).re + gcs.2) gcs.1 ((G (Fin.castAdd _ 1)).re, (G (Fin.castAdd _ 2)).re))

/-- Backpropagation from the value of a method to the attributes and redshifts. -/
noncomputable def methodBackward (ex : (m : ℕ) → Option (Ex (3 + m))) (solve : List ℝ → List ℂ) (c : Cls) (o : Obj) (n : ℕ) (z1 z2 g : ℝ) :
    Except BErr DistGrad :=
  match ok0 c o n with
  | .error _ => .error .forward
  | .ok k => match ode0 c o n with
    | .error _ => .error .forward
    | .ok d => methodBackwardAt ex (solve (epolyCoeffs c o k d)) c o k d z1 z2 g

/-- Backpropagation from the comoving distance to the attributes and redshifts. -/
noncomputable def comovingBackward (solve : List ℝ → List ℂ) (c : Cls) (o : Obj) (n : ℕ) (z1 z2 g : ℝ) : Except BErr DistGrad :=
  methodBackward comovingEx solve c o n z1 z2 g

/-- Backpropagation from `lookback_time_dimless(z)`. -/
noncomputable def lookbackBackward (tol : ℝ) (solve : List ℝ → List ℂ) (c : Cls) (o : Obj) (n : ℕ) (z g : ℝ) : Except BErr DistGrad :=
  methodBackward (lookbackEx tol) solve c o n 0 z g

/-- Backpropagation from `absorption_distance_dimless(z)`. -/
noncomputable def absorptionBackward (tol : ℝ) (solve : List ℝ → List ℂ) (c : Cls) (o : Obj) (n : ℕ) (z g : ℝ) : Except BErr DistGrad :=
  methodBackward (absorptionEx tol) solve c o n 0 z g

/-- `comoving_distance_dimless_z1z2` of the analytic drivers. -/
noncomputable def comovingCall (solve : List ℝ → List ℂ) (c : Cls) (o : Obj) (n : ℕ) (z1 z2 : ℝ) : Except Cosmo.Err ℝ :=
  if c.rad then call4 solve c o n (fun L r1 r2 r3 r4 => comoving4 L r1 r2 r3 r4 z1 z2)
  else call3 solve c o n (fun L r1 r2 r3 => comoving3 L r1 r2 r3 z1 z2)

end Verif.Ellred
