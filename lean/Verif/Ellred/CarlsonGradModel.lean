import Verif.Ellred.Spec
import Verif.Carlson.GradModel

/-! # Model of the gradient formulas of `phytorch/special/ellipr.py` for complex arguments

`devil_may_care` is false, its default (function_context.py:20, 47).  The functions the formulas call are the integrals; arithmetic is exact; `tol` is the
threshold of `feq` (ellipr.py:12-13).  Powers are torch's complex powers (principal branch). -/

namespace Verif.Ellred

open Verif.Carlson ComplexConjugate

namespace CGrad

/-- `feq`, ellipr.py:12-13. -/
def feq (tol : ℝ) (a b : ℂ) : Prop := ‖a - b‖ < tol

open Classical in
/-- `torch.where`. -/
noncomputable def sel (c : Prop) (a b : ℂ) : ℂ := if c then a else b

/-- `Elliprc.grad_x`, ellipr.py:21-30. -/
noncomputable def rcGradX (tol : ℝ) (x y Rc : ℂ) : ℂ :=
  sel (feq tol x y) (-(1 / 6) * y ^ (-(3 / 2) : ℂ)) ((Rc - x ^ (-(1 / 2) : ℂ)) / (2 * (y - x)))

/-- `Elliprc.grad_y`, ellipr.py:32-41. -/
noncomputable def rcGradY (tol : ℝ) (x y Rc : ℂ) : ℂ :=
  sel (feq tol x y) (-(1 / 3) * y ^ (-(3 / 2) : ℂ)) ((Rc - x ^ (1 / 2 : ℂ) / y) / (2 * (x - y)))

/-- `Elliprd.grad_x`, ellipr.py:49-60. -/
noncomputable def rdGradX (tol : ℝ) (x y z : ℂ) : ℂ :=
  let general := (RDc y z x - RDc x y z) / (2 * (x - z))
  let case1 := -(3 / 10) * x ^ (-(5 / 2) : ℂ)
  let case2 := 3 / 16 * ((5 * x - 2 * y) * y ^ (1 / 2 : ℂ) / x ^ 2 - 3 * RCc y x) / (x - y) ^ 2
  sel (feq tol x z) (sel (feq tol x y) case1 case2) general

/-- `Elliprd.grad_y`, ellipr.py:62-64. -/
noncomputable def rdGradY (tol : ℝ) (x y z : ℂ) : ℂ := rdGradX tol y x z

/-- `Elliprd.grad_z`, ellipr.py:66-80. -/
noncomputable def rdGradZ (tol : ℝ) (x y z Rd : ℂ) : ℂ :=
  let rzx := 1 / (z - x)
  let rzy := 1 / (z - y)
  let srz := rzx + rzy
  let prz := rzx * rzy
  let general := 3 / 2 * prz * (RFc x y z - x ^ (1 / 2 : ℂ) * y ^ (1 / 2 : ℂ) * z ^ (-(3 / 2) : ℂ)) - srz * Rd
  let case1 := -(9 / 10) * z ^ (-(5 / 2) : ℂ)
  let case2 := -(9 / 16) * ((2 * y - 5 * z) * y ^ (1 / 2 : ℂ) / z ^ 2 + 3 * RCc y z) * rzy ^ 2
  let case3 := -(9 / 16) * ((2 * x - 5 * z) * x ^ (1 / 2 : ℂ) / z ^ 2 + 3 * RCc x z) * rzx ^ 2
  sel (feq tol x z) (sel (feq tol y z) case1 case2) (sel (feq tol y z) case3 general)

/-- `Elliprj.grad_x`, ellipr.py:126-145. -/
noncomputable def rjGradX (tol : ℝ) (x y z p Rj : ℂ) : ℂ :=
  let Rd := RDc y z x
  let general := (Rj - Rd) / (2 * (p - x))
  let x2 := x ^ 2
  let c316 := 3 / 16 / x2
  let c3x2 := 3 * x2
  let rxy := 1 / (x - y)
  let rxz := 1 / (x - z)
  let case1 := -(3 / 10) * x ^ (-(5 / 2) : ℂ)
  let case2 := c316 * ((5 * x - 2 * z) * z ^ (1 / 2 : ℂ) - c3x2 * RCc z x) * rxz ^ 2
  let case3 := c316 * ((5 * x - 2 * y) * y ^ (1 / 2 : ℂ) - c3x2 * RCc y x) * rxy ^ 2
  let case4 := (RFc x y z + 2 / 3 * (y + z - 2 * x) * Rd - y ^ (1 / 2 : ℂ) * z ^ (1 / 2 : ℂ) * x ^ (-(3 / 2) : ℂ)) * (1 / 2) * rxy * rxz
  sel (feq tol x p) (sel (feq tol x y) (sel (feq tol x z) case1 case2) (sel (feq tol x z) case3 case4)) general

/-- `Elliprj.grad_y`, ellipr.py:147-149. -/
noncomputable def rjGradY (tol : ℝ) (x y z p Rj : ℂ) : ℂ := rjGradX tol y x z p Rj

/-- `Elliprj.grad_z`, ellipr.py:151-153. -/
noncomputable def rjGradZ (tol : ℝ) (x y z p Rj : ℂ) : ℂ := rjGradX tol z y x p Rj

open Classical in
/-- `Elliprj.grad_p`, ellipr.py:155-187. -/
noncomputable def rjGradP (tol : ℝ) (x y z p Rj : ℂ) : ℂ :=
  let sx := x ^ (1 / 2 : ℂ)
  let sy := y ^ (1 / 2 : ℂ)
  let sz := z ^ (1 / 2 : ℂ)
  let rpx := 1 / (p - x)
  let rpy := 1 / (p - y)
  let rpz := 1 / (p - z)
  let srp := rpx + rpy + rpz
  let prp := rpx * rpy * rpz
  let general := (3 * prp * (p * RFc x y z - 2 * RGc x y z + sx * sy * sz / p) - srp * Rj) / 2
  let pm32 := p ^ (-(3 / 2) : ℂ)
  let rp2 := p ^ (-2 : ℂ)
  let case1 := -(6 / 10) * p ^ (-(5 / 2) : ℂ)
  let case2 := -(375 / 1000) * ((2 * z - 5 * p) * sz * rp2 + 3 * RCc z p) * rpz ^ 2
  let case3 := -(375 / 1000) * ((2 * y - 5 * p) * sy * rp2 + 3 * RCc y p) * rpy ^ 2
  let case4 := -(375 / 1000) * ((2 * x - 5 * p) * sx * rp2 + 3 * RCc x p) * rpx ^ 2
  let case5 := (RFc y z p + 2 / 3 * (y + z - 2 * p) * RDc y z p - sy * sz * pm32) * rpy * rpz
  let case6 := (RFc x z p + 2 / 3 * (x + z - 2 * p) * RDc x z p - sx * sz * pm32) * rpx * rpz
  let case7 := (RFc x y p + 2 / 3 * (x + y - 2 * p) * RDc x y p - sx * sy * pm32) * rpx * rpy
  let pen := (if feq tol p x then 1 else 0) + (if feq tol p y then 1 else 0) + if feq tol p z then 1 else 0
  sel (pen ≥ 2) (sel (pen = 3) case1 (sel (feq tol p x) (sel (feq tol p y) case2 case3) case4))
    (sel (pen = 0) general (sel (feq tol p x) case5 (sel (feq tol p y) case6 case7)))

/-- `Elliprc.backward`: the saved output is the value; the gradients are conjugated and multiplied by the gradient `g` of the value
(function_context.py:56-75, 122-125). -/
noncomputable def rcBackward (tol : ℝ) (x y g : ℂ) : ℂ × ℂ :=
  let Rc := RCc x y
  (conj (rcGradX tol x y Rc) * g, conj (rcGradY tol x y Rc) * g)

/-- `Elliprd.backward`. -/
noncomputable def rdBackward (tol : ℝ) (x y z g : ℂ) : ℂ × ℂ × ℂ :=
  (conj (rdGradX tol x y z) * g, conj (rdGradY tol x y z) * g, conj (rdGradZ tol x y z (RDc x y z)) * g)

/-- `Elliprj.backward`. -/
noncomputable def rjBackward (tol : ℝ) (x y z p g : ℂ) : ℂ × ℂ × ℂ × ℂ :=
  let Rj := RJc x y z p
  (conj (rjGradX tol x y z p Rj) * g, conj (rjGradY tol x y z p Rj) * g, conj (rjGradZ tol x y z p Rj) * g, conj (rjGradP tol x y z p Rj) * g)

end CGrad

end Verif.Ellred
