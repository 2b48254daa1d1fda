import Mathlib.Analysis.SpecialFunctions.Complex.Arctan
import Mathlib.Analysis.SpecialFunctions.Pow.Real

/-! # Model of `phytorch-extensions/elliptic/*.h`: the Carlson and Legendre elliptic integrals

Exact complex arithmetic stands for `complex<float>` and `complex<double>`; arguments are finite (the `isnan` and `isinf`
tests of the sources are never taken). `eps` is `numeric_limits<scalar_t>::epsilon()`. `sqrt` and `atan` are the principal
branches. A division by zero makes the outcome `nan`; a loop that never stops makes it `diverge`. -/

namespace Verif.Carlson

/-- Outcome of a routine. -/
inductive Out where
  | val (v : ℂ)
  | inf
  | nan
  | diverge

namespace Out

/-- Arithmetic on outcomes: the first outcome that is not a number decides. (In C++ `inf` could combine with a number to
`inf` or `nan`; no theorem is about such a combination.) -/
def bind (o : Out) (f : ℂ → Out) : Out :=
  match o with
  | val v => f v
  | inf => inf
  | nan => nan
  | diverge => diverge

def map (f : ℂ → ℂ) (o : Out) : Out := o.bind fun v => .val (f v)

end Out

/-- C++ `sqrt` of a complex number: the principal branch. -/
noncomputable def csqrt (z : ℂ) : ℂ := z ^ (1 / 2 : ℂ)

open Classical in
/-- `while (cond) step`: the state at the first exit, if there is one. -/
noncomputable def loopWhile {σ : Type} (cond : σ → Prop) (step : σ → σ) (s : σ) : Option σ :=
  if h : ∃ n, ¬cond (step^[n] s) then some (step^[Nat.find h] s) else none

/-- `EPS`, elliptic.h:6. -/
noncomputable def EPS (eps : ℝ) : ℝ := eps * (1 / 1000000)

/-! ### elliprc -/

/-- Loop variables of `elliprc`, elliprc.h:14-16. -/
structure CState where
  x : ℂ
  y : ℂ
  A : ℂ
  pow4 : ℝ

/-- Loop body, elliprc.h:19-21. -/
noncomputable def cStep (s : CState) : CState :=
  let lm := 2 * csqrt s.x * csqrt s.y + s.y
  ⟨(s.x + lm) / 4, (s.y + lm) / 4, (s.A + lm) / 4, s.pow4 / 4⟩

/-- `A0`, elliprc.h:14. -/
noncomputable def cA0 (x y : ℂ) : ℂ := (x + y + y) / 3

/-- `Q`, elliprc.h:15. -/
noncomputable def cQ (eps : ℝ) (x y : ℂ) : ℝ := (3 * EPS eps) ^ (-(1 / 6) : ℝ) * ‖cA0 x y - x‖

/-- The polynomial of elliprc.h:25-33. -/
noncomputable def cPoly (s : ℂ) : ℂ :=
  1 + s * s * (3 / 10) + s * s * s / 7 + s * s * s * s * (3 / 8) + s * s * s * s * s * (9 / 22) +
    s * s * s * s * s * s * (159 / 208) + s * s * s * s * s * s * s * (9 / 8)

/-- elliprc.h:14-33, after the special cases. -/
noncomputable def elliprcCore (eps : ℝ) (x y : ℂ) : Out :=
  match loopWhile (fun s : CState => s.pow4 * cQ eps x y > ‖s.A‖) cStep ⟨x, y, cA0 x y, 1⟩ with
  | none => .diverge
  | some st => .val (cPoly ((y - cA0 x y) * st.pow4 / st.A) / csqrt st.A)

open Classical in
/-- `elliprc`, elliprc.h:5-34. The recursive call of line 12 has a second argument `-y > 0` and a first argument
`x - y`, which is not zero unless line 12 divides by zero, so it goes straight to the loop. -/
noncomputable def elliprc (eps : ℝ) (x y : ℂ) : Out :=
  if y = 0 then .inf
  else if x = 0 then .val ((Real.pi / 2 : ℝ) / csqrt y)
  else if y.im = 0 ∧ y.re < 0 then
    if x - y = 0 then .nan else (elliprcCore eps (x - y) (-y)).map fun v => csqrt (x / (x - y)) * v
  else elliprcCore eps x y

/-! ### elliprf -/

/-- Loop variables of `elliprf`, elliptic.h:14-17. -/
structure FState where
  x : ℂ
  y : ℂ
  z : ℂ
  A : ℂ
  pow4 : ℝ

/-- `lm`, elliptic.h:21-22. -/
noncomputable def lmOf (x y z : ℂ) : ℂ :=
  let xs := csqrt x
  let ys := csqrt y
  let zs := csqrt z
  xs * ys + xs * zs + ys * zs

/-- Loop body of `elliprf`: elliptic.h:20-28 with `zm1 = zm + lm` (elliprf.h:16-17). -/
noncomputable def fStep (s : FState) : FState :=
  let lm := lmOf s.x s.y s.z
  ⟨(s.x + lm) / 4, (s.y + lm) / 4, (s.z + lm) / 4, (s.A + lm) / 4, s.pow4 / 4⟩

/-- `Q`, elliptic.h:15-16. -/
noncomputable def hQ (eps rfactor : ℝ) (A0 x y z : ℂ) : ℝ :=
  (EPS eps * rfactor) ^ (-(1 / 6) : ℝ) * max (max ‖A0 - x‖ ‖A0 - y‖) ‖A0 - z‖

/-- `A0`, elliprf.h:12. -/
noncomputable def fA0 (x y z : ℂ) : ℂ := (x + y + z) / 3

/-- The polynomial of elliprf.h:21-35 in terms of `X` and `Y`. -/
noncomputable def fPoly (X Y : ℂ) : ℂ :=
  let Z := -(X + Y)
  let E2 := X * Y - Z * Z
  let E3 := X * Y * Z
  1 - E2 / 10 + E2 * E2 / 24 + E3 / 14 - E2 * E3 * (3 / 44)

/-- elliprf.h:12-35. -/
noncomputable def elliprfCore (eps : ℝ) (x y z : ℂ) : Out :=
  let A0 := fA0 x y z
  match loopWhile (fun s : FState => s.pow4 * hQ eps 3 A0 x y z > ‖s.A‖) fStep ⟨x, y, z, A0, 1⟩ with
  | none => .diverge
  | some st =>
    let t := st.pow4 / st.A
    .val (fPoly ((A0 - x) * t) ((A0 - y) * t) / csqrt st.A)

open Classical in
/-- `elliprf`, elliprf.h:5-36. -/
noncomputable def elliprf (eps : ℝ) (x y z : ℂ) : Out :=
  if y = z then elliprc eps x y
  else if x = z then elliprc eps y x
  else if x = y then elliprc eps z x
  else elliprfCore eps x y z

/-! ### elliprd -/

/-- Loop variables of `elliprd`: elliptic.h:14-17 and the sum `s` (elliprd.h:13). `bad` records a division by zero in
line 17, which makes the sum, and the result, a NaN. -/
structure DState where
  x : ℂ
  y : ℂ
  z : ℂ
  A : ℂ
  pow4 : ℝ
  s : ℂ
  bad : Prop

/-- Loop body of `elliprd`, elliprd.h:15-18. -/
noncomputable def dStep (st : DState) : DState :=
  let lm := lmOf st.x st.y st.z
  let zm1 := st.z + lm
  ⟨(st.x + lm) / 4, (st.y + lm) / 4, zm1 / 4, (st.A + lm) / 4, st.pow4 / 4,
    st.s + st.pow4 / csqrt st.z / zm1, st.bad ∨ csqrt st.z = 0 ∨ zm1 = 0⟩

/-- `A0`, elliprd.h:10. -/
noncomputable def dA0 (x y z : ℂ) : ℂ := (x + y + 3 * z) / 5

/-- The polynomial of elliprd.h:21-35 in terms of `X` and `Y`. -/
noncomputable def dPoly (X Y : ℂ) : ℂ :=
  let Z := -(X + Y) / 3
  let XY := X * Y
  let Z2 := Z * Z
  let XYZ := XY * Z
  let E2 := XY - 6 * Z2
  let E3 := 3 * XYZ - 8 * Z2 * Z
  let E4 := 3 * (XY - Z2) * Z2
  let E5 := XYZ * Z2
  1 - 3 / 14 * E2 + E3 / 6 + 9 / 88 * E2 * E2 - 3 / 22 * E4 - 9 / 52 * E2 * E3 + 3 / 26 * E5

open Classical in
/-- `not a` as a number, as it is summed in elliprd.h:8, elliprg.h:9 and elliprj.h:9. -/
noncomputable def isZero (a : ℂ) : ℕ := if a = 0 then 1 else 0

open Classical in
/-- `elliprd`, elliprd.h:6-36. -/
noncomputable def elliprd (eps : ℝ) (x y z : ℂ) : Out :=
  if z = 0 ∨ isZero x + isZero y + isZero z > 1 then .inf
  else
    let A0 := dA0 x y z
    match loopWhile (fun s : DState => s.pow4 * hQ eps (1 / 4) A0 x y z > ‖s.A‖) dStep ⟨x, y, z, A0, 1, 0, False⟩ with
    | none => .diverge
    | some st =>
      if st.bad then .nan
      else
        let t := st.pow4 / st.A
        .val (3 * st.s + st.pow4 / st.A / csqrt st.A * dPoly ((A0 - x) * t) ((A0 - y) * t))

/-! ### elliprg -/

/-- `are_equal_negative`, elliprg.h:6. -/
def areEqualNegative (a b : ℂ) : Prop := (a.im = 0 ∧ a.re < 0) ∧ (b.im = 0 ∧ b.re < 0) ∧ a.re = b.re

open Classical in
/-- elliprg.h:22-27, after the switch. -/
noncomputable def elliprgMain (eps : ℝ) (x y z : ℂ) : Out :=
  if areEqualNegative x y ∨ areEqualNegative x z ∨ areEqualNegative y z then .nan
  else (elliprf eps x y z).bind fun rf => (elliprd eps x y z).map fun rd =>
    (z * rf - (x - z) * (y - z) * rd / 3 + csqrt x * csqrt y / csqrt z) / 2

open Classical in
/-- `elliprg`, elliprg.h:8-28. -/
noncomputable def elliprg (eps : ℝ) (x y z : ℂ) : Out :=
  if isZero x + isZero y + isZero z = 3 then .val 0
  else if isZero x + isZero y + isZero z = 2 then
    if x ≠ 0 then .val (csqrt x / 2) else if y ≠ 0 then .val (csqrt y / 2) else .val (csqrt z / 2)
  else if isZero x + isZero y + isZero z = 1 ∧ z = 0 then elliprgMain eps z y x
  else elliprgMain eps x y z

/-! ### elliprj -/

/-- Loop variables of `elliprj`, elliprj.h:48-55. `bad` records a division by zero in lines 61-63. -/
structure JState where
  x : ℂ
  y : ℂ
  z : ℂ
  p : ℂ
  A : ℂ
  pow4 : ℝ
  s : ℂ
  m : ℕ
  bad : Prop

/-- `dm`, elliprj.h:60. -/
noncomputable def dmOf (x y z p : ℂ) : ℂ := (csqrt p + csqrt x) * (csqrt p + csqrt y) * (csqrt p + csqrt z)

/-- Loop body of `elliprj`, elliprj.h:57-64. -/
noncomputable def jStep (delta : ℂ) (st : JState) : JState :=
  let lm := lmOf st.x st.y st.z
  let dm := dmOf st.x st.y st.z st.p
  let em := delta * (1 / 4 ^ (3 * st.m)) / (dm * dm)
  ⟨(st.x + lm) / 4, (st.y + lm) / 4, (st.z + lm) / 4, (st.p + lm) / 4, (st.A + lm) / 4, st.pow4 / 4,
    st.s + Complex.arctan (csqrt em) / csqrt em * st.pow4 / dm, st.m + 1, st.bad ∨ dm = 0 ∨ csqrt em = 0⟩

/-- `A0`, elliprj.h:46. -/
noncomputable def jA0 (x y z p : ℂ) : ℂ := (x + y + z + p + p) / 5

/-- `Q`, elliprj.h:50-51. -/
noncomputable def jQ (eps : ℝ) (x y z p : ℂ) : ℝ :=
  let A0 := jA0 x y z p
  (1 / 4 * eps * 2 ^ 10) ^ (-(1 / 6) : ℝ) * max (max (max ‖A0 - x‖ ‖A0 - y‖) ‖A0 - z‖) ‖A0 - p‖

/-- The polynomial of elliprj.h:67-81 in terms of `X`, `Y` and `Z`. -/
noncomputable def jPoly (X Y Z : ℂ) : ℂ :=
  let P := (-X - Y - Z) / 2
  let E2 := X * Y + X * Z + Y * Z - 3 * P * P
  let E3 := X * Y * Z + 2 * E2 * P + 4 * P * P * P
  let E4 := (2 * X * Y * Z + E2 * P + 3 * P * P * P) * P
  let E5 := X * Y * Z * P * P
  1 - E2 * (3 / 14) + E3 / 6 + E2 * E2 * (9 / 88) - E4 * (3 / 22) - E2 * E3 * (9 / 52) + E5 * (3 / 26)

open Classical in
/-- `elliprj`, elliprj.h:6-87. The warning printed in lines 12-33 does not affect the result. -/
noncomputable def elliprj (eps : ℝ) (x y z p : ℂ) : Out :=
  if p = 0 ∨ isZero x + isZero y + isZero z > 1 then .inf
  else
    let A0 := jA0 x y z p
    match loopWhile (fun s : JState => s.pow4 * jQ eps x y z p ≥ ‖s.A‖) (jStep ((p - x) * (p - y) * (p - z)))
        ⟨x, y, z, p, A0, 1, 0, 0, False⟩ with
    | none => .diverge
    | some st =>
      if st.bad then .nan
      else
        let t := st.pow4 / st.A
        .val (6 * st.s + st.pow4 / st.A / csqrt st.A * jPoly ((A0 - x) * t) ((A0 - y) * t) ((A0 - z) * t))

/-! ### Legendre forms -/

/-- `ellipk`, ellip.h:11-13. -/
noncomputable def ellipk (eps : ℝ) (m : ℂ) : Out := elliprf eps 0 (1 - m) 1

/-- `ellipe`, ellip.h:15-19, finite `m`. -/
noncomputable def ellipe (eps : ℝ) (m : ℂ) : Out := (elliprg eps 0 (1 - m) 1).map fun v => 2 * v

/-- `ellipd`, ellip.h:21-23. -/
noncomputable def ellipd (eps : ℝ) (m : ℂ) : Out := (elliprd eps 0 (1 - m) 1).map fun v => v / 3

open Classical in
/-- `ellippi`, ellip.h:25-28. -/
noncomputable def ellippi (eps : ℝ) (n m : ℂ) : Out :=
  if n = 0 then ellipk eps m
  else (ellipk eps m).bind fun k => (elliprj eps 0 (1 - m) 1 (1 - n)).map fun rj => k + n / 3 * rj

/-- `ellipkinc_`, ellip.h:30-32. -/
noncomputable def ellipkinc_ (eps : ℝ) (c m : ℂ) : Out := elliprf eps (c - 1) (c - m) c

/-- `ellipdinc_`, ellip.h:39-41. -/
noncomputable def ellipdinc_ (eps : ℝ) (c m : ℂ) : Out := (elliprd eps (c - 1) (c - m) c).map fun v => v / 3

open Classical in
/-- `ellipeinc_`, ellip.h:34-37. -/
noncomputable def ellipeinc_ (eps : ℝ) (c m : ℂ) : Out :=
  if c = 1 ∧ m = 1 then .val 1
  else (elliprf eps (c - 1) (c - m) c).bind fun f => (ellipdinc_ eps c m).map fun d => f - m * d

open Classical in
/-- `ellippiinc_`, ellip.h:43-46. -/
noncomputable def ellippiinc_ (eps : ℝ) (n c m : ℂ) : Out :=
  if n = 0 then ellipkinc_ eps c m
  else (ellipkinc_ eps c m).bind fun k => (elliprj eps (c - 1) (c - m) c (c - n)).map fun rj => k + n / 3 * rj

open Classical in
/-- `csc2`, ellip.h:6-9; `none` is the infinity of `sin phi = 0`. -/
noncomputable def csc2 (phi : ℂ) : Option ℂ := if Complex.sin phi = 0 then none else some (1 / Complex.sin phi ^ 2)

/-- Value of a `*inc_` function at `c = inf`: `elliprf`, `elliprd` and `elliprj` return 0 for an infinite argument
(elliptic.h:10, elliprj.h:8). -/
noncomputable def ofCsc2 (f : ℂ → Out) (phi : ℂ) : Out :=
  match csc2 phi with
  | none => .val 0
  | some c => f c

/-- `ellipkinc`, ellip.h:48-50. -/
noncomputable def ellipkinc (eps : ℝ) (phi m : ℂ) : Out := ofCsc2 (fun c => ellipkinc_ eps c m) phi
/-- `ellipeinc`, ellip.h:52-54. -/
noncomputable def ellipeinc (eps : ℝ) (phi m : ℂ) : Out := ofCsc2 (fun c => ellipeinc_ eps c m) phi
/-- `ellipdinc`, ellip.h:56-58. -/
noncomputable def ellipdinc (eps : ℝ) (phi m : ℂ) : Out := ofCsc2 (fun c => ellipdinc_ eps c m) phi
/-- `ellippiinc`, ellip.h:60-62. -/
noncomputable def ellippiinc (eps : ℝ) (n phi m : ℂ) : Out := ofCsc2 (fun c => ellippiinc_ eps n c m) phi

end Verif.Carlson
