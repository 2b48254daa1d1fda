import Verif.Carlson.RoundModel

/-! # Floating-point model of `elliprd`, `elliprg`, `ellipd` and `ellipe` for real arguments

As in RoundModel.lean: `fl` is applied to the exact result of every operation, constants are rounded to double precision first (`flq`), and `K` is the value of
`pow(EPS / 4, -1/6)` (of `pow(3 EPS, -1/6)` in `elliprf`). -/

namespace Verif.Carlson.Flt

/-- Loop variables of `elliprd`: elliptic.h:14-17 and the sum `s` (elliprd.h:13). -/
structure RDState where
  x : ℝ
  y : ℝ
  z : ℝ
  A : ℝ
  pow4 : ℝ
  s : ℝ

/-- Loop body of `elliprd`, elliprd.h:15-18 with elliptic.h:20-28. -/
noncomputable def dStepF (fl : ℝ → ℝ) (st : RDState) : RDState :=
  let lm := lmF fl st.x st.y st.z
  let zm1 := fl (st.z + lm)
  ⟨fl (fl (st.x + lm) / 4), fl (fl (st.y + lm) / 4), fl (zm1 / 4), fl (fl (st.A + lm) / 4), st.pow4 / 4,
    fl (st.s + fl (fl (st.pow4 / fl (√st.z)) / zm1))⟩

/-- `A0`, elliprd.h:10. -/
noncomputable def dA0F (fl : ℝ → ℝ) (x y z : ℝ) : ℝ := fl (fl (fl (x + y) + fl (3 * z)) / 5)

/-- The polynomial of elliprd.h:21-35 in terms of `X` and `Y`, in the order of evaluation of the code. -/
noncomputable def dPolyF (fl flq : ℝ → ℝ) (X Y : ℝ) : ℝ :=
  let c := fun r : ℝ => fl (flq r)
  let Z := fl (-fl (X + Y) / 3)
  let XY := fl (X * Y)
  let Z2 := fl (Z * Z)
  let XYZ := fl (XY * Z)
  let E2 := fl (XY - fl (6 * Z2))
  let E3 := fl (fl (3 * XYZ) - fl (fl (8 * Z2) * Z))
  let E4 := fl (fl (3 * fl (XY - Z2)) * Z2)
  let E5 := fl (XYZ * Z2)
  fl (fl (fl (fl (fl (fl (1 - fl (c (3 / 14) * E2)) + fl (E3 / 6)) + fl (fl (c (9 / 88) * E2) * E2)) - fl (c (3 / 22) * E4)) -
    fl (fl (c (9 / 52) * E2) * E3)) + fl (c (3 / 26) * E5))

/-- elliprd.h:10-35. `none`: the loop does not end. -/
noncomputable def elliprdCoreF (fl flq : ℝ → ℝ) (K x y z : ℝ) : Option ℝ :=
  let A0 := dA0F fl x y z
  match loopWhile (fun s : RDState => s.pow4 * hQF fl flq K A0 x y z > |s.A|) (dStepF fl) ⟨x, y, z, A0, 1, 0⟩ with
  | none => none
  | some st =>
    let t := fl (st.pow4 / st.A)
    some (fl (fl (3 * st.s) + fl (fl (fl (st.pow4 / st.A) / fl (√st.A)) * dPolyF fl flq (fl (fl (A0 - x) * t)) (fl (fl (A0 - y) * t)))))

open Classical in
/-- `elliprd`, elliprd.h:6-36, for non-negative arguments. -/
noncomputable def elliprdF (fl flq : ℝ → ℝ) (K x y z : ℝ) : Res :=
  if z = 0 ∨ (x = 0 ∧ y = 0) then .inf else .ofOption (elliprdCoreF fl flq K x y z)

/-- Applying an operation to a result. -/
def Res.map (f : ℝ → ℝ) : Res → Res
  | .num v => .num (f v)
  | .inf => .inf
  | .diverge => .diverge

/-- `ellipd`, ellip.h:21-23. -/
noncomputable def ellipdF (fl flq : ℝ → ℝ) (K m : ℝ) : Res := (elliprdF fl flq K 0 (fl (1 - m)) 1).map fun v => fl (v / 3)

/-- elliprg.h:25-27, `rf` and `rd` being the results of `elliprf` and `elliprd`. -/
noncomputable def gSumF (fl : ℝ → ℝ) (x y z rf rd : ℝ) : ℝ :=
  fl (fl (fl (fl (z * rf) - fl (fl (fl (fl (x - z) * fl (y - z)) * rd) / 3)) + fl (fl (fl (√x) * fl (√y)) / fl (√z))) / 2)

/-- elliprg.h:22-27, after the switch, for non-negative arguments (the test for equal negative arguments fails). The results of `elliprf` and `elliprd` are combined;
an infinite one, or a loop that does not end, is passed on (simplification: `inf` stands for whatever non-finite result the code gives then). -/
noncomputable def elliprgMainF (fl flq : ℝ → ℝ) (K KD x y z : ℝ) : Res :=
  match elliprfF fl flq K x y z with
  | .inf => .inf
  | .diverge => .diverge
  | .num rf => (elliprdF fl flq KD x y z).map fun rd => gSumF fl x y z rf rd

open Classical in
/-- `elliprg`, elliprg.h:8-28, for non-negative arguments: three zeros, two zeros, the swap of `x` and `z`. -/
noncomputable def elliprgF (fl flq : ℝ → ℝ) (K KD x y z : ℝ) : Res :=
  if x = 0 ∧ y = 0 ∧ z = 0 then .num 0
  else if y = 0 ∧ z = 0 then .num (fl (fl (√x) / 2))
  else if x = 0 ∧ z = 0 then .num (fl (fl (√y) / 2))
  else if x = 0 ∧ y = 0 then .num (fl (fl (√z) / 2))
  else if z = 0 then elliprgMainF fl flq K KD z y x
  else elliprgMainF fl flq K KD x y z

/-- `ellipe`, ellip.h:15-19, for finite `m`. -/
noncomputable def ellipeF (fl flq : ℝ → ℝ) (K KD m : ℝ) : Res := (elliprgF fl flq K KD 0 (fl (1 - m)) 1).map fun v => fl (2 * v)

end Verif.Carlson.Flt
