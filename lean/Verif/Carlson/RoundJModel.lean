import Verif.Carlson.RoundDModel
import Mathlib.Analysis.SpecialFunctions.Artanh
import Mathlib.Analysis.SpecialFunctions.Trigonometric.Arctan

/-! # Floating-point model of `elliprj` and `ellippi` for real arguments

As in RoundModel.lean: `fl` is applied to the exact result of every operation, constants are rounded to double precision first (`flq`), and `K` is the value of
`pow(0.25 * eps * 2^10, -1/6)`. -/

namespace Verif.Carlson.Flt

/-- Loop variables of `elliprj`, elliprj.h:48-55. `bad` records a division of zero by zero in line 63. -/
structure RJState where
  x : ℝ
  y : ℝ
  z : ℝ
  p : ℝ
  A : ℝ
  pow4 : ℝ
  s : ℝ
  m : ℕ
  bad : Prop

/-- `dm`, elliprj.h:57-60. -/
noncomputable def dmF (fl : ℝ → ℝ) (x y z p : ℝ) : ℝ :=
  let sx := fl (√x)
  let sy := fl (√y)
  let sz := fl (√z)
  let sp := fl (√p)
  fl (fl (fl (sp + sx) * fl (sp + sy)) * fl (sp + sz))

/-- `em`, elliprj.h:61. -/
noncomputable def emF (fl : ℝ → ℝ) (delta dm : ℝ) (m : ℕ) : ℝ := fl (fl (delta * (1 / 4 ^ (3 * m))) / fl (dm * dm))

open Classical in
/-- `atan(sqrt(em)) / sqrt(em)`, elliprj.h:63. For negative `em` the square root is imaginary and `atan(i t) / (i t)` is `artanh(t) / t` (simplification: the
complex square root, arctangent and quotient are taken to round this real value in the same steps; `-em < 1` is not checked). -/
noncomputable def ratioF (fl : ℝ → ℝ) (em : ℝ) : ℝ :=
  if 0 ≤ em then fl (fl (Real.arctan (fl (√em))) / fl (√em)) else fl (fl (Real.artanh (fl (√(-em)))) / fl (√(-em)))

/-- Loop body of `elliprj`, elliprj.h:57-64. -/
noncomputable def jStepF (fl : ℝ → ℝ) (delta : ℝ) (st : RJState) : RJState :=
  let lm := lmF fl st.x st.y st.z
  let dm := dmF fl st.x st.y st.z st.p
  let em := emF fl delta dm st.m
  ⟨fl (fl (st.x + lm) / 4), fl (fl (st.y + lm) / 4), fl (fl (st.z + lm) / 4), fl (fl (st.p + lm) / 4), fl (fl (st.A + lm) / 4), st.pow4 / 4,
    fl (st.s + fl (fl (ratioF fl em * st.pow4) / dm)), st.m + 1, st.bad ∨ em = 0⟩

/-- `A0`, elliprj.h:46. -/
noncomputable def jA0F (fl : ℝ → ℝ) (x y z p : ℝ) : ℝ := fl (fl (fl (fl (fl (x + y) + z) + p) + p) / 5)

/-- `delta`, elliprj.h:49. -/
noncomputable def deltaF (fl : ℝ → ℝ) (x y z p : ℝ) : ℝ := fl (fl (fl (p - x) * fl (p - y)) * fl (p - z))

/-- `Q`, elliprj.h:50-51. -/
noncomputable def jQF (fl flq : ℝ → ℝ) (K A0 x y z p : ℝ) : ℝ :=
  flq (K * max (max (max |fl (A0 - x)| |fl (A0 - y)|) |fl (A0 - z)|) |fl (A0 - p)|)

/-- The polynomial of elliprj.h:67-81 in terms of `X`, `Y` and `Z`, in the order of evaluation of the code. -/
noncomputable def jPolyF (fl flq : ℝ → ℝ) (X Y Z : ℝ) : ℝ :=
  let c := fun r : ℝ => fl (flq r)
  let P := fl (fl (fl (-X - Y) - Z) / 2)
  let E2 := fl (fl (fl (fl (X * Y) + fl (X * Z)) + fl (Y * Z)) - fl (fl (3 * P) * P))
  let E3 := fl (fl (fl (fl (X * Y) * Z) + fl (fl (2 * E2) * P)) + fl (fl (fl (4 * P) * P) * P))
  let E4 := fl (fl (fl (fl (fl (fl (2 * X) * Y) * Z) + fl (E2 * P)) + fl (fl (fl (3 * P) * P) * P)) * P)
  let E5 := fl (fl (fl (fl (X * Y) * Z) * P) * P)
  fl (fl (fl (fl (fl (fl (1 - fl (E2 * c (3 / 14))) + fl (E3 / 6)) + fl (fl (E2 * E2) * c (9 / 88))) - fl (E4 * c (3 / 22))) -
    fl (fl (E2 * E3) * c (9 / 52))) + fl (E5 * c (3 / 26)))

/-- What a call of `elliprj` or `ellippi` gives for finite real arguments. -/
inductive ResJ where
  /-- a number -/
  | num (v : ℝ)
  /-- `+inf` -/
  | inf
  /-- not a number -/
  | nan
  /-- the loop does not end -/
  | diverge

open Classical in
/-- elliprj.h:46-87. -/
noncomputable def elliprjCoreF (fl flq : ℝ → ℝ) (K x y z p : ℝ) : ResJ :=
  let A0 := jA0F fl x y z p
  match loopWhile (fun s : RJState => s.pow4 * jQF fl flq K A0 x y z p ≥ |s.A|) (jStepF fl (deltaF fl x y z p)) ⟨x, y, z, p, A0, 1, 0, 0, False⟩ with
  | none => .diverge
  | some st =>
    if st.bad then .nan
    else
      let t := fl (st.pow4 / st.A)
      .num (fl (fl (6 * st.s) + fl (fl (fl (st.pow4 / st.A) / fl (√st.A)) *
        jPolyF fl flq (fl (fl (A0 - x) * t)) (fl (fl (A0 - y) * t)) (fl (fl (A0 - z) * t)))))

open Classical in
/-- `elliprj`, elliprj.h:6-87, for `x, y, z, p ≥ 0`. -/
noncomputable def elliprjF (fl flq : ℝ → ℝ) (K x y z p : ℝ) : ResJ :=
  if p = 0 ∨ (x = 0 ∧ y = 0) ∨ (x = 0 ∧ z = 0) ∨ (y = 0 ∧ z = 0) then .inf else elliprjCoreF fl flq K x y z p

open Classical in
/-- `ellippi`, ellip.h:25-28, for finite `n`, `m` at most 1. `K` and `KJ` are the constants of `elliprf` and `elliprj`. A result of `elliprf` or `elliprj` that is
not a number is passed on (simplification: sums of infinities are not looked into). -/
noncomputable def ellippiF (fl flq : ℝ → ℝ) (K KJ n m : ℝ) : ResJ :=
  match ellipkF fl flq K m with
  | .inf => .inf
  | .diverge => .diverge
  | .num k =>
    if n = 0 then .num k
    else match elliprjF fl flq KJ 0 (fl (1 - m)) 1 (fl (1 - n)) with
      | .num rj => .num (fl (k + fl (fl (n / 3) * rj)))
      | r => r

end Verif.Carlson.Flt
