import Verif.Carlson.Model

/-! # Floating-point model of `elliprf` and `elliprc` for real arguments

`fl` is the rounding of `scalar_t`, applied to the exact result of every operation; the imaginary parts of the complex numbers of the code are then 0
(simplification: complex products, quotients and square roots are taken to round the real result correctly). `flq` is the rounding of double
precision, in which constants and the product that gives `Q` are computed for both scalar types, and `K` the value of `pow(3 EPS, -1/6)`. No overflow, no underflow. -/

namespace Verif.Carlson.Flt

/-- Loop variables, elliptic.h:14-17, over the reals. -/
structure RState where
  x : ℝ
  y : ℝ
  z : ℝ
  A : ℝ
  pow4 : ℝ

/-- `lm`, elliptic.h:21-22. -/
noncomputable def lmF (fl : ℝ → ℝ) (x y z : ℝ) : ℝ :=
  let xs := fl (√x)
  let ys := fl (√y)
  let zs := fl (√z)
  fl (fl (fl (xs * ys) + fl (xs * zs)) + fl (ys * zs))

/-- Loop body of `elliprf`: elliptic.h:20-28 with `zm1 = zm + lm` (elliprf.h:16-17). -/
noncomputable def fStepF (fl : ℝ → ℝ) (s : RState) : RState :=
  let lm := lmF fl s.x s.y s.z
  ⟨fl (fl (s.x + lm) / 4), fl (fl (s.y + lm) / 4), fl (fl (s.z + lm) / 4), fl (fl (s.A + lm) / 4), s.pow4 / 4⟩

/-- `A0`, elliprf.h:12. -/
noncomputable def fA0F (fl : ℝ → ℝ) (x y z : ℝ) : ℝ := fl (fl (fl (x + y) + z) / 3)

/-- `Q`, elliptic.h:15-16. -/
noncomputable def hQF (fl flq : ℝ → ℝ) (K A0 x y z : ℝ) : ℝ :=
  flq (K * max (max |fl (A0 - x)| |fl (A0 - y)|) |fl (A0 - z)|)

/-- The polynomial of elliprf.h:21-35 in terms of `X` and `Y`. -/
noncomputable def fPolyF (fl flq : ℝ → ℝ) (X Y : ℝ) : ℝ :=
  let Z := -fl (X + Y)
  let E2 := fl (fl (X * Y) - fl (Z * Z))
  let E3 := fl (fl (X * Y) * Z)
  fl (fl (fl (fl (1 - fl (E2 / 10)) + fl (fl (E2 * E2) / 24)) + fl (E3 / 14)) - fl (fl (E2 * E3) * fl (flq (3 / 44))))

/-- elliprf.h:12-35 for three different arguments. `none`: the loop does not end. -/
noncomputable def elliprfCoreF (fl flq : ℝ → ℝ) (K x y z : ℝ) : Option ℝ :=
  let A0 := fA0F fl x y z
  match loopWhile (fun s : RState => s.pow4 * hQF fl flq K A0 x y z > |s.A|) (fStepF fl) ⟨x, y, z, A0, 1⟩ with
  | none => none
  | some st =>
    let t := fl (st.pow4 / st.A)
    some (fl (fPolyF fl flq (fl (fl (A0 - x) * t)) (fl (fl (A0 - y) * t)) / fl (√st.A)))

/-- Loop variables of `elliprc`, elliprc.h:14-16, over the reals. -/
structure RCState where
  x : ℝ
  y : ℝ
  A : ℝ
  pow4 : ℝ

/-- Loop body, elliprc.h:19-21. -/
noncomputable def cStepF (fl : ℝ → ℝ) (s : RCState) : RCState :=
  let lm := fl (fl (fl (2 * fl (√s.x)) * fl (√s.y)) + s.y)
  ⟨fl (fl (s.x + lm) / 4), fl (fl (s.y + lm) / 4), fl (fl (s.A + lm) / 4), s.pow4 / 4⟩

/-- `A0`, elliprc.h:14. -/
noncomputable def cA0F (fl : ℝ → ℝ) (x y : ℝ) : ℝ := fl (fl (fl (x + y) + y) / 3)

/-- `Q`, elliprc.h:15. -/
noncomputable def cQF (fl flq : ℝ → ℝ) (K A0 x : ℝ) : ℝ := flq (K * |fl (A0 - x)|)

/-- The polynomial of elliprc.h:25-33. -/
noncomputable def cPolyF (fl flq : ℝ → ℝ) (s : ℝ) : ℝ :=
  let s2 := fl (s * s)
  let s3 := fl (s2 * s)
  let s4 := fl (s3 * s)
  let s5 := fl (s4 * s)
  let s6 := fl (s5 * s)
  let s7 := fl (s6 * s)
  fl (fl (fl (fl (fl (fl (1 + fl (s2 * fl (flq (3 / 10)))) + fl (s3 / 7)) + fl (s4 * fl (flq (3 / 8)))) + fl (s5 * fl (flq (9 / 22)))) +
    fl (s6 * fl (flq (159 / 208)))) + fl (s7 * fl (flq (9 / 8))))

/-- elliprc.h:14-33, after the special cases. -/
noncomputable def elliprcCoreF (fl flq : ℝ → ℝ) (K x y : ℝ) : Option ℝ :=
  let A0 := cA0F fl x y
  match loopWhile (fun s : RCState => s.pow4 * cQF fl flq K A0 x > |s.A|) (cStepF fl) ⟨x, y, A0, 1⟩ with
  | none => none
  | some st => some (fl (cPolyF fl flq (fl (fl (fl (y - A0) * st.pow4) / st.A)) / fl (√st.A)))

/-- What a call gives for finite real arguments. -/
inductive Res where
  /-- a number -/
  | num (v : ℝ)
  /-- `+inf` -/
  | inf
  /-- the loop does not end -/
  | diverge

/-- The result of a loop. -/
def Res.ofOption : Option ℝ → Res
  | none => .diverge
  | some v => .num v

open Classical in
/-- `elliprc`, elliprc.h:5-34, for `x ≥ 0`. The recursive call of line 12 goes straight to the loop (its arguments are positive). -/
noncomputable def elliprcF (fl flq : ℝ → ℝ) (K x y : ℝ) : Res :=
  if y = 0 then .inf
  else if x = 0 then .num (fl (fl (flq (Real.pi / 2)) / fl (√y)))
  else if y < 0 then
    .ofOption ((elliprcCoreF fl flq K (fl (x - y)) (-y)).map fun v => fl (fl (√(fl (x / fl (x - y)))) * v))
  else .ofOption (elliprcCoreF fl flq K x y)

open Classical in
/-- `elliprf`, elliprf.h:5-36, for non-negative arguments. -/
noncomputable def elliprfF (fl flq : ℝ → ℝ) (K x y z : ℝ) : Res :=
  if y = z then elliprcF fl flq K x y
  else if x = z then elliprcF fl flq K y x
  else if x = y then elliprcF fl flq K z x
  else .ofOption (elliprfCoreF fl flq K x y z)

/-- `ellipk`, ellip.h:11-13. -/
noncomputable def ellipkF (fl flq : ℝ → ℝ) (K m : ℝ) : Res := elliprfF fl flq K 0 (fl (1 - m)) 1

end Verif.Carlson.Flt
