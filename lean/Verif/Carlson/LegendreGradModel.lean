import Verif.Carlson.GradModel

/-! # Model of the gradient formulas of `phytorch/special/ellip.py`

Real arguments; as in `GradModel`, the functions a formula calls are passed as their values (`F`, `E`, `K`, `D`, `P`), `where` is
`sel`. `c = csc² φ`; `none` is the infinity of `φ = 0`. -/

namespace Verif.Carlson.Grad

/-- `CosecantSquared.grad_phi`, ellip.py:18-20. -/
noncomputable def csc2Grad (φ csc2 : ℝ) : ℝ := -2 * csc2 / Real.tan φ

/-- `EllipK.grad_m`, ellip.py:27-30; `E` is `ellipe(m)`. -/
noncomputable def kGradM (m K E : ℝ) : ℝ :=
  let mm := 1 - m
  sel (m ≠ 0) ((E - mm * K) / (2 * m * mm)) (Real.pi / 8)

/-- `EllipE.grad_m`, ellip.py:37-39; `K` is `ellipk(m)`. -/
noncomputable def eGradM (m E K : ℝ) : ℝ := sel (m ≠ 0) ((E - K) / (2 * m)) (-Real.pi / 8)

/-- `EllipD.grad_m`, ellip.py:46-48. -/
noncomputable def dGradM (m D K : ℝ) : ℝ := sel (m ≠ 0) (((m - 2) * D + K) / (2 * m * (1 - m))) (3 * Real.pi / 32)

/-- `EllipPi.grad_n`, ellip.py:55-58. -/
noncomputable def piGradN (n m P E K : ℝ) : ℝ :=
  let mn := m - n
  (E + mn / n * K + (n - m / n) * P) / (2 * mn * (n - 1))

/-- `EllipPi.grad_m`, ellip.py:60-62. -/
noncomputable def piGradM (n m P E : ℝ) : ℝ := (E / (m - 1) + P) / (2 * (n - m))

/-- `BaseEllipinc.grad_c`, ellip.py:78-81, given the value of `_grad_phi`. -/
noncomputable def gradC (gradPhi c : ℝ) : ℝ := gradPhi / (-2 * c * (c - 1) ^ (1 / 2 : ℝ))

/-- `BaseEllipinc._grad_at_phi_zero`, ellip.py:83-85. -/
noncomputable def atPhiZero (c : Option ℝ) (val : ℝ → ℝ) : ℝ :=
  match c with
  | some c => val c
  | none => 0

/-- `EllipKinc._grad_phi`, ellip.py:96-98. -/
noncomputable def kincGradPhi (c m : ℝ) : ℝ := (1 - m / c) ^ (-(1 / 2) : ℝ)

/-- `EllipKinc.grad_m`, ellip.py:100-107; `E` is `ellipeinc(None, m, c)`. -/
noncomputable def kincGradM (c : Option ℝ) (m F E : ℝ) : ℝ :=
  let mm := 1 - m
  atPhiZero c fun c => sel (m ≠ 0)
    (((E - mm * F) / m - ((c - 1) / (c - m) / c) ^ (1 / 2 : ℝ)) / (2 * mm))
    ((Real.arcsin (1 / c ^ (1 / 2 : ℝ)) - (c - 1) ^ (1 / 2 : ℝ) / c) / 4)

/-- `EllipEinc._grad_phi`, ellip.py:114-116. -/
noncomputable def eincGradPhi (c m : ℝ) : ℝ := (1 - m / c) ^ (1 / 2 : ℝ)

/-- `EllipEinc.grad_m`, ellip.py:118-124. -/
noncomputable def eincGradM (c : Option ℝ) (m E F : ℝ) : ℝ :=
  atPhiZero c fun c => sel (m ≠ 0) ((E - F) / m / 2)
    (((c - 1) ^ (1 / 2 : ℝ) / c - Real.arcsin (1 / c ^ (1 / 2 : ℝ))) / 4)

/-- `EllipDinc._grad_phi`, ellip.py:131-133. -/
noncomputable def dincGradPhi (c m : ℝ) : ℝ := (1 - m / c) ^ (-(1 / 2) : ℝ) / c

/-- `EllipDinc.grad_m`, ellip.py:135-141. -/
noncomputable def dincGradM (c : Option ℝ) (m D F : ℝ) : ℝ :=
  atPhiZero c fun c => sel (m ≠ 0)
    ((((m - 2) * D + F) - ((c - 1) / (c - m) / c) ^ (1 / 2 : ℝ)) / (2 * m * (1 - m)))
    ((3 * Real.arcsin (1 / c ^ (1 / 2 : ℝ)) - (2 + 3 * c) * (c - 1) ^ (1 / 2 : ℝ) / c ^ 2) / 16)

/-- `EllipPiinc._grad_phi`, ellip.py:148-150. -/
noncomputable def piincGradPhi (n c m : ℝ) : ℝ := (1 - m / c) ^ (-(1 / 2) : ℝ) / (1 - n / c)

/-- `EllipPiinc.grad_n`, ellip.py:152-158. -/
noncomputable def piincGradN (n : ℝ) (c : Option ℝ) (m P E F : ℝ) : ℝ :=
  let mn := m - n
  atPhiZero c fun c => (E + mn / n * F + (n - m / n) * P
    - n * ((c - 1) * (c - m) / (c - n) ^ 2 / c) ^ (1 / 2 : ℝ)) / (2 * mn * (n - 1))

/-- `EllipPiinc.grad_m`, ellip.py:160-166. -/
noncomputable def piincGradM (n : ℝ) (c : Option ℝ) (m P E : ℝ) : ℝ :=
  let m1 := m - 1
  atPhiZero c fun c => (E + m1 * P - m * ((c - 1) / (c - m) / c) ^ (1 / 2 : ℝ)) / (2 * (n - m) * m1)

end Verif.Carlson.Grad
