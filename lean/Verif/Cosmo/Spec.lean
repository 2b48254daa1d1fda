import Verif.Cosmo.Model
import Mathlib.Analysis.Calculus.Deriv.Basic

/-! # Specification vocabulary for cosmologies -/

namespace Verif.Cosmo

/-- FlatLambdaCDM or FlatLambdaCDMR. -/
abbrev FlatLambda (c : Cls) : Prop := c.flat = true ∧ c.de = .lambda

/-- `Ode0` can be read. -/
abbrev Settled (c : Cls) (o : Obj) : Prop := c.flat = true ∨ o.ode.isSome = true

/-- The history of an object: construction with some keyword arguments, then assignments. -/
def Reachable (p : Phys) (c : Cls) (o : Obj) : Prop :=
  ∃ h100 kw hist o₀, construct p c h100 kw = .ok o₀ ∧ o = setParams p c o₀ hist

/-- The transverse comoving distance of textbooks, by the sign of the curvature density. -/
noncomputable def transverse (k d : ℝ) : ℝ :=
  if 0 < k then Real.sinh (√k * d) / √k else if k < 0 then Real.sin (√(-k) * d) / √(-k) else d

/-- The law a dark-energy density with equation of state `w` obeys, as a function of `1 + z`:
`d ln ρ / d ln(1+z) = 3 (1 + w)`, normalised to 1 at the present. -/
def ContinuityEquation (scale w : ℝ → ℝ) : Prop :=
  scale 1 = 1 ∧ ∀ x, 0 < x → HasDerivAt scale (3 * (1 + w x) / x * scale x) x

end Verif.Cosmo
