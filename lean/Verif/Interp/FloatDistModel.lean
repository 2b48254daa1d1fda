import Verif.Interp.FloatModel
import Verif.Common.Near

/-! # Sampling from a distribution on a grid in floating point

The first coordinate that `NDIDistribution.icdf` computes (that of the last dimension) with the roundings that torch makes.
`fl` rounds to the data type of the tensors, `flA` to that in which `cumsum` accumulates (the same or a wider one).
Overflow and underflow are not represented (`Verif.Common.Round`). -/

namespace Verif.Interp

variable (fl flA : ℝ → ℝ)

/-- `mprob` (distributions/__init__.py:28-31) may be `m`: midpoints along a dimension, summed in any order over the dimensions before. -/
def FlMprob (F : List ℕ → ℝ) (pre : List ℕ) (n : ℕ) (post : List ℕ) (m : List ℝ) : Prop :=
  m.length = n - 1 ∧ ∀ j, j < n - 1 → FlFold (fun a b => fl (a + b)) 0
    ((indices pre).map fun i => fl (fl (F (i ++ j :: post) + F (i ++ (j + 1) :: post)) / 2)) (at' m j)

/-- `cumsum`, from the left; the accumulator is rounded by `flA`, each item stored by `fl`. -/
def flCumsumFrom (acc : ℝ) : List ℝ → List ℝ
  | [] => []
  | a :: l => fl (flA (acc + a)) :: flCumsumFrom (flA (acc + a)) l

/-- `torch.cat((zeros_like(norm), cprob / norm), i)` (distributions/__init__.py:25-32) along one dimension. -/
noncomputable def flCprobs (m : List ℝ) : List ℝ :=
  0 :: (flCumsumFrom fl flA 0 m).map fun c => fl (c / (flCumsumFrom fl flA 0 m).getLastD 0)

/-- `self.interp0(value[0])` (distributions/__init__.py:38, 55) may be `r`: the coordinate of the last dimension of a sample.
`self.interp0` interpolates the last grid as a function of its cumulative probabilities. -/
def FlIcdf0 (grids : List (List ℝ)) (F : List ℕ → ℝ) (u r : ℝ) : Prop :=
  match grids.reverse with
  | g :: rev => ∃ m, FlMprob fl F (rev.reverse.map List.length) g.length [] m ∧ r = flLinear1d fl (flCprobs fl flA m) g u
  | [] => False

/-! ### Specification -/

/-- `a` is `b` with at most `K` roundings to `p` bits. -/
def Near (p K : ℕ) (a b : ℝ) : Prop := ∃ t, Round.NearOne p K t ∧ a = b * t

end Verif.Interp
