import Verif.Cosmo.Model
import Verif.Common.PyDict
import Mathlib.Analysis.Calculus.Deriv.Basic
import Mathlib.Analysis.Calculus.Deriv.Pi

/-! # Model of `phytorch/cosmology/drivers/odeint.py`

Real numbers are exact, dtypes and devices are not modelled. A cosmology whose parameters are tensors is the list of its
elements: one `Obj` per element of the broadcast shape of the parameters, in row-major order. The solver
(`torchdiffeq.odeint_adjoint`) is a parameter, specified by `Solver`. -/

namespace Verif.Cosmo.Odeint

open Set

/-- Exceptions: those of the cosmology, and `AssertionError`. -/
inductive OErr | cosmo (e : Err) | assertion

/-- A tensor: shape and row-major data. -/
structure Tensor where
  shape : List ℕ
  data : List ℝ

/-- `torch.tensor(z)` of a number (odeint.py:37-41). -/
def scalar (z : ℝ) : Tensor := ⟨[], [z]⟩

/-- `torchdiffeq.odeint_adjoint(func, y0, t)`: it asserts that `t` is strictly increasing or strictly decreasing; if `func` is continuous
over the interval that `t` spans, it returns at every point of `t` the solution of `y' = func(t)` with `y(t[0]) = y0` (exactly:
the error of the numerical method is not modelled). -/
structure Solver where
  run : {k : ℕ} → (ℝ → Except OErr (Fin k → ℝ)) → (Fin k → ℝ) → List ℝ → Except OErr (List (Fin k → ℝ))
  rejects : ∀ {k : ℕ} (f : ℝ → Except OErr (Fin k → ℝ)) y0 t, ¬ t.Pairwise (· < ·) → ¬ t.Pairwise (· > ·) → run f y0 t = .error .assertion
  solves : ∀ {k : ℕ} (f : ℝ → Except OErr (Fin k → ℝ)) (g : ℝ → Fin k → ℝ) (y0 : Fin k → ℝ) (a : ℝ) (l : List ℝ) (hl : l ≠ []),
    (a :: l).Pairwise (· < ·) ∨ (a :: l).Pairwise (· > ·) →
    (∀ s ∈ uIcc a (l.getLast hl), f s = .ok (g s)) → ContinuousOn g (uIcc a (l.getLast hl)) →
    ∃ Y : ℝ → Fin k → ℝ, Y a = y0 ∧ (∀ s ∈ uIcc a (l.getLast hl), HasDerivWithinAt Y (g s) (uIcc a (l.getLast hl)) s) ∧
      run f y0 (a :: l) = .ok ((a :: l).map Y)

/-- `func(self, z)` for a batch of cosmologies: the integrand `h (e2func z) z` of every element, or the first exception. -/
noncomputable def evalBatch (c : Cls) (n : ℕ) (h : ℝ → ℝ → ℝ) : (os : List Obj) → ℝ → Except OErr (Fin os.length → ℝ)
  | [], _ => .ok Fin.elim0
  | o :: os, z => match e2func c o n z with
    | .error e => .error (.cosmo e)
    | .ok x => match evalBatch c n h os z with
      | .error e => .error e
      | .ok r => .ok (Fin.cons (h x z) r)

/-- `OdeintFLRWDriver._integrate` (odeint.py:29-50): `z1` must have one element; the solver runs through `z1` and then all elements of `z2` in
order, starting from zeros of the parameters' shape `ps`; the first point is dropped and the rest is given the shape of `z2` followed by `ps`. -/
noncomputable def integrate (S : Solver) (c : Cls) (n : ℕ) (os : List Obj) (ps : List ℕ) (h : ℝ → ℝ → ℝ) (z1 z2 : Tensor) :
    Except OErr Tensor :=
  if z1.data.length ≠ 1 then .error .assertion
  else match S.run (evalBatch c n h os) 0 (z1.data ++ z2.data) with
    | .error e => .error e
    | .ok ys => .ok ⟨z2.shape ++ ps, (ys.drop 1).flatMap List.ofFn⟩

/-- `comoving_distance_dimless_z1z2` (odeint.py:59), integrand `inv_efunc` (core.py:207-213). -/
noncomputable def comovingZ (S : Solver) (c : Cls) (n : ℕ) (os : List Obj) (ps : List ℕ) (z1 z2 : Tensor) : Except OErr Tensor :=
  integrate S c n os ps (fun x _ => invEfunc x) z1 z2

/-- `comoving_distance_dimless` (core.py:255-257). -/
noncomputable def comoving (S : Solver) (c : Cls) (n : ℕ) (os : List Obj) (ps : List ℕ) (z : Tensor) : Except OErr Tensor :=
  comovingZ S c n os ps (scalar 0) z

/-- `lookback_time_dimless` (odeint.py:60). -/
noncomputable def lookback (S : Solver) (c : Cls) (n : ℕ) (os : List Obj) (ps : List ℕ) (z : Tensor) : Except OErr Tensor :=
  integrate S c n os ps lookbackIntegrand (scalar 0) z

/-- `absorption_distance_dimless` (odeint.py:61). -/
noncomputable def absorption (S : Solver) (c : Cls) (n : ℕ) (os : List Obj) (ps : List ℕ) (z : Tensor) : Except OErr Tensor :=
  integrate S c n os ps absIntegrand (scalar 0) z

/-! ### Class creation -/

/-- Class attributes: functions, by identity, or the `partialmethod` of `_integrate` with a lower limit fixed or not and an integrand. -/
inductive Attr
  | fn (id : ℕ)
  | integral (fromZero : Bool) (integrand : Option Attr)

/-- Attribute lookup on a class: its own dictionary, then the dictionaries of its bases in resolution order. -/
def resolve (mro : List (PyDict String Attr)) (k : String) : Option Attr :=
  match mro with
  | [] => none
  | d :: ds => match d.get? k with
    | some a => some a
    | none => resolve ds k

/-- Creating a subclass of `OdeintFLRWDriver` with the given class body: `__init_subclass__` (odeint.py:57-61) runs after the body. -/
def subclassDict (bases : List (PyDict String Attr)) (body : PyDict String Attr) : PyDict String Attr :=
  let find := resolve (body :: bases)
  ((body.set "comoving_distance_dimless_z1z2" (.integral false (find "inv_efunc"))).set
    "lookback_time_dimless" (.integral true (find "lookback_time_integrand"))).set
    "absorption_distance_dimless" (.integral true (find "abs_distance_integrand"))

end Verif.Cosmo.Odeint
