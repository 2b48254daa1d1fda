import Verif.Common.PyDict
import Verif.Units.Model
import Mathlib.Analysis.Real.Pi.Bounds

/-! # Model of `phytorch/constants/__init__.py` and `phytorch/constants/codata.py` -/

namespace Verif.Consts

open Verif

/-! ## Lookup in the `phytorch.constants` module -/

/-- Python objects that a lookup can return; `id` numbers the `CODATA` instances created so far, so
two objects are the same Python object iff the `Obj` values are equal.  A `CODATA` attribute is a
`functools.cached_property`, hence one object per instance and (de-aliased) attribute name. -/
inductive Obj
  | preset (name : String)
  | codata (id : ℕ) (release : String)
  | const (id : ℕ) (release : String) (attr : String)
  | astroModule
  | astroConst (name : String)
  deriving DecidableEq, Repr

/-- `alias` attributes (codata.py 80-87, 124, 130, 136, 142, 148, 154, 168, 174): the name of the attribute
they forward to. (Python normalises the identifier `µ` U+00B5 to `μ` U+03BC.) -/
def canon : String → String
  | "alpha" => "α" | "hbar" => "ħ" | "mu_0" => "μ_0" | "eps_0" => "ε_0" | "mu_B" => "μ_B"
  | "mu_N" => "μ_N" | "sigma_e" => "σ_e" | "sigma" => "σ" | s => s

/-- `CODATA.__all__` (codata.py 108-112): every cached constant property. -/
def codataAll : List String :=
  ["c", "h", "k", "N_A", "e", "atm", "g", "α", "G", "m_p", "m_n", "m_e", "u", "alpha", "ħ", "hbar",
   "μ_0", "mu_0", "ε_0", "eps_0", "μ_B", "mu_B", "μ_N", "mu_N", "Ryd", "a_0", "σ_e", "sigma_e", "σ",
   "sigma", "b", "b_prime"]

/-- `constants/astro.py` 14-20: names and their common object. -/
def astroRows : List (List String) :=
  [["M_⊕", "earthMass", "M_earth"], ["R_⊕", "earthRadius", "earthRad", "R_earth"],
   ["M_♃", "jupiterMass", "M_jupiter"], ["R_♃", "jupiterRadius", "jupiterRad", "R_jupiter"],
   ["M_☉", "solarMass", "solMass", "M_sun"], ["R_☉", "solarRadius", "solRad", "R_sun"],
   ["L_☉", "solarLuminosity", "solLum", "L_sun"]]

/-- The object bound to a name in `constants/astro.py`, if any. -/
def astroObj (n : String) : Option Obj :=
  (astroRows.find? (fun r => n ∈ r)).map (fun r => .astroConst (r.headD ""))

/-- Module state: the module's `globals()` and the number of `CODATA` instances created. -/
structure World where
  globals : PyDict String Obj
  next : ℕ

/-- The two releases defined in constants/__init__.py 26-60. -/
def releases : List String := ["codata2014", "codata2018"]

/-- `getattr(_this_module, release)` for a CODATA release: the module attribute if present, else
`__getattr__` (constants/__init__.py 75-77, 86-87) which creates and caches an instance. -/
def getRelease (w : World) (rel : String) : World × Obj :=
  match w.globals.get? rel with
  | some o => (w, o)
  | none => ({ globals := w.globals.set rel (.codata w.next rel), next := w.next + 1 },
             .codata w.next rel)

/-- `import_module('.astro', __package__)` (constants/__init__.py 17): importing a submodule also
binds it in the parent package; later imports return the same module. -/
def importAstro (w : World) : World × Obj :=
  ({ w with globals := w.globals.set "astro" .astroModule }, .astroModule)

/-- `name in _module_all(mod)` and then `getattr(mod, name)` (constants/__init__.py 71-72, 80-81). -/
def attrOf (o : Obj) (name : String) : Option Obj :=
  match o with
  | .codata id rel => if name ∈ codataAll then some (.const id rel (canon name)) else none
  | .astroModule => astroObj name
  | _ => none

/-- Module `__getattr__` (constants/__init__.py 75-87); `none` is `AttributeError`. -/
def moduleGetattr (w : World) (name : String) : World × Option Obj :=
  if name ∈ releases then
    let (w, o) := getRelease w name
    ({ w with globals := w.globals.set name o }, some o)
  else if name = "default" then                    -- _factories['default'] (line 16)
    let (w, o) := getRelease w "codata2018"
    ({ w with globals := w.globals.set name o }, some o)
  else if name = "astro" then
    let (w, o) := importAstro w
    ({ w with globals := w.globals.set name o }, some o)
  else                                             -- for key in ('default', 'astro')
    let (w, d) := getRelease w "codata2018"
    match attrOf d name with
    | some o => ({ w with globals := w.globals.set name o }, some o)
    | none =>
      let (w, a) := importAstro w
      match attrOf a name with
      | some o => ({ w with globals := w.globals.set name o }, some o)
      | none => (w, none)

/-- Attribute access on the module: its `globals()` first, then `__getattr__`. -/
def lookup (w : World) (name : String) : World × Option Obj :=
  match w.globals.get? name with
  | some o => (w, some o)
  | none => moduleGetattr w name

/-- A history of attribute accesses: final state and the results in order. -/
def runLookups (w : World) : List String → World × List (Option Obj)
  | [] => (w, [])
  | n :: ns =>
    let (w1, r) := lookup w n
    let (w2, rs) := runLookups w1 ns
    (w2, r :: rs)

/-! ## Derived constants -/

abbrev Err := Units.Err
abbrev SetOrder := Units.SetOrder

/-- `CODATA_vals` (codata.py 23-39). -/
structure Vals where
  (c h k N_A e atm g α G m_p m_n m_e u : ℝ)

/-- A base unit of `units/_si/_base_unit_map.py` 6-16: one dimension, value 1. -/
def baseUnit (d : String) : Units.Unit := Units.Unit.mk' [(d, 1)]

variable (σ : SetOrder) (v : Vals)

/-- `N = kg * m / s**2` (units/_si/_coherent_unit_map.py 9). -/
noncomputable def newton : Except Err Units.Unit := do
  ((baseUnit "M").mul σ (baseUnit "L")).div σ (← (baseUnit "T").pow 2)

/-- `J = N * m` (units/_si/_coherent_unit_map.py 10). -/
noncomputable def joule : Except Err Units.Unit := do
  return (← newton σ).mul σ (baseUnit "L")

/-- `C = A * s` (units/_si/_coherent_unit_map.py 11). -/
noncomputable def coulomb : Except Err Units.Unit := do
  return (baseUnit "I").mul σ (baseUnit "T")

/-- `Constant(name, vals.x * unit, descr)` (codata.py 73-77, constant.py 22-27): number times unit,
then `Unit.__init__` once more. -/
def basic (x : ℝ) (u : Units.Unit) : Units.Unit := ⟨Units.mkDims (u.mulReal x).dims, (u.mulReal x).value⟩

/-- `Constant(name, unit, descr)` for a derived value (codata.py 90-97, constant.py 22-27). -/
def constant (u : Units.Unit) : Units.Unit := ⟨Units.mkDims u.dims, u.value⟩

/-- speed of light: `m / s` (codata.py 27). -/
noncomputable def c_ : Except Err Units.Unit := do
  return basic v.c (← (baseUnit "L").div σ (baseUnit "T"))
/-- Planck constant: `J * s` (codata.py 28). -/
noncomputable def h_ : Except Err Units.Unit := do
  return basic v.h ((← joule σ).mul σ (baseUnit "T"))
/-- Boltzmann constant: `J / K` (codata.py 29). -/
noncomputable def k_ : Except Err Units.Unit := do
  return basic v.k (← (← joule σ).div σ (baseUnit "Θ"))
/-- elementary charge: `C` (codata.py 31). -/
noncomputable def e_ : Except Err Units.Unit := do
  return basic v.e (← coulomb σ)
/-- fine-structure constant: `Unit()` (codata.py 34). -/
def α_ : Units.Unit := basic v.α Units.Unit.one
/-- proton mass: `kg` (codata.py 36). -/
def m_p_ : Units.Unit := basic v.m_p (baseUnit "M")
/-- electron mass: `kg` (codata.py 38). -/
def m_e_ : Units.Unit := basic v.m_e (baseUnit "M")

/-- `ħ = h / (2*pi)` (codata.py 126-128). -/
noncomputable def hbar : Except Err Units.Unit := do
  return constant (← (← h_ σ v).divReal (2 * Real.pi))

/-- `µ_0 = 4*pi * alpha * hbar / e**2 / c` (codata.py 132-134). -/
noncomputable def mu0 : Except Err Units.Unit := do
  let x := ((α_ v).mulReal (4 * Real.pi)).mul σ (← hbar σ v)
  let y ← x.div σ (← (← e_ σ v).pow 2)
  return constant (← y.div σ (← c_ σ v))

/-- `ε_0 = 1 / mu_0 / c**2` (codata.py 138-140). -/
noncomputable def eps0 : Except Err Units.Unit := do
  let x ← (← mu0 σ v).rdivReal 1
  return constant (← x.div σ (← (← c_ σ v).pow 2))

/-- `µ_B = e * hbar / (2 * m_e)` (codata.py 144-146). -/
noncomputable def muB : Except Err Units.Unit := do
  return constant (← ((← e_ σ v).mul σ (← hbar σ v)).div σ ((m_e_ v).mulReal 2))

/-- `µ_N = e * hbar / (2 * m_p)` (codata.py 150-152). -/
noncomputable def muN : Except Err Units.Unit := do
  return constant (← ((← e_ σ v).mul σ (← hbar σ v)).div σ ((m_p_ v).mulReal 2))

/-- `Ryd = alpha**2 * m_e * c / (2 * h)` (codata.py 156-158). -/
noncomputable def ryd : Except Err Units.Unit := do
  let a2 ← (α_ v).pow 2
  return constant (← ((a2.mul σ (m_e_ v)).mul σ (← c_ σ v)).div σ ((← h_ σ v).mulReal 2))

/-- `a_0 = hbar / (alpha * m_e * c)` (codata.py 160-162). -/
noncomputable def a0 : Except Err Units.Unit := do
  return constant (← (← hbar σ v).div σ (((α_ v).mul σ (m_e_ v)).mul σ (← c_ σ v)))

/-- `σ_e = (8*pi/3) * alpha**4 * a_0**2` (codata.py 164-166). -/
noncomputable def sigmaE : Except Err Units.Unit := do
  let a4 ← (α_ v).pow 4
  let r2 ← (← a0 σ v).pow 2
  return constant ((a4.mulReal (8 * Real.pi / 3)).mul σ r2)

/-- `σ = pi**2 / 60 * k**4 / (hbar**3 * c**2)` (codata.py 170-172). -/
noncomputable def sigmaSB : Except Err Units.Unit := do
  let k4 ← (← k_ σ v).pow 4
  let ħ3 ← (← hbar σ v).pow 3
  let c2 ← (← c_ σ v).pow 2
  return constant (← (k4.mulReal (Real.pi ^ 2 / 60)).div σ (ħ3.mul σ c2))

/-- `b = h * c / k / 4.965114231744276303` (codata.py 176-178). -/
noncomputable def wienB : Except Err Units.Unit := do
  let x ← ((← h_ σ v).mul σ (← c_ σ v)).div σ (← k_ σ v)
  return constant (← x.divReal 4.965114231744276303)

/-- `b_prime = 2.821439372122078893 * k / h` (codata.py 180-182). -/
noncomputable def wienBp : Except Err Units.Unit := do
  return constant (← ((← k_ σ v).mulReal 2.821439372122078893).div σ (← h_ σ v))

end Verif.Consts
