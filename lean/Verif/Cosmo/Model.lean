import Mathlib.Analysis.SpecialFunctions.Pow.Real
import Mathlib.Analysis.SpecialFunctions.Pow.Complex
import Mathlib.Analysis.SpecialFunctions.Trigonometric.Basic
import Mathlib.Analysis.SpecialFunctions.Arsinh
import Mathlib.Analysis.SpecialFunctions.Log.Base

/-! # Model of `phytorch/cosmology` (core.py, utils.py, special/*.py, components.py, module.py, drivers/*)

Numbers are exact reals (rounding is not modelled); dimensionful quantities are their values in SI units.
Batch dimensions are elementwise.  Class dispatch (Python's method resolution order) is resolved by hand for the
twenty concrete classes: a class is described by its dark-energy family, whether `RadiationFLRWMixin` is mixed in
(the classes `...R`) and whether `FlatFLRWMixin` is (the classes `Flat...`). -/

namespace Verif.Cosmo

inductive Err | recursion | notImplemented | typeError
  deriving DecidableEq, Repr

/-- Dark-energy families: `LambdaCDM`, `wCDM`, `w0waCDM`, `wpwaCDM`, `w0wzCDM`
(special/concrete.py:44-184). -/
inductive DE | lambda | w | w0wa | wpwa | w0wz
  deriving DecidableEq, Repr

/-- One of the concrete classes of special/concrete.py and special/flat.py. -/
structure Cls where
  de : DE
  /-- `RadiationFLRWMixin` in the bases -/
  rad : Bool
  /-- `FlatFLRWMixin` in the bases (special/flat.py:61-66) -/
  flat : Bool
  deriving DecidableEq, Repr

/-- The instance attributes of a cosmology.  `ode` is the instance attribute `_Ode0`: `none` while it is the
class's sentinel (special/decdm.py:19,30-31). -/
structure Obj where
  H0 : ℝ
  Om0 : ℝ
  Ob0 : ℝ
  Or0 : ℝ
  Neff : ℝ
  w0 : ℝ
  wa : ℝ
  zp : ℝ
  wz : ℝ
  ode : Option ℝ

/-! ### Densities at the present time -/

/-- `_sum0_noDE` (decdm.py:97-99, 158-160). -/
def sum0 (c : Cls) (o : Obj) : ℝ := if c.rad then o.Om0 + o.Or0 else o.Om0

mutual
/-- The getter of `Ode0` (decdm.py:21-32; flat.py:36 reuses it).  The last argument is the number of stack
frames left for the two mutually recursive getters. -/
def ode0 (c : Cls) (o : Obj) : ℕ → Except Err ℝ
  | 0 => .error .recursion
  | n + 1 => match o.ode with
    | some v => .ok v
    | none => match ok0 c o n with
      | .error e => .error e
      | .ok k => .ok (1 - k - sum0 c o)
/-- `Ok0`: the class attribute `0.` of flat classes (flat.py:15), else the getter of decdm.py:101-104. -/
def ok0 (c : Cls) (o : Obj) : ℕ → Except Err ℝ
  | 0 => if c.flat then .ok 0 else .error .recursion
  | n + 1 => if c.flat then .ok 0 else match ode0 c o n with
      | .error e => .error e
      | .ok d => .ok (1 - sum0 c o - d)
end

/-- `Odm0` (decdm.py:81-88). -/
def odm0 (o : Obj) : ℝ := o.Om0 - o.Ob0

/-! ### Dark energy -/

/-- `ap` of `wpwaCDM` (concrete.py:142-144). -/
noncomputable def ap (o : Obj) : ℝ := 1 / (1 + o.zp)

/-- `_w(zp1)` (concrete.py:55-56, 79, 108-109, 146-147, 172-173).  For `LambdaCDM`, `w0` is the class attribute
-1 (assigning an instance attribute `w0` to a `LambdaCDM` is not modelled). -/
noncomputable def w (c : Cls) (o : Obj) (zp1 : ℝ) : ℝ :=
  match c.de with
  | .lambda => -1
  | .w => o.w0
  | .w0wa => o.w0 + o.wa * (1 - 1 / zp1)
  | .wpwa => o.w0 + o.wa * (ap o - 1 / zp1)
  | .w0wz => o.w0 - o.wz + o.wz * zp1

/-- `_de_density_scale(zp1)` (concrete.py:58-59, 83-84, 111-112, 149-150, 175-176). -/
noncomputable def deScale (c : Cls) (o : Obj) (zp1 : ℝ) : ℝ :=
  match c.de with
  | .lambda => 1
  | .w => zp1 ^ (3 * (1 + o.w0))
  | .w0wa => zp1 ^ (3 * (1 + o.w0 + o.wa)) * Real.exp (-3 * o.wa * (1 - 1 / zp1))
  | .wpwa => zp1 ^ (3 * (1 + o.w0 + ap o * o.wa)) * Real.exp (-3 * o.wa * (1 - 1 / zp1))
  | .w0wz => zp1 ^ (3 * (1 + o.w0 - o.wz)) * Real.exp (-3 * o.wz * zp1 - 3 * o.wz)

/-! ### The Hubble function -/

/-- `BaseDECDM._e2func` (decdm.py:106-107) and `LambdaCDM._e2func` (concrete.py:86-87). -/
noncomputable def e2base (c : Cls) (o : Obj) (n : ℕ) (zp1 : ℝ) : Except Err ℝ :=
  match ok0 c o n with
  | .error e => .error e
  | .ok k => match ode0 c o n with
    | .error e => .error e
    | .ok d => match c.de with
      | .lambda => .ok (zp1 ^ 2 * (o.Om0 * zp1 + k) + d)
      | _ => .ok (zp1 ^ 2 * (o.Om0 * zp1 + k) + d * deScale c o zp1)

/-- `_e2func` (decdm.py:162-163 adds radiation). -/
noncomputable def e2 (c : Cls) (o : Obj) (n : ℕ) (zp1 : ℝ) : Except Err ℝ :=
  match e2base c o n zp1 with
  | .error e => .error e
  | .ok x => .ok (if c.rad then x + o.Or0 * zp1 ^ 4 else x)

/-- `e2func(z)` (core.py:195-197). -/
noncomputable def e2func (c : Cls) (o : Obj) (n : ℕ) (z : ℝ) : Except Err ℝ := e2 c o n (1 + z)

/-- `_redshift_power` (core.py:120-121): `O0 * (z+1)**power / e2func(z)`. -/
noncomputable def redshiftPower (c : Cls) (o : Obj) (n : ℕ) (O0 : ℝ) (power : ℕ) (z : ℝ) : Except Err ℝ :=
  match e2func c o n z with
  | .error e => .error e
  | .ok x => .ok (O0 * (z + 1) ^ power / x)

/-- `Om(z)`, `Ob(z)`, `Odm(z)` (decdm.py:61,74,90), `Or(z)` (decdm.py:119), `Ok(z)` (core.py:147). -/
noncomputable def om (c : Cls) (o : Obj) (n : ℕ) (z : ℝ) := redshiftPower c o n o.Om0 3 z
@[inherit_doc om] noncomputable def ob (c : Cls) (o : Obj) (n : ℕ) (z : ℝ) := redshiftPower c o n o.Ob0 3 z
@[inherit_doc om] noncomputable def odm (c : Cls) (o : Obj) (n : ℕ) (z : ℝ) := redshiftPower c o n (odm0 o) 3 z
@[inherit_doc om] noncomputable def or' (c : Cls) (o : Obj) (n : ℕ) (z : ℝ) := redshiftPower c o n o.Or0 4 z
@[inherit_doc om] noncomputable def ok (c : Cls) (o : Obj) (n : ℕ) (z : ℝ) : Except Err ℝ :=
  match ok0 c o n with
  | .error e => .error e
  | .ok k => redshiftPower c o n k 2 z

/-- `Ode(z)`: `_redshift_constant` for `LambdaCDM` (concrete.py:81, core.py:127-128), else decdm.py:44-53. -/
noncomputable def ode (c : Cls) (o : Obj) (n : ℕ) (z : ℝ) : Except Err ℝ :=
  match ode0 c o n with
  | .error e => .error e
  | .ok d => match c.de with
    | .lambda => match e2func c o n z with
      | .error e => .error e
      | .ok x => .ok (d / x)
    | _ => match e2 c o n (1 + z) with
      | .error e => .error e
      | .ok x => .ok (d * deScale c o (1 + z) / x)

/-! ### Radiation temperature -/

/-- Physical constants: `crit = 3/(8πG)` (core.py:301), `arad = 4σ/c³` (decdm.py:134), `nu = 7/8 (4/11)^(4/3)`
(decdm.py:135), `cl = c`; all positive. -/
structure Phys where
  crit : ℝ
  arad : ℝ
  nu : ℝ
  cl : ℝ
  /-- ten parsec -/
  pc10 : ℝ
  crit_pos : 0 < crit
  arad_pos : 0 < arad
  nu_pos : 0 < nu
  cl_pos : 0 < cl
  pc10_pos : 0 < pc10

/-- `critical_density0` (core.py:352-361). -/
def criticalDensity0 (p : Phys) (o : Obj) : ℝ := p.crit * o.H0 ^ 2

/-- `critical_density(z)` (core.py:364-372). -/
noncomputable def criticalDensity (p : Phys) (c : Cls) (o : Obj) (n : ℕ) (z : ℝ) : Except Err ℝ :=
  match e2func c o n z with
  | .error e => .error e
  | .ok x => .ok (criticalDensity0 p o * x)

/-- `H(z)` (core.py:310-316), with `efunc` (core.py:199-205) the square root of `e2func`. -/
noncomputable def hubble (c : Cls) (o : Obj) (n : ℕ) (z : ℝ) : Except Err ℝ :=
  match e2func c o n z with
  | .error e => .error e
  | .ok x => .ok (o.H0 * x ^ (1 / 2 : ℝ))

/-- The getter of `Tcmb0` (decdm.py:137-144). -/
noncomputable def tcmb0 (p : Phys) (o : Obj) : ℝ :=
  (o.Or0 / (1 + o.Neff * p.nu) * criticalDensity0 p o / p.arad) ^ (1 / 4 : ℝ)

/-- `Tcmb(z)` (decdm.py:150-156). -/
noncomputable def tcmb (p : Phys) (o : Obj) (z : ℝ) : ℝ := tcmb0 p o * (1 + z)

/-! ### Attribute assignment and construction -/

/-- Names of parameters, in the order of `dir()` (sorted). -/
inductive Key | H0 | Neff | Ob0 | Ode0 | Om0 | Or0 | Tcmb0 | w0 | wa | wp | wz | zp
  deriving DecidableEq, Repr

/-- The attribute name. -/
def Key.name : Key → String
  | .H0 => "H0" | .Neff => "Neff" | .Ob0 => "Ob0" | .Ode0 => "Ode0" | .Om0 => "Om0" | .Or0 => "Or0"
  | .Tcmb0 => "Tcmb0" | .w0 => "w0" | .wa => "wa" | .wp => "wp" | .wz => "wz" | .zp => "zp"

/-- `setattr(obj, key, value)`.  Properties with setters: `Ode0` (decdm.py:34-36; FlatLambdaCDM: flat.py:38-40;
FlatLambdaCDMR: flat.py:50-52), `Tcmb0` (decdm.py:146-148), `wp` (concrete.py:136-138).  On a class without the
property the attribute is created but read by nothing. -/
noncomputable def assign (p : Phys) (c : Cls) (o : Obj) (k : Key) (v : ℝ) : Obj :=
  match k with
  | .H0 => { o with H0 := v }
  | .Neff => { o with Neff := v }
  | .Ob0 => { o with Ob0 := v }
  | .Ode0 =>
    if c.flat ∧ c.de = .lambda then
      if c.rad then { o with Om0 := 1 - o.Or0 - v } else { o with Om0 := 1 - v }
    else { o with ode := some v }
  | .Om0 => { o with Om0 := v }
  | .Or0 => { o with Or0 := v }
  | .Tcmb0 => if c.rad then
      { o with Or0 := (1 + o.Neff * p.nu) * (v ^ 4 * p.arad / criticalDensity0 p o) } else o
  | .w0 => { o with w0 := v }
  | .wa => { o with wa := v }
  | .wp => if c.de = .wpwa then { o with w0 := v } else o
  | .wz => { o with wz := v }
  | .zp => { o with zp := v }

/-- `cls._parameters` (core.py:47-53): every attribute of the class that is an `AbstractParameter`, in the order
of `dir(cls)`. `Ok0` is not among them: decdm.py:103 and flat.py:15 replace it; `w0` of LambdaCDM is replaced
by -1 (concrete.py:79). -/
def params (c : Cls) : List Key :=
  [.H0] ++ (if c.rad then [.Neff] else []) ++ [.Ob0, .Ode0, .Om0] ++ (if c.rad then [.Or0, .Tcmb0] else []) ++
  (match c.de with
    | .lambda => []
    | .w => [.w0]
    | .w0wa => [.w0, .wa]
    | .wpwa => [.w0, .wa, .wp, .zp]
    | .w0wz => [.w0, .wz])

/-- Default value of a parameter in the signature built by `forge.sign` (core.py:55-58): `error` if the
parameter is required (`forge.empty`), `ok none` for `_no_value` (a `PropertyParameter`: left alone by
`_set_params`). `Ode0` is required (`IndirectPropertyParameter`, decdm.py:22) except in FlatLambdaCDM and
FlatLambdaCDMR (`PropertyParameter`, flat.py:36,48); `h100` is the default of `H0`. -/
def default (c : Cls) (h100 : ℝ) : Key → Except Err (Option ℝ)
  | .H0 => .ok (some h100)
  | .Neff | .Ob0 | .Or0 | .wa | .zp | .wz => .ok (some 0)
  | .w0 => .ok (some (-1))
  | .Om0 => .error .typeError
  | .Ode0 => if c.flat ∧ c.de = .lambda then .ok none else .error .typeError
  | .Tcmb0 | .wp => .ok none

/-- An instance before any assignment: attributes fall back to the class's.  `Om0` has no default; reading it
before it is assigned is an error in Python, here it is 0 (no theorem depends on it: construction requires
`Om0`). -/
def blank (h100 : ℝ) : Obj :=
  { H0 := h100, Om0 := 0, Ob0 := 0, Or0 := 0, Neff := 0, w0 := -1, wa := 0, zp := 0, wz := 0, ode := none }

/-- Value of one argument: the one passed, else the default. -/
def argVal (c : Cls) (h100 : ℝ) (kw : List (Key × ℝ)) (k : Key) : Except Err (Option ℝ) :=
  match kw.lookup k with
  | some v => .ok (some v)
  | none => default c h100 k

/-- Binding of the keyword arguments to the signature: in signature order. -/
def bindArgs (c : Cls) (h100 : ℝ) (kw : List (Key × ℝ)) : List Key → Except Err (List (Key × ℝ))
  | [] => .ok []
  | k :: ks => match argVal c h100 kw k with
    | .error e => .error e
    | .ok v => match bindArgs c h100 kw ks with
      | .error e => .error e
      | .ok r => .ok (match v with | some v => (k, v) :: r | none => r)

/-- Construction `cls(**kw)` (core.py:38-65): unknown keyword → TypeError; missing required one → TypeError;
then the values (defaults included) are assigned in signature order. -/
noncomputable def construct (p : Phys) (c : Cls) (h100 : ℝ) (kw : List (Key × ℝ)) : Except Err Obj :=
  if kw.any fun a => !(params c).contains a.1 then .error .typeError
  else match bindArgs c h100 kw (params c) with
    | .error e => .error e
    | .ok l => .ok (l.foldl (fun o a => assign p c o a.1 a.2) (blank h100))

/-- `getattr(obj, key)`. -/
noncomputable def get (p : Phys) (c : Cls) (o : Obj) (n : ℕ) : Key → Except Err ℝ
  | .H0 => .ok o.H0
  | .Neff => .ok o.Neff
  | .Ob0 => .ok o.Ob0
  | .Ode0 => ode0 c o n
  | .Om0 => .ok o.Om0
  | .Or0 => .ok o.Or0
  | .Tcmb0 => .ok (tcmb0 p o)
  | .w0 => .ok o.w0
  | .wa => .ok o.wa
  | .wp => .ok o.w0
  | .wz => .ok o.wz
  | .zp => .ok o.zp

/-- `{key: getattr(self, key, None) for key in keys}` (an exception other than AttributeError, such as a
recursion error, propagates). -/
noncomputable def readAll (p : Phys) (c : Cls) (o : Obj) (n : ℕ) : List Key → Except Err (List (Key × ℝ))
  | [] => .ok []
  | k :: ks => match get p c o n k with
    | .error e => .error e
    | .ok v => match readAll p c o n ks with
      | .error e => .error e
      | .ok r => .ok ((k, v) :: r)

/-- The kind of a parameter: `true` if it is a `PropertyParameter` (derived: `Tcmb0`, `wp`, and `Ode0` of
FlatLambdaCDM(R)). -/
def isProperty (c : Cls) : Key → Bool
  | .Tcmb0 | .wp => true
  | .Ode0 => c.flat && c.de == .lambda
  | _ => false

/-- The keys of `obj.parameters` (core.py:68-71).  The filter tests the pair `(annotation, parameter)` instead
of the parameter, so it removes nothing. -/
def parameterKeys (c : Cls) : List Key := params c

/-- `obj.parameters` (core.py:68-71). -/
noncomputable def parameters (p : Phys) (c : Cls) (o : Obj) (n : ℕ) : Except Err (List (Key × ℝ)) :=
  readAll p c o n (parameterKeys c)

/-! ### `CosmologyModule` (module.py) -/

/-- `set_params(**kwargs)` (module.py:20-25) and `Cosmology._set_params` (core.py:38-42): assignments in the
order given. -/
noncomputable def setParams (p : Phys) (c : Cls) (o : Obj) (kw : List (Key × ℝ)) : Obj :=
  kw.foldl (fun o a => assign p c o a.1 a.2) o

/-- `CosmologyModule.forward` (module.py:39-46): keyword arguments named in the method's signature go to the
method, the rest to the parameters.  Keys are strings; `keyOf` recognises parameter names. Returns the new
object and the keyword arguments of the call. -/
noncomputable def forward (p : Phys) (c : Cls) (sig : List String) (keyOf : String → Option Key) (o : Obj)
    (kw : List (String × ℝ)) : Obj × List (String × ℝ) :=
  let methodKw := sig.filterMap fun k => (kw.lookup k).map fun v => (k, v)
  let rest := kw.filter fun a => !sig.contains a.1
  (setParams p c o (rest.filterMap fun a => (keyOf a.1).map fun k => (k, a.2)), methodKw)

/-! ### Distances (core.py) -/

/-- What a driver overrides.  Redshifts may be infinite in times. -/
structure Driver where
  lookback : Option (WithTop ℝ → Except Err ℝ)
  age : Option (WithTop ℝ → Except Err ℝ)
  comoving : Option (ℝ → Except Err ℝ)
  comovingZ : Option (ℝ → ℝ → Except Err ℝ)

/-- `a - b` of two computations, left to right. -/
def sub (a b : Except Err ℝ) : Except Err ℝ :=
  match a with
  | .error e => .error e
  | .ok x => match b with
    | .error e => .error e
    | .ok y => .ok (x - y)

mutual
/-- `lookback_time_dimless` (core.py:241-243). -/
def lookback (d : Driver) : ℕ → WithTop ℝ → Except Err ℝ
  | 0, _ => .error .recursion
  | n + 1, z => match d.lookback with
    | some f => f z
    | none => sub (age d n (0 : ℝ)) (age d n z)
/-- `age_dimless` (core.py:246-248). -/
def age (d : Driver) : ℕ → WithTop ℝ → Except Err ℝ
  | 0, _ => .error .recursion
  | n + 1, z => match d.age with
    | some f => f z
    | none => lookback d n ⊤
end

mutual
/-- `comoving_distance_dimless` (core.py:255-257). -/
def comoving (d : Driver) : ℕ → ℝ → Except Err ℝ
  | 0, _ => .error .recursion
  | n + 1, z => match d.comoving with
    | some f => f z
    | none => comovingZ d n 0 z
/-- `comoving_distance_dimless_z1z2` (core.py:260-262). -/
def comovingZ (d : Driver) : ℕ → ℝ → ℝ → Except Err ℝ
  | 0, _, _ => .error .recursion
  | n + 1, z1, z2 => match d.comovingZ with
    | some f => f z1 z2
    | none => sub (comoving d n z2) (comoving d n z1)
end

/-- `sqrtOk0` (core.py:154-157): the principal complex power. -/
noncomputable def sqrtOk0 (k : ℝ) : ℂ := (k : ℂ) ^ ((1 / 2 : ℝ) : ℂ)

/-- `isqrtOk0_pi` (core.py:159-162). -/
noncomputable def isqrtOk0Pi (k : ℝ) : ℂ := Complex.I * sqrtOk0 k / Real.pi

/-- `sinc` (math.py:27-31). -/
noncomputable def sinc (x : ℂ) : ℂ :=
  open Classical in if x * Real.pi ≠ 0 then Complex.sin (x * Real.pi) / (x * Real.pi) else 1

/-- `csinc` (math.py:34-35). -/
noncomputable def csinc (eps : ℝ) (x : ℂ) : ℂ :=
  open Classical in if eps < ‖x‖ then (1 - sinc x) / (x * Real.pi) ^ 2 else 1 / 6

/-- `transform_curved` (core.py:164-186; flat.py:17-18): `realise` is the real part. -/
noncomputable def transformCurved (flat : Bool) (k d : ℝ) : ℝ :=
  if flat then d else d * (sinc (isqrtOk0Pi k * d)).re

/-- `comoving_volume_dimless` as a function of the comoving distance (core.py:288-291; flat.py:20-21). -/
noncomputable def comovingVolume (flat : Bool) (eps k d : ℝ) : ℝ :=
  if flat then 4 * Real.pi / 3 * transformCurved true k d ^ 3
  else 8 * Real.pi * d ^ 3 * (csinc eps (2 * isqrtOk0Pi k * d)).re

/-- Functions of the (dimensionless) transverse comoving distance `dm` at `z` (core.py:272-286). -/
noncomputable def angularDiameter (dm z : ℝ) : ℝ := dm / (z + 1)
@[inherit_doc angularDiameter] noncomputable def luminosity (dm z : ℝ) : ℝ := dm * (z + 1)
@[inherit_doc angularDiameter] noncomputable def differentialVolume (dm e2 : ℝ) : ℝ := dm ^ 2 * e2 ^ (-1 / 2 : ℝ)

/-- `hubble_distance` (core.py:332-340), `hubble_distance_in_10pc` (core.py:342-345). -/
noncomputable def hubbleDistance (p : Phys) (o : Obj) : ℝ := p.cl / o.H0
@[inherit_doc hubbleDistance] noncomputable def hubbleDistance10pc (p : Phys) (o : Obj) : ℝ :=
  hubbleDistance p o / p.pc10

/-- `distmod` (core.py:522-535) from the dimensionless luminosity distance. -/
noncomputable def distmod (p : Phys) (o : Obj) (dl : ℝ) : ℝ :=
  2.5 * Real.logb 10 ((dl * hubbleDistance10pc p o) ^ 2)

/-- `inv_efunc` (core.py:207-213), `lookback_time_integrand` (core.py:215-225), `abs_distance_integrand`
(core.py:227-236) from `e2 = e2func(z)`. -/
noncomputable def invEfunc (e2 : ℝ) : ℝ := e2 ^ (-1 / 2 : ℝ)
@[inherit_doc invEfunc] noncomputable def lookbackIntegrand (e2 z : ℝ) : ℝ := invEfunc e2 / (z + 1)
@[inherit_doc invEfunc] noncomputable def absIntegrand (e2 z : ℝ) : ℝ := (z + 1) ^ 2 * invEfunc e2

/-- `_FlatLambdaCDM.age_dimless` (flat.py:42-43). -/
noncomputable def flatAge (Om0 z : ℝ) : ℝ :=
  (2 / 3) / (1 - Om0) ^ (1 / 2 : ℝ) * Real.arsinh (((1 / Om0 - 1) / (1 + z) ^ 3) ^ (1 / 2 : ℝ))

/-! ### Analytic drivers (drivers/_analytic_base.py) -/

/-- `_epoly_leading` (_analytic_base.py:44-46, 56-58). -/
def epolyLeading (c : Cls) (o : Obj) : ℝ := if c.rad then o.Or0 else o.Om0

/-- `_epoly_coeffs_` (_analytic_base.py:48-50, 60-62). -/
def epolyCoeffs_ (c : Cls) (o : Obj) (k d : ℝ) : List ℝ := if c.rad then [o.Om0, k, 0, d] else [k, 0, d]

/-- `_epoly_coeffs` (_analytic_base.py:24-27). -/
noncomputable def epolyCoeffs (c : Cls) (o : Obj) (k d : ℝ) : List ℝ :=
  (epolyCoeffs_ c o k d).map (· / epolyLeading c o)

/-- `_epoly_roots` (_analytic_base.py:31-34): `solve` stands for `roots(*coeffs, force_numeric=...)`. -/
noncomputable def epolyRoots (solve : List ℝ → List ℂ) (c : Cls) (o : Obj) (k d : ℝ) : List ℂ :=
  (solve (epolyCoeffs c o k d)).map (· - 1)

/-! ### Components (components.py) -/

/-- The component classes (components.py:9-56), with their attributes. -/
inductive Component
  | radiation (O0 : ℝ)
  | matter (O0 : ℝ)
  | w0 (O0 w0 : ℝ)
  | w0wa (O0 w0 wa : ℝ)
  | lambda (O0 : ℝ)

/-- `O0`. -/
def Component.O0 : Component → ℝ
  | .radiation x | .matter x | .w0 x _ | .w0wa x _ _ | .lambda x => x

/-- `redshift(z)` (components.py:19-20, 34-36, 42-47, 54-55). -/
noncomputable def Component.redshift (z : ℝ) : Component → ℝ
  | .radiation _ => (z + 1) ^ 4
  | .matter _ => (z + 1) ^ 3
  | .w0 _ w => (z + 1) ^ (3 * (1 + w))
  | .w0wa _ w wa => (z + 1) ^ (3 * (1 + w) + 3 * wa) * Real.exp (-3 * wa * z / (z + 1))
  | .lambda _ => 1

/-- `ComponentwiseFLRW.e2func` (components.py:61-62). -/
noncomputable def componentsE2 (cs : List Component) (z : ℝ) : ℝ :=
  (cs.map fun c => c.O0 * c.redshift z).foldl (· + ·) 0

/-- What `Omega` returns: a number or an iterable. -/
inductive OmegaResult
  | one (x : ℝ)
  | many (xs : List ℝ)

/-- `ComponentwiseFLRW.Omega` (components.py:70-73). `next` of the generator is its first item. -/
noncomputable def omega (cs : List Component) (z : ℝ) (comps : List Component) : OmegaResult :=
  let ret := comps.map fun c => c.redshift z * (1 / componentsE2 cs z)
  match ret with
  | x :: _ => if comps.length > 1 then .one x else .many ret
  | [] => .many ret

end Verif.Cosmo
