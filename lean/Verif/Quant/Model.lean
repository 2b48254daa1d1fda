import Verif.Units.Model
import Verif.Common.PyDict
import Mathlib.Algebra.Algebra.Basic

/-! # Model of `phytorch/quantities`: dimension specs and the dispatch of torch functions

`V` is the type of tensor contents, an `ℝ`-algebra whose `algebraMap` embeds Python numbers (for
instance `ι → ℝ`: tensors broadcast to a common shape with index set `ι`).  The torch kernel being
dispatched is a parameter `F`.  Rounding is not modelled.

An argument that is a list or tuple of tensors is represented by its leaves in order, with the parameter
spec repeated: that is what `tree_flatten` / `_broadcast_to_and_flatten` / `tree_unflatten` do
(dimspec.py:164-165,191; see `Verif.Pytree`). -/

namespace Verif.Quant

open Verif.Units (SetOrder dictEq)

/-- Exceptions. `torch` stands for anything raised by the torch kernel (shape mismatch ...). -/
inductive Err
  | unitError | typeError | nameError | attributeError | zeroDivision | complexValue | torch | notImplemented
  deriving DecidableEq, Repr

/-- Exceptions of unit arithmetic seen from here. -/
def liftErr {α : Type} : Except Units.Err α → Except Err α
  | .ok a => .ok a
  | .error .typeError => .error .typeError
  | .error .zeroDivision => .error .zeroDivision
  | .error .complexValue => .error .complexValue

/-- A leaf argument of a torch function: a quantity, a bare `Unit`, a bare number or tensor (not
`bool`), or anything else (`None`, `bool`, strings ...). -/
inductive Leaf (V : Type)
  | q (x : V) (u : Units.Unit)
  | unit (u : Units.Unit)
  | num (x : V)
  | other

/-- Unit expressions occurring in `Eval` strings and in the `ret` lambdas (dimspec.py:235-358). -/
inductive UE
  | var (s : String)
  | mul (a b : UE)
  | div (a b : UE)
  | pow (a : UE) (p : ℚ)
  | inv (a : UE)
  deriving DecidableEq

/-- The context `ctx` (dimspec.py:158). -/
abbrev Ctx := PyDict String Units.Unit

/-- Evaluation of a unit expression: `eval(self.compiled_expr, {}, ctx)` (dimspec.py:40-44). -/
noncomputable def UE.eval (σ : SetOrder) (ctx : Ctx) : UE → Except Err Units.Unit
  | .var s => match PyDict.get? ctx s with
    | some u => .ok u
    | none => .error .nameError
  | .mul a b => do
    let x ← a.eval σ ctx
    let y ← b.eval σ ctx
    return x.mul σ y
  | .div a b => do
    let x ← a.eval σ ctx
    let y ← b.eval σ ctx
    liftErr (x.div σ y)
  | .pow a p => do
    let x ← a.eval σ ctx
    liftErr (x.pow p)
  | .inv a => do
    let x ← a.eval σ ctx
    liftErr x.inv

/-- One entry of `DimSpec.params` (dimspec.py:48-50); `skip` is `None` or `False`. -/
inductive PSpec
  | name (s : String)
  | unit (u : Units.Unit)
  | eval (e : UE)
  | skip

/-- One entry of `DimSpec.ret` (dimspec.py:203-207); `bare` is `False`, `fn` a lambda over the context. -/
inductive Ret
  | bare
  | name (s : String)
  | fn (e : UE)
  | fixed (u : Units.Unit)

variable {V : Type} [Ring V] [Algebra ℝ V]

/-- `arg.unit if isinstance(arg, _Unitful) else Unit()` (dimspec.py:173). -/
def Leaf.getUnit : Leaf V → Units.Unit
  | .q _ u => u
  | .unit u => u
  | .num _ => Units.Unit.one
  | .other => Units.Unit.one

open Classical in
/-- The body of `if isinstance(unit, Unit)` (dimspec.py:177-188): check the dimension, then convert.
Quantities use `GenericQuantity.to` (quantity.py:44-62: unchanged if the units are equal, otherwise
multiplied by `self.unit.to(unit)`), `Unit` objects `Unit.to`, bare numbers are divided by `unit.value`
unless it is 1. -/
noncomputable def convert (w : Units.Unit) : Leaf V → Except Err (Leaf V)
  | .q x u =>
    if dictEq u.dims w.dims = false then .error .unitError
    else if u.eq w = true then .ok (.q x u)
    else do
      let f ← liftErr (u.to w)
      return .q (f • x) w
  | .unit u =>
    if dictEq u.dims w.dims = false then .error .unitError
    else do
      let f ← liftErr (u.to w)
      return .num (algebraMap ℝ V f)
  | .num x =>
    if w.dims ≠ [] then .error .unitError
    else if w.value = 1 then .ok (.num x)
    else if w.value = 0 then .error .zeroDivision
    else .ok (.num ((1 / w.value) • x))
  | .other => .ok .other

/-- One step of the inner loop of `DimSpec.__call__` (dimspec.py:168-190). -/
noncomputable def step (σ : SetOrder) (ctx : Ctx) : PSpec → Leaf V → Except Err (Ctx × Leaf V)
  | .name s, a => match PyDict.get? ctx s with
    | some w => do
      let a' ← convert w a
      return (ctx, a')
    | none => .ok (PyDict.set ctx s a.getUnit, a)
  | .eval e, a => do
    let w ← e.eval σ ctx
    let a' ← convert w a
    return (ctx, a')
  | .unit w, a => do
    let a' ← convert w a
    return (ctx, a')
  | .skip, a => .ok (ctx, a)

/-- `DimSpec.__call__` (dimspec.py:157-195) on the list of (spec, leaf) pairs. -/
noncomputable def run (σ : SetOrder) : Ctx → List (PSpec × Leaf V) → Except Err (Ctx × List (Leaf V))
  | ctx, [] => .ok (ctx, [])
  | ctx, (p, a) :: rest => do
    let r ← step σ ctx p a
    let r' ← run σ r.1 rest
    return (r'.1, r.2 :: r'.2)

/-- What the torch kernel sees: the stored numbers (the subclass is stripped, tensor_quantity.py:75).  A
`Unit` object that was not converted is not a tensor: `TypeError`.  `none` is a non-numeric argument. -/
def Leaf.raw : Leaf V → Except Err (Option V)
  | .q x _ => .ok (some x)
  | .num x => .ok (some x)
  | .unit _ => .error .typeError
  | .other => .ok none

/-- All raw arguments. -/
def raws : List (Leaf V) → Except Err (List (Option V))
  | [] => .ok []
  | a :: as => do
    let x ← a.raw
    let xs ← raws as
    return x :: xs

/-- The result of a dispatched call: a quantity or a bare tensor. -/
inductive Res (V : Type)
  | q (x : V) (u : Units.Unit)
  | bare (x : V)

/-- `Postprocessor.process_spec` (dimspec.py:203-207); `none` is `False`. -/
noncomputable def Ret.resolve (σ : SetOrder) (ctx : Ctx) : Ret → Except Err (Option Units.Unit)
  | .bare => .ok none
  | .name s => match PyDict.get? ctx s with
    | some u => .ok (some u)
    | none => .error .nameError
  | .fn e => do
    let u ← e.eval σ ctx
    return some u
  | .fixed u => .ok (some u)

/-- `BasePostprocessor.process` for one output (dimspec.py:107-119): bare if the spec is `False` or the
output is not a floating/complex tensor (dimspec.py:97-100), otherwise the unit is attached. -/
def post (s : Option Units.Unit) (o : V × Bool) : Res V :=
  match s with
  | none => .bare o.1
  | some u => if o.2 then .q o.1 u else .bare o.1

/-- A torch kernel: raw arguments to outputs (contents, is floating or complex), or an exception. -/
abbrev Kernel (V : Type) := List (Option V) → Except Err (List (V × Bool))

/-- Resolve all return specs. -/
noncomputable def resolveAll (σ : SetOrder) (ctx : Ctx) : List Ret → Except Err (List (Option Units.Unit))
  | [] => .ok []
  | r :: rs => do
    let x ← r.resolve σ ctx
    let xs ← resolveAll σ ctx rs
    return x :: xs

/-- `DimSpec.ret`: one spec for every output (broadcast, dimspec.py:117), or a tuple of specs. -/
inductive RetSpec
  | one (r : Ret)
  | many (rs : List Ret)

/-- `_broadcast_to_and_flatten(spec, _tree)` for `n` outputs (dimspec.py:117). -/
def RetSpec.expand : RetSpec → Nat → List Ret
  | .one r, n => List.replicate n r
  | .many rs, _ => rs

/-- `TensorQuantity.__torch_function__` (tensor_quantity.py:61-79) with a `DimSpec`: convert the
arguments, call the kernel, attach units. -/
noncomputable def call (σ : SetOrder) (F : Kernel V) (ret : RetSpec) (args : List (PSpec × Leaf V)) :
    Except Err (List (Res V)) := do
  let r ← run σ [] args
  let xs ← raws r.2
  let outs ← F xs
  let us ← resolveAll σ r.1 (ret.expand outs.length)
  return List.zipWith post us outs

/-- `BasicDimSpec.__call__` (dimspec.py:81-84), used for every torch function *not* in the table
(tensor_quantity.py:62: `dimspecs.get(func.__name__, default_dimspec)`): arguments untouched, outputs get
the unit of the first argument. -/
def callDefault (F : Kernel V) (args : List (Leaf V)) : Except Err (List (Res V)) := do
  let xs ← raws args
  let outs ← F xs
  let s : Option Units.Unit := match args with
    | .q _ u :: _ => some u
    | .unit u :: _ => some u
    | _ => none
  return outs.map (post s)

/-- `MultiproductDimSpec.__call__` (dimspec.py:125-134): strip all units and multiply them
(`reduce(mul, ...)` raises `TypeError` on an empty sequence). -/
noncomputable def callMulti (σ : SetOrder) (F : Kernel V) (args : List (Leaf V)) :
    Except Err (List (Res V)) := do
  let xs ← raws (args.map fun a => match a with
    | .q x _ => .num x
    | .unit u => .num (algebraMap ℝ V u.value)
    | a => a)
  let us := args.filterMap fun a => match a with
    | .q _ u => some u
    | .unit u => some u
    | _ => none
  let u ← match us with
    | [] => .error .typeError
    | u :: rest => .ok (rest.foldl (Units.Unit.mul σ) u)
  let outs ← F xs
  return outs.map (post (some u))

/-- The exponent argument of a power: a number, or a quantity/`Unit` with stored number `p` (1 for a
`Unit`), exponents `dims` and unit value `scale`.  Numbers are rationals (every float is one). -/
inductive Expo
  | num (p : ℚ)
  | unitful (p : ℚ) (dims : Units.Dict) (scale : ℚ)

/-- Lines 143-146 of `PowerDimSpec.__call__`: a unitful exponent must be dimensionless and is converted
to the unit 1. -/
def Expo.value : Expo → Except Err ℚ
  | .num p => .ok p
  | .unitful p dims scale => if dims ≠ [] then .error .unitError else .ok (p * scale)

/-- `PowerDimSpec.__call__` (dimspec.py:137-150) for a scalar exponent, `pw` being the torch kernel.
(`__rpow__` swaps the two arguments before and after, dimspec.py:140-141,148.) -/
noncomputable def callPow (pw : V → ℚ → Except Err (V × Bool)) (base : Leaf V) (expo : Expo) :
    Except Err (Res V) := do
  let p ← expo.value
  match base with
  | .q x u => do
    let w ← liftErr (u.pow p)
    let o ← pw x p
    return post (some w) o
  | .num x => do
    let o ← pw x p
    return post none o
  | _ => .error .typeError

/-! ### `GenericQuantity.to` -/

/-- A quantity object with its dtype. -/
structure QObj (V D : Type) where
  x : V
  u : Units.Unit
  dt : D

/-- What `.to` returns. -/
inductive ToRes (V D : Type)
  | q (o : QObj V D)
  | bare (x : V) (dt : D)

open Classical in
/-- `GenericQuantity.to(unit, dtype)` (quantity.py:44-62), `none` for an omitted argument.  Returns the
object `self` after the call and the result.  `Tensor.to` under `DisableTorchFunction` (quantity.py:46-47)
returns `self` itself when nothing changes, and otherwise a *plain* tensor without a `unit` attribute;
`ret.unit` (line 55) then raises `AttributeError`, and `return ret` (line 52) returns it bare.  `cast` is
the dtype conversion. -/
noncomputable def QObj.to {D : Type} [DecidableEq D] (cast : D → V → V) (self : QObj V D)
    (unit : Option Units.Unit) (dt : Option D) : Except Err (QObj V D × ToRes V D) :=
  let changed : Option D := match dt with
    | none => none
    | some d => if d = self.dt then none else some d
  match unit, changed with
  | none, none => .ok (self, .q self)
  | none, some d => .ok (self, .q ⟨cast d self.x, self.u, d⟩)
  | some w, none =>
    if self.u.eq w = true then .ok (self, .q self)
    else do
      let f ← liftErr (self.u.to w)
      return (self, .q ⟨f • self.x, w, self.dt⟩)
  | some w, some d =>
    if self.u.eq w = true then .ok (self, .bare (cast d self.x) d)
    else .error .attributeError

end Verif.Quant
