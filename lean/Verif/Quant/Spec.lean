import Verif.Quant.Table
import Verif.Units.Spec
import Mathlib.Analysis.SpecialFunctions.Pow.Real

/-! # Specification vocabulary for quantities: SI values and homogeneity -/

namespace Verif.Quant

variable {V : Type} [Ring V] [Algebra ℝ V]

/-- What an argument measures, in base (SI) units; `none` for non-numeric arguments. -/
def Leaf.si : Leaf V → Option V
  | .q x u => some (u.value • x)
  | .unit u => some (algebraMap ℝ V u.value)
  | .num x => some x
  | .other => none

/-- What a result measures, in base units. -/
def Res.si : Res V → V
  | .q x u => u.value • x
  | .bare x => x

/-- The physical dimension of a numeric argument: the exponent of every base dimension. -/
def Leaf.dim : Leaf V → Units.Dim → ℚ
  | .q _ u => u.exp
  | .unit u => u.exp
  | .num _ => fun _ => 0
  | .other => fun _ => 0

/-- The argument is a number, tensor, quantity or unit. -/
def Leaf.numeric : Leaf V → Prop
  | .other => False
  | _ => True

/-- A proper argument: its unit (if any) can be built, and has a positive value. -/
def Leaf.Ok : Leaf V → Prop
  | .q _ u => u.WF ∧ 0 < u.value
  | .unit u => u.WF ∧ 0 < u.value
  | _ => True

/-- Value of a unit expression when the units named in it have values `ρ`. -/
noncomputable def UE.val (ρ : String → ℝ) : UE → ℝ
  | .var s => ρ s
  | .mul a b => a.val ρ * b.val ρ
  | .div a b => a.val ρ / b.val ρ
  | .pow a p => (a.val ρ) ^ (p : ℝ)
  | .inv a => (a.val ρ)⁻¹

/-- Factor by which an argument position is rescaled when the named units are rescaled by `ρ`. -/
noncomputable def PSpec.scale (ρ : String → ℝ) : PSpec → ℝ
  | .name s => ρ s
  | .eval e => e.val ρ
  | .unit _ => 1
  | .skip => 1

/-- Factor by which an output is rescaled. -/
noncomputable def Ret.scale (ρ : String → ℝ) : Ret → ℝ
  | .bare => 1
  | .name s => ρ s
  | .fn e => e.val ρ
  | .fixed _ => 1

/-- The mathematical function computed by a kernel is dimensionally consistent with a spec: rescaling the
arguments by positive factors as the parameter specs say rescales the outputs as the return spec says. -/
def Homogeneous (F : Kernel V) (ps : List PSpec) (ret : RetSpec) : Prop :=
  ∀ ρ : String → ℝ, (∀ s, 0 < ρ s) → ∀ xs outs, xs.length = ps.length → F xs = .ok outs →
    F (List.zipWith (fun p x => x.map fun v => PSpec.scale ρ p • v) ps xs) =
      .ok (List.zipWith (fun r o => (Ret.scale ρ r • o.1, o.2)) (ret.expand outs.length) outs)

/-- Every output of the kernel that is given a unit is a floating point (or complex) tensor. -/
def FloatKernel (F : Kernel V) (ret : RetSpec) : Prop :=
  ∀ xs outs, F xs = .ok outs → ∀ ro ∈ (ret.expand outs.length).zip outs, ro.2.2 = true ∨ ro.1 = .bare

/-- Fixed units appearing in a spec have value 1. -/
def PSpec.fixedOne : PSpec → Prop
  | .unit u => u.value = 1
  | _ => True

/-- Fixed units appearing in a return spec have value 1. -/
def Ret.fixedOne : Ret → Prop
  | .fixed u => u.value = 1
  | _ => True

/-- All return specs. -/
def RetSpec.fixedOne : RetSpec → Prop
  | .one r => r.fixedOne
  | .many rs => ∀ r ∈ rs, r.fixedOne

/-- Skipped arguments are bare: nothing measured is lost by ignoring their unit. -/
def SkipBare : PSpec × Leaf V → Prop
  | (.skip, .q _ _) => False
  | (.skip, .unit _) => False
  | _ => True

/-- The argument is a tensor (a quantity or bare) whose stored numbers are `x`. -/
def Leaf.Stores (a : Leaf V) (x : V) : Prop := a.raw = .ok (some x)

/-- The kernel of a one-argument torch function (floating point output). -/
def k1 (f : V → V) : Kernel V
  | [some x] => .ok [(f x, true)]
  | _ => .error .torch

/-- The kernel of a two-argument torch function (floating point output). -/
def k2 (f : V → V → V) : Kernel V
  | [some x, some y] => .ok [(f x y, true)]
  | _ => .error .torch

/-- The kernel of a two-argument torch function with a boolean output (0 or 1 here). -/
def k2b (f : V → V → V) : Kernel V
  | [some x, some y] => .ok [(f x y, false)]
  | _ => .error .torch

/-- The kernel of a three-argument torch function. -/
def k3 (f : V → V → V → V) : Kernel V
  | [some x, some y, some z] => .ok [(f x y z, true)]
  | _ => .error .torch

/-- The kernel of a four-argument torch function. -/
def k4 (f : V → V → V → V → V) : Kernel V
  | [some x, some y, some z, some w] => .ok [(f x y z w, true)]
  | _ => .error .torch

/-- The kernel of a five-argument torch function. -/
def k5 (f : V → V → V → V → V → V) : Kernel V
  | [some x, some y, some z, some w, some v] => .ok [(f x y z w v, true)]
  | _ => .error .torch

/-- The argument is a tensor: a quantity, or bare (not a `Unit` object). -/
def Leaf.tensor : Leaf V → Prop
  | .q _ _ => True
  | .num _ => True
  | _ => False

end Verif.Quant
