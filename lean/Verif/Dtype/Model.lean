import Verif.Common.Round
import Mathlib.Data.Complex.Basic

/-! # Precision of the arguments of the extension functions

Modelled: `phytorch/utils/complex.py` 19-36 (`to_complex`, `as_complex_tensors`, `with_complex_args`) followed by the promotion to a common dtype and the dispatch on it in `phytorch-extensions/common/implement.h` 28-44 and `implement_cpu.h` 8-11 (the same in `roots_cpu.cpp` 6-17 and `meijerg_cpu.cpp`).

These are the first and second step of every call of `ellipk`, `ellipe`, `ellipd`, `ellippi` and their incomplete versions, the Carlson forms, `roots` and the gamma functions of the extension.

Simplifications: one entry of each (broadcast) tensor; the exponent range of the formats is unbounded (no overflow); PyTorch's `as_tensor`, `complex`, `to` and `TensorIterator` promotion are modelled after their documentation, for CPU tensors; `bfloat16` is left out. -/

namespace Verif.Dtype
open Verif.Round

/-- Floating point formats of PyTorch (`torch.float16`, `torch.float32`, `torch.float64`). -/
inductive Prec | half | single | double
deriving DecidableEq

/-- Significant bits of the formats. -/
def Prec.bits : Prec → ℕ
  | .half => 11
  | .single => 24
  | .double => 53

/-- dtypes; `int` stands for all the integer ones. -/
inductive DType
  | bool
  | int
  | real (p : Prec)
  | cplx (p : Prec)

/-- One entry of a tensor, with the dtype and the shape of the tensor. -/
structure Tensor where
  dtype : DType
  shape : List ℕ
  val : ℂ

/-- What a user may pass (`None` is an `Option` around this): a Python number or a tensor. -/
inductive Arg
  | pyBool (b : Bool)
  | pyInt (n : ℤ)
  | pyFloat (x : ℝ)
  | pyComplex (z : ℂ)
  | tensor (t : Tensor)

/-- PyTorch's settings: the rounding of each format and the default dtype. -/
structure Env where
  fl : Prec → ℝ → ℝ
  near : ∀ p, Nearest p.bits (fl p)
  dflt : Prec

/-- Conversion of a complex number to precision `p`, part by part. -/
def Env.round (E : Env) (p : Prec) (z : ℂ) : ℂ := ⟨E.fl p z.re, E.fl p z.im⟩

/-- `torch.as_tensor(a)` of `complex.py` 26: numbers become 0-dimensional tensors, floats and complex numbers in the default precision. -/
noncomputable def asTensor (E : Env) : Arg → Tensor
  | .pyBool b => ⟨.bool, [], if b then 1 else 0⟩
  | .pyInt n => ⟨.int, [], n⟩
  | .pyFloat x => ⟨.real E.dflt, [], E.round E.dflt x⟩
  | .pyComplex z => ⟨.cplx E.dflt, [], E.round E.dflt z⟩
  | .tensor t => t

/-- `to_complex`, `complex.py` 19-22: complex tensors unchanged, floating ones get a zero imaginary part, others are converted to the default dtype first. -/
def toComplex (E : Env) (t : Tensor) : Tensor :=
  match t.dtype with
  | .cplx _ => t
  | .real p => { t with dtype := .cplx p, val := ⟨t.val.re, 0⟩ }
  | .int | .bool => { t with dtype := .cplx E.dflt, val := ⟨E.fl E.dflt t.val.re, 0⟩ }

/-- `as_complex_tensors`, `complex.py` 25-26. -/
noncomputable def asComplexTensors (E : Env) (args : List (Option Arg)) : List (Option Tensor) :=
  args.map (Option.map fun a => toComplex E (asTensor E a))

/-- The precision of a complex tensor. -/
def Tensor.prec (t : Tensor) : Prec :=
  match t.dtype with
  | .cplx p | .real p => p
  | _ => .half

/-- Larger of two formats (`promote_types`). -/
def promote : Prec → Prec → Prec
  | .double, _ | _, .double => .double
  | .single, _ | _, .single => .single
  | .half, .half => .half

/-- The `TensorIterator`'s common dtype for complex inputs (`implement.h` 32, `promote_inputs_to_common_dtype`): the 0-dimensional inputs only count if all of the inputs are. -/
def commonPrec (ts : List Tensor) : Prec :=
  let dims := ts.filter fun t => t.shape ≠ []
  ((if dims.isEmpty then ts else dims).map Tensor.prec).foldr promote .half

/-- `implement_`, `implement.h` 28-44, and `IMPLEMENT_CPU`, `implement_cpu.h` 8-11: the format the kernel computes in and the entries it gets; half precision has no kernel. -/
def implement (E : Env) (ts : List Tensor) : Option (Prec × List ℂ) :=
  match commonPrec ts with
  | .half => none
  | p => some (p, ts.map fun t => E.round p t.val)

/-- A call of an extension function through `with_complex_args` (`complex.py` 33-36), up to the kernel: the format it computes in and the numbers it computes with; `none` is a `RuntimeError`. -/
noncomputable def call (E : Env) (args : List Arg) : Option (Prec × List ℂ) :=
  implement E (args.map fun a => toComplex E (asTensor E a))

end Verif.Dtype
