import Verif.Dtype.Model

/-! # What a user may expect of the precision of the arguments -/

namespace Verif.Dtype
open Verif.Round

/-- The number an argument stands for. -/
noncomputable def Arg.value : Arg → ℂ
  | .pyBool b => if b then 1 else 0
  | .pyInt n => n
  | .pyFloat x => x
  | .pyComplex z => z
  | .tensor t => t.val

/-- Both parts have at most `n` significant bits. -/
def Exact (n : ℕ) (z : ℂ) : Prop := IsFl n z.re ∧ IsFl n z.im

/-- What Python and PyTorch can hold: Python floats are doubles, entries of tensors have the precision of their dtype and entries of real tensors are real. -/
def Arg.Valid : Arg → Prop
  | .pyFloat x => IsFl 53 x
  | .pyComplex z => Exact 53 z
  | .tensor t => match t.dtype with
    | .bool => t.val = 0 ∨ t.val = 1
    | .int => ∃ n : ℤ, t.val = n
    | .real p => Exact p.bits t.val ∧ t.val.im = 0
    | .cplx p => Exact p.bits t.val
  | _ => True

/-- A tensor of the precision `p`, real or complex. -/
def Arg.IsFloating (p : Prec) : Arg → Prop
  | .tensor t => t.dtype = .real p ∨ t.dtype = .cplx p
  | _ => False

/-- A tensor with at least one dimension. -/
def Arg.Dimensioned : Arg → Prop
  | .tensor t => t.shape ≠ []
  | _ => False

end Verif.Dtype
