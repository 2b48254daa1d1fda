import Verif.Autograd.Classes

/-! # C138: from the call to the gradient functions -/

namespace Verif.Autograd

/-! ### Model -/

variable {A K : Type}

/-- What `forward` leaves behind: the outputs returned, what `ctx.saved_tensors` will be, and whether the outputs are marked as
not differentiable. -/
structure Ctx (A : Type) where
  outputs : List A
  saved : List A
  nonDifferentiable : Bool

/-- `TorchFunction.forward` (utils/function_context.py:33-48): `savedTensors` is `cls.saved_tensors`, `fwd` is `cls._forward`, which
gets the saved tensors *and then* all arguments. A single output is a tuple of one. -/
def forward (savedTensors : List A → List A) (fwd : List A → List A) (saveOutput differentiable : Bool) (args : List A) : Ctx A :=
  let saved := savedTensors args
  let out := fwd (saved ++ args)
  ⟨out, if saveOutput then saved ++ out else saved, !differentiable⟩

/-- `CimplMixin._forward` (utils/function_context.py:154-156): the kernel on the first `ninputs` arguments; `None` as the end of a
slice means all of them. -/
def cimplForward (impl : List A → List A) (ninputs : Option ℕ) (args : List A) : List A :=
  match ninputs with
  | some n => impl (args.take n)
  | none => impl args

/-- `differentiable` after `__init_subclass__` (utils/function_context.py:94-104), from the final `gradfuncs`, whether the class (or a
base) redefines `backward` or `_backward`, and the inherited value. -/
def differentiable {α : Type} (gradfuncs : Option α) (redefines inherited : Bool) : Bool :=
  if gradfuncs.isSome || redefines then true else inherited

/-! ### Theorems -/

/-- **C138** a function class around a kernel (all elliptic integrals and incomplete gamma functions): the kernel is called with the inputs,
in order, once; its outputs are returned; the gradient functions will see the inputs followed, if the class saves it, by the
output. -/
theorem C138_forward (impl : List A → List A) (saveOutput diff : Bool) (args : List A) :
    forward id (cimplForward impl (some args.length)) saveOutput diff args =
      ⟨impl args, if saveOutput then args ++ impl args else args, !diff⟩ := by
  simp [forward, cimplForward]

/-- **C138** with the number of inputs unknown the kernel would get the inputs twice. -/
theorem C138_forward_unknown (impl : List A → List A) (saveOutput diff : Bool) (args : List A) :
    (forward id (cimplForward impl none) saveOutput diff args).outputs = impl (args ++ args) := by
  simp [forward, cimplForward]

/-- **C138** call and gradient together, for one output that is saved: entry `i` of the gradients is gradient function `i` of the
inputs and the output, times the incoming gradient. -/
theorem C138_gradient [Semiring K] (process : K → K) (f : List K → K) (gfs : List (Option (GradFn K))) (nig : List Bool) (args : List K)
    (hg : gfs.length = args.length) (hn : nig.length = args.length) (g : K) :
    ∃ l, backward process (some args.length) (rawBackward gfs nig
        (forward id (cimplForward (fun a => [f a]) (some args.length)) true true args).saved) [some g] = .ret l ∧ l.length = args.length ∧
      ∀ (i : ℕ) (hi : i < args.length) (hl : i < l.length),
        (nig[i] = false ∨ gfs[i] = none → l[i] = none) ∧
        (∀ gf, nig[i] = true → gfs[i] = some gf → l[i] = some (process (gf (args ++ [f args])) * g)) := by
  rw [C138_forward]
  exact C58_aligned process gfs nig (args ++ [f args]) args.length hg hn g

/-- **C138** an inverse function class: the gradient functions of the forward class get the inputs of the *forward* function - the
returned value in place `k` - and last the value of the forward function there, which is input `k` of the inverse. -/
theorem C138_inverse [Zero K] (pre post : List K) (y : K) (inv : List K → K) :
    reorder pre.length (forward id (cimplForward (fun a => [inv a]) (some (pre ++ y :: post).length)) true true (pre ++ y :: post)).saved =
      pre ++ inv (pre ++ y :: post) :: (post ++ [y]) := by
  rw [C138_forward]
  generalize inv (pre ++ y :: post) = x
  have h1 : (pre ++ y :: post) ++ [x] = pre ++ (y :: (post ++ [x])) := by simp
  have h2 : (pre ++ (y :: (post ++ [x]))).drop (pre.length + 1) = post ++ [x] := by
    rw [List.drop_append, List.drop_of_length_le (by omega)]; simp
  have h3 : (pre ++ (y :: (post ++ [x]))).getLastD 0 = x := by
    rw [← h1, List.getLastD_eq_getLast?, List.getLast?_concat]; rfl
  have h4 : (pre ++ (y :: (post ++ [x]))).getD pre.length 0 = y := by
    rw [List.getD_append_right _ _ _ _ le_rfl]; simp
  simp only [↓reduceIte, reorder, h1, h2, h3, h4, List.dropLast_concat, List.take_left]

/-- **C138** outputs are marked as not differentiable exactly for classes without gradient functions and without a `backward` of
their own (none of whose bases is differentiable). -/
theorem C138_marked {α : Type} (gradfuncs : Option α) (redefines : Bool) (impl : List A → List A) (saveOutput : Bool) (args : List A) :
    (forward id impl saveOutput (differentiable gradfuncs redefines false) args).nonDifferentiable = true ↔
      gradfuncs = none ∧ redefines = false := by
  cases gradfuncs <;> cases redefines <;> simp [forward, differentiable]

/-! ### The classes of the package -/

/-- How a class passes values on, with the names of the values instead of the values: `saved` and `kernel` say which of the positional
parameters of `saved_tensors` and `_forward` are returned and passed to the kernel; `params` are the parameters of the gradient
functions (after `ctx`). -/
structure Wiring where
  name : String
  sig : List String
  saved : List String → List String := id
  fwd : List String → List String
  saveOutput : Bool := true
  params : List (List String)

/-- `_forward` of a `CimplMixin` class with `n` inputs. -/
def cimpl (n : ℕ) : List String → List String := cimplForward id (some n)

/-- The function classes: special/ellipr.py:17-182, special/ellip.py:14-172, special/gamma.py:10-79, special/gammainc.py:9-78. Their
parameters are listed in the order of the signatures; `out` stands for the output, `_` for parameters taken as `*args`. The value of the
kernel is represented by its arguments, so that the order in which they are passed is visible. -/
def wirings : List Wiring := [
  { name := "Elliprc", sig := ["x", "y"], fwd := cimpl 2, params := [["x", "y", "out"], ["x", "y", "out"]] },
  { name := "Elliprd", sig := ["x", "y", "z"], fwd := cimpl 3, params := List.replicate 3 ["x", "y", "z", "out"] },
  { name := "Elliprf", sig := ["x", "y", "z"], fwd := cimpl 3, saveOutput := false, params := [["x", "y", "z"]] },
  { name := "Elliprg", sig := ["x", "y", "z"], fwd := cimpl 3, saveOutput := false, params := [["x", "y", "z"]] },
  { name := "Elliprj", sig := ["x", "y", "z", "p"], fwd := cimpl 4, params := List.replicate 4 ["x", "y", "z", "p", "out"] },
  { name := "CosecantSquared", sig := ["phi"], fwd := cimpl 1, params := [["phi", "out"]] },
  { name := "EllipK", sig := ["m"], fwd := cimpl 1, params := [["m", "out"]] },
  { name := "EllipE", sig := ["m"], fwd := cimpl 1, params := [["m", "out"]] },
  { name := "EllipD", sig := ["m"], fwd := cimpl 1, params := [["m", "out"]] },
  { name := "EllipPi", sig := ["n", "m"], fwd := cimpl 2, params := [["n", "m", "out"], ["n", "m", "out"]] },
  { name := "EllipKinc", sig := ["c", "m"], fwd := cimpl 2, params := [["c", "m", "out"], ["c", "m", "out"]] },
  { name := "EllipEinc", sig := ["c", "m"], fwd := cimpl 2, params := [["c", "m", "out"], ["c", "m", "out"]] },
  { name := "EllipDinc", sig := ["c", "m"], fwd := cimpl 2, params := [["c", "m", "out"], ["c", "m", "out"]] },
  { name := "EllipPiinc", sig := ["n", "c", "m"], fwd := cimpl 3, params := List.replicate 3 ["n", "c", "m", "out"] },
  { name := "Gamma", sig := ["z"], fwd := fun l => l.take 1, params := [["z", "out"]] },
  { name := "Loggamma", sig := ["z"], fwd := fun l => l.take 1, saveOutput := false, params := [["z"]] },
  { name := "Digamma", sig := ["z"], fwd := fun l => l.take 1, saveOutput := false, params := [["z"]] },
  { name := "Polygamma", sig := ["n", "z"], saved := fun l => l.drop 1, fwd := fun l => [l.getD 1 "", l.getD 0 ""], saveOutput := false,
    params := [["z"]] },
  { name := "TGamma", sig := ["m", "a", "z"], saved := fun l => l.drop 1, fwd := fun l => [l.getD 2 "", l.getD 0 "", l.getD 1 ""],
    params := [["a", "z", "out"], ["a", "z", "out"]] },
  { name := "Gammainc", sig := ["a", "x"], fwd := cimpl 2, params := [["a", "x", "out"], ["a", "x", "out"]] },
  { name := "Gammaincc", sig := ["a", "x"], fwd := cimpl 2, params := [["a", "x", "out"], ["a", "x", "out"]] },
  { name := "Gammaincinv", sig := ["a", "y"], fwd := cimpl 2, params := [["a", "y", "out"], ["a", "y", "out"]] },
  { name := "Gammainccinv", sig := ["a", "y"], fwd := cimpl 2, params := [["a", "y", "out"], ["a", "y", "out"]] } ]

/-- What a class saves, by name. -/
def Wiring.savedNames (w : Wiring) : List String :=
  let saved := w.saved w.sig
  if w.saveOutput then saved ++ ["out"] else saved

/-- **C138** for every function class of the package: the kernel gets the inputs in the order of the signature (though `_forward` is
called with the saved tensors first), and every gradient function gets exactly the values its parameters are named after. -/
theorem C138_wirings : ∀ w ∈ wirings,
    (forward w.saved w.fwd w.saveOutput true w.sig).outputs = w.sig ∧
    (forward w.saved w.fwd w.saveOutput true w.sig).saved = w.saved w.sig ++ (if w.saveOutput then w.sig else []) ∧
    ∀ p ∈ w.params, p = w.savedNames := by
  decide +kernel

/-- The two classes of C78 with explicit signature agree with these. -/
example : ∀ c ∈ classes, ∀ w ∈ wirings, c.name = w.name → c.sig.length = w.sig.length := by decide +kernel

/-- `C138_inverse` for the inverse incomplete gamma function: `(a, y, x)` becomes `(a, x, y)`. -/
example : reorder 1 (forward id (cimplForward (fun _ => [5]) (some 2)) true true [2, 3]).saved = [2, (5 : ℚ), 3] :=
  C138_inverse [2] [] (3 : ℚ) fun _ => 5

/-- `C138_gradient`: two inputs. -/
example : ∃ l, backward (K := ℚ) id (some 2) (rawBackward [some fun l => l.sum, none] [true, true]
    (forward id (cimplForward (fun a => [a.prod]) (some 2)) true true [2, 3]).saved) [some 7] = .ret l ∧ l = [some 77, none] := by
  refine ⟨_, rfl, ?_⟩
  have : ([some 7] : List (Option ℚ)).filterMap id = [7] := rfl
  simp only [id_eq] at this
  norm_num [rawBackward, forward, cimplForward, this]

end Verif.Autograd
