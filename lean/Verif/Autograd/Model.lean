import Mathlib.Analysis.Complex.Basic
import Mathlib.Data.List.Rotate

/-! # Model of phytorch/utils/function_context.py and of the gradient bookkeeping in phytorch/special/ellipr.py

Tensors are modelled elementwise, as elements of a field `K` (the reals or complex numbers; broadcasting and dtypes are
not modelled).  A gradient function
takes the saved tensors; the context argument is folded into the closure.  `needs_input_grad` and the incoming
gradients are supplied by torch. -/

namespace Verif.Autograd

variable {K : Type}

abbrev GradFn (K : Type) := List K → K

/-- How a call to `backward` can end. -/
inductive Out (K : Type)
  /-- returns the tuple -/
  | ret (l : List (Option K))
  /-- never returns (`tuple` of an endless iterator) -/
  | hang
  | typeError

/-- `TorchFunction._backward` (utils/function_context.py:60-65). `zip` stops at the shorter list; `None` for an input
that needs no gradient or has no gradient function. -/
def rawBackward (gradfuncs : List (Option (GradFn K))) (nig : List Bool) (saved : List K) : List (Option K) :=
  List.zipWith (fun n (gf : Option (GradFn K)) => if n then gf.map (· saved) else none) nig gradfuncs

/-- `more_itertools.padded(it, None, n)`: pads up to length `n`; endless for `n = None`. -/
def padded (l : List (Option K)) : Option ℕ → Out K
  | some n => .ret (l ++ List.replicate (n - l.length) none)
  | none => .hang

/-- `TorchFunction.backward` (utils/function_context.py:67-76). `inner` is `cls._backward(ctx)`, with `None` becoming
the empty list (`always_iterable`), `process` is `cls.process_grad`; incoming gradients that are `None` are dropped and
the rest summed against each gradient; without any the result is `cls.ninputs * (None,)`. -/
def backward [Semiring K] (process : K → K) (ninputs : Option ℕ) (inner : List (Option K)) (gouts : List (Option K)) : Out K :=
  match gouts.filterMap id with
  | [] => match ninputs with
    | some n => .ret (List.replicate n none)
    | none => .typeError
  | gs => padded (inner.map (Option.map fun g => (gs.map (process g * ·)).sum)) ninputs

/-! ### Class creation -/

/-- Insert or overwrite a key of a `dict`, keeping the position of an existing key. -/
def dictSet {α : Type} (d : List (String × α)) (k : String) (v : α) : List (String × α) :=
  if d.any (·.1 == k) then d.map fun p => if p.1 == k then (k, v) else p else d ++ [(k, v)]

/-- The automatic list of gradient functions (utils/function_context.py:84-87): a dict over the attributes named
`grad_…` of the classes of the MRO, most basic class first. -/
def autoGradfuncs {α : Type} (mro : List (List (String × α))) : List (String × α) :=
  (mro.reverse.flatMap fun vars => vars.filter fun p => p.1.startsWith "grad_").foldl (fun d p => dictSet d p.1 p.2) []

/-- `__init_subclass__` (utils/function_context.py:82-100). `gradfuncs`, `auto`, `ninputs` are the values of these
attributes (own or inherited) when the class body has run, `update` is `_update_gradfuncs`; returns their values
afterwards. An explicit list is kept unless a base class's list was found automatically; an empty automatic list counts
as absent. -/
def initSubclass {α : Type} (gradfuncs : Option (List (Option α))) (auto : Bool) (ninputs : Option ℕ)
    (mro : List (List (String × α))) (update : List α → List α) : Option (List (Option α)) × Bool × Option ℕ :=
  if gradfuncs.isNone || auto then
    match autoGradfuncs mro with
    | [] => (none, auto, if ninputs.isNone || auto then none else ninputs)
    | l =>
      let gfs := update (l.map Prod.snd)
      (some (gfs.map some), true, if ninputs.isNone || auto then some gfs.length else ninputs)
  else (gradfuncs, auto, if ninputs.isNone then gradfuncs.map List.length else ninputs)

/-- `EllipPiinc._update_gradfuncs` (special/ellip.py:168-170): the last function moves to the front. -/
def lastToFront {α : Type} (l : List α) : List α :=
  match l.getLast? with
  | some a => a :: l.dropLast
  | none => l

/-! ### Mixins -/

/-- `CargsMixin.process_grad` (utils/function_context.py:136-139). Conjugation is the identity on real tensors. -/
noncomputable def conjGrad (g : ℂ) : ℂ := (starRingEnd ℂ) g

/-- `AlternativeForwardMixin._backward` (utils/function_context.py:167-176). `grad args wrt` is
`torch.autograd.grad(cls._alternative_forward(*args), wrt)`, given the positions of the relevant arguments. -/
def alternativeBackward (grad : List K → List ℕ → List K) (nig : List Bool) (saved : List K) : List (Option K) :=
  let relevant := ((nig.zip saved).zipIdx.filter (·.1.1)).map Prod.snd
  if relevant = [] then [] else go nig (grad saved relevant)
where
  /-- `(next(grads) if nig else None for nig in …)` -/
  go : List Bool → List K → List (Option K)
    | [], _ => []
    | false :: nig, gs => none :: go nig gs
    | true :: nig, g :: gs => some g :: go nig gs
    | true :: _, [] => []

/-- `InverseMixin._reorder_params_for_forward` (utils/function_context.py:191-193): swaps the argument at `k` with the
last one (the output of the inverse). -/
def reorder [Zero K] (k : ℕ) (args : List K) : List K :=
  args.take k ++ args.getLastD 0 :: ((args.drop (k + 1)).dropLast ++ [args.getD k 0])

/-- `InverseMixin.__init_subclass__`, `_grad` and `_backward` (utils/function_context.py:195-210).  Gradient functions
are compared by identity; here by their position `k`, where `index` finds the first occurrence, so the model assumes
the forward class lists no function twice. `saved` are the inputs and the output. -/
noncomputable def inverseBackward [Field K] (fwd : List (GradFn K)) (k : ℕ) (nig : List Bool) (saved : List K) : List (Option K) :=
  let ginv := 1 / (fwd.getD k fun _ => 0) (reorder k saved)
  rawBackward (fwd.mapIdx fun i gf => some fun args => if i = k then ginv else -gf (reorder k args) * ginv) nig saved

/-- `more_itertools.circular_shifts`. -/
def circularShifts (args : List K) : List (List K) := (List.range args.length).map args.rotate

/-- `SymmetricElliprMixin._backward` (special/ellipr.py:89-95): `cls._grad(*args[::-1][:-1], args[0])` over the
circular shifts. `g others v` is `cls._grad(*others, v)`. -/
def symmetricBackward [Zero K] (g : List K → K → K) (nig : List Bool) (saved : List K) : List (Option K) :=
  List.zipWith (fun n args => if n then some (g args.reverse.dropLast (args.headD 0)) else none) nig
    (circularShifts saved)

end Verif.Autograd
