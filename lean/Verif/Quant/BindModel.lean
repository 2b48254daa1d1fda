import Verif.Quant.Table

/-! # Model of the argument passing of `TensorQuantity.__torch_function__` and of `quantities/signatures.py`

`A` is the type of single arguments. `inspect.Signature.bind`, `BoundArguments.apply_defaults`, `.args` and `.kwargs` are those of CPython 3.9-3.11
(Lib/inspect.py), transcribed because tensor_quantity.py:64-73 is built on them. -/

namespace Verif.Quant.Bind

/-- `inspect.Parameter.kind`. -/
inductive Kind
  | posOnly | posOrKw | varPos | kwOnly | varKw
  deriving DecidableEq, Repr

/-- An entry of `BoundArguments.arguments`: a plain argument, the tuple of a `*args` parameter, the dict of a `**kwargs` parameter. -/
inductive Val (A : Type)
  | one (a : A)
  | tup (l : List A)
  | dict (d : PyDict String A)

/-- `inspect.Parameter`; `default = none` stands for `Parameter.empty`. -/
structure Param (A : Type) where
  name : String
  kind : Kind
  default : Option A

/-- `Signature.parameters`, in order. -/
abbrev Sig (A : Type) := List (Param A)

/-- `BoundArguments.arguments`. -/
abbrev Bound (A : Type) := PyDict String (Val A)

variable {A : Type}

/-- The first loop of `Signature._bind` (positional arguments): the arguments so far and the parameters left. -/
def bindPos (kw : PyDict String A) : Sig A → List A → Bound A → Except Err (Bound A × Sig A)
  | [], [], acc => .ok (acc, [])
  | p :: ps, [], acc =>
    if p.kind = .varPos then .ok (acc, ps)
    else if kw.has p.name then if p.kind = .posOnly then .error .typeError else .ok (acc, p :: ps)
    else if p.kind = .varKw ∨ p.default.isSome then .ok (acc, p :: ps)
    else .error .typeError
  | [], _ :: _, _ => .error .typeError
  | p :: ps, a :: as, acc =>
    if p.kind = .varKw ∨ p.kind = .kwOnly then .error .typeError
    else if p.kind = .varPos then .ok (acc.set p.name (.tup (a :: as)), ps)
    else if kw.has p.name ∧ p.kind ≠ .posOnly then .error .typeError
    else bindPos kw ps as (acc.set p.name (.one a))

/-- The second loop of `Signature._bind` (keyword arguments): the arguments so far, the keywords left, the `**kwargs` parameter. -/
def bindKw : Sig A → PyDict String A → Bound A → Option String → Except Err (Bound A × PyDict String A × Option String)
  | [], kw, acc, vk => .ok (acc, kw, vk)
  | p :: ps, kw, acc, vk =>
    if p.kind = .varKw then bindKw ps kw acc (some p.name)
    else if p.kind = .varPos then bindKw ps kw acc vk
    else match kw.get? p.name with
      | some a => if p.kind = .posOnly then .error .typeError else bindKw ps (kw.pop p.name) (acc.set p.name (.one a)) vk
      | none => if p.default.isSome then bindKw ps kw acc vk else .error .typeError

/-- `Signature.bind(*args, **kwargs)`, called in tensor_quantity.py:64-65. -/
def bind (sig : Sig A) (args : List A) (kw : PyDict String A) : Except Err (Bound A) := do
  let r ← bindPos kw sig args []
  let s ← bindKw r.2 kw r.1 none
  match s.2.1, s.2.2 with
  | [], _ => .ok s.1
  | rest, some n => .ok (s.1.set n (.dict rest))
  | _ :: _, none => .error .typeError

/-- What `apply_defaults` enters for a parameter that is not there. -/
def Param.dfl (p : Param A) : Option (Val A) :=
  match p.kind with
  | .varPos => some (.tup [])
  | .varKw => some (.dict [])
  | _ => p.default.map .one

/-- `apply_defaults()` followed by the list of all arguments in the order of the signature, tensor_quantity.py:66-68 (`none`: `KeyError`). -/
def withDefaults (sig : Sig A) (b : Bound A) : Option (List (Val A)) :=
  sig.mapM fun p => (b.get? p.name).or p.dfl

/-- What a function with signature `sig` receives when it is called with `args` and `kw`: a value for each parameter, in order. -/
def received (sig : Sig A) (args : List A) (kw : PyDict String A) : Except Err (List (Val A)) := do
  let b ← bind sig args kw
  match withDefaults sig b with
  | some vals => .ok vals
  | none => .error .typeError

/-- `BoundArguments.args`. -/
def argsOf (b : Bound A) : Sig A → List A
  | [] => []
  | p :: ps =>
    if p.kind = .varKw ∨ p.kind = .kwOnly then []
    else match b.get? p.name with
      | none => []
      | some (.tup l) => l ++ argsOf b ps
      | some (.one a) => a :: argsOf b ps
      | some (.dict _) => argsOf b ps

/-- `BoundArguments.kwargs`; `started` is `kwargs_started`, `kw` the dict so far. -/
def kwargsOf (b : Bound A) : Sig A → Bool → PyDict String (Val A) → PyDict String (Val A)
  | [], _, kw => kw
  | p :: ps, started, kw =>
    if started = true ∨ p.kind = .varKw ∨ p.kind = .kwOnly then
      match b.get? p.name with
      | none => kwargsOf b ps true kw
      | some (.dict d) => if p.kind = .varKw then kwargsOf b ps true (kw.update (d.map fun x => (x.1, .one x.2))) else kwargsOf b ps true (kw.set p.name (.dict d))
      | some v => kwargsOf b ps true (kw.set p.name v)
    else if b.has p.name then kwargsOf b ps false kw
    else kwargsOf b ps true kw

/-- Keyword arguments that are single arguments (a tuple or a dict would be a new kind of object for the callee: not a call of ours). -/
def plainKw : PyDict String (Val A) → Except Err (PyDict String A)
  | [] => .ok []
  | (k, .one a) :: d => do
    let r ← plainKw d
    return (k, a) :: r
  | _ :: _ => .error .typeError

/-- The loop tensor_quantity.py:70-72: `old` are the arguments with defaults, `new` what the dimension spec made of them (possibly fewer),
`same` is Python's `is`. -/
def rewrite (same : Val A → Val A → Bool) : Sig A → List (Val A) → List (Val A) → Bound A → Bound A
  | p :: ps, o :: os, n :: ns, b => rewrite same ps os ns (if b.has p.name || !same o n then b.set p.name n else b)
  | _, _, _, b => b

/-- The call made in tensor_quantity.py:64-77: `spec` is `dimspec(*_args)` (new arguments and the postprocessor), `F` the torch function, called with
positional and keyword arguments. -/
def dispatch {R P : Type} (same : Val A → Val A → Bool) (sig : Sig A) (spec : List (Val A) → Except Err (List (Val A) × P))
    (F : List A → PyDict String A → Except Err R) (args : List A) (kw : PyDict String A) : Except Err (R × P) := do
  let b ← bind sig args kw
  match withDefaults sig b with
  | none => .error .typeError
  | some old => do
    let (new, post) ← spec old
    let b' := rewrite same sig old new b
    let kw' ← plainKw (kwargsOf b' sig false [])
    let r ← F (argsOf b' sig) kw'
    return (r, post)

/-! ### A `DimSpec` on arguments with structure

An argument is given by its leaves in order (`pytree.tree_flatten`), as in `Verif.Quant.torchCall`. -/

/-- `pytree.tree_flatten` of an entry (dimspec.py:164). -/
def Val.leaves {L : Type} : Val (List L) → List L
  | .one l => l
  | .tup ls => ls.flatten
  | .dict d => (d.map Prod.snd).flatten

/-- Cut a list into pieces as long as the given ones. -/
def cut {L : Type} : List (List L) → List L → List (List L)
  | [], _ => []
  | l :: ls, xs => xs.take l.length :: cut ls (xs.drop l.length)

/-- `pytree.tree_unflatten(_retarg, _tree)` (dimspec.py:191). -/
def Val.refill {L : Type} : Val (List L) → List L → Val (List L)
  | .one _, xs => .one xs
  | .tup ls, xs => .tup (cut ls xs)
  | .dict d, xs => .dict ((d.map Prod.fst).zip (cut (d.map Prod.snd) xs))

/-- All of `retargs`. -/
def refillAll {L : Type} : List (Val (List L)) → List L → List (Val (List L))
  | [], _ => []
  | v :: vs, xs => v.refill (xs.take v.leaves.length) :: refillAll vs (xs.drop v.leaves.length)

section
open Verif.Units (SetOrder)
variable {V : Type} [Ring V] [Algebra ℝ V]

/-- `DimSpec.__call__` (dimspec.py:157-195): new arguments with the structure of the old ones, and the context for the postprocessor. -/
noncomputable def dimSpecCall (σ : SetOrder) (f : Fam) (vals : List (Val (List (Leaf V)))) : Except Err (List (Val (List (Leaf V))) × Ctx) := do
  let r ← run σ [] (pairs f (vals.map Val.leaves))
  return (refillAll vals r.2, r.1)

/-- The torch function with signature `sig` and kernel `F` called with positional and keyword arguments. -/
def kernelCall (sig : Sig (List (Leaf V))) (F : Kernel V) (args : List (List (Leaf V))) (kw : PyDict String (List (Leaf V))) :
    Except Err (List (V × Bool)) := do
  let vals ← received sig args kw
  let xs ← raws (vals.map Val.leaves).flatten
  F xs

/-- `TensorQuantity.__torch_function__` (tensor_quantity.py:61-79) for a function with a `DimSpec` and a signature, with the arguments as passed. -/
noncomputable def torchFunction (same : Val (List (Leaf V)) → Val (List (Leaf V)) → Bool) (σ : SetOrder) (f : Fam) (sig : Sig (List (Leaf V)))
    (F : Kernel V) (args : List (List (Leaf V))) (kw : PyDict String (List (Leaf V))) : Except Err (List (Res V)) := do
  let r ← dispatch same sig (dimSpecCall σ f) (kernelCall sig F) args kw
  let us ← resolveAll σ r.2 (f.spec.2.expand r.1.length)
  return List.zipWith post us r.1

end

/-! ### `signatures.py` -/

/-- What `__missing__` finds out about a function, `Fn` being the type of function objects. -/
inductive Lookup (Fn S : Type)
  /-- the functions of signatures.py:40-47: the entry of another function -/
  | sameAs (g : Fn)
  /-- a signature, or `None`: signatures.py:48-77 -/
  | value (s : Option S)
  /-- an exception other than the ones caught there -/
  | raises

/-- `SigDict.__getitem__` with `__missing__`, signatures.py:35-80. `fuel` bounds the chain of aliases (of length one in the code). The state is the
dict; a failed lookup of an alias leaves it as it is. -/
def sigGet {Fn S : Type} [DecidableEq Fn] (look : Fn → Lookup Fn S) : Nat → PyDict Fn (Option S) → Fn → PyDict Fn (Option S) × Except Err (Option S)
  | fuel, d, f =>
    match d.get? f with
    | some s => (d, .ok s)
    | none => match look f, fuel with
      | .value s, _ => (d.set f s, .ok s)
      | .raises, _ => (d, .error .torch)
      | .sameAs _, 0 => (d, .error .torch)
      | .sameAs g, fuel + 1 => match sigGet look fuel d g with
        | (d', .ok s) => (d'.set f s, .ok s)
        | (d', .error e) => (d', .error e)

/-- `SigDict.__contains__`, signatures.py:82-87 (`KeyError` cannot come out of `__missing__`; other exceptions do): `True` in both branches. -/
def sigContains {Fn S : Type} [DecidableEq Fn] (look : Fn → Lookup Fn S) (fuel : Nat) (d : PyDict Fn (Option S)) (f : Fn) :
    PyDict Fn (Option S) × Except Err Bool :=
  match sigGet look fuel d f with
  | (d', .ok _) => (d', .ok true)
  | (d', .error e) => (d', .error e)

/-- `SigDict.get(key, default)`, signatures.py:91-96. -/
def sigGetDefault {Fn S : Type} [DecidableEq Fn] (look : Fn → Lookup Fn S) (fuel : Nat) (d : PyDict Fn (Option S)) (f : Fn) (default : Option S) :
    PyDict Fn (Option S) × Except Err (Option S) :=
  match sigContains look fuel d f with
  | (d', .error e) => (d', .error e)
  | (d', .ok true) => sigGet look fuel d' f
  | (d', .ok false) => (d', .ok default)

end Verif.Quant.Bind
