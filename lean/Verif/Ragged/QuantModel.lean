import Mathlib.Data.List.Basic

/-! # `RaggedQuantity` (`phytorch/ragged/ragged_old.py`): a class that is both a quantity and a ragged tensor

The class graph, Python's method resolution order and `super()`, and the three implementations of `__torch_function__` that meet there.
Tensor contents, units and torch functions are arbitrary types.  `torch.where` and `torch.gradient` (tensor_quantity.py 51-59) have definitions of
their own, `whereTQ` and `gradientTQ`: they call torch functions again (C132).  Left out: torch's list of functions whose result is not wrapped, `Unit` arguments (unit.py 195-203: their `__torch_function__` calls
that of the quantity), user-defined subclasses. -/

namespace Verif.Ragged.RQ

/-- The classes. -/
inductive Cls
  | object | tensorBase | tensor | abc | generic | «meta» | delegating | genericQuantity | tensorQuantity | raggedTensor | raggedQuantity
  deriving DecidableEq, Repr

open Cls

/-- Their bases: torch (`Tensor`), typing, meta.py 12, delegating.py 11, quantity.py 22, tensor_quantity.py 17, ragged_old.py 16, 49. -/
def bases : Cls → List Cls
  | .object => []
  | .tensorBase => [.object]
  | .tensor => [.tensorBase]
  | .abc => [.object]
  | .generic => [.object]
  | .«meta» => [.abc]
  | .delegating => [.generic, .abc]
  | .genericQuantity => [.delegating, .«meta»]
  | .tensorQuantity => [.genericQuantity, .tensor]
  | .raggedTensor => [.«meta», .tensor]
  | .raggedQuantity => [.tensorQuantity, .raggedTensor]

/-- The merge of Python's C3 linearisation: take the first head that is in no tail. `none`: inconsistent (or not enough steps). -/
def merge : Nat → List (List Cls) → Option (List Cls)
  | 0, _ => none
  | n + 1, ls =>
    let ls := ls.filter (· ≠ [])
    if ls = [] then some []
    else match (ls.filterMap List.head?).find? (fun c => ls.all (fun l => c ∉ l.tail)) with
      | none => none
      | some c => (merge n (ls.map fun l => if l.head? = some c then l.tail else l)).map (c :: ·)

/-- The C3 linearisation of a class, with a bound on the depth of the class graph. -/
def mroF : Nat → Cls → Option (List Cls)
  | 0, _ => none
  | n + 1, c => do
    let ms ← (bases c).mapM (mroF n)
    let r ← merge 100 (ms ++ [bases c])
    return c :: r

/-- `cls.__mro__`. -/
def mro (c : Cls) : List Cls := (mroF 8 c).getD []

/-- `issubclass(c, d)`. -/
def issub (c d : Cls) : Bool := d ∈ mro c

/-- How a method is defined. -/
inductive Kind | classMethod | plain
  deriving DecidableEq

/-- The classes that define `__torch_function__`: torch (class method), tensor_quantity.py 44-45 (class method), ragged_old.py 27 (plain function). -/
def tfKind : Cls → Option Kind
  | .tensor => some .classMethod
  | .tensorQuantity => some .classMethod
  | .raggedTensor => some .plain
  | _ => none

/-- The first class of a list that defines `__torch_function__`. -/
def findTF (l : List Cls) : Option (Cls × Kind) := l.findSome? fun c => (tfKind c).map (c, ·)

/-- The part of a method resolution order after a class. -/
def after (c : Cls) (l : List Cls) : List Cls := (l.dropWhile (· ≠ c)).tail

/-- What can be raised: `TypeError`, `AttributeError`, `RecursionError`, or an error of the dimension spec or of the kernel (`n` tells them apart). -/
inductive Err | typeError | attribute | recursion | other (n : Nat)
  deriving DecidableEq, Repr

variable {D U F : Type}

/-- A tensor object: its class, contents and the attributes `unit` (the class attribute is `None`, quantity.py 37) and `sizes` (`none`: not set). -/
structure Obj (D U : Type) where
  cls : Cls
  data : D
  unit : Option U
  sizes : Option (List Int)

/-- An argument of a torch function: a tensor object, or something without `__torch_function__`. -/
inductive Arg (D U : Type)
  | obj (o : Obj D U)
  | other (n : Int)

/-- What a torch kernel returns (with `__torch_function__` disabled): a tensor, a tuple of tensors, or something else. -/
inductive KOut (D : Type)
  | one (d : D)
  | many (l : List D)
  | other (n : Int)

/-- What a call returns. -/
inductive Ret (D U : Type)
  | one (o : Obj D U)
  | many (l : List (Obj D U))
  | other (n : Int)
  | notImpl

/-- The objects in a result are changed by `g`. -/
def Ret.map (g : Obj D U → Obj D U) : Ret D U → Ret D U
  | .one o => .one (g o)
  | .many l => .many (l.map g)
  | r => r

/-- Python values that are passed between the implementations of `__torch_function__`. -/
inductive Val (D U F : Type)
  | cls (c : Cls)
  | obj (o : Obj D U)
  | fn (f : F)
  | types (l : List Cls)
  | args (l : List (Arg D U))
  | kwargs (l : List (String × Arg D U))

/-- The surroundings: the torch kernels; the forbidden functions (dimspec.py); what dimspec, signature and postprocessor of a function do to arguments and
results (tensor_quantity.py 61-77; `none`: the function has no spec or no signature). -/
structure World (D U F : Type) where
  kernel : F → List (Arg D U) → List (String × Arg D U) → Except Err (KOut D)
  forbidden : F → Bool
  spec : F → Option (List (Arg D U) → List (String × Arg D U) →
    Except Err (List (Arg D U) × List (String × Arg D U) × (Obj D U → Obj D U)))

/-- A tensor turned into class `c`: `as_subclass`, without attributes. -/
def fresh (c : Cls) (d : D) : Obj D U := ⟨c, d, none, none⟩

/-- torch's `_convert(ret, cls)`. -/
def wrap (c : Cls) : KOut D → Ret D U
  | .one d => .one (fresh c d)
  | .many l => .many (l.map (fresh c))
  | .other n => .other n

variable (W : World D U F)

/-- `Tensor.__torch_function__(cls, func, types, args, kwargs)` of torch. -/
def tensorTF : List (Val D U F) → Except Err (Ret D U)
  | [.cls c, .fn f, .types ts, .args as, .kwargs ks] =>
    if ts.all (issub c) then do
      let r ← W.kernel f as ks
      return wrap c r
    else .ok .notImpl
  | _ => .error .typeError

/-- Binding of the method found from `super(C, v)`, `v` the first argument of the calling method: `TypeError` unless `v` is an instance or a subclass of
`C`; the first definition after `C` in the method resolution order of `v`; a class method gets the class, a plain function the instance, or
nothing if `v` is a class. -/
def superBind (C : Cls) (v : Val D U F) (rest : List (Val D U F)) : Except Err (Cls × List (Val D U F)) :=
  match v with
  | .cls d =>
    if issub d C then
      match findTF (after C (mro d)) with
      | none => .error .attribute
      | some (E, .classMethod) => .ok (E, .cls d :: rest)
      | some (E, .plain) => .ok (E, rest)
    else .error .typeError
  | .obj o =>
    if issub o.cls C then
      match findTF (after C (mro o.cls)) with
      | none => .error .attribute
      | some (E, .classMethod) => .ok (E, .cls o.cls :: rest)
      | some (E, .plain) => .ok (E, .obj o :: rest)
    else .error .typeError
  | _ => .error .typeError

/-- `self._meta_update(ret)` of a ragged tensor, if `ret` is of the class of `self` (ragged_old.py 22-25, 29; meta.py 32-37): it gets the `sizes` of `self`,
if `self` has them. -/
def ragUpdate (s : Obj D U) : Ret D U → Ret D U
  | .one o => if issub o.cls s.cls then .one { o with sizes := s.sizes.or o.sizes } else .one o
  | r => r

/-- `__torch_function__` as defined in class `C`, called with a list of arguments; the bound is Python's on recursion. -/
def tf : Nat → Cls → List (Val D U F) → Except Err (Ret D U)
  | 0, _, _ => .error .recursion
  | n + 1, C, vs =>
    match C with
    | .tensor => tensorTF W vs
    | .raggedTensor => -- ragged_old.py 27-29: (self, func, types, args=(), kwargs={})
      let body := fun (self func types args kwargs : Val D U F) => do
        let (E, ws) ← superBind .raggedTensor self [func, types, args, kwargs]
        let ret ← tf n E ws
        match self with
        | .obj s => return ragUpdate s ret
        | _ => .error .typeError
      match vs with
      | [self, func, types] => body self func types (.args []) (.kwargs [])
      | [self, func, types, args] => body self func types args (.kwargs [])
      | [self, func, types, args, kwargs] => body self func types args kwargs
      | _ => .error .typeError
    | .tensorQuantity => -- tensor_quantity.py 44-79
      match vs with
      | [cls, .fn f, .types ts, .args as, .kwargs ks] =>
        if W.forbidden f then .ok .notImpl
        else match W.spec f with
          | none => do
            let (E, ws) ← superBind .tensorQuantity cls [.fn f, .types ts, .args as, .kwargs ks]
            tf n E ws
          | some sp => do
            let (as', ks', post) ← sp as ks
            let (E, ws) ← superBind .tensorQuantity cls [.fn f, .types ts, .args as', .kwargs ks']
            let ret ← tf n E ws
            return ret.map post
      | _ => .error .typeError
    | _ => .error .attribute

/-- torch's list of arguments with `__torch_function__`, one per class, from the left, subclasses before their superclasses. -/
def insertOv (o : Obj D U) (l : List (Obj D U)) : List (Obj D U) :=
  if o.cls = .tensor ∨ l.any (fun s => s.cls = o.cls) then l
  else l.takeWhile (fun s => !issub o.cls s.cls) ++ o :: l.dropWhile (fun s => !issub o.cls s.cls)

/-- The tensor objects among the arguments. -/
def objs (as : List (Arg D U)) (ks : List (String × Arg D U)) : List (Obj D U) :=
  (as ++ ks.map Prod.snd).filterMap fun | .obj o => some o | .other _ => none

/-- The list for a call. -/
def overloaded (as : List (Arg D U)) (ks : List (String × Arg D U)) : List (Obj D U) :=
  (objs as ks).foldl (fun l o => insertOv o l) []

/-- The call of `__torch_function__` by torch: on the class, or, if it is a plain function, on the object. -/
def invoke (o : Obj D U) (rest : List (Val D U F)) : Except Err (Ret D U) :=
  match findTF (mro o.cls) with
  | none => .error .attribute
  | some (E, .classMethod) => tf W 100 E (.cls o.cls :: rest)
  | some (E, .plain) => tf W 100 E (.obj o :: rest)

/-- One after the other until one does not return `NotImplemented`. -/
def tryAll (rest : List (Val D U F)) : List (Obj D U) → Except Err (Ret D U)
  | [] => .error .typeError
  | o :: os => do
    match ← invoke W o rest with
    | .notImpl => tryAll rest os
    | r => return r

/-- A call of a torch function (also of a tensor method, operator or attribute like `shape`). -/
def torchCall (f : F) (as : List (Arg D U)) (ks : List (String × Arg D U)) : Except Err (Ret D U) :=
  match overloaded as ks with
  | [] => do return wrap .tensor (← W.kernel f as ks)
  | l => tryAll W [.fn f, .types (l.map Obj.cls), .args as, .kwargs ks] l

/-- `torch.where(*args, **kwargs)` as `TensorQuantity.__torch_function__` runs it (tensor_quantity.py 58-59): `w` is `Tensor.where`, an `IndexError` is
`other 0`. -/
def whereTQ (w : F) (as : List (Arg D U)) : Except Err (Ret D U) :=
  match as with
  | c :: x :: y :: _ => torchCall W w [x, c, y] []
  | _ => .error (.other 0)

/-- `torch.gradient(*args, **kwargs)` as `TensorQuantity.__torch_function__` runs it (tensor_quantity.py 51-57): it begins with the attribute `ndim` of the
first argument; the rest is arbitrary. -/
def gradientTQ (ndim : F) (k : Ret D U → Except Err (Ret D U)) (as : List (Arg D U)) : Except Err (Ret D U) :=
  match as with
  | x :: _ => do k (← torchCall W ndim [x] [])
  | [] => .error (.other 0)

/-- `RaggedQuantity(arg, sizes=sizes, unit=unit)` (ragged_old.py 50-53, 19-20, meta.py 27-30). -/
def new (arg : Obj D U) (sizes : List Int) (unit : Option U) : Obj D U :=
  let unit := if issub arg.cls .tensorQuantity ∧ unit.isNone then arg.unit else unit
  ⟨.raggedQuantity, arg.data, unit, some sizes⟩

/-- `q.value` (tensor_quantity.py 20-23): runs without `__torch_function__`. -/
def value (q : Obj D U) : Obj D U := fresh .tensor q.data

/-- `q.to(unit)` (quantity.py 45-62, tensor_quantity.py 25-29) of a ragged quantity; `Tensor.to(q)` without arguments is `q`. `clone`, `asSubclass`: the two
torch functions. What follows their calls is arbitrary. -/
def convert [DecidableEq U] (clone asSubclass : F) (k : Ret D U → Except Err (Ret D U)) (q : Obj D U) (unit : Option U) : Except Err (Ret D U) :=
  if q.unit = unit then .ok (.one q)
  else if unit.isSome ∧ q.unit.isSome then do k (← torchCall W clone [.obj q] [])
  else do k (← torchCall W asSubclass [.obj q] [])

/-- `q.reduce_add()` (ragged_old.py 41-42) begins with the attribute `shape` (37-39), which torch passes to `__torch_function__`; the rest is arbitrary. -/
def reduceAdd (shape : F) (k : Ret D U → Except Err (Ret D U)) (q : Obj D U) : Except Err (Ret D U) := do
  k (← torchCall W shape [.obj q] [])

end Verif.Ragged.RQ
