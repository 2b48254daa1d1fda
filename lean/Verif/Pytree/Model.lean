import Verif.Common.PyDict

/-! # Model of `phytorch/utils/pytree.py`

A Python value is modelled as a tree whose internal nodes are the containers the module knows about and
whose leaves are "anything else" (objects of type `L`: tensors, numbers, strings, `None`, instances of
`list`/`dict` subclasses ...).  Reference cycles are excluded (the module's docstring, pytree.py:9,
excludes them too).  Object identity and mutation of the containers are not modelled. -/

namespace Verif.Pytree

/-- Exceptions raised by the module. -/
inductive Err | typeError | valueError
  deriving DecidableEq, Repr

/-- How calling a `tuple` subclass with one iterable argument behaves (pytree.py:46-47 calls
`key(values)`): `seq` is the inherited constructor (`torch.return_types.*`, plain `class T(tuple)`),
`fields n` is the constructor inherited from a namedtuple with `n` fields, which takes `n` positional
arguments. -/
inductive Kind | seq | fields (n : Nat)
  deriving DecidableEq, Repr

/-- The tuple subclasses in play: constructor behaviour and `issubclass` between them. -/
structure ClassEnv (C : Type) where
  kind : C → Kind
  sub : C → C → Bool

/-- Python values.  `dict ks vs` is a dict with `list(d.keys()) = ks`, `list(d.values()) = vs`;
`tsub c xs` an instance of a tuple subclass that `_is_namedtuple_instance` (pytree.py:89-97) rejects;
`nt c xs` an instance it accepts (bases are exactly `(tuple,)` and `_fields` is a tuple of strings). -/
inductive Val (L K C : Type)
  | leaf (x : L)
  | dict (ks : List K) (vs : List (Val L K C))
  | list (xs : List (Val L K C))
  | tuple (xs : List (Val L K C))
  | tsub (c : C) (xs : List (Val L K C))
  | nt (c : C) (xs : List (Val L K C))

/-- Node types that `_get_node_type` (pytree.py:99-102) can put in a spec. -/
inductive Ty (C : Type) | dict | list | tuple | tsub (c : C)
  deriving DecidableEq

/-- `TreeSpec`/`LeafSpec` (pytree.py:114-140); the context is `None` or the list of dict keys. -/
inductive Spec (K C : Type)
  | leaf
  | node (ty : Ty C) (ctx : Option (List K)) (cs : List (Spec K C))

variable {L K C : Type}

mutual
/-- `TreeSpec.num_leaves` (pytree.py:119 and :137). -/
def Spec.numLeaves : Spec K C → Nat
  | .leaf => 1
  | .node _ _ cs => Spec.numLeavesL cs
/-- `sum([spec.num_leaves for spec in children_specs])` (pytree.py:119). -/
def Spec.numLeavesL : List (Spec K C) → Nat
  | [] => 0
  | c :: cs => c.numLeaves + Spec.numLeavesL cs
end

mutual
/-- `tree_flatten` (pytree.py:142-161).  A genuine namedtuple raises `TypeError`: `_get_node_type`
returns the *function* `collections.namedtuple` (pytree.py:101), and `CustomDict.__contains__`
(pytree.py:39-40) calls `issubclass(namedtuple, tuple)`, whose first argument is not a class. -/
def flatten : Val L K C → Except Err (List (Val L K C) × Spec K C)
  | .leaf x => .ok ([.leaf x], .leaf)
  | .dict ks vs => do
    let r ← flattenL vs
    return (r.1, .node .dict (some ks) r.2)
  | .list xs => do
    let r ← flattenL xs
    return (r.1, .node .list none r.2)
  | .tuple xs => do
    let r ← flattenL xs
    return (r.1, .node .tuple none r.2)
  | .tsub c xs => do
    let r ← flattenL xs
    return (r.1, .node (.tsub c) none r.2)
  | .nt _ _ => .error .typeError
/-- The loop over the children (pytree.py:154-159). -/
def flattenL : List (Val L K C) → Except Err (List (Val L K C) × List (Spec K C))
  | [] => .ok ([], [])
  | x :: xs => do
    let f ← flatten x
    let r ← flattenL xs
    return (f.1 ++ r.1, f.2 :: r.2)
end

/-- `{key: value for key, value in zip(context, values)}` (pytree.py:61-62). -/
def dictUnflatten [DecidableEq K] (ks : List K) (vs : List (Val L K C)) : Val L K C :=
  let d : PyDict K (Val L K C) := PyDict.update [] (ks.zip vs)
  .dict (d.map Prod.fst) (d.map Prod.snd)

/-- `SUPPORTED_NODES[spec.type].unflatten_fn(child_pytrees, spec.context)` (pytree.py:180,191) with the
functions of pytree.py:46-47, 61-74. -/
def rebuild [DecidableEq K] (env : ClassEnv C) :
    Ty C → Option (List K) → List (Val L K C) → Except Err (Val L K C)
  | .dict, some ks, vs => .ok (dictUnflatten ks vs)
  | .dict, none, _ => .error .typeError
  | .list, _, vs => .ok (.list vs)
  | .tuple, _, vs => .ok (.tuple vs)
  | .tsub c, _, vs =>
    match env.kind c with
    | .seq => .ok (.tsub c vs)
    | .fields n => if n = 1 then .ok (.tsub c [.list vs]) else .error .typeError

mutual
/-- `tree_unflatten` (pytree.py:164-191).  `values[start:end]` with running offsets is written as
`take`/`drop` of the remaining values. -/
def unflatten [DecidableEq K] (env : ClassEnv C) :
    List (Val L K C) → Spec K C → Except Err (Val L K C)
  | vs, .leaf => match vs with
    | [v] => .ok v
    | _ => .error .valueError
  | vs, .node ty ctx cs =>
    if vs.length ≠ (Spec.node ty ctx cs).numLeaves then .error .valueError else do
      let ch ← unflattenL env vs cs
      rebuild env ty ctx ch
/-- The loop over `spec.children_specs` (pytree.py:183-189). -/
def unflattenL [DecidableEq K] (env : ClassEnv C) :
    List (Val L K C) → List (Spec K C) → Except Err (List (Val L K C))
  | _, [] => .ok []
  | vs, c :: cs => do
    let x ← unflatten env (vs.take c.numLeaves) c
    let r ← unflattenL env (vs.drop c.numLeaves) cs
    return x :: r
end

/-- `tree_map` (pytree.py:193-195). -/
def treeMap [DecidableEq K] (env : ClassEnv C) (f : Val L K C → Val L K C) (v : Val L K C) :
    Except Err (Val L K C) := do
  let r ← flatten v
  unflatten env (r.1.map f) r.2

/-- `node_type == spec.type or issubclass(spec.type, node_type)` (pytree.py:213): `compat env n s` for
value node type `n` and spec node type `s`. -/
def compat [DecidableEq C] (env : ClassEnv C) : Ty C → Ty C → Bool
  | .dict, .dict => true
  | .list, .list => true
  | .tuple, .tuple => true
  | .tuple, .tsub _ => true
  | .tsub c, .tsub c' => c = c' || env.sub c' c
  | _, _ => false

mutual
/-- `_broadcast_to_and_flatten` (pytree.py:205-232); `none` is Python's `None`. -/
def bcast [DecidableEq K] [DecidableEq C] (env : ClassEnv C) :
    Val L K C → Spec K C → Except Err (Option (List (Val L K C)))
  | .leaf x, s => .ok (some (List.replicate s.numLeaves (.leaf x)))
  | .nt _ _, _ => .error .typeError
  | .dict _ _, .leaf => .ok none
  | .list _, .leaf => .ok none
  | .tuple _, .leaf => .ok none
  | .tsub _ _, .leaf => .ok none
  | .dict ks vs, .node ty ctx cs =>
    if compat env .dict ty = false then .ok none
    else if vs.length ≠ cs.length ∨ some ks ≠ ctx then .ok none
    else bcastL env vs cs
  | .list xs, .node ty ctx cs =>
    if compat env .list ty = false then .ok none
    else if xs.length ≠ cs.length ∨ none ≠ ctx then .ok none
    else bcastL env xs cs
  | .tuple xs, .node ty ctx cs =>
    if compat env .tuple ty = false then .ok none
    else if xs.length ≠ cs.length ∨ none ≠ ctx then .ok none
    else bcastL env xs cs
  | .tsub c xs, .node ty ctx cs =>
    if compat env (.tsub c) ty = false then .ok none
    else if xs.length ≠ cs.length ∨ none ≠ ctx then .ok none
    else bcastL env xs cs
/-- The loop over `zip(child_pytrees, spec.children_specs)` with early return (pytree.py:224-232). -/
def bcastL [DecidableEq K] [DecidableEq C] (env : ClassEnv C) :
    List (Val L K C) → List (Spec K C) → Except Err (Option (List (Val L K C)))
  | x :: xs, c :: cs => do
    match ← bcast env x c with
    | none => return none
    | some f => match ← bcastL env xs cs with
      | none => return none
      | some r => return some (f ++ r)
  | _, _ => .ok (some [])
end

end Verif.Pytree
