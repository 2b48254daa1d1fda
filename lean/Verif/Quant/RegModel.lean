import Mathlib.Data.List.Induction
import Mathlib.Order.Defs.LinearOrder
import Mathlib.Data.Nat.Find

/-! # Which quantity class `unit * x` makes

Models `quantities/delegating.py`, the registry of backends of `GenericQuantity` (quantities/quantity.py 22-31)
and the dispatch on it in `Unit.__mul__` (units/unit.py 169-181).  Classes and types are numbered; `isinstance`
is an arbitrary relation.  The creation of the class itself (metaclasses, type hints) is not modelled. -/

namespace Verif.Quant.Reg

/-- A type argument: a type, or a `TypeVar`. -/
inductive Key
  | ty (t : ℕ)
  | var (n : ℕ)
  deriving DecidableEq

/-- What a class body `class name(parent, ...)` says about generics: `orig` are the type arguments of each of its
bases (empty for a base without any) if at least one is subscripted, otherwise Python sets no
`__orig_bases__` and the attribute is inherited from `parent`; `index` is `_generic_class_index` if the body sets it.
Simplification: attributes are inherited along one `parent`. -/
structure ClassDef where
  name : ℕ
  parent : ℕ
  orig : Option (List (List Key))
  index : Option ℕ

/-- The attributes `__orig_bases__` and `_generic_class_index` of a class. -/
structure Info where
  orig : List (List Key)
  index : ℕ

/-- The module state: classes defined, and `_generic_quantity_subtypes` (quantity.py 25), in order of insertion. -/
structure St where
  classes : List (ℕ × Info)
  reg : List (Key × ℕ)

/-- Class number 0 is `GenericQuantity(Delegating[_t], Meta)` (quantity.py 22), with a `TypeVar`, index 0
(delegating.py 12); nothing is registered. -/
def St.init : St := ⟨[(0, ⟨[[.var 0], []], 0⟩)], []⟩

/-- `cls._T` (delegating.py 14-17): the first type argument of the base with the index; `none` is IndexError. -/
def backend (i : Info) : Option Key := (i.orig[i.index]?).bind List.head?

/-- `OrderedDict.setdefault`. -/
def setDefault (reg : List (Key × ℕ)) (k : Key) (c : ℕ) : List (Key × ℕ) :=
  if k ∈ reg.map Prod.fst then reg else reg ++ [(k, c)]

/-- The attributes a new class has, own or inherited; `none` if the parent is not a class defined here. -/
def info (s : St) (d : ClassDef) : Option Info :=
  (s.classes.lookup d.parent).map fun p => ⟨d.orig.getD p.orig, d.index.getD p.index⟩

/-- A class definition: `Delegating.__init_subclass__` (delegating.py 21-23) reads `cls._T` and may raise, in which case
neither the name is bound nor the backend registered; then `GenericQuantity.__init_subclass__`
(quantity.py 27-29) registers. -/
def define (s : St) (d : ClassDef) : St :=
  match info s d with
  | none => s
  | some i =>
    match backend i with
    | none => s
    | some k => ⟨(d.name, i) :: s.classes, setDefault s.reg k d.name⟩

/-- A history of class definitions. -/
def run (ds : List ClassDef) : St := ds.foldl define St.init

/-- What `unit * x` does. -/
inductive Res
  | quantity (cls : ℕ)
  | notImplemented
  | typeError
  deriving DecidableEq

variable (isinst : ℕ → ℕ → Bool)

/-- `next(cls for cls in reversed(keys) if isinstance(other, cls))` (unit.py 176-179) for `other` of type `τ`, then the
class registered for it (unit.py 180).  `isinstance(other, TypeVar)` raises TypeError.  The argument
is the registry in reversed order. -/
def find (τ : ℕ) : List (Key × ℕ) → Res
  | [] => .notImplemented
  | (.var _, _) :: _ => .typeError
  | (.ty t, c) :: r => if isinst τ t then .quantity c else find τ r

/-- `unit * x` for `x` of type `τ`, neither a `Unit`, a `Real` nor a quantity (unit.py 169-181). -/
def mulOther (s : St) (τ : ℕ) : Res := find isinst τ s.reg.reverse

/-! ### Specification -/

/-- The successful class definitions of a history with their backends, in order. -/
def log : List ClassDef → List (Key × ℕ)
  | ds => go St.init ds
where
  /-- From state `s` on. -/
  go (s : St) : List ClassDef → List (Key × ℕ)
    | [] => []
    | d :: ds => match (info s d).bind backend with
      | none => go (define s d) ds
      | some k => (k, d.name) :: go (define s d) ds

/-- Position `i` of the log is the first class for its backend `k`, and the class is `c`. -/
def First (l : List (Key × ℕ)) (i : ℕ) (k : Key) (c : ℕ) : Prop :=
  l[i]? = some (k, c) ∧ ∀ j < i, ∀ c', l[j]? ≠ some (k, c')

end Verif.Quant.Reg
