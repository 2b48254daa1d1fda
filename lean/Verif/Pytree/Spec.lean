import Verif.Pytree.Model

/-! # Specification vocabulary for nested values (independent of the flattening code) -/

namespace Verif.Pytree

variable {L K C : Type}

mutual
/-- The leaves of a value, left to right. -/
def Val.leaves : Val L K C → List L
  | .leaf x => [x]
  | .dict _ vs => Val.leavesL vs
  | .list xs => Val.leavesL xs
  | .tuple xs => Val.leavesL xs
  | .tsub _ xs => Val.leavesL xs
  | .nt _ xs => Val.leavesL xs
/-- Leaves of a list of values. -/
def Val.leavesL : List (Val L K C) → List L
  | [] => []
  | x :: xs => x.leaves ++ Val.leavesL xs
end

mutual
/-- Replace every leaf `x` by the value `g x` and keep the containers around. -/
def Val.bind {L' : Type} (g : L → Val L' K C) : Val L K C → Val L' K C
  | .leaf x => g x
  | .dict ks vs => .dict ks (Val.bindL g vs)
  | .list xs => .list (Val.bindL g xs)
  | .tuple xs => .tuple (Val.bindL g xs)
  | .tsub c xs => .tsub c (Val.bindL g xs)
  | .nt c xs => .nt c (Val.bindL g xs)
/-- The same for a list of values. -/
def Val.bindL {L' : Type} (g : L → Val L' K C) : List (Val L K C) → List (Val L' K C)
  | [] => []
  | x :: xs => x.bind g :: Val.bindL g xs
end

/-- Apply `f` to every leaf and keep the containers. -/
def Val.mapLeaves {L' : Type} (f : L → L') (v : Val L K C) : Val L' K C := v.bind (fun x => .leaf (f x))

mutual
/-- The container structure of a value with the leaves erased (`nt` nodes are given an arbitrary shape:
no spec describes them). -/
def Val.shape : Val L K C → Spec K C
  | .leaf _ => .leaf
  | .dict ks vs => .node .dict (some ks) (Val.shapeL vs)
  | .list xs => .node .list none (Val.shapeL xs)
  | .tuple xs => .node .tuple none (Val.shapeL xs)
  | .tsub c xs => .node (.tsub c) none (Val.shapeL xs)
  | .nt _ _ => .leaf
/-- The same for a list of values. -/
def Val.shapeL : List (Val L K C) → List (Spec K C)
  | [] => []
  | x :: xs => x.shape :: Val.shapeL xs
end

mutual
/-- A genuine Python value: every dict has as many values as keys and no repeated key. -/
def Val.Wf : Val L K C → Prop
  | .leaf _ => True
  | .dict ks vs => ks.length = vs.length ∧ ks.Nodup ∧ Val.WfL vs
  | .list xs => Val.WfL xs
  | .tuple xs => Val.WfL xs
  | .tsub _ xs => Val.WfL xs
  | .nt _ xs => Val.WfL xs
/-- All values of a list are genuine. -/
def Val.WfL : List (Val L K C) → Prop
  | [] => True
  | x :: xs => x.Wf ∧ Val.WfL xs
end

mutual
/-- No genuine namedtuple occurs anywhere in the value. -/
def Val.NoNamed : Val L K C → Prop
  | .leaf _ => True
  | .dict _ vs => Val.NoNamedL vs
  | .list xs => Val.NoNamedL xs
  | .tuple xs => Val.NoNamedL xs
  | .tsub _ xs => Val.NoNamedL xs
  | .nt _ _ => False
/-- The same for a list of values. -/
def Val.NoNamedL : List (Val L K C) → Prop
  | [] => True
  | x :: xs => x.NoNamed ∧ Val.NoNamedL xs
end

mutual
/-- Every tuple-subclass node has a class constructed from one iterable. -/
def Val.SeqOnly (env : ClassEnv C) : Val L K C → Prop
  | .leaf _ => True
  | .dict _ vs => Val.SeqOnlyL env vs
  | .list xs => Val.SeqOnlyL env xs
  | .tuple xs => Val.SeqOnlyL env xs
  | .tsub c xs => env.kind c = .seq ∧ Val.SeqOnlyL env xs
  | .nt _ xs => Val.SeqOnlyL env xs
/-- The same for a list of values. -/
def Val.SeqOnlyL (env : ClassEnv C) : List (Val L K C) → Prop
  | [] => True
  | x :: xs => x.SeqOnly env ∧ Val.SeqOnlyL env xs
end

mutual
/-- Specs as they come out of flattening: a dict node's context lists one distinct key per child, other
nodes have no context, and classes are constructible from one iterable. -/
def Spec.Wf (env : ClassEnv C) : Spec K C → Prop
  | .leaf => True
  | .node .dict ctx cs => (∃ ks, ctx = some ks ∧ ks.length = cs.length ∧ ks.Nodup) ∧ Spec.WfL env cs
  | .node .list ctx cs => ctx = none ∧ Spec.WfL env cs
  | .node .tuple ctx cs => ctx = none ∧ Spec.WfL env cs
  | .node (.tsub c) ctx cs => ctx = none ∧ env.kind c = .seq ∧ Spec.WfL env cs
/-- The same for a list of specs. -/
def Spec.WfL (env : ClassEnv C) : List (Spec K C) → Prop
  | [] => True
  | c :: cs => c.Wf env ∧ Spec.WfL env cs
end

/-- A value's node type, keys and children match a spec node. -/
inductive NodeMatch (env : ClassEnv C) :
    Val L K C → Ty C → Option (List K) → List (Val L K C) → Prop
  | dict {ks vs} : NodeMatch env (.dict ks vs) .dict (some ks) vs
  | list {xs} : NodeMatch env (.list xs) .list none xs
  | tuple {xs} : NodeMatch env (.tuple xs) .tuple none xs
  | tupleSub {xs c} : NodeMatch env (.tuple xs) (.tsub c) none xs
  | tsub {xs c c'} (h : c = c' ∨ env.sub c' c = true) : NodeMatch env (.tsub c xs) (.tsub c') none xs

mutual
/-- `Expands env v s ls`: the structure of `v` is a prefix of that of `s`, and `ls` are the leaves of `v`
each repeated once per leaf of the part of `s` it stands for. -/
inductive Expands (env : ClassEnv C) : Val L K C → Spec K C → List (Val L K C) → Prop
  | leaf (x : L) (s : Spec K C) : Expands env (.leaf x) s (List.replicate s.numLeaves (.leaf x))
  | node {v ty ctx xs cs ls} (h : NodeMatch env v ty ctx xs) (hl : ExpandsL env xs cs ls) :
      Expands env v (.node ty ctx cs) ls
/-- The same, child by child; the lists have equal lengths. -/
inductive ExpandsL (env : ClassEnv C) : List (Val L K C) → List (Spec K C) → List (Val L K C) → Prop
  | nil : ExpandsL env [] [] []
  | cons {x c xs cs f r} (h : Expands env x c f) (hl : ExpandsL env xs cs r) :
      ExpandsL env (x :: xs) (c :: cs) (f ++ r)
end

end Verif.Pytree
