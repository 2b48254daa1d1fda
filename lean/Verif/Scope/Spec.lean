import Verif.Scope.Model

/-! Specification vocabulary for scopes. -/

namespace Verif.Scope

open Verif

/-- The registrations of a history in order: name, value, ignore-if-exists flag. -/
def regs {V} : List (Op V) → List (String × V × Bool)
  | [] => []
  | .assign _ _ :: ops => regs ops
  | .delete _ :: ops => regs ops
  | .register k v ign :: ops => (k, v, ign) :: regs ops
  | .registerMany kvs ign :: ops => kvs.map (fun kv => (kv.1, kv.2, ign)) ++ regs ops

/-- `v` is the registered value of `k`: it was registered under `k` at some point, that registration
was not ignored, and every later registration of `k` was to be ignored if existing. -/
def RegisteredAs {V} (rs : List (String × V × Bool)) (k : String) (v : V) : Prop :=
  ∃ pre ign post, rs = pre ++ (k, v, ign) :: post ∧
    (ign = true → ∀ r ∈ pre, r.1 ≠ k) ∧ (∀ r ∈ post, r.1 = k → r.2.2 = true)

/-- The plain meaning of the assignments and deletions of module code on a namespace. -/
def nsAfter {V} (ns : String → Option V) : List (Op V) → String → Option V
  | [] => ns
  | .assign k v :: ops => nsAfter (fun k' => if k = k' then some v else ns k') ops
  | .delete k :: ops => nsAfter (fun k' => if k = k' then none else ns k') ops
  | .register _ _ _ :: ops => nsAfter ns ops
  | .registerMany _ _ :: ops => nsAfter ns ops

end Verif.Scope
