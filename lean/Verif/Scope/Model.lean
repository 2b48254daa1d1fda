import Verif.Common.PyDict

/-! # Model of `phytorch/utils/scoping.py` -/

namespace Verif.Scope

open Verif

/-- An `AutoCleanupGlobalScope` together with the namespace (`context`) it manages
(scoping.py 16-63).  `V` is the type of Python objects. Warnings are not modelled. -/
structure St (V : Type) where
  /-- `self.context`: the module's namespace -/
  ctx : PyDict String V
  /-- `UserDict.data`: what was registered -/
  data : PyDict String V
  /-- `init_keys` (scoping.py 53) -/
  initKeys : List String
  /-- `active` (scoping.py 23, 39) -/
  active : Bool

/-- `AutoCleanupGlobalScope(context)` (scoping.py 17-19, 51-53). -/
def create {V} (ctx : PyDict String V) : St V :=
  { ctx := ctx, data := [], initKeys := ctx.keys, active := true }

/-- `GlobalScope.register` (scoping.py 25-31); the `Bool` tells whether it returned the scope
(`return self`) or `None` (ignored, plain `return`). -/
def register {V} (s : St V) (name : String) (val : V) (ignoreIfExists : Bool) : St V × Bool :=
  if s.data.has name && ignoreIfExists then (s, false)
  else ({ s with data := s.data.set name val }, true)

/-- `GlobalScope.register_many` (scoping.py 33-35). -/
def registerMany {V} (s : St V) (kvs : List (String × V)) (ignoreIfExists : Bool) : St V :=
  kvs.foldl (fun s kv => (register s kv.1 kv.2 ignoreIfExists).1) s

/-- `keyfilter` (scoping.py 57-59): `not key.startswith('__')`. -/
def keyfilter (key : String) : Bool := !key.startsWith "__"

/-- `AutoCleanupGlobalScope._del` (scoping.py 61-63): pop the non-dunder initial keys. -/
def del_ {V} (s : St V) : St V :=
  { s with ctx := (s.initKeys.filter keyfilter).foldl (fun c k => c.pop k) s.ctx }

/-- `GlobalScope.__del__` (scoping.py 44-47). -/
def finalize {V} (s : St V) : St V :=
  if s.active then let s' := del_ s; { s' with ctx := s'.ctx.update s'.data } else s

/-- `GlobalScope.__exit__` (scoping.py 37-39). -/
def exit {V} (s : St V) : St V := { finalize s with active := false }

/-- What can happen between the creation of a scope and its end (or afterwards): module code assigns
or deletes names, or registers. -/
inductive Op (V : Type)
  | assign (name : String) (val : V)
  | delete (name : String)
  | register (name : String) (val : V) (ignoreIfExists : Bool)
  | registerMany (kvs : List (String × V)) (ignoreIfExists : Bool)

/-- One operation. -/
def step {V} (s : St V) : Op V → St V
  | .assign k v => { s with ctx := s.ctx.set k v }
  | .delete k => { s with ctx := s.ctx.pop k }
  | .register k v ign => (register s k v ign).1
  | .registerMany kvs ign => registerMany s kvs ign

/-- A history. -/
def run {V} (s : St V) (ops : List (Op V)) : St V := ops.foldl step s

/-- `AllScope.__all__` (scoping.py 66-69): keys of the namespace that were not there initially. -/
def allNames {V} (initKeys : List String) (ctx : PyDict String V) : List String :=
  ctx.keys.filter (fun k => k ∉ initKeys)

end Verif.Scope
