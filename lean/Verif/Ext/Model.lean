/-! # Loading of the compiled extensions on access

Modelled: `phytorch/extensions/__init__.py` 7-34 (`__getattr__`), with the parts of Python's import system it relies on: `sys.modules`, the binding of an imported
submodule as an attribute of its package, and module level `__getattr__` being called only for attributes that are not set.

Simplifications: module names are identifiers (no dots); which extensions are compiled, which stubs (`.pyi` files) and which top level modules exist does not change;
modules are loaded without errors of their own; warnings are left out; nobody deletes entries of `sys.modules` or attributes of the package. -/

namespace Verif.Ext

/-- Where a module object came from. -/
inductive Kind
  | compiled
  | dummy
  | toplevel
deriving DecidableEq

/-- A module object: its origin, name and identity. -/
structure Obj where
  kind : Kind
  name : String
  id : Nat
deriving DecidableEq

/-- What can be found on the disk: compiled extensions in `phytorch/extensions`, stubs beside them, and unrelated top level modules. -/
structure Disk where
  compiled : String → Bool
  stub : String → Bool
  toplevel : String → Bool

/-- State of the interpreter: `sys.modules['phytorch.extensions.' + name]`, `sys.modules[name]`, the attributes (`globals()`) of `phytorch.extensions`, and the next identity. -/
structure St where
  full : String → Option Obj
  bare : String → Option Obj
  attr : String → Option Obj
  next : Nat

inductive Err
  | importError
  | attributeError
deriving DecidableEq

def set (f : String → Option Obj) (n : String) (o : Obj) : String → Option Obj := fun m => if m = n then some o else f m

/-- `import_module('phytorch.extensions.' + n)` (`__init__.py` 10-13), the same as the statement `import phytorch.extensions.n`. -/
def importFull (d : Disk) (n : String) (s : St) : Except Err Obj × St :=
  match s.full n with
  | some o => (.ok o, s)
  | none =>
    if d.compiled n then
      let o : Obj := ⟨.compiled, n, s.next⟩
      (.ok o, { s with full := set s.full n o, attr := set s.attr n o, next := s.next + 1 })
    else (.error .importError, s)

/-- The statement `import n` of an unrelated top level module. -/
def importTop (d : Disk) (n : String) (s : St) : Except Err Obj × St :=
  match s.bare n with
  | some o => (.ok o, s)
  | none =>
    if d.toplevel n then
      let o : Obj := ⟨.toplevel, n, s.next⟩
      (.ok o, { s with bare := set s.bare n o, next := s.next + 1 })
    else (.error .importError, s)

/-- `globals()[name] = sys.modules[name] = ret` (`__init__.py` 33). -/
def register (n : String) (o : Obj) (s : St) : St := { s with attr := set s.attr n o, bare := set s.bare n o }

/-- `__getattr__(name)` (`__init__.py` 7-34). The dummy is a module made from the stub; it is not entered in `sys.modules` under its full name. -/
def getattr (d : Disk) (n : String) (s : St) : Except Err Obj × St :=
  match importFull d n s with
  | (.ok o, s) => (.ok o, register n o s)
  | (.error _, s) =>
    if d.stub n then
      let o : Obj := ⟨.dummy, n, s.next⟩
      (.ok o, register n o { s with next := s.next + 1 })
    else (.error .attributeError, s)

/-- `phytorch.extensions.n`. -/
def access (d : Disk) (n : String) (s : St) : Except Err Obj × St :=
  match s.attr n with
  | some o => (.ok o, s)
  | none => getattr d n s

/-- What a program may do. -/
inductive Op
  | access (n : String)
  | importFull (n : String)
  | importTop (n : String)

def Op.run (d : Disk) : Op → St → Except Err Obj × St
  | .access n, s => Ext.access d n s
  | .importFull n, s => Ext.importFull d n s
  | .importTop n, s => Ext.importTop d n s

/-- The state after a program. -/
def exec (d : Disk) : List Op → St → St
  | [], s => s
  | op :: p, s => exec d p (op.run d s).2

/-- After `import phytorch.extensions`: nothing loaded. -/
def St.init : St := ⟨fun _ => none, fun _ => none, fun _ => none, 0⟩

end Verif.Ext
