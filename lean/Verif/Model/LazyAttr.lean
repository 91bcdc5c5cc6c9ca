import Verif.Model.Lazy
/-!
# Lazy attributes (`syncstream/utils.py:167-259`, `utils.py:614-640`)

`_LazyAttribute`, `get_lazy_attribute` and `is_module_invalid`, on top of the model of lazy modules.

Simplifications:
* What an attribute of a loaded module is bound to does not depend on the time (`AEnv.value`).  It is `None` or an
  object, which is given by a number.
* The namespace of a module holds only what is of interest here: what `__init__.py` binds to lazy attributes and what
  those are replaced by.
* The code of a module that is being loaded does not use lazy attributes (it can use lazy modules).
* What a call of the object does is left out: the call gives the object that is called.
-/

namespace SyncStream

/-- A `_LazyAttribute` (`utils.py:205-208`): `__mobj`, `__attr`, `__parent`, `__obj` (`none` is `None`). -/
structure LAttr where
  mobj : Nat
  attr : PyStr
  parent : PyStr
  obj : Option Nat := none
  deriving DecidableEq, Repr

/-- What a name is bound to: `None`, a lazy attribute or another object. -/
inductive ABind where
  | none
  | lazy (a : Nat)
  | obj (v : Nat)
  deriving DecidableEq, Repr

/-- The modules, the lazy attributes (numbered in the order of creation) and the namespaces of the modules. -/
structure AWorld where
  mods : LWorld
  attrs : Nat → LAttr
  made : Nat
  ns : Nat → PyStr → Option ABind

/-- What does not change. -/
structure AEnv where
  mods : LEnv
  /-- what the attribute of a loaded module is bound to, by the name of the module; `none` is `None` -/
  value : PyStr → PyStr → Option Nat
  /-- the attributes of the objects (`none` is `None`) -/
  has : Option Nat → PyStr → Bool

namespace AWorld

/-- Change a lazy attribute. -/
def setAttr (a : Nat) (f : LAttr → LAttr) (w : AWorld) : AWorld :=
  { w with attrs := fun b => if b = a then f (w.attrs b) else w.attrs b }

/-- Bind a name in the namespace of a module. -/
def bind (i : Nat) (x : PyStr) (v : ABind) (w : AWorld) : AWorld :=
  { w with ns := fun j y => if j = i ∧ y = x then some v else w.ns j y }

/-- A new lazy attribute. -/
def create (l : LAttr) (w : AWorld) : AWorld :=
  { w with attrs := fun b => if b = w.made then l else w.attrs b, made := w.made + 1 }

end AWorld

/-- The object as the value of a name. -/
def ABind.ofValue : Option Nat → ABind
  | Option.none => .none
  | some v => .obj v

namespace Lazy

/-- Run a part that concerns the modules only. -/
def onMods {α : Type} (p : Py LWorld α) : Py AWorld α := fun w =>
  let r := p w.mods
  (r.1, { w with mods := r.2 })

/-- `is_module_invalid` (`utils.py:627-640`).  (`isinstance` looks at the type of the object, then at its `__class__`,
which a lazy module gives without being loaded.) -/
def isModuleInvalid (i : Nat) : Py AWorld Bool :=
  Py.gets fun w => (w.mods.objs i).cls == .placeholder

/-- `get_lazy_attribute` (`utils.py:614-624`). -/
def getLazyAttribute (i : Nat) (attr parent : PyStr) : Py AWorld (Option Nat) := do
  if ← isModuleInvalid i then return none
  else
    let a ← Py.gets (·.made)
    Py.modify (·.create { mobj := i, attr := attr, parent := parent })
    return some a

/-- `_LazyAttribute.protected_kw` (`utils.py:175-186`). -/
def attrProtectedKw : List PyStr :=
  [lit "__repr__", lit "__str__", lit "__call__", lit "_LazyAttribute__mobj", lit "_LazyAttribute__attr",
    lit "_LazyAttribute__parent", lit "_LazyAttribute__load_module", lit "_LazyAttribute__obj"]

/-- `_LazyAttribute.__load_module` (`utils.py:216-232`); `n` is the number of nested calls that are possible.
`mobj.__getattribute__(attr)` first looks for `__getattribute__` on the module, which loads it, and then for the
attribute.  `sys.modules[parent]` can fail before anything is bound. -/
def loadAttr (env : AEnv) (n : Nat) (a : Nat) : Py AWorld (Option Nat) := do
  let l ← Py.gets (·.attrs a)
  match l.obj with
  | some v => return some v
  | none =>
    onMods (go env.mods n (.get l.mobj (lit "__getattribute__")))
    onMods (go env.mods n (.get l.mobj l.attr))
    let x ← Py.gets fun w => (w.mods.objs l.mobj).name
    let v := env.value x l.attr
    match ← Py.gets fun w => resolve w.mods l.parent with
    | none => Py.raise .keyError
    | some p =>
      Py.modify (·.bind p l.attr (.ofValue v))
      Py.modify (·.setAttr a fun l => { l with obj := v })
      return v

/-- `_LazyAttribute.__call__` (`utils.py:234-241`): the object that is called. -/
def callAttr (env : AEnv) (n : Nat) (a : Nat) : Py AWorld (Option Nat) := do
  let v ← loadAttr env n a
  if env.has v (lit "__call__") then return v
  else Py.raise .attributeError

/-- `_LazyAttribute.__getattribute__` (`utils.py:243-259`): the object whose attribute is given, `none` if it is the
lazy attribute itself. -/
def attrGetattr (env : AEnv) (n : Nat) (a : Nat) (attr : PyStr) : Py AWorld (Option (Option Nat)) := do
  if attrProtectedKw.contains attr then return none
  else
    let v ← loadAttr env n a
    if env.has v attr then return some v
    else Py.raise .attributeError

/-- `_LazyAttribute.__repr__` (`utils.py:210-215`): the name of the module is looked up. -/
def attrRepr (env : AEnv) (n : Nat) (a : Nat) : Py AWorld Unit := do
  let l ← Py.gets (·.attrs a)
  onMods (go env.mods n (.get l.mobj (lit "__name__")))

end Lazy

/-- A statement that concerns lazy modules and lazy attributes. -/
inductive AAct where
  /-- a statement that concerns lazy modules -/
  | mods (a : LAct)
  /-- `attr = get_lazy_attribute(sys.modules[x], attr, parent)` at the top level of the module `parent`, as in
  `__init__.py:52`, `__init__.py:73-75` -/
  | define (x attr parent : PyStr)
  /-- a lazy attribute is called -/
  | call (a : Nat)
  /-- an attribute of a lazy attribute is used -/
  | getattr (a : Nat) (attr : PyStr)
  /-- a lazy attribute is shown -/
  | repr (a : Nat)

namespace Lazy

/-- Use a lazy attribute that exists. -/
def withAttr {α : Type} (a : Nat) (p : Py AWorld α) : Py AWorld Unit := do
  if a < (← Py.gets (·.made)) then
    let _ ← p
    return ()
  else Py.raise .keyError

/-- A statement; what it gives is left out. -/
def aact (env : AEnv) (n : Nat) : AAct → Py AWorld Unit
  | .mods b => onMods (act env.mods (go env.mods n) b)
  | .define x attr parent => do
    match ← Py.gets fun w => (resolve w.mods x, resolve w.mods parent) with
    | (some i, some p) =>
      let r ← getLazyAttribute i attr parent
      Py.modify (·.bind p attr (match r with | some a => .lazy a | none => .none))
    | _ => Py.raise .keyError
  | .call a => withAttr a (callAttr env n a)
  | .getattr a attr => withAttr a (attrGetattr env n a attr)
  | .repr a => withAttr a (attrRepr env n a)

/-- A program: statements at the top level, each in a `try` of its own. -/
def arun (env : AEnv) (n : Nat) : List AAct → AWorld → AWorld
  | [], w => w
  | b :: l, w => arun env n l (aact env n b w).2

end Lazy

end SyncStream
