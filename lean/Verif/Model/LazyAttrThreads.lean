import Verif.Model.LazyAttr
import Verif.Model.LazyThreads
/-!
# Lazy attributes used by several threads (`syncstream/utils.py:167-259`)

`Model/LazyAttr.lean` has one thread.  Here `_LazyAttribute` is cut into primitive steps, on top of the lazy modules of
`Model/LazyThreads.lean`: every look at `__obj`, every step of the module that is loaded, the binding of the name in the parent
module and the change of `__obj` are steps of their own.  `_LazyAttribute` has no lock.

Simplifications, apart from those of `Model/LazyThreads.lean` and of `Model/LazyAttr.lean`:
* The lazy attributes have been defined (as `__init__.py:52`, `__init__.py:73-75` do while the package is imported); none is
  defined while the threads run.
* `mobj.__getattribute__` gives the method of the class the module object has at this moment.  Here the class is looked at once
  more, one step later, so that other threads may change it in between: all that can happen is covered, and more.
* Of the namespaces only the names that are bound to lazy attributes, or were, are of interest.
-/

namespace SyncStream

/-- A lazy attribute that has been defined (`utils.py:205-207`): `__mobj`, `__attr`, and the module that `sys.modules` has under
the name `__parent` (`none`: there is none). -/
structure LTAttr where
  mobj : Nat
  attr : PyStr
  parent : Option Nat

/-- What does not change. -/
structure ATEnv where
  mods : LTEnv
  /-- the lazy attributes -/
  attrs : Nat → LTAttr
  /-- what the attribute of a module is bound to; `none` is `None` -/
  value : Nat → PyStr → Option Nat
  /-- the attributes of the objects (`none` is `None`) -/
  has : Option Nat → PyStr → Bool

/-- The object that the lazy attribute stands for. -/
def ATEnv.target (env : ATEnv) (a : Nat) : Option Nat := env.value (env.attrs a).mobj (env.attrs a).attr

/-- The modules, `__obj` of the lazy attributes (`utils.py:208`), and the namespaces of the modules. -/
structure ATWorld where
  mods : LTWorld
  objs : Nat → Option Nat
  ns : Nat → PyStr → Option ABind

/-- What a thread does. -/
inductive ATCall where
  /-- statements that concern lazy modules -/
  | run (l : List (LUse × Bool))
  /-- `p.x` -/
  | name (p : Nat) (x : PyStr)
  /-- `p.x(...)` -/
  | use (p : Nat) (x : PyStr)
  /-- a lazy attribute that somebody has kept (as `from syncstream import LineBuffer` does) is called -/
  | call (a : Nat)
  /-- an attribute of a lazy attribute that somebody has kept is used -/
  | getattr (a : Nat) (attr : PyStr)

/-- What it gives: nothing of interest, what a name is bound to, the lazy attribute itself, or the object that was called or whose attribute was
used. -/
inductive ATRes where
  | done
  | bound (b : ABind)
  | itself
  | obj (v : Option Nat)
  deriving DecidableEq

/-- A program that works on modules and lazy attributes. -/
abbrev ATProg (α : Type) : Type := Prog ATWorld Nat α

namespace LazyAttrThreads

/-- A look. -/
def gets {α : Type} (f : ATWorld → α) : ATProg α := Prog.atom fun w => (.ok (f w), w)

/-- A change. -/
def modify (f : ATWorld → ATWorld) : ATProg Unit := Prog.atom fun w => (.ok (), f w)

/-- A part that concerns the modules only. -/
def onMods {α : Type} (p : LTProg α) : ATProg α := p.onPart ATWorld.mods (fun m w => { w with mods := m }) id

/-- `setattr(sys.modules[parent], attr_name, obj)` when the module has been found (`utils.py:224-228`). -/
def bindName (p : Nat) (x : PyStr) (v : Option Nat) : ATProg Unit :=
  modify fun w => { w with ns := fun q y => if q = p ∧ y = x then some (.ofValue v) else w.ns q y }

/-- `setattr(self, "_LazyAttribute__obj", obj)` (`utils.py:229`). -/
def keepObj (a : Nat) (v : Option Nat) : ATProg Unit :=
  modify fun w => { w with objs := fun b => if b = a then v else w.objs b }

/-- `_LazyAttribute.__load_module` (`utils.py:216-232`); `n` is the number of nested calls that are possible. -/
def loadAttr (env : ATEnv) (n : Nat) (a : Nat) : ATProg (Option Nat) := do
  let o ← gets (·.objs a)
  match o with
  | some v => return some v
  | none => do
    onMods (LazyThreads.go env.mods n (.get (env.attrs a).mobj (lit "__getattribute__")))
    onMods (LazyThreads.go env.mods n (.get (env.attrs a).mobj (env.attrs a).attr))
    match (env.attrs a).parent with
    | none => Prog.raise .keyError
    | some p => do
      bindName p (env.attrs a).attr (env.target a)
      keepObj a (env.target a)
      return env.target a

/-- `_LazyAttribute.__call__` (`utils.py:234-241`): the object that is called. -/
def callAttr (env : ATEnv) (n : Nat) (a : Nat) : ATProg ATRes := do
  let v ← loadAttr env n a
  if env.has v (lit "__call__") then return .obj v else Prog.raise .attributeError

/-- `_LazyAttribute.__getattribute__` (`utils.py:243-259`): the object whose attribute is given. -/
def attrGetattr (env : ATEnv) (n : Nat) (a : Nat) (attr : PyStr) : ATProg ATRes :=
  if Lazy.attrProtectedKw.contains attr then return .itself
  else do
    let v ← loadAttr env n a
    if env.has v attr then return .obj v else Prog.raise .attributeError

/-- `p.x`, where `p` is the package. -/
def lookName (p : Nat) (x : PyStr) : ATProg ABind :=
  Prog.atom fun w => match w.ns p x with
    | some b => (.ok b, w)
    | none => (.error .attributeError, w)

/-- `p.x(...)`: the name is looked up, and what it is bound to is called. -/
def useName (env : ATEnv) (n : Nat) (p : Nat) (x : PyStr) : ATProg ATRes := do
  let b ← lookName p x
  match b with
  | .none => Prog.raise .typeError
  | .lazy a => callAttr env n a
  | .obj v => if env.has (some v) (lit "__call__") then return .obj (some v) else Prog.raise .typeError

/-- What a thread does. -/
def body (env : ATEnv) (n : Nat) : ATCall → ATProg ATRes
  | .run l => do
    onMods (LazyThreads.go env.mods n (.acts l))
    return .done
  | .name p x => do
    let b ← lookName p x
    return .bound b
  | .use p x => useName env n p x
  | .call a => callAttr env n a
  | .getattr a attr => attrGetattr env n a attr

/-- The same with its exception, if any, as the result. -/
def prog (env : ATEnv) (n : Nat) (c : ATCall) : ATProg (Except Exc ATRes × Unit) := do
  let r ← (body env n c).outcome
  return (r, ())

end LazyAttrThreads

/-- Threads that use modules and lazy attributes; the locks (those of the modules) are reentrant. -/
def lazyAttrThreads (env : ATEnv) (n : Nat) : Conc.Sys ATWorld Nat Unit ATCall (Except Exc ATRes) where
  call _ _ c := LazyAttrThreads.prog env n c
  ok _ _ := True
  reentrant _ := True

end SyncStream
