import Verif.Model.Lazy
import Verif.Model.Conc
/-!
# `lazy_import` called by several threads (`syncstream/utils.py`)

`Model/Lazy.lean` has one thread.  Here `lazy_import` is cut into primitive steps: every look into `sys.modules` and every look at the class of a module
object is a step of its own, and so is every change.  There are no locks in this code.

The new module object is registered in `sys.modules` before `_LazyLoader.exec_module` makes it lazy: at first it is a normal module that is empty,
then it has the class `importlib.util._LazyModule`, then the class `_LazyModule` of `utils.py`, and at last it gets its `__dep_modules__`.

Simplifications, apart from those of `Model/Lazy.lean`:
* The arguments `rel_dependencies` are looked up by their names in one step.
* What the finders of the import system do is one step and does not depend on the other threads; `spec` objects are not shared.  (In fact
  `find_spec` gives the `spec` of a module that another thread has just registered; the new module object would then share it.)
* Nobody uses the modules meanwhile (`Model/LazyThreads.lean` has the use of modules that have been imported).
-/

namespace SyncStream

/-- A program that works on `sys.modules`; there are no locks. -/
abbrev LIProg (α : Type) : Type := Prog LWorld Empty α

namespace LazyImports

/-- A look. -/
def look {α : Type} (f : LWorld → α) : LIProg α := Prog.atom fun w => (.ok (f w), w)

/-- A change. -/
def change (f : LWorld → LWorld) : LIProg Unit := Prog.atom fun w => (.ok (), f w)

/-- A new module object; the result is its number. -/
def create (m : LMod) : LIProg Nat := Prog.atom fun w => (.ok w.count, w.create m)

/-- `importlib.util.find_spec(x) is not None`: `x in sys.modules`, `sys.modules[x]` and `module.__spec__` are three looks. -/
def findSpec (env : LEnv) (x : PyStr) : LIProg Bool := do
  let here ← look fun w => (w.modules x).isSome
  if here then do
    let e ← look fun w => w.modules x
    match e with
    | some (.mod i) => do
      let c ← look fun w => (w.objs i).cls
      if c = .placeholder then Prog.raise .valueError else return true
    | some .foreign => Prog.raise .valueError
    | _ => return false
  else return env.found x

/-- `_LazyImporter.check_is_dep_missing` (`utils.py:391-412`). -/
def checkIsDepMissing (env : LEnv) : List PyStr → LIProg Bool
  | [] => return false
  | dep :: deps => do
    let found ← findSpec env dep
    if found then checkIsDepMissing env deps else return true

/-- The second loop of `gather_relative_module_dependencies` (`utils.py:447-449`). -/
def lazyOnes : List Nat → LIProg (List Nat)
  | [] => return []
  | i :: l => do
    let c ← look fun w => (w.objs i).cls
    let rest ← lazyOnes l
    return if c = .lazy then i :: rest else rest

/-- `_LazyImporter.gather_relative_module_dependencies` (`utils.py:414-450`). -/
def gatherRelative (rel : List PyStr) (missing : Bool) : LIProg (List Nat) :=
  if missing then return []
  else do
    let objs ← look fun w => rel.map (Lazy.resolve w)
    if objs.any (· == none) then Prog.raise .moduleNotFound
    else lazyOnes (objs.filterMap id)

/-- `_LazyImporter.create_module_placeholder` (`utils.py:462-497`). -/
def createPlaceholder (fullName : PyStr) (required : Bool) : LIProg Nat :=
  if required then Prog.raise .moduleNotFound
  else do
    let e ← look fun w => w.modules fullName
    match e with
    | some (.mod _) => Prog.raise .moduleReplaceError
    | some .foreign => Prog.raise .moduleReplaceError
    | _ => do
      let i ← create { name := fullName, cls := .placeholder }
      change fun w => w.setModule fullName (.mod i)
      return i

/-- The last part of `lazy_import` (`utils.py:547-552`): `module_from_spec`, the registration, and `_LazyLoader.exec_module`
(`utils.py:373-382`). -/
def makeModule (fullName : PyStr) (deps : List Nat) : LIProg Nat := do
  let i ← create { name := fullName, cls := .plain, declared := deps }
  change fun w => w.setModule fullName (.mod i)
  change fun w => w.setObj i fun m => { m with cls := .imp }
  change fun w => w.setObj i fun m => { m with cls := .lazy }
  change fun w => w.setObj i fun m => { m with deps := deps }
  return i

/-- What follows in `lazy_import` when the name is not registered (`utils.py:528-552`). -/
def importNew (env : LEnv) (a : ImportArgs) : LIProg Nat := do
  let missing ← checkIsDepMissing env a.dependencies
  let deps ← gatherRelative a.relDependencies missing
  if a.package = some [] then Prog.raise .importError
  else if Lazy.fullName a = [] then Prog.raise .valueError
  else do
    let spec ← findSpec env (Lazy.fullName a)
    if missing || !spec then createPlaceholder (Lazy.fullName a) a.required
    else makeModule (Lazy.fullName a) deps

/-- `_LazyImporter.lazy_import` (`utils.py:499-552`). -/
def lazyImport (env : LEnv) (a : ImportArgs) : LIProg Nat := do
  let e ← look fun w => w.modules (Lazy.fullName a)
  match e with
  | some (.mod i) => return i
  | _ => importNew env a

/-- A call by a thread: its exception, if any, is its result. -/
def call (env : LEnv) (a : ImportArgs) : LIProg (Except Exc Nat × Unit) := do
  let r ← (lazyImport env a).outcome
  return (r, ())

end LazyImports

/-- Threads that call `lazy_import`; `may` says which names a thread imports. -/
def lazyImports (env : LEnv) (may : Nat → PyStr → Prop) : Conc.Sys LWorld Empty Unit ImportArgs (Except Exc Nat) where
  call _ _ a := LazyImports.call env a
  ok i a := may i (Lazy.fullName a)
  reentrant _ := False

end SyncStream
