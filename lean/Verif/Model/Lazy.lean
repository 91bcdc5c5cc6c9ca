import Verif.Py.Text
/-!
# Lazy modules (`syncstream/utils.py`)

`sys.modules`, module objects, `lazy_import` and the loading of a lazy module, together with the
part of `importlib.util` the code calls.

There are two versions of `importlib.util._LazyModule.__getattribute__`: since Python 3.11.8, 3.12.2
and 3.13 it loads the module only if the class of the object is exactly `importlib.util._LazyModule`
(`LEnv.strict`); before that it loads the module always.  The project is tested with both.

Simplifications:
* What a module's code does apart from lazy imports and the use of lazy modules is left out.  It is a
  straight list of statements (a run with all choices made); each can be in a `try` of its own.
* Statements refer to modules by the name under which they are registered; a name that is not
  registered stands for an object that is not a module.
* Which modules can be found (`find_spec`) does not change, and looking for them does not run code.
* Whether an attribute exists on a module that has been loaded does not depend on the time.  The
  attributes are not modelled beyond that.
* `package` and `name` do not begin with a dot.
* One thread.  `RecursionError` comes at the beginning of an access, not in the middle of one.
-/

namespace SyncStream

/-- The class of a module object: `_ModulePlaceholder`, `_LazyModule` of `utils.py`,
`importlib.util._LazyModule`, or a normal module. -/
inductive LCls where
  | placeholder
  | lazy
  | imp
  | plain
  deriving DecidableEq, Repr

/-- A module object: its class, the entry `__dep_modules__` of its dictionary, and
`loader_state['is_loading']`.  `declared` is a ghost: what `__dep_modules__` was at the creation. -/
structure LMod where
  name : PyStr
  cls : LCls
  deps : List Nat := []
  loading : Bool := false
  declared : List Nat := []

/-- A value of `sys.modules`. -/
inductive LEntry where
  /-- a module object -/
  | mod (i : Nat)
  /-- an object that is not a module -/
  | foreign
  /-- `None` -/
  | none
  deriving DecidableEq, Repr

/-- The module objects (numbered in the order of creation) and `sys.modules`.  `started` and
`finished` record the modules whose code has been started and has come to its end, in order. -/
structure LWorld where
  objs : Nat → LMod
  count : Nat
  modules : PyStr → Option LEntry
  started : List Nat := []
  finished : List Nat := []

/-- The arguments of `lazy_import` (`utils.py:500-507`, `utils.py:555-561`).  `None`, a single value and a sequence are
all given as a list. -/
structure ImportArgs where
  name : PyStr
  package : Option PyStr := none
  required : Bool := true
  dependencies : List PyStr := []
  relDependencies : List PyStr := []

/-- A statement that concerns lazy modules. -/
inductive LAct where
  | lazyImport (a : ImportArgs)
  | getattr (m attr : PyStr)
  | forceLoad (m : PyStr)
  | raise (e : Exc)

/-- What does not change. -/
structure LEnv where
  /-- which version of `importlib.util` -/
  strict : Bool
  /-- what `find_spec` finds if the name is not in `sys.modules` -/
  found : PyStr → Bool
  /-- the attributes of a module object that has not been loaded -/
  bare : PyStr → Bool
  /-- the attributes of a module that has been loaded -/
  defines : PyStr → PyStr → Bool
  /-- the code of the modules; the flag says that the statement is in `try: ... except: pass` -/
  code : PyStr → List (LAct × Bool)

namespace LWorld

/-- Change a module object. -/
def setObj (i : Nat) (f : LMod → LMod) (w : LWorld) : LWorld :=
  { w with objs := fun j => if j = i then f (w.objs j) else w.objs j }

/-- Assignment to `sys.modules[x]`. -/
def setModule (x : PyStr) (v : LEntry) (w : LWorld) : LWorld :=
  { w with modules := fun y => if y = x then some v else w.modules y }

/-- A new module object. -/
def create (m : LMod) (w : LWorld) : LWorld :=
  { w with objs := fun j => if j = w.count then m else w.objs j, count := w.count + 1 }

end LWorld

namespace Lazy

/-- `importlib.util.find_spec(x) is not None`. -/
def findSpec (env : LEnv) (x : PyStr) : Py LWorld Bool := do
  match ← Py.gets (·.modules x) with
  | some (.mod i) =>
    match (← Py.gets (·.objs i)).cls with
    | .placeholder => Py.raise .valueError
    | _ => return true
  | some .foreign => Py.raise .valueError
  | some .none => return false
  | none => return env.found x

/-- `_LazyImporter.check_is_dep_missing` (`utils.py:391-412`). -/
def checkIsDepMissing (env : LEnv) : List PyStr → Py LWorld Bool
  | [] => return false
  | dep :: deps => do
    if !(← findSpec env dep) then return true
    else checkIsDepMissing env deps

/-- The objects the names stand for, `none` for an object that is not a module. -/
def resolve (w : LWorld) (x : PyStr) : Option Nat :=
  match w.modules x with
  | some (.mod i) => some i
  | _ => none

/-- `_LazyImporter.gather_relative_module_dependencies` (`utils.py:414-450`). -/
def gatherRelative (rel : List PyStr) (missing : Bool) : Py LWorld (List Nat) := do
  if missing then return []
  else
    let objs ← Py.gets fun w => rel.map (resolve w)
    if objs.any (· == none) then Py.raise .moduleNotFound
    else
      let os ← Py.gets (·.objs)
      return (objs.filterMap id).filter fun i => (os i).cls == .lazy

/-- `_LazyImporter.create_module_placeholder` (`utils.py:462-497`). -/
def createPlaceholder (fullName : PyStr) (required : Bool) : Py LWorld Nat := do
  if required then Py.raise .moduleNotFound
  else
    match ← Py.gets (·.modules fullName) with
    | some (.mod _) => Py.raise .moduleReplaceError
    | some .foreign => Py.raise .moduleReplaceError
    | _ =>
      let i ← Py.gets (·.count)
      Py.modify (·.create { name := fullName, cls := .placeholder })
      Py.modify (·.setModule fullName (.mod i))
      return i

/-- The full name (`utils.py:523`). -/
def fullName (a : ImportArgs) : PyStr :=
  match a.package with
  | none => a.name
  | some p => if p = [] then a.name else if a.name = [] then p else p ++ lit "." ++ a.name

/-- `_LazyImporter.lazy_import` (`utils.py:499-552`).  An empty `package` is refused by
`resolve_name`, an empty name by `find_spec`.  `spec.loader is None` (a namespace package) is left
out.  At the end the new object has the class `_LazyModule` (`_LazyLoader.exec_module`,
`utils.py:373-382`). -/
def lazyImport (env : LEnv) (a : ImportArgs) : Py LWorld Nat := do
  match ← Py.gets (·.modules (fullName a)) with
  | some (.mod i) => return i
  | _ =>
    let missing ← checkIsDepMissing env a.dependencies
    let deps ← gatherRelative a.relDependencies missing
    if a.package = some [] then Py.raise .importError
    else if fullName a = [] then Py.raise .valueError
    else
      let spec ← findSpec env (fullName a)
      if missing || !spec then createPlaceholder (fullName a) a.required
      else
        let i ← Py.gets (·.count)
        Py.modify (·.create { name := fullName a, cls := .lazy, deps := deps, declared := deps })
        Py.modify (·.setModule (fullName a) (.mod i))
        return i

/-- `_LazyModule.removed_kw`, `_ModulePlaceholder.removed_kw` (`utils.py:83`, `utils.py:271`). -/
def removedKw : List PyStr := [lit "__path__"]

/-- `_LazyModule.protected_kw` (`utils.py:85-103`). -/
def protectedKw : List PyStr :=
  [lit "__repr__", lit "__str__", lit "__name__", lit "__qualname__", lit "__annotations__", lit "__spec__",
   lit "__path__", lit "__origin__", lit "__weakref__", lit "__weakrefoffset__", lit "force_load",
   lit "load_deps", lit "__class__", lit "__dict__", lit "abstract"]

/-- What a nested call may do. -/
inductive LJob where
  /-- `module.attr` -/
  | get (i : Nat) (attr : PyStr)
  /-- `module.force_load()` of a lazy module -/
  | force (i : Nat)
  /-- run statements -/
  | acts (l : List (LAct × Bool))

/-- Run the code of a module (`loader.exec_module(self)` of the original loader).  `self` runs a
nested job. -/
def exec (env : LEnv) (self : LJob → Py LWorld Unit) (i : Nat) : Py LWorld Unit := do
  Py.modify fun w => { w with started := w.started ++ [i] }
  let x ← Py.gets fun w => (w.objs i).name
  self (.acts (env.code x))
  Py.modify fun w => { w with finished := w.finished ++ [i] }

/-- `importlib.util._LazyModule.__getattribute__`.  The first version changes the class first, the
second one at the end; in between it is marked by `is_loading`.  (That the object is still the one in
`sys.modules` is checked afterwards and always true.) -/
def impGetattr (env : LEnv) (self : LJob → Py LWorld Unit) (i : Nat) (attr : PyStr) : Py LWorld Unit := do
  let m ← Py.gets (·.objs i)
  if env.strict then
    if m.cls = .imp then
      if m.loading then
        if env.bare attr || env.defines m.name attr then return () else Py.raise .attributeError
      else
        Py.modify (·.setObj i fun m => { m with loading := true })
        exec env self i
        Py.modify (·.setObj i fun m => { m with cls := .plain })
        self (.get i attr)
    else self (.get i attr)
  else
    Py.modify (·.setObj i fun m => { m with cls := .plain })
    exec env self i
    self (.get i attr)

/-- The loop of `_LazyModule.load_deps` (`utils.py:124-126`). -/
def loadEach (self : LJob → Py LWorld Unit) : List Nat → Py LWorld Unit
  | [] => return ()
  | d :: ds => do
    if (← Py.gets (·.objs d)).cls = .lazy then self (.force d)
    loadEach self ds

/-- `_LazyModule.load_deps` (`utils.py:118-127`). -/
def loadDeps (self : LJob → Py LWorld Unit) (i : Nat) : Py LWorld Unit := do
  let deps ← Py.gets fun w => (w.objs i).deps
  loadEach self deps
  Py.modify (·.setObj i fun m => { m with deps := [] })

/-- `_LazyModule.force_load` (`utils.py:105-116`). -/
def forceLoad (env : LEnv) (self : LJob → Py LWorld Unit) (i : Nat) : Py LWorld Unit := do
  loadDeps self i
  impGetattr env self i (lit "__name__")

/-- `_LazyModule.__getattribute__` (`utils.py:139-164`). -/
def lazyGetattr (env : LEnv) (self : LJob → Py LWorld Unit) (i : Nat) (attr : PyStr) : Py LWorld Unit := do
  if removedKw.contains attr then Py.raise .attributeError
  else if protectedKw.contains attr && env.bare attr then return ()
  else
    loadDeps self i
    Py.modify (·.setObj i fun m => { m with cls := .imp })
    impGetattr env self i attr

/-- `_ModulePlaceholder.__getattribute__` (`utils.py:330-349`): an attribute that is missing gives
`ImportError`. -/
def placeholderGetattr (env : LEnv) (attr : PyStr) : Py LWorld Unit :=
  if removedKw.contains attr then Py.raise .attributeError
  else if env.bare attr then return ()
  else Py.raise .importError

/-- `module.attr`: the class decides. -/
def getattr (env : LEnv) (self : LJob → Py LWorld Unit) (i : Nat) (attr : PyStr) : Py LWorld Unit := do
  let m ← Py.gets (·.objs i)
  match m.cls with
  | .placeholder => placeholderGetattr env attr
  | .lazy => lazyGetattr env self i attr
  | .imp => impGetattr env self i attr
  | .plain => if env.defines m.name attr then return () else Py.raise .attributeError

/-- `module.force_load()`.  A placeholder does nothing (`utils.py:326-328`), a module that has been loaded
has no such method. -/
def callForceLoad (env : LEnv) (self : LJob → Py LWorld Unit) (i : Nat) : Py LWorld Unit := do
  match (← Py.gets (·.objs i)).cls with
  | .placeholder => return ()
  | .lazy => forceLoad env self i
  | _ => Py.raise .attributeError

/-- A statement. -/
def act (env : LEnv) (self : LJob → Py LWorld Unit) : LAct → Py LWorld Unit
  | .lazyImport a => do
    let _ ← lazyImport env a
    return ()
  | .getattr x attr => do
    match resolve (← Py.gets id) x with
    | some i => getattr env self i attr
    | none => Py.raise .keyError
  | .forceLoad x => do
    match resolve (← Py.gets id) x with
    | some i => callForceLoad env self i
    | none => Py.raise .keyError
  | .raise e => Py.raise e

/-- Statements, one after the other. -/
def acts (env : LEnv) (self : LJob → Py LWorld Unit) : List (LAct × Bool) → Py LWorld Unit
  | [] => return ()
  | (a, false) :: l => do
    act env self a
    acts env self l
  | (a, true) :: l => fun w => acts env self l (act env self a w).2

/-- Run a job; `n` is the number of nested calls that are still possible. -/
def go (env : LEnv) : Nat → LJob → Py LWorld Unit
  | 0, _ => Py.raise .recursionError
  | n + 1, .get i attr => getattr env (go env n) i attr
  | n + 1, .force i => forceLoad env (go env n) i
  | n + 1, .acts l => acts env (go env n) l

/-- A program: statements at the top level. -/
def run (env : LEnv) (n : Nat) (l : List (LAct × Bool)) (w : LWorld) : LWorld := (go env n (.acts l) w).2

end Lazy

end SyncStream
