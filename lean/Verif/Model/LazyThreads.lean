import Verif.Model.Lazy
import Verif.Model.Conc
/-!
# Lazy modules used by several threads (`syncstream/utils.py`)

`Model/Lazy.lean` has one thread.  Here the same code is cut into primitive steps, for any number of threads: every look at
the class of a module object, at its `__dep_modules__`, at `is_loading` and at its dictionary is a step of its own, and so is
every change.

With newer versions of Python (3.11.8, 3.12.2, 3.13 and later: `strict`) `importlib.util._LazyModule.__getattribute__` holds the
lock `loader_state['lock']` of the module, a `threading.RLock`, while it looks whether to load the module and while it loads it.
Older versions have no lock.  `_LazyModule` of `utils.py` has none in any version.

Simplifications, apart from those of `Model/Lazy.lean` that concern modules and their code:
* The lazy imports have been done.  Module objects are numbers, which stand for the names too; `sys.modules` does not change.
  (`lazy_import` in several threads at once is not covered.)
* An attribute of a module that is being loaded exists from the beginning of its code (`early`) or from the end (`defines`).
* Modules have no attribute `force_load` of their own.
* Looking up a method through the class (`object.__getattribute__`, `ModuleType.__getattribute__`) is one step.
-/

namespace SyncStream

/-- What a module object has: its class, `__dep_modules__` and `loader_state['is_loading']`. -/
structure LTMod where
  cls : LCls
  deps : List Nat := []
  loading : Bool := false

/-- The module objects.  `started`, `finished` and `failed` record whose code has been started, has come to its end, and has
been ended by an exception. -/
structure LTWorld where
  objs : Nat → LTMod
  started : List Nat := []
  finished : List Nat := []
  failed : List Nat := []

/-- A statement that concerns lazy modules: `m.attr`, `m.force_load()`, `raise`. -/
inductive LUse where
  | get (i : Nat) (attr : PyStr)
  | force (i : Nat)
  | raise (e : Exc)

/-- What does not change. -/
structure LTEnv where
  /-- which version of `importlib.util` -/
  strict : Bool
  /-- the attributes of a module object that has not been loaded -/
  bare : PyStr → Bool
  /-- the attributes a module has from the beginning of its code -/
  early : Nat → PyStr → Bool
  /-- the attributes of a module that has been loaded -/
  defines : Nat → PyStr → Bool
  /-- the code of the modules; the flag says that the statement is in `try: ... except: pass` -/
  code : Nat → List (LUse × Bool)

/-- A program that works on module objects; a lock is that of the module with this number. -/
abbrev LTProg (α : Type) : Type := Prog LTWorld Nat α

namespace LazyThreads

/-- A nested call: `module.attr`, `module.force_load()`, or the running of statements. -/
inductive Job where
  | get (i : Nat) (attr : PyStr)
  | force (i : Nat)
  | acts (l : List (LUse × Bool))

/-- A look at the objects. -/
def gets {α : Type} (f : LTWorld → α) : LTProg α := Prog.atom fun w => (.ok (f w), w)

/-- A change. -/
def modify (f : LTWorld → LTWorld) : LTProg Unit := Prog.atom fun w => (.ok (), f w)

/-- A change of one module object. -/
def setObj (i : Nat) (f : LTMod → LTMod) : LTProg Unit :=
  modify fun w => { w with objs := fun j => if j = i then f (w.objs j) else w.objs j }

/-- Does the dictionary (or the class `ModuleType`) have the attribute? -/
def has (env : LTEnv) (w : LTWorld) (i : Nat) (attr : PyStr) : Bool :=
  env.bare attr || (env.early i attr && w.started.contains i) || (env.defines i attr && w.finished.contains i)

/-- `object.__getattribute__(self, attr)`. -/
def lookup (env : LTEnv) (i : Nat) (attr : PyStr) : LTProg Unit :=
  Prog.atom fun w => if has env w i attr then (.ok (), w) else (.error .attributeError, w)

/-- Run the code of a module (`loader.exec_module(self)` of the original loader). -/
def exec (env : LTEnv) (self : Job → LTProg Unit) (i : Nat) : LTProg Unit := do
  modify fun w => { w with started := w.started ++ [i] }
  let r ← (self (.acts (env.code i))).outcome
  match r with
  | .ok _ => modify fun w => { w with finished := w.finished ++ [i] }
  | .error e => do
    modify fun w => { w with failed := w.failed ++ [i] }
    Prog.raise e

/-- The block `with loader_state['lock']:` of `importlib.util._LazyModule.__getattribute__` (newer versions).  `true`: the result has been
returned inside it. -/
def loadBlock (env : LTEnv) (self : Job → LTProg Unit) (i : Nat) (attr : PyStr) : LTProg Bool := do
  let c ← gets fun w => (w.objs i).cls
  if c = .imp then do
    let l ← gets fun w => (w.objs i).loading
    if l then do
      lookup env i attr
      return true
    else do
      setObj i fun m => { m with loading := true }
      exec env self i
      setObj i fun m => { m with cls := .plain }
      return false
  else return false

/-- `importlib.util._LazyModule.__getattribute__`.  (That the object is still the one in `sys.modules` is checked before the class
changes and always true.) -/
def impGet (env : LTEnv) (self : Job → LTProg Unit) (i : Nat) (attr : PyStr) : LTProg Unit :=
  if env.strict then do
    let done ← Prog.withLock i true (loadBlock env self i attr)
    if done then return () else self (.get i attr)
  else do
    setObj i fun m => { m with cls := .plain }
    exec env self i
    self (.get i attr)

/-- `module.__class__`, also as part of `isinstance`: if the class is `importlib.util._LazyModule`, this loads the module. -/
def classOf (self : Job → LTProg Unit) (i : Nat) : LTProg LCls := do
  let c ← gets fun w => (w.objs i).cls
  if c = .imp then do
    self (.get i (lit "__class__"))
    gets fun w => (w.objs i).cls
  else return c

/-- The loop of `_LazyModule.load_deps` (`utils.py:124-126`). -/
def loadEach (self : Job → LTProg Unit) : List Nat → LTProg Unit
  | [] => return ()
  | d :: ds => do
    let c ← classOf self d
    if c = .lazy then do
      self (.force d)
      loadEach self ds
    else loadEach self ds

/-- `load_deps = object.__getattribute__(self, "load_deps")` (`utils.py:113`, `utils.py:159`): only the class `_LazyModule` of
`utils.py` has this method. -/
def findLoadDeps (i : Nat) : LTProg Unit :=
  Prog.atom fun w => if (w.objs i).cls = .lazy then (.ok (), w) else (.error .attributeError, w)

/-- `_LazyModule.load_deps` (`utils.py:118-127`). -/
def loadDeps (self : Job → LTProg Unit) (i : Nat) : LTProg Unit := do
  let deps ← gets fun w => (w.objs i).deps
  loadEach self deps
  setObj i fun m => { m with deps := [] }

/-- `_LazyModule.force_load` (`utils.py:105-116`). -/
def forceLoad (env : LTEnv) (self : Job → LTProg Unit) (i : Nat) : LTProg Unit := do
  findLoadDeps i
  loadDeps self i
  impGet env self i (lit "__name__")

/-- `_LazyModule.__getattribute__` (`utils.py:139-164`). -/
def lazyGet (env : LTEnv) (self : Job → LTProg Unit) (i : Nat) (attr : PyStr) : LTProg Unit :=
  if Lazy.removedKw.contains attr then Prog.raise .attributeError
  else if Lazy.protectedKw.contains attr && env.bare attr then return ()
  else do
    findLoadDeps i
    loadDeps self i
    let c ← classOf self i
    if c = .imp then impGet env self i attr
    else do
      setObj i fun m => { m with cls := .imp }
      impGet env self i attr

/-- `_ModulePlaceholder.__getattribute__` (`utils.py:330-349`). -/
def placeholderGet (env : LTEnv) (attr : PyStr) : LTProg Unit :=
  if Lazy.removedKw.contains attr then Prog.raise .attributeError
  else if env.bare attr then return ()
  else Prog.raise .importError

/-- `module.attr`: the class decides. -/
def getattr (env : LTEnv) (self : Job → LTProg Unit) (i : Nat) (attr : PyStr) : LTProg Unit := do
  let c ← gets fun w => (w.objs i).cls
  match c with
  | .placeholder => placeholderGet env attr
  | .lazy => lazyGet env self i attr
  | .imp => impGet env self i attr
  | .plain => lookup env i attr

/-- `module.force_load()`.  A placeholder does nothing (`utils.py:326-328`); a module that has been loaded has no such method, and one
that is being loaded by somebody else is waited for first. -/
def callForce (env : LTEnv) (self : Job → LTProg Unit) (i : Nat) : LTProg Unit := do
  let c ← gets fun w => (w.objs i).cls
  match c with
  | .placeholder => return ()
  | .lazy => forceLoad env self i
  | .imp => do
    self (.get i (lit "force_load"))
    Prog.raise .attributeError
  | .plain => Prog.raise .attributeError

/-- A statement. -/
def act (self : Job → LTProg Unit) : LUse → LTProg Unit
  | .get i attr => self (.get i attr)
  | .force i => self (.force i)
  | .raise e => Prog.raise e

/-- Statements, one after the other. -/
def acts (self : Job → LTProg Unit) : List (LUse × Bool) → LTProg Unit
  | [] => return ()
  | (a, false) :: l => do
    act self a
    acts self l
  | (a, true) :: l => do
    let _ ← (act self a).outcome
    acts self l

/-- Run a job; `n` is the number of nested calls that are still possible (then `RecursionError`). -/
def go (env : LTEnv) : Nat → Job → LTProg Unit
  | 0, _ => Prog.raise .recursionError
  | n + 1, .get i attr => getattr env (go env n) i attr
  | n + 1, .force i => callForce env (go env n) i
  | n + 1, .acts l => acts (go env n) l

/-- A program a thread runs at the top level: its exception, if any, is its result. -/
def prog (env : LTEnv) (n : Nat) (l : List (LUse × Bool)) : LTProg (Except Exc Unit × Unit) := do
  let r ← (go env n (.acts l)).outcome
  return (r, ())

end LazyThreads

/-- Threads that run programs; the locks are reentrant. -/
def lazyThreads (env : LTEnv) (n : Nat) : Conc.Sys LTWorld Nat Unit (List (LUse × Bool)) (Except Exc Unit) where
  call _ _ l := LazyThreads.prog env n l
  ok _ _ := True
  reentrant _ := True

end SyncStream
