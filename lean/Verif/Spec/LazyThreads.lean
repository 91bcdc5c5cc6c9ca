import Verif.Model.LazyThreads
/-!
# Specification: module objects at rest
-/

namespace SyncStream.Spec

/-- Nobody is loading anything: every module object has not been touched, has been loaded, or its code has ended with an exception.
(A module that has been imported in the usual way counts as loaded.) -/
def AtRest (w : LTWorld) : Prop :=
  w.started.Nodup ∧ ∀ i,
    ((w.objs i).cls ≠ .plain ∧ (w.objs i).loading = false ∧ i ∉ w.started ∧ i ∉ w.finished) ∨
    (((w.objs i).cls = .plain ∨ (w.objs i).cls = .imp) ∧ (w.objs i).loading = true ∧ i ∈ w.started ∧ i ∈ w.finished) ∨
    ((w.objs i).cls = .imp ∧ (w.objs i).loading = true ∧ i ∈ w.started ∧ i ∉ w.finished ∧ i ∈ w.failed)

/-- The statement concerns the module `j`. -/
def Concerns (j : Nat) : LUse → Prop
  | .get i _ => i = j
  | .force i => i = j
  | .raise _ => False

/-- `i` comes before the modules that its code uses and that it depends on (apart from itself). -/
def Ordered (rank : Nat → Nat) (env : LTEnv) (w : LTWorld) : Prop :=
  ∀ i j, ((∃ u t, (u, t) ∈ env.code i ∧ Concerns j u) ∨ j ∈ (w.objs i).deps) → j = i ∨ rank i < rank j

/-- The module has not been touched: its class says that it is lazy, and its code has not been started. -/
def NotTouched (env : LTEnv) (w : LTWorld) (i : Nat) : Prop :=
  ((w.objs i).cls = .lazy ∨ (w.objs i).cls = .imp) ∧ (env.strict = true → (w.objs i).loading = false) ∧ i ∉ w.started ∧ i ∉ w.finished

/-- The code of the module has come to its end.  (With newer versions of Python the class of a module whose code has used the module itself may
still be `importlib.util._LazyModule`.) -/
def HasLoaded (env : LTEnv) (w : LTWorld) (i : Nat) : Prop :=
  i ∈ w.finished ∧ ((w.objs i).cls = .plain ∨ env.strict = true ∧ (w.objs i).cls = .imp ∧ (w.objs i).loading = true)

/-- An attribute that an access can find. -/
def CanFind (env : LTEnv) (i : Nat) (attr : PyStr) : Prop :=
  attr ≠ lit "__path__" ∧ (env.bare attr = true ∨ env.defines i attr = true)

/-- The code of the modules consists of accesses to attributes that can be found, of modules that come later. -/
def CodeOrdered (rank : Nat → Nat) (env : LTEnv) : Prop :=
  ∀ i u t, (u, t) ∈ env.code i → ∃ j attr, u = .get j attr ∧ rank i < rank j ∧ CanFind env j attr

/-- The modules come before those they depend on. -/
def DepsOrdered (rank : Nat → Nat) (w : LTWorld) : Prop := ∀ i, ∀ d ∈ (w.objs i).deps, rank i < rank d

end SyncStream.Spec
