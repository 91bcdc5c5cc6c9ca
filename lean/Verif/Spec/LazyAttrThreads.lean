import Verif.Model.LazyAttrThreads
/-!
# Specification: lazy attributes of a package that several threads use
-/

namespace SyncStream.Spec

/-- The lazy attributes have been defined and none has been used: a name bound to one is the name it was defined for. -/
structure AttrsDefined (env : ATEnv) (w : ATWorld) : Prop where
  unused : ∀ a, w.objs a = none
  names : ∀ p x a, w.ns p x = some (.lazy a) → (env.attrs a).parent = some p ∧ (env.attrs a).attr = x

/-- The call uses the lazy attribute `a`: it is called, or an attribute of it is used that it does not have itself. -/
def UsesAttr (a : Nat) : ATCall → Prop
  | .call b => b = a
  | .getattr b attr => b = a ∧ Lazy.attrProtectedKw.contains attr = false
  | _ => False

/-- What the object must have for the call. -/
def Asked : ATCall → PyStr
  | .getattr _ attr => attr
  | _ => lit "__call__"

/-- The module has the attribute, at the latest when its code has come to its end. -/
def ModuleHas (env : LTEnv) (i : Nat) (x : PyStr) : Prop := env.bare x = true ∨ env.early i x = true ∨ env.defines i x = true

/-- The object is that of a lazy attribute with this name and parent, whose module has it. -/
def IsTarget (env : ATEnv) (p : Nat) (x : PyStr) (v : Option Nat) : Prop :=
  ∃ a, (env.attrs a).parent = some p ∧ (env.attrs a).attr = x ∧ v = env.value (env.attrs a).mobj x ∧ ModuleHas env.mods (env.attrs a).mobj x

/-- The name is bound to the object of a lazy attribute, no longer to the lazy attribute. -/
def Replaced (env : ATEnv) (w : ATWorld) (p : Nat) (x : PyStr) : Prop :=
  (∃ v, w.ns p x = some (.obj v) ∧ IsTarget env p x (some v)) ∨ w.ns p x = some .none ∧ IsTarget env p x none

/-- The module has been loaded, or its code has ended with an exception. -/
def CodeEnded (w : LTWorld) (i : Nat) : Prop := i ∈ w.finished ∨ i ∈ w.failed

end SyncStream.Spec
