import Verif.Model.Lazy
/-!
# Specification of lazy modules
-/

namespace SyncStream
namespace Spec

/-- The beginning: all modules are normal modules and none of their code is recorded. -/
structure Fresh (w : LWorld) : Prop where
  exist : ∀ x i, w.modules x = some (.mod i) → i < w.count
  plain : ∀ i, i < w.count → (w.objs i).cls = .plain ∧ (w.objs i).deps = [] ∧ (w.objs i).declared = []
  idle : ∀ i, i < w.count → (w.objs i).loading = false
  started : w.started = []

/-- The module can be imported. -/
def Available (env : LEnv) (w : LWorld) (x : PyStr) : Prop :=
  (∃ i, w.modules x = some (.mod i) ∧ (w.objs i).cls ≠ .placeholder) ∨ (w.modules x = none ∧ env.found x = true)

/-- The module does not exist. -/
def Absent (env : LEnv) (w : LWorld) (x : PyStr) : Prop :=
  w.modules x = some .none ∨ (w.modules x = none ∧ env.found x = false)

/-- The name is not yet taken. -/
def Unused (w : LWorld) (x : PyStr) : Prop := w.modules x = none ∨ w.modules x = some .none

/-- All starts of the code of `i` come after a start of the code of `d`. -/
def After (started : List Nat) (i d : Nat) : Prop := ∀ p q, started = p ++ i :: q → d ∈ p

/-- The modules a statement uses. -/
def uses : LAct → List PyStr
  | .getattr y _ => [y]
  | .forceLoad y => [y]
  | _ => []

/-- What a statement declares: a module and the modules it depends on. -/
def declares : LAct → List (PyStr × PyStr)
  | .lazyImport a => a.relDependencies.map fun y => (Lazy.fullName a, y)
  | _ => []

/-- There are no cycles: the modules can be numbered so that the code of each uses only lower ones, and each is declared
to depend on lower ones only. -/
def Acyclic (env : LEnv) (l : List (LAct × Bool)) : Prop :=
  ∃ rank : PyStr → Nat,
    (∀ x, ∀ a ∈ env.code x, ∀ y ∈ uses a.1, rank y < rank x) ∧
    (∀ x, ∀ a ∈ env.code x, ∀ e ∈ declares a.1, rank e.2 < rank e.1) ∧
    (∀ a ∈ l, ∀ e ∈ declares a.1, rank e.2 < rank e.1)

end Spec
end SyncStream
