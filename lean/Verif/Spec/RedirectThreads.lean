import Verif.Model.RedirectThreads
import Verif.Spec.Merge
import Verif.Spec.ProcSteps
import Verif.Spec.Scope
/-!
# Specification: one thread redirects, the others print
-/

namespace SyncStream.Spec

/-- Code without a context that redirects. -/
def NoContext : Code → Prop
  | .skip => True
  | .print _ _ _ => True
  | .raise _ => True
  | .seq a b => NoContext a ∧ NoContext b
  | .catch a b => NoContext a ∧ NoContext b
  | .finally a b => NoContext a ∧ NoContext b
  | .withObj _ _ _ => False
  | .withRedir _ _ _ _ => False

/-- The outcome of code without contexts and the texts it prints, if there are streams. -/
def printed : Code → Except Exc Unit × List PyStr
  | .print _ t res => (res, [t])
  | .raise e => (.error e, [])
  | .seq a b =>
    match (printed a).1 with
    | .ok () => ((printed b).1, (printed a).2 ++ (printed b).2)
    | .error e => (.error e, (printed a).2)
  | .catch a b =>
    match (printed a).1 with
    | .ok () => (.ok (), (printed a).2)
    | .error _ => ((printed b).1, (printed a).2 ++ (printed b).2)
  | .finally a b =>
    (match (printed b).1 with | .ok () => (printed a).1 | .error e => .error e, (printed a).2 ++ (printed b).2)
  | _ => (.ok (), [])

/-- Thread 0 may use contexts (none inside itself), the other threads only print. -/
def OneRedirects (N : Nat) (i : Nat) (k : Code) : Prop :=
  i < N ∧ (i = 0 → NotReentered k) ∧ (i ≠ 0 → NoContext k)

end SyncStream.Spec
