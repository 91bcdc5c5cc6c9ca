import Verif.Model.Conc
/-!
# Specification: waiting for locks

Who can go on, and who waits for whom.
-/

namespace SyncStream.Spec
open Conc

variable {σ L O C R : Type}

/-- Thread `i` is in a call and can do its next step (an exception that leaves a call uncaught would stop
the thread). -/
def CanGoOn (sys : Sys σ L O C R) (κ : Conf σ L O C R) (i : Nat) : Prop :=
  ∃ c p, κ.cur i = some (c, p) ∧
    match p with
    | .acq l w _ => CanTake sys κ i l w
    | .raise _ => False
    | _ => True

/-- Thread `i` waits for a lock that `j` holds (`j = i`: a lock that is not reentrant and that `i` holds
itself). -/
def WaitsFor (sys : Sys σ L O C R) (κ : Conf σ L O C R) (i j : Nat) : Prop :=
  ∃ c l w k, κ.cur i = some (c, .acq l w k) ∧
    ((j = i ∧ κ.held i l ≠ [] ∧ ¬sys.reentrant l) ∨
     (j ≠ i ∧ (true ∈ κ.held j l ∨ (w = true ∧ κ.held j l ≠ []))))

/-- From `i` one comes to `j` by going on to the one waited for. -/
inductive Chain (sys : Sys σ L O C R) (κ : Conf σ L O C R) : Nat → Nat → Prop
  | here (i : Nat) : Chain sys κ i i
  | next (i j k : Nat) : WaitsFor sys κ i j → Chain sys κ j k → Chain sys κ i k

/-- An execution in which no call starts. -/
inductive RunOn [DecidableEq L] (sys : Sys σ L O C R) : Conf σ L O C R → Conf σ L O C R → Prop
  | stop (κ : Conf σ L O C R) : RunOn sys κ κ
  | step (κ κ' κ'' : Conf σ L O C R) (e : Option (Ev C R)) : Step sys κ e κ' → (∀ i c, e ≠ some (.inv i c)) →
      RunOn sys κ' κ'' → RunOn sys κ κ''

/-- In every state reachable from `κ₀`: every thread in a call can go on or waits, directly or indirectly,
for one that can; the running calls can all be brought to their ends; and they do come to an end, in
whatever order they go on: the only infinite executions are those in which calls start again and
again. -/
def DeadlockFree [DecidableEq L] (sys : Sys σ L O C R) (κ₀ : Conf σ L O C R) : Prop :=
  ∀ tr κ, Exec sys κ₀ tr κ →
    (∀ i, κ.cur i ≠ none → ∃ j, Chain sys κ i j ∧ CanGoOn sys κ j) ∧
    (∃ κ', RunOn sys κ κ' ∧ ∀ i, κ'.cur i = none) ∧
    ¬ ∃ f : Nat → Conf σ L O C R, f 0 = κ ∧
      ∀ n, ∃ e, Step sys (f n) e (f (n + 1)) ∧ ∀ i c, e ≠ some (.inv i c)

end SyncStream.Spec
