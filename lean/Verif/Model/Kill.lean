import Verif.Model.Conc
/-!
# Processes that are killed among processes that go on, with locks of a server

The locks of the process mode live in two places.  `__buffer_lock`, `__config_lock` and `__last_line_lock` are locks of a process; nobody else
can use them, and they vanish with it.  `__state_lock` is made by `multiprocessing.Manager()` (`syncstream/mproc.py:784-786`): it is a lock
of the manager's process, which a thread of the manager takes and releases on behalf of a client.  If the client is killed
(`Process.terminate()` or `Process.kill()`, recommended by the documentation of `force_stop`, `mproc.py:884-885`), then nobody releases what it
holds.  If it is killed while it waits, then the manager's thread goes on waiting, and takes the lock for nobody.

A killed thread does not move any more.  What it has done, and what it holds, remains.
-/

namespace SyncStream.Conc
variable {σ L O C R : Type} [DecidableEq L]

/-- One step of the whole, where processes are killed; `proc i`: the process of thread `i`; `remote l`: the lock is one of a server;
`dead i`: thread `i` has been killed.  In `step` somebody who is alive does something; in `served` the server takes a lock for a thread that
was killed while it waited for it; in `kill` all threads of a process are killed. -/
inductive KStep (sys : Sys σ L O C R) (proc : Nat → Nat) (remote : L → Prop) :
    Conf σ L O C R × (Nat → Prop) → Option (Ev C R) → Conf σ L O C R × (Nat → Prop) → Prop
  | step (κ κ' : Conf σ L O C R) (dead : Nat → Prop) (e : Option (Ev C R)) : Step sys κ e κ' → (∀ d, dead d → κ'.cur d = κ.cur d) →
      KStep sys proc remote (κ, dead) e (κ', dead)
  | served (κ : Conf σ L O C R) (dead : Nat → Prop) (d : Nat) (c : C) (l : L) (w : Bool) (k : Prog σ L (R × O)) : dead d → remote l →
      κ.cur d = some (c, .acq l w k) → CanTake sys κ d l w →
      KStep sys proc remote (κ, dead) none
        ({ κ with
           held := upd κ.held d fun l' => if l' = l then w :: κ.held d l else κ.held d l'
           cur := upd κ.cur d (some (c, k)) }, dead)
  | kill (κ : Conf σ L O C R) (dead : Nat → Prop) (p : Nat) : KStep sys proc remote (κ, dead) none (κ, fun i => dead i ∨ proc i = p)

/-- An execution, with what can be observed. -/
inductive KExec (sys : Sys σ L O C R) (proc : Nat → Nat) (remote : L → Prop) :
    Conf σ L O C R × (Nat → Prop) → List (Ev C R) → Conf σ L O C R × (Nat → Prop) → Prop
  | nil (x : Conf σ L O C R × (Nat → Prop)) : KExec sys proc remote x [] x
  | snoc (x x' x'' : Conf σ L O C R × (Nat → Prop)) (tr : List (Ev C R)) (e : Option (Ev C R)) :
      KExec sys proc remote x tr x' → KStep sys proc remote x' e x'' → KExec sys proc remote x (tr ++ e.toList) x''

end SyncStream.Conc
