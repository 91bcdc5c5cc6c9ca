import Verif.Model.Conc
/-!
# Processes that die among processes that go on

A process can be killed between any two of its primitive steps.  What it has done remains, the rest of its call is not carried out, and
the operating system releases the locks it holds (`fasteners` uses `fcntl`/`LockFileEx`; `syncstream/file.py:105-110`).  Another
process, with an object of its own, can take its place.
-/

namespace SyncStream.Conc
variable {σ L O C R : Type} [DecidableEq L]

/-- One step of the whole, where processes can die; `Fresh i o`: the object `o` can be that of a new process number `i`. -/
inductive DStep (sys : Sys σ L O C R) (Fresh : Nat → O → Prop) :
    Conf σ L O C R → Option (Ev C R) → Conf σ L O C R → Prop
  | step (κ : Conf σ L O C R) (e : Option (Ev C R)) (κ' : Conf σ L O C R) : Step sys κ e κ' → DStep sys Fresh κ e κ'
  | die (κ : Conf σ L O C R) (i : Nat) (o : O) : Fresh i o →
      DStep sys Fresh κ none { κ with held := upd κ.held i fun _ => [], obj := upd κ.obj i o, cur := upd κ.cur i none }

/-- An execution, with what can be observed. -/
inductive DExec (sys : Sys σ L O C R) (Fresh : Nat → O → Prop) :
    Conf σ L O C R → List (Ev C R) → Conf σ L O C R → Prop
  | nil (κ : Conf σ L O C R) : DExec sys Fresh κ [] κ
  | snoc (κ κ' κ'' : Conf σ L O C R) (tr : List (Ev C R)) (e : Option (Ev C R)) :
      DExec sys Fresh κ tr κ' → DStep sys Fresh κ' e κ'' → DExec sys Fresh κ (tr ++ e.toList) κ''

end SyncStream.Conc
