import Verif.Model.ProcThreads
/-!
# Specification: after `stop_all_mirrors()`
-/

namespace SyncStream.Spec

/-- All mirrors were given the shared flag and its lock, as `LineProcBuffer` does. -/
def Stateful (w : PWorld) : Prop := w.main.mirror.hasState = true ∧ ∀ p, (w.procs p).mirror.hasState = true

/-- Calls that are not meant to change a mirror or to send anything other than text that is written:
everything that reads, `write()`, `new_line()`, and on the main buffer receiving, stopping and the methods of
the line buffer. -/
def Mild : PCall → Prop
  | .mirror (.write _) | .mirror .newLine | .mirror .flush | .mirror .closed | .mirror .readable
  | .mirror .writable | .mirror (.read none) => True
  | .receive | .stopAll | .buffer _ => True
  | _ => False

end SyncStream.Spec
