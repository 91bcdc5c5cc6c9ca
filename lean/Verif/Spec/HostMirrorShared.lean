import Verif.Model.HostMirrorThreads
import Verif.Spec.Atomic
/-!
# Specification: threads that share a host mirror

Every call takes effect in one moment, as the sequential model has it.
-/

namespace SyncStream.Spec

/-- A call by a thread, in one moment: what the sequential model does with the mirror and the network. -/
def HostAtOnce (env : HEnv) (s : HMNet) (_ : Nat) (c : HMCall) (r : HMRet) (s' : HMNet) : Prop :=
  HMirror.exec env c s = (r, s')

/-- The mirror and the network, without the lock. -/
def hostShared (s : HMProc × HNet) : HMNet := (s.1.mirror, s.2)

/-- The text that a call writes. -/
def textWritten : HMCall → PyStr
  | .write d => d
  | _ => []

end SyncStream.Spec
