import Verif.Model.ModeOverride
/-!
# `LineProcBuffer.wait` with a user's `parse_lines` (`syncstream/mproc.py:924-927`)
-/

namespace SyncStream.OvProc
variable {U : Type}

/-- The loop of `LineProcBuffer.wait` (`mproc.py:924-927`), `fuel` rounds of it. -/
def waitLoop (p : Override U) : Nat → Py (OvNet U) Unit
  | 0 => Py.raise .blocked
  | fuel + 1 => do
    if ← receive p then waitLoop p fuel else return ()

/-- `LineProcBuffer.wait` when the messages in the queue are all that ever arrive, as in `ProcBuf.wait`;
`blocked` means it waits for more. -/
def wait (p : Override U) : Py (OvNet U) Unit := fun s =>
  waitLoop p ((s.2.queues s.1.main.mirror.queue).length + 1) s

end SyncStream.OvProc
