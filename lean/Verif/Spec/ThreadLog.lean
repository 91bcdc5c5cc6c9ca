import Verif.Spec.Log
import Verif.Spec.Atomic
import Verif.Model.Threads
/-!
# Specification of a line buffer used by several threads

The log of `Spec/Log.lean`, on which every call takes effect in one moment; an item delivered by
`receive` is appended to the completed ones (specified for an open buffer only).
-/

namespace SyncStream.Spec

/-- A call by thread `i` (whatever `i` is). -/
inductive TStep (l : Log) (i : Nat) : TCall → Ret → Log → Prop
  | call (c : Call) (r : Ret) (l' : Log) : Log.Step l c r l' → TStep l i (.call c) r l'
  | deliver (x : Item) : l.closed = false → TStep l i (.deliver x) .unit { l with done := l.done ++ [x] }

/-- The exceptions each call can raise on a buffer that is closed by some thread at some time. -/
def MayRaise : TCall → Exc → Prop
  | .call (.write _), e => e = .osError ∨ e = .valueError
  | .call (.read _), e => e = .osError ∨ e = .valueError ∨ e = .indexError
  | .call .newLine, e => e = .valueError
  | .call .flush, e => e = .valueError
  | .call .clear, e => e = .valueError
  | .call .close, e => e = .valueError
  | .call .len, _ => False
  | .call .maxlen, _ => False
  | .call .closed, _ => False
  | .call .readable, _ => False
  | .call .writable, _ => False
  | .deliver _, _ => False

end SyncStream.Spec
