import Verif.Spec.FileLog
import Verif.Spec.Atomic
/-!
# Specification of file buffers shared by several processes

One sequence of completed records for all, each marked with the process that wrote it; every
process has its own unfinished line and its own closed flag.
-/

namespace SyncStream.Spec

/-- The records of all processes, and what each of them has for itself. -/
structure SLog where
  cap : Nat
  done : List (Nat × PyStr) := []
  part : Nat → PyStr := fun _ => []
  closed : Nat → Bool := fun _ => false

namespace SLog

/-- What process `i` has to do with. -/
def of (m : SLog) (i : Nat) : FLog :=
  { cap := m.cap, done := m.done.map (·.2), part := m.part i, closed := m.closed i }

/-- A call by process `i`: it behaves like a call on the buffer that `i` sees; what it completes
is appended for all, marked with `i`; `clear` removes the records of all. -/
inductive Step (m : SLog) (i : Nat) : FCall → Ret → SLog → Prop
  | clear (r : Ret) (l : FLog) : FLog.Step (m.of i) .clear r l →
      Step m i .clear r { m with done := [], part := upd m.part i l.part, closed := upd m.closed i l.closed }
  | other (c : FCall) (r : Ret) (l : FLog) (new : List PyStr) : c ≠ .clear → FLog.Step (m.of i) c r l →
      l.done = (m.of i).done ++ new →
      Step m i c r { m with
                     done := m.done ++ new.map (i, ·)
                     part := upd m.part i l.part
                     closed := upd m.closed i l.closed }

/-- The records of process `i`. -/
def mine (m : SLog) (i : Nat) : List PyStr := (m.done.filter (·.1 = i)).map (·.2)

end SLog

/-- The calls of thread `i` in what was observed, in order. -/
def callsOf {C R : Type} (i : Nat) : List (Ev C R) → List C
  | [] => []
  | .inv j c :: tr => if j = i then c :: callsOf i tr else callsOf i tr
  | .ret _ _ :: tr => callsOf i tr

/-- The results of thread `i` in what was observed, in order. -/
def resultsOf {C R : Type} (i : Nat) : List (Ev C R) → List R
  | [] => []
  | .inv _ _ :: tr => resultsOf i tr
  | .ret j r :: tr => if j = i then r :: resultsOf i tr else resultsOf i tr

end SyncStream.Spec
