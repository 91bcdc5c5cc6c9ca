import Verif.Spec.ThreadLog
/-!
# Specification of a line buffer whose `clear` takes effect in two moments

As the atomic object of `Spec/Atomic.lean` with the log of `Spec/ThreadLog.lean`, except that a `clear` first
drops the unfinished line and later, still before it returns, the completed items.
-/

namespace SyncStream.Spec

/-- A thread: not in a call; in a call that has not taken effect; in a `clear` that has dropped the unfinished line,
but not yet the completed items; in a call that has taken effect, with its result. -/
inductive ClStat where
  | idle
  | called (c : TCall)
  | half
  | done (r : Ret)

/-- A state: the log, and where the threads are. -/
structure ClConf where
  log : Log
  stat : Nat → ClStat

/-- A moment in which a call of thread `i` takes effect, or half of it. -/
inductive ClEffect (i : Nat) : Log → ClStat → Log → ClStat → Prop
  | whole (l l' : Log) (c : TCall) (r : Ret) : c ≠ .call .clear → TStep l i c r l' →
      ClEffect i l (.called c) l' (.done r)
  | first (l : Log) : l.closed = false → ClEffect i l (.called (.call .clear)) { l with part := [] } .half
  | second (l : Log) : ClEffect i l .half { l with done := [] } (.done .unit)

/-- A step: a call starts, takes effect (wholly or half, not observed), returns. -/
inductive ClStep : ClConf → Option (Ev TCall Ret) → ClConf → Prop
  | inv (a : ClConf) (i : Nat) (c : TCall) : a.stat i = .idle →
      ClStep a (some (.inv i c)) { a with stat := upd a.stat i (.called c) }
  | effect (a : ClConf) (i : Nat) (l : Log) (s : ClStat) : ClEffect i a.log (a.stat i) l s →
      ClStep a none { log := l, stat := upd a.stat i s }
  | ret (a : ClConf) (i : Nat) (r : Ret) : a.stat i = .done r →
      ClStep a (some (.ret i r)) { a with stat := upd a.stat i .idle }

/-- An execution, with what can be observed. -/
inductive ClExec : ClConf → List (Ev TCall Ret) → ClConf → Prop
  | nil (a : ClConf) : ClExec a [] a
  | snoc (a a' a'' : ClConf) (tr : List (Ev TCall Ret)) (e : Option (Ev TCall Ret)) :
      ClExec a tr a' → ClStep a' e a'' → ClExec a (tr ++ e.toList) a''

/-- The calls: all except `read` and `close`. -/
def Writing : TCall → Prop
  | .call (.read _) => False
  | .call .close => False
  | _ => True

end SyncStream.Spec
