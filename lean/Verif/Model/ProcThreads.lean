import Verif.Model.Proc
import Verif.Model.Threads
/-!
# The process mode, step by step (`syncstream/mproc.py:385-941`)

The methods of `Model/Proc.lean` again, as programs with the locks they take.  Any number of processes
have a copy of the mirror each; the process of the main buffer and each of the others can have several
threads.  One operation on a `StringIO`, on the manager's dictionary or on the queue is one step, reading
and writing an attribute is one step each (so `self.n_mirrors += 1` is two).

Locks: `__config_lock`, `__state_lock` (of the manager, shared by all processes), `__last_line_lock` of
the inherited line buffer, and for each process the reentrant `__buffer_lock` of its copy of the mirror.
That lock is not pickled; it is made when it is first used (`mproc.py:475-483`), and two threads that
use it first at the same time can make two of them.  `lazyLock` is this code; `madeLock` is the same
for a lock that exists already.

A call that has to wait for a message in the queue is a thread that does not move.  (In the model it can
move and then ends with the exception `blocked`; executions without that exception are the real ones.
The same holds for waiting for room, see `Net.put`.)

`Lemmas/ProcThreads.lean` proves that without interruption the programs do what `Model/Proc.lean` says.
-/

namespace SyncStream

/-- A process with a mirror: the mirror, `__buffer_lock_`, and how many locks it has made. -/
structure MProc where
  mirror : Mirror
  lock : Option Nat := none
  made : Nat := 0

/-- The locks of a process with a mirror: the `k`-th `__buffer_lock` made, and the shared one. -/
inductive MLock where
  | buf (k : Nat)
  | state
  deriving DecidableEq

/-- Programs of a process with a mirror. -/
abbrev MProg := Prog (MProc × Net) MLock

namespace MThr

/-- One step on the mirror and the shared things. -/
def atom {α : Type} (m : Py MNet α) : MProg α :=
  Prog.atom (Py.onPart (fun s => (s.1.mirror, s.2)) (fun t s => ({ s.1 with mirror := t.1 }, t.2)) m)

/-- Reading an attribute. -/
def gets {α : Type} (f : MProc × Net → α) : MProg α := Prog.atom (Py.gets f)

/-- `self.__buffer.<method>` -/
def onBuf {α : Type} (m : Py StringIO α) : MProg α := atom (Mirror.onBuf m)

/-- `self.__queue.put(msg, block=self.__block, timeout=self.__timeout)` -/
def put (msg : QMsg) : MProg Unit := atom (Mirror.put msg)

/-- `LineProcMirror.__buffer_lock` (`mproc.py:474-483`). -/
def lazyLock : MProg MLock := do
  if (← gets (·.1.lock)).isNone then
    Prog.atom (Py.modify fun s => ({ s.1 with lock := some s.1.made, made := s.1.made + 1 }, s.2))
  else pure ()
  return .buf ((← gets (·.1.lock)).getD 0)

/-- `LineProcMirror.__buffer_lock` if the lock exists. -/
def madeLock : MProg MLock := return .buf 0

/-- `with self.__buffer_lock:` -/
def locked {α : Type} (lk : MProg MLock) (p : MProg α) : MProg α := do
  let l ← lk
  Prog.withLock l true p

variable (lk : MProg MLock)

/-- `LineProcMirror.closed` (`mproc.py:485-489`). -/
def closed : MProg Bool := locked lk (gets (·.1.mirror.buf.closed))

/-- `LineProcMirror.readable` (`mproc.py:525-532`). -/
def readable : MProg Bool := locked lk (gets fun s => !s.1.mirror.buf.closed)

/-- `LineProcMirror.writable` (`mproc.py:534-541`). -/
def writable : MProg Bool := locked lk (gets fun s => !s.1.mirror.buf.closed)

/-- `LineProcMirror.clear` (`mproc.py:554-567`). -/
def clear : MProg Unit := locked lk do
  onBuf StringIO.seek0
  onBuf StringIO.truncate0

/-- `LineProcMirror.flush` (`mproc.py:663-666`). -/
def flush : MProg Unit := locked lk (onBuf StringIO.flush)

/-- `LineProcMirror.send_data` (`mproc.py:638-661`). -/
def sendData (data : PyStr) : MProg Unit := do
  if ← closed lk then return ()
  else put (.str data)

/-- The check at the beginning of `__write` (`mproc.py:695-706`). -/
def checkState : MProg Unit := do
  if ← gets (·.1.mirror.hasState) then
    Prog.withLock .state true do
      if ← gets (·.2.closed.getD false) then .raise .stopIteration
      else return ()
  else return ()

/-- `LineProcMirror.__write` (`mproc.py:690-725`). -/
def writeCore (data : PyStr) : MProg Nat := do
  checkState
  let messageLines := splitlines data
  if ← gets (·.1.mirror.aggressive) then
    sendData lk data
    return data.length
  else
    let nLines := messageLines.length
    if nLines > 1 ∨ (nLines = 1 ∧ messageLines.head? = some []) ∨ isEndLineBreak data then
      let res ← onBuf (StringIO.write data)
      let text ← onBuf StringIO.getvalue
      sendData lk text
      onBuf StringIO.seek0
      onBuf StringIO.truncate0
      return res
    else if nLines = 1 then
      onBuf (StringIO.write data)
    else
      return 0

/-- `LineProcMirror.write` (`mproc.py:727-751`). -/
def write (data : PyStr) : MProg Nat := do
  if !(← writable lk) then .raise .osError
  else locked lk (writeCore lk data)

/-- `LineProcMirror.new_line` (`mproc.py:569-575`). -/
def newLine : MProg Unit := locked lk do
  let pos ← onBuf StringIO.tell
  if pos > 0 then
    let _ ← writeCore lk (lit "\n")
    return ()
  else return ()

/-- What `send_eof`, `send_error` and `send_warning` have in common: nothing if closed, else a new line
and the message (`mproc.py:588-636`). -/
def sendEnd (msg : QMsg) : MProg Unit := do
  if ← closed lk then return ()
  else
    newLine lk
    put msg

/-- `LineProcMirror.send_eof` (`mproc.py:588-602`). -/
def sendEof : MProg Unit := sendEnd lk .close

/-- `LineProcMirror.send_error` (`mproc.py:604-619`). -/
def sendError (e : ExcObj) : MProg Unit := sendEnd lk (.error (GMsg.new (.exc e)))

/-- `LineProcMirror.send_warning` (`mproc.py:621-636`). -/
def sendWarning (e : ExcObj) : MProg Unit := sendEnd lk (.warning (GMsg.new (.exc e)))

/-- `LineProcMirror.close` (`mproc.py:491-510`). -/
def close (exc : Option ExcObj) : MProg Unit := do
  if ← closed lk then return ()
  else
    match exc with
    | none => sendEof lk
    | some e => sendError lk e
    clear lk
    locked lk (onBuf StringIO.close)

/-- `LineProcMirror.read` (`mproc.py:668-688`). -/
def read (size : Option Int) : MProg PyStr := do
  if !(← readable lk) then .raise .osError
  else locked lk do
    match size with
    | none => onBuf StringIO.getvalue
    | some n => onBuf (StringIO.read n)

/-- The program of a call and what it returns.  The attributes `timeout` and `aggressive` are set without
a lock (`mproc.py:582-586`: two attributes). -/
def prog : MCall → MProg MRet
  | .write d => do return MRet.of .nat (← (write lk d).outcome)
  | .newLine => do return MRet.of (fun _ => .unit) (← (newLine lk).outcome)
  | .read size => do return MRet.of .text (← (MThr.read lk size).outcome)
  | .clear => do return MRet.of (fun _ => .unit) (← (clear lk).outcome)
  | .flush => do return MRet.of (fun _ => .unit) (← (flush lk).outcome)
  | .sendData d => do return MRet.of (fun _ => .unit) (← (sendData lk d).outcome)
  | .sendEof => do return MRet.of (fun _ => .unit) (← (sendEof lk).outcome)
  | .sendError e => do return MRet.of (fun _ => .unit) (← (sendError lk e).outcome)
  | .sendWarning e => do return MRet.of (fun _ => .unit) (← (sendWarning lk e).outcome)
  | .close e => do return MRet.of (fun _ => .unit) (← (close lk e).outcome)
  | .closed => do return MRet.of .bool (← (closed lk).outcome)
  | .readable => do return MRet.of .bool (← (readable lk).outcome)
  | .writable => do return MRet.of .bool (← (writable lk).outcome)
  | .setTimeout t => do
    let r ← (do
      atom (Py.modify fun s => ({ s.1 with timeout := t }, s.2))
      atom (Py.modify fun s => ({ s.1 with block := t.isNone }, s.2)) : MProg Unit).outcome
    return MRet.of (fun _ => .unit) r
  | .setAggressive a => do return MRet.of (fun _ => .unit) (← (atom (Mirror.setAggressive a)).outcome)

end MThr

/-- The whole: the main buffer, the processes with a mirror, and what all share. -/
structure PWorld where
  main : ProcBuf
  procs : Nat → MProc
  net : Net := {}

/-- All locks: `config` and `line` of the main buffer, `state`, and the locks of the processes. -/
inductive PLock where
  | config
  | line
  | state
  | buf (p k : Nat)
  deriving DecidableEq

/-- Programs of everyone. -/
abbrev PProg := Prog PWorld PLock

namespace PThr

/-- A program of process `p` on its mirror. -/
def mirror {α : Type} (p : Nat) (q : MProg α) : PProg α :=
  q.onPart (fun w => (w.procs p, w.net)) (fun t w => { w with procs := upd w.procs p t.1, net := t.2 }) fun
    | .buf k => .buf p k
    | .state => .state

/-- Methods of the inherited line buffer. -/
def line {α : Type} (q : TProg α) : PProg α :=
  q.onPart (·.main.base) (fun t w => { w with main := { w.main with base := t } }) fun _ => .line

/-- One step on the main buffer and the shared things. -/
def atom {α : Type} (m : Py PNet α) : PProg α :=
  Prog.atom (Py.onPart (fun w => (w.main, w.net)) (fun t w => { w with main := t.1, net := t.2 }) m)

/-- `LineProcBuffer.mirror` (`mproc.py:804-814`), and a copy of the mirror is sent to process `p` (where
it has no lock yet). -/
def take (p : Nat) : PProg Unit := do
  let n ← atom (Py.gets (·.1.nMirrors))
  atom (Py.modify fun s => ({ s.1 with nMirrors := n + 1 }, s.2))
  Prog.atom (Py.modify fun w => { w with procs := upd w.procs p { mirror := w.main.mirror } })

/-- `LineProcBuffer.stop_all_mirrors` (`mproc.py:816-828`). -/
def stopAll : PProg Unit :=
  Prog.withLock .state true (atom (Py.modify fun s => (s.1, { s.2 with closed := some true })))

/-- `LineProcBuffer.reset_states` (`mproc.py:830-854`). -/
def resetStates : PProg Unit := do
  if (← atom (Py.gets (·.1.nMirrors))) > 0 then .raise .typeError
  else
    Prog.withLock .state true do
      atom (Py.modify fun s => (s.1, { s.2 with closed := none }))
      atom (Py.modify fun s => (s.1, { s.2 with closed := some false }))
    atom (Py.modify fun s =>
      ({ s.1 with mirror := Mirror.new s.1.nextQueue, nextQueue := s.1.nextQueue + 1 }, s.2))

/-- `LineProcBuffer.__check_close` (`mproc.py:856-869`). -/
def checkClose : PProg Bool := do
  let n ← atom (Py.gets (·.1.nMirrors))
  atom (Py.modify fun s => ({ s.1 with nMirrors := n - 1 }, s.2))
  return (← atom (Py.gets (·.1.nMirrors))) > 0

/-- `LineProcBuffer.force_stop` (`mproc.py:871-889`). -/
def forceStop : PProg Unit := do
  let q ← atom (Py.gets (·.1.mirror.queue))
  atom fun s => let (r, n) := Net.put q .stop true none s.2; (r, (s.1, n))

/-- `queue.get()` -/
def get (q : Nat) : PProg QMsg := atom fun s =>
  match s.2.queues q with
  | [] => (.error .blocked, s)
  | m :: ms => (.ok m, (s.1, { s.2 with queues := fun i => if i = q then ms else s.2.queues i }))

/-- What `receive` does with a message (`mproc.py:905-922`). -/
def process (data : QMsg) : PProg Bool :=
  match data with
  | .str d => do
    let _ ← line (Thr.write d)
    return true
  | .error m => do
    line (Thr.deliver (.msg m))
    checkClose
  | .warning m => do
    line (Thr.deliver (.msg m))
    return true
  | .close => checkClose
  | .stop => do
    atom (Py.modify fun s => ({ s.1 with nMirrors := 0 }, s.2))
    return false
  | .other => return false

/-- `LineProcBuffer.receive` (`mproc.py:891-922`). -/
def receive : PProg Bool := Prog.withLock .config true do
  let q ← atom (Py.gets (·.1.mirror.queue))
  let data ← get q
  process data

end PThr

/-- What can be done: something with the mirror of the own process, or with the main buffer.  (The public
`write` of the main buffer raises `NotImplementedError`.) -/
inductive PCall where
  | mirror (c : MCall)
  | take (p : Nat)
  | receive
  | stopAll
  | forceStop
  | reset
  | buffer (c : Call)

/-- What a call returns. -/
inductive PRet where
  | mirror (r : MRet)
  | main (r : Ret)

/-- The program of a call by a thread of process `p`. -/
def PThr.prog (lk : MProg MLock) (p : Nat) : PCall → PProg PRet
  | .mirror c => do return .mirror (← mirror p (MThr.prog lk c))
  | .take p' => do return .main (Ret.of (fun _ => .unit) (← (take p').outcome))
  | .receive => do return .main (Ret.of .bool (← receive.outcome))
  | .stopAll => do return .main (Ret.of (fun _ => .unit) (← stopAll.outcome))
  | .forceStop => do return .main (Ret.of (fun _ => .unit) (← forceStop.outcome))
  | .reset => do return .main (Ret.of (fun _ => .unit) (← resetStates.outcome))
  | .buffer (.write d) => do return .main (Ret.of .nat (← (atom (ProcBuf.write d)).outcome))
  | .buffer c => do return .main (← line (Thr.prog (.call c)))

/-- Everyone; thread `i` belongs to process `proc i` and may make the call `c` if `ok i c`. -/
def procThreads (lk : MProg MLock) (proc : Nat → Nat) (ok : Nat → PCall → Prop) :
    Conc.Sys PWorld PLock Unit PCall PRet where
  call i _ c := do return (← PThr.prog lk (proc i) c, ())
  ok := ok
  reentrant l := ∃ p k, l = .buf p k

end SyncStream
