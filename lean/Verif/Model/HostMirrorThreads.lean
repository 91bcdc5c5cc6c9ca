import Verif.Model.Host
import Verif.Model.Threads
/-!
# A host mirror shared by threads, step by step (`syncstream/host.py:67-494`)

The methods of `LineHostMirror` in `Model/Host.lean` again, as programs with the lock they take.  One operation on the
`StringIO` is one step, reading an attribute is one step, and a request with its answer is one step (what the service does
meanwhile for others is in the oracle of `HNet`; `Model/HostThreads.lean` models the service itself step by step).

The lock is the reentrant `__buffer_lock`.  It is made when it is first used (`host.py:164-173`), and two threads that use
it first at the same time can make two of them.  (The pool `__http` is made in the same way, `host.py:148-162`.  Two pools
serve as well as one, so it is left out here; `Model/WebThreads.lean` has it.)

`Lemmas/HostMirrorThreads.lean` proves that without interruption the programs do what `Model/Host.lean` says.
-/

namespace SyncStream

/-- A process with a host mirror: the mirror, `__buffer_lock_` (`host.py:109`), and how many locks it has made. -/
structure HMProc where
  mirror : HMirror := {}
  lock : Option Nat := none
  made : Nat := 0

/-- Programs of a process with a host mirror; its locks are the `__buffer_lock`s made so far. -/
abbrev HMProg := Prog (HMProc × HNet) Nat

namespace HMThr

/-- One step on the mirror and the network. -/
def atom {α : Type} (m : Py HMNet α) : HMProg α :=
  Prog.atom (Py.onPart (fun s => (s.1.mirror, s.2)) (fun t s => ({ s.1 with mirror := t.1 }, t.2)) m)

/-- Reading an attribute. -/
def gets {α : Type} (f : HMProc × HNet → α) : HMProg α := Prog.atom (Py.gets f)

/-- `self.__buffer.<method>` -/
def onBuf {α : Type} (m : Py StringIO α) : HMProg α := atom (HMirror.onBuf m)

/-- `LineHostMirror.__buffer_lock` (`host.py:164-173`). -/
def lazyLock : HMProg Nat := do
  if (← gets (·.1.lock)).isNone then
    Prog.atom (Py.modify fun s => ({ s.1 with lock := some s.1.made, made := s.1.made + 1 }, s.2))
  else pure ()
  return (← gets (·.1.lock)).getD 0

/-- `with self.__buffer_lock:` -/
def locked {α : Type} (p : HMProg α) : HMProg α := do
  let l ← lazyLock
  Prog.withLock l true p

variable (env : HEnv)

/-- A request. -/
def request (r : Req) : HMProg Resp := atom (HMirror.request env r)

/-- The `else` branches after `if req.status < 400` (e.g. `host.py:287-294`), see `Resp.fail`. -/
def fail {α : Type} (r : Resp) : HMProg α :=
  match r.body with
  | none => .raise .jsonDecodeError
  | some _ => .raise .connectionError

/-- `if req.status < 400: return` … (e.g. `host.py:278-294`) -/
def expectOk (r : Req) : HMProg Unit := do
  let resp ← request env r
  if resp.status < 400 then return ()
  else fail resp

/-- `LineHostMirror.closed` (`host.py:175-179`). -/
def closed : HMProg Bool := locked (gets (·.1.mirror.buf.closed))

/-- `LineHostMirror.readable` (`host.py:215-222`). -/
def readable : HMProg Bool := locked (gets fun s => !s.1.mirror.buf.closed)

/-- `LineHostMirror.writable` (`host.py:224-231`). -/
def writable : HMProg Bool := locked (gets fun s => !s.1.mirror.buf.closed)

/-- `LineHostMirror.clear` (`host.py:244-256`). -/
def clear : HMProg Unit := locked do
  onBuf StringIO.seek0
  onBuf StringIO.truncate0

/-- `LineHostMirror.flush` (`host.py:426-429`). -/
def flush : HMProg Unit := locked (onBuf StringIO.flush)

/-- `LineHostMirror.send_data` (`host.py:356-390`). -/
def sendData (data : PyStr) : HMProg Unit := do
  if ← closed then return ()
  else expectOk env (.post (.json (HMirror.strMsg data)))

/-- The end of `check_states`: the answer of the service (`host.py:412-424`). -/
def checkAnswer (resp : Resp) : HMProg Unit :=
  if resp.status < 400 then
    match resp.body with
    | none => .raise .jsonDecodeError
    | some j =>
      match j.get (lit "data") .null with
      | .bool true => .raise .stopIteration
      | _ => return ()
  else fail resp

/-- `LineHostMirror.check_states` (`host.py:392-424`). -/
def checkStates : HMProg Unit := do
  if ← closed then return ()
  else
    let resp ← request env (.stateGet (some (lit "closed")))
    checkAnswer resp

/-- `LineHostMirror.__write` (`host.py:443-468`). -/
def writeCore (data : PyStr) (check : Bool) : HMProg Nat := do
  (if check then checkStates env else pure () : HMProg Unit)
  let messageLines := splitlines data
  if ← gets (·.1.mirror.aggressive) then
    sendData env data
    return data.length
  else
    let nLines := messageLines.length
    if nLines > 1 ∨ (nLines = 1 ∧ messageLines.head? = some []) ∨ isEndLineBreak data then
      let res ← onBuf (StringIO.write data)
      let text ← onBuf StringIO.getvalue
      sendData env text
      onBuf StringIO.seek0
      onBuf StringIO.truncate0
      return res
    else if nLines = 1 then
      onBuf (StringIO.write data)
    else
      return 0

/-- `LineHostMirror.write` (`host.py:470-494`). -/
def write (data : PyStr) : HMProg Nat := do
  if !(← writable) then .raise .osError
  else locked (writeCore env data true)

/-- `LineHostMirror.new_line` (`host.py:258-264`). -/
def newLine (check : Bool := true) : HMProg Unit := locked do
  let pos ← onBuf StringIO.tell
  if pos > 0 then
    let _ ← writeCore env (lit "\n") check
    return ()
  else return ()

/-- What `send_eof`, `send_error` and `send_warning` have in common: nothing if closed, else a new line and the message
(`host.py:266-354`). -/
def sendEnd (check : Bool) (msg : Json) : HMProg Unit := do
  if ← closed then return ()
  else
    newLine env check
    expectOk env (.post (.json msg))

/-- `LineHostMirror.send_eof` (`host.py:266-294`). -/
def sendEof : HMProg Unit := sendEnd env true HMirror.closeMsg

/-- `LineHostMirror.send_error` (`host.py:296-324`). -/
def sendError (e : ExcObj) : HMProg Unit :=
  sendEnd env (!e.isStop) (HMirror.objMsg (lit "error") (GMsg.new (.exc e)))

/-- `LineHostMirror.send_warning` (`host.py:326-354`). -/
def sendWarning (e : ExcObj) : HMProg Unit := sendEnd env true (HMirror.objMsg (lit "warning") (GMsg.new (.exc e)))

/-- `LineHostMirror.close` (`host.py:181-200`). -/
def close (exc : Option ExcObj) : HMProg Unit := do
  if ← closed then return ()
  else
    match exc with
    | none => sendEof env
    | some e => sendError env e
    clear
    locked (onBuf StringIO.close)

/-- `LineHostMirror.read` (`host.py:431-441`). -/
def read : HMProg PyStr := do
  if !(← readable) then .raise .osError
  else locked (onBuf StringIO.getvalue)

/-- The program of a call and what it returns.  The attribute `aggressive` is set without a lock (`host.py:93`). -/
def prog : HMCall → HMProg HMRet
  | .write d => do return HMRet.of .nat (← (write env d).outcome)
  | .newLine k => do return HMRet.of (fun _ => .unit) (← (newLine env k).outcome)
  | .read => do return HMRet.of .text (← HMThr.read.outcome)
  | .clear => do return HMRet.of (fun _ => .unit) (← clear.outcome)
  | .flush => do return HMRet.of (fun _ => .unit) (← flush.outcome)
  | .sendData d => do return HMRet.of (fun _ => .unit) (← (sendData env d).outcome)
  | .sendEof => do return HMRet.of (fun _ => .unit) (← (sendEof env).outcome)
  | .sendError e => do return HMRet.of (fun _ => .unit) (← (sendError env e).outcome)
  | .sendWarning e => do return HMRet.of (fun _ => .unit) (← (sendWarning env e).outcome)
  | .checkStates => do return HMRet.of (fun _ => .unit) (← (checkStates env).outcome)
  | .close e => do return HMRet.of (fun _ => .unit) (← (close env e).outcome)
  | .closed => do return HMRet.of .bool (← closed.outcome)
  | .readable => do return HMRet.of .bool (← readable.outcome)
  | .writable => do return HMRet.of .bool (← writable.outcome)
  | .setAggressive a => do return HMRet.of (fun _ => .unit) (← (atom (HMirror.setAggressive a)).outcome)

end HMThr

/-- The threads of a process that share its host mirror; thread `i` may make the call `c` if `ok i c`. -/
def hostMirrorThreads (env : HEnv) (ok : Nat → HMCall → Prop) : Conc.Sys (HMProc × HNet) Nat Unit HMCall HMRet where
  call _ _ c := do return (← HMThr.prog env c, ())
  ok := ok
  reentrant _ := True

end SyncStream
