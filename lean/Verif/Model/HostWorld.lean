import Verif.Model.HostMirrorThreads
import Verif.Model.HostSystem
import Verif.Model.Mix
/-!
# The host mode as a whole, with mirrors that threads share (`syncstream/host.py`)

Any number of processes, each with a host mirror that any number of its threads share, with readers and with the owner of the buffer; the
requests are served by threads of the service, step by step.  The methods of `LineHostMirror` are those of `Model/HostMirrorThreads.lean`
again, line by line, with requests that go to the service instead of an oracle (`Lemmas/HostWorld.lean` proves that they are the same
programs).  As in `Model/HostSystem.lean` a call comes with what happens to its requests; a request that is lost is one step of the
process.
-/

namespace SyncStream

/-- Programs of a process with a host mirror; its locks are the `__buffer_lock`s made so far. -/
abbrev HMixed := Mix HMProc Nat Req (Except Exc Resp)

namespace HMixed

/-- One step on the mirror. -/
def atom {α : Type} (m : Py HMirror α) : HMixed α := Mix.atom (Py.onPart (·.mirror) (fun t s => { s with mirror := t }) m)

/-- Reading an attribute. -/
def gets {α : Type} (f : HMProc → α) : HMixed α := Mix.atom (Py.gets f)

/-- `self.__buffer.<method>` -/
def onBuf {α : Type} (m : Py StringIO α) : HMixed α := atom (Py.onPart (·.buf) (fun t s => { s with buf := t }) m)

/-- `LineHostMirror.__buffer_lock` (`host.py:164-173`). -/
def lazyLock : HMixed Nat := do
  if (← gets (·.lock)).isNone then
    Mix.atom (Py.modify fun s => { s with lock := some s.made, made := s.made + 1 })
  else pure ()
  return (← gets (·.lock)).getD 0

/-- `with self.__buffer_lock:` -/
def locked {α : Type} (p : HMixed α) : HMixed α := do
  let l ← lazyLock
  Mix.withLock l true p

/-- `with self.__http.request(...) as req` -/
def request (r : Req) : HMixed Resp := .ask r Mix.ofExcept

/-- The `else` branches after `if req.status < 400` (e.g. `host.py:287-294`), see `Resp.fail`. -/
def fail {α : Type} (r : Resp) : HMixed α :=
  match r.body with
  | none => .raise .jsonDecodeError
  | some _ => .raise .connectionError

/-- `if req.status < 400: return` … (e.g. `host.py:278-294`) -/
def expectOk (r : Req) : HMixed Unit := do
  let resp ← request r
  if resp.status < 400 then return ()
  else fail resp

/-- `LineHostMirror.closed` (`host.py:175-179`). -/
def closed : HMixed Bool := locked (gets (·.mirror.buf.closed))

/-- `LineHostMirror.readable` (`host.py:215-222`). -/
def readable : HMixed Bool := locked (gets fun s => !s.mirror.buf.closed)

/-- `LineHostMirror.writable` (`host.py:224-231`). -/
def writable : HMixed Bool := locked (gets fun s => !s.mirror.buf.closed)

/-- `LineHostMirror.clear` (`host.py:244-256`). -/
def clear : HMixed Unit := locked do
  onBuf StringIO.seek0
  onBuf StringIO.truncate0

/-- `LineHostMirror.flush` (`host.py:426-429`). -/
def flush : HMixed Unit := locked (onBuf StringIO.flush)

/-- `LineHostMirror.send_data` (`host.py:356-390`). -/
def sendData (data : PyStr) : HMixed Unit := do
  if ← closed then return ()
  else expectOk (.post (.json (HMirror.strMsg data)))

/-- The end of `check_states`: the answer of the service (`host.py:412-424`). -/
def checkAnswer (resp : Resp) : HMixed Unit :=
  if resp.status < 400 then
    match resp.body with
    | none => .raise .jsonDecodeError
    | some j =>
      match j.get (lit "data") .null with
      | .bool true => .raise .stopIteration
      | _ => return ()
  else fail resp

/-- `LineHostMirror.check_states` (`host.py:392-424`). -/
def checkStates : HMixed Unit := do
  if ← closed then return ()
  else
    let resp ← request (.stateGet (some (lit "closed")))
    checkAnswer resp

/-- `LineHostMirror.__write` (`host.py:443-468`). -/
def writeCore (data : PyStr) (check : Bool) : HMixed Nat := do
  (if check then checkStates else pure () : HMixed Unit)
  let messageLines := splitlines data
  if ← gets (·.mirror.aggressive) then
    sendData data
    return data.length
  else
    let nLines := messageLines.length
    if nLines > 1 ∨ (nLines = 1 ∧ messageLines.head? = some []) ∨ isEndLineBreak data then
      let res ← onBuf (StringIO.write data)
      let text ← onBuf StringIO.getvalue
      sendData text
      onBuf StringIO.seek0
      onBuf StringIO.truncate0
      return res
    else if nLines = 1 then
      onBuf (StringIO.write data)
    else
      return 0

/-- `LineHostMirror.write` (`host.py:470-494`). -/
def write (data : PyStr) : HMixed Nat := do
  if !(← writable) then .raise .osError
  else locked (writeCore data true)

/-- `LineHostMirror.new_line` (`host.py:258-264`). -/
def newLine (check : Bool := true) : HMixed Unit := locked do
  let pos ← onBuf StringIO.tell
  if pos > 0 then
    let _ ← writeCore (lit "\n") check
    return ()
  else return ()

/-- What `send_eof`, `send_error` and `send_warning` have in common: nothing if closed, else a new line and the message
(`host.py:266-354`). -/
def sendEnd (check : Bool) (msg : Json) : HMixed Unit := do
  if ← closed then return ()
  else
    newLine check
    expectOk (.post (.json msg))

/-- `LineHostMirror.send_eof` (`host.py:266-294`). -/
def sendEof : HMixed Unit := sendEnd true HMirror.closeMsg

/-- `LineHostMirror.send_error` (`host.py:296-324`). -/
def sendError (e : ExcObj) : HMixed Unit := sendEnd (!e.isStop) (HMirror.objMsg (lit "error") (GMsg.new (.exc e)))

/-- `LineHostMirror.send_warning` (`host.py:326-354`). -/
def sendWarning (e : ExcObj) : HMixed Unit := sendEnd true (HMirror.objMsg (lit "warning") (GMsg.new (.exc e)))

/-- `LineHostMirror.close` (`host.py:181-200`). -/
def close (exc : Option ExcObj) : HMixed Unit := do
  if ← closed then return ()
  else
    match exc with
    | none => sendEof
    | some e => sendError e
    clear
    locked (onBuf StringIO.close)

/-- `LineHostMirror.read` (`host.py:431-441`). -/
def read : HMixed PyStr := do
  if !(← readable) then .raise .osError
  else locked (onBuf StringIO.getvalue)

/-- The program of a call and what it returns.  The attribute `aggressive` is set without a lock (`host.py:93`). -/
def prog : HMCall → HMixed HMRet
  | .write d => do return HMRet.of .nat (← (write d).outcome)
  | .newLine k => do return HMRet.of (fun _ => .unit) (← (newLine k).outcome)
  | .read => do return HMRet.of .text (← HMixed.read.outcome)
  | .clear => do return HMRet.of (fun _ => .unit) (← clear.outcome)
  | .flush => do return HMRet.of (fun _ => .unit) (← flush.outcome)
  | .sendData d => do return HMRet.of (fun _ => .unit) (← (sendData d).outcome)
  | .sendEof => do return HMRet.of (fun _ => .unit) (← sendEof.outcome)
  | .sendError e => do return HMRet.of (fun _ => .unit) (← (sendError e).outcome)
  | .sendWarning e => do return HMRet.of (fun _ => .unit) (← (sendWarning e).outcome)
  | .checkStates => do return HMRet.of (fun _ => .unit) (← checkStates.outcome)
  | .close e => do return HMRet.of (fun _ => .unit) (← (close e).outcome)
  | .closed => do return HMRet.of .bool (← closed.outcome)
  | .readable => do return HMRet.of .bool (← readable.outcome)
  | .writable => do return HMRet.of .bool (← writable.outcome)
  | .setAggressive a => do
    return HMRet.of (fun _ => .unit) (← (atom (Py.modify fun s => { s with aggressive := a })).outcome)

end HMixed

/-- The requests on their way to the service and back, and what happens to them (as `Ask.sent`; a lost request is one step). -/
def Mix.sent {σ L α : Type} : Mix σ L Req (Except Exc Resp) α → List Outcome → Mix σ L HOp HRet α
  | .ret a, _ => .ret a
  | .raise e, _ => .raise e
  | .act f k, os => .act f fun s => (k s).sent os
  | .acq l w k, os => .acq l w (k.sent os)
  | .rel l w k, os => .rel l w (k.sent os)
  | .ask r k, os =>
    match os.headD .ok with
    | .ok => .ask (.req r.wire) fun x => (k x.received).sent os.tail
    | .lost e => .act id fun _ => (k (.error e)).sent os.tail
    | .noReply e => .ask (.req r.wire) fun _ => (k (.error e)).sent os.tail

/-- A call by a thread: on the mirror of its process, of a reader, or by the owner of the buffer (`stop_all_mirrors`, `reset_states`:
`host.py:747-767`). -/
def worldCall : HSCall → Mix HMProc Nat HOp HRet (HSRet × Unit)
  | .mirror c os => ((HMixed.prog c).sent os).bind fun r => .ret (.mirror r, ())
  | .reader c os => (Mix.ofAsk (c.exec.sent os)).bind fun r => .ret (.reader r, ())
  | .stopAll => .ask .stopAll fun _ => .ret (.local, ())
  | .reset => .ask .reset fun _ => .ret (.local, ())

/-- The host mode: thread `i`, of process `proc i`, may make the call `c` if `ok i c`. -/
def hostWorld (env : HEnv) (proc : Nat → Nat) (ok : Nat → HSCall → Prop) :
    Conc.Sys ((Nat → HMProc) × HostBuf) (Nat × Nat ⊕ HLock) Unit HSCall HSRet :=
  mixSys (hostThreads env fun _ o => match o with | .buffer _ => False | _ => True) proc worldCall ok fun _ => True

end SyncStream
