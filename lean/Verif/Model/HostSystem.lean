import Verif.Model.Clients
import Verif.Model.HostThreads
/-!
# The host mode as a whole: a service, mirrors, readers and the process that owns the buffer (`syncstream/host.py`)

Every process has a `LineHostMirror` or a `LineHostReader` (or both) and one thread; the methods of `Model/Host.lean` again, as clients of the
service (`Model/Clients.lean`).  The service works step by step, with its locks, as in `Model/HostThreads.lean`, on any number of requests at a
time.  What a method does between two requests touches only the mirror of the process, so it is no step of its own, and the `__buffer_lock`
of the mirror is never contended (`Model/HostMirrorThreads.lean` has mirrors shared by threads).

What happens to the requests of a call on their way is decided before (`Outcome`): answered, lost before they reach the service, or lost after.
(A request whose answer is lost may still be processed when the client has gone on; here it is processed before the client goes on.)

`Lemmas/HostSystem.lean` proves that the methods here, fed with the answers of `HNet.request`, are those of `Model/Host.lean`.
-/

namespace SyncStream

/-- A method of a mirror that makes requests. -/
def HMAsk (α : Type) : Type := HMirror → Ask Req (Except Exc Resp) (Except Exc α × HMirror)

namespace HMAsk
variable {α β : Type}

/-- `pure` -/
protected def pure (a : α) : HMAsk α := fun m => .done (.ok a, m)

/-- One after the other; an exception ends the method. -/
protected def bind (p : HMAsk α) (g : α → HMAsk β) : HMAsk β := fun m =>
  (p m).bind fun x =>
    match x.1 with
    | .ok a => g a x.2
    | .error e => .done (.error e, x.2)

instance : Monad HMAsk where
  pure := HMAsk.pure
  bind := HMAsk.bind

/-- Raise an exception. -/
def raise (e : Exc) : HMAsk α := fun m => .done (.error e, m)

/-- Look at the mirror. -/
def gets (f : HMirror → α) : HMAsk α := fun m => .done (.ok (f m), m)

/-- `self.__buffer.<method>` -/
def onBuf (p : Py StringIO α) : HMAsk α := fun m => .done ((p m.buf).1, { m with buf := (p m.buf).2 })

/-- `with self.__http.request(...) as req` -/
def request (r : Req) : HMAsk Resp := fun m => .ask r fun x => .done (x, m)

/-- The `else` branches after `if req.status < 400` (e.g. `host.py:287-294`), see `Resp.fail`. -/
def fail (r : Resp) : HMAsk α :=
  match r.body with
  | none => raise .jsonDecodeError
  | some _ => raise .connectionError

/-- `if req.status < 400: return` … (e.g. `host.py:278-294`) -/
def expectOk (r : Req) : HMAsk Unit := do
  let resp ← request r
  if resp.status < 400 then return ()
  else fail resp

/-- `LineHostMirror.closed` (`host.py:175-179`). -/
def closed : HMAsk Bool := gets (·.buf.closed)

/-- `LineHostMirror.readable` (`host.py:215-222`). -/
def readable : HMAsk Bool := gets fun m => !m.buf.closed

/-- `LineHostMirror.writable` (`host.py:224-231`). -/
def writable : HMAsk Bool := gets fun m => !m.buf.closed

/-- `LineHostMirror.clear` (`host.py:244-256`). -/
def clear : HMAsk Unit := do
  onBuf StringIO.seek0
  onBuf StringIO.truncate0

/-- `LineHostMirror.flush` (`host.py:426-429`). -/
def flush : HMAsk Unit := onBuf StringIO.flush

/-- The public attribute `aggressive` (`host.py:93`). -/
def setAggressive (a : Bool) : HMAsk Unit := fun m => .done (.ok (), { m with aggressive := a })

/-- `LineHostMirror.send_data` (`host.py:356-390`). -/
def sendData (data : PyStr) : HMAsk Unit := do
  if ← closed then return ()
  else expectOk (.post (.json (HMirror.strMsg data)))

/-- The end of `check_states`: the answer of the service (`host.py:412-424`). -/
def checkAnswer (resp : Resp) : HMAsk Unit :=
  if resp.status < 400 then
    match resp.body with
    | none => raise .jsonDecodeError
    | some j =>
      match j.get (lit "data") .null with
      | .bool true => raise .stopIteration
      | _ => return ()
  else fail resp

/-- `LineHostMirror.check_states` (`host.py:392-424`). -/
def checkStates : HMAsk Unit := do
  if ← closed then return ()
  else
    let resp ← request (.stateGet (some (lit "closed")))
    checkAnswer resp

/-- `LineHostMirror.__write` (`host.py:443-468`). -/
def writeCore (data : PyStr) (check : Bool) : HMAsk Nat := do
  (if check then checkStates else pure () : HMAsk Unit)
  let messageLines := splitlines data
  if ← gets (·.aggressive) then
    sendData data
    return data.length
  else
    let nLines := messageLines.length
    if nLines > 1 ∨ (nLines = 1 ∧ messageLines.head? = some []) ∨ isEndLineBreak data then
      let res ← onBuf (StringIO.write data)
      let text ← onBuf StringIO.getvalue
      sendData text
      onBuf StringIO.seek0
      onBuf StringIO.truncate0
      return res
    else if nLines = 1 then
      onBuf (StringIO.write data)
    else
      return 0

/-- `LineHostMirror.write` (`host.py:470-494`). -/
def write (data : PyStr) : HMAsk Nat := do
  if !(← writable) then raise .osError
  else writeCore data true

/-- `LineHostMirror.new_line` (`host.py:258-264`). -/
def newLine (check : Bool := true) : HMAsk Unit := do
  let pos ← onBuf StringIO.tell
  if pos > 0 then
    let _ ← writeCore (lit "\n") check
    return ()
  else return ()

/-- What `send_eof`, `send_error` and `send_warning` have in common: nothing if closed, else a new line and the message
(`host.py:266-354`). -/
def sendEnd (check : Bool) (msg : Json) : HMAsk Unit := do
  if ← closed then return ()
  else
    newLine check
    expectOk (.post (.json msg))

/-- `LineHostMirror.send_eof` (`host.py:266-294`). -/
def sendEof : HMAsk Unit := sendEnd true HMirror.closeMsg

/-- `LineHostMirror.send_error` (`host.py:296-324`). -/
def sendError (e : ExcObj) : HMAsk Unit := sendEnd (!e.isStop) (HMirror.objMsg (lit "error") (GMsg.new (.exc e)))

/-- `LineHostMirror.send_warning` (`host.py:326-354`). -/
def sendWarning (e : ExcObj) : HMAsk Unit := sendEnd true (HMirror.objMsg (lit "warning") (GMsg.new (.exc e)))

/-- `LineHostMirror.close` (`host.py:181-200`). -/
def close (exc : Option ExcObj) : HMAsk Unit := do
  if ← closed then return ()
  else
    match exc with
    | none => sendEof
    | some e => sendError e
    clear
    onBuf StringIO.close

/-- `LineHostMirror.read` (`host.py:431-441`). -/
def read : HMAsk PyStr := do
  if !(← readable) then raise .osError
  else onBuf StringIO.getvalue

/-- A method with its result as an `HMRet`. -/
def result (f : α → HMRet) (p : HMAsk α) (m : HMirror) : Ask Req (Except Exc Resp) (HMRet × HMirror) :=
  (p m).bind fun x => .done (HMRet.of f x.1, x.2)

/-- A call of a mirror's method. -/
def exec : HMCall → HMirror → Ask Req (Except Exc Resp) (HMRet × HMirror)
  | .write d => result .nat (write d)
  | .newLine k => result (fun _ => .unit) (newLine k)
  | .read => result .text read
  | .clear => result (fun _ => .unit) clear
  | .flush => result (fun _ => .unit) flush
  | .sendData d => result (fun _ => .unit) (sendData d)
  | .sendEof => result (fun _ => .unit) sendEof
  | .sendError e => result (fun _ => .unit) (sendError e)
  | .sendWarning e => result (fun _ => .unit) (sendWarning e)
  | .checkStates => result (fun _ => .unit) checkStates
  | .close e => result (fun _ => .unit) (close e)
  | .closed => result .bool closed
  | .readable => result .bool readable
  | .writable => result .bool writable
  | .setAggressive a => result (fun _ => .unit) (setAggressive a)

end HMAsk

/-- A call of a reader's method. -/
inductive RdCall where
  | read (size : Option Int)
  | len
  | maxlen
  | closed
  | clear
  | resetStates
  | stopAll

/-- What a call of a reader's method returns. -/
inductive RdRet where
  | items (l : List Item)
  | json (j : Json)
  | bool (b : Bool)
  | exc (e : Exc)

namespace RdCall

/-- The request that a reader's method makes (`host.py:1003-1209`). -/
def req : RdCall → Req
  | read size => .get (Reader.query size)
  | len => .stateGet (some (lit "curlen"))
  | maxlen => .stateGet (some (lit "maxlen"))
  | closed => .stateGet (some (lit "closed"))
  | clear => .delete
  | resetStates => .stateDelete
  | stopAll => .statePost (.json (.obj [(lit "state", .str (lit "closed")), (lit "value", .str (lit "true"))]))

/-- `json.load(req)`, the `else` branches of the requests included. -/
def loaded (resp : Resp) : Except Exc Json :=
  match resp.body with
  | none => .error .jsonDecodeError
  | some j => if resp.status < 400 then .ok j else .error .connectionError

/-- What a reader's method makes of the answer (`host.py:1003-1209`). -/
def meaning (c : RdCall) (j : Json) : Except Exc RdRet :=
  match c with
  | read _ => do return .items (← Reader.deserializeAll (← (← j.getItem (lit "data")).toTuple))
  | len => do return .json (← j.getItem (lit "data"))
  | maxlen => do return .json (← j.getItem (lit "data"))
  | closed => do return .json (← j.getItem (lit "data"))
  | _ => .ok (.bool ((j.get (lit "message") (.str [])).eqStr (lit "success")))

/-- The result of a reader's method for what came back. -/
def answer (c : RdCall) (x : Except Exc Resp) : RdRet :=
  match (do c.meaning (← loaded (← x)) : Except Exc RdRet) with
  | .ok r => r
  | .error e => .exc e

/-- The method of the sequential model (`Model/Host.lean`). -/
def run (env : HEnv) (c : RdCall) (s : RNet) : RdRet × RNet :=
  let ret {α : Type} (f : α → RdRet) (x : Except Exc α × RNet) : RdRet × RNet := (match x.1 with | .ok a => f a | .error e => .exc e, x.2)
  match c with
  | read size => ret .items (Reader.read env size s)
  | len => ret .json (Reader.len env s)
  | maxlen => ret .json (Reader.maxlen env s)
  | closed => ret .json (Reader.closed env s)
  | clear => ret .bool (Reader.clear env s)
  | resetStates => ret .bool (Reader.resetStates env s)
  | stopAll => ret .bool (Reader.stopAll env s)

/-- A call of a reader's method: one request. -/
def exec (c : RdCall) : Ask Req (Except Exc Resp) RdRet := .ask c.req fun x => .done (c.answer x)

end RdCall

/-- What a client's HTTP library makes of the answer to an operation. -/
def HRet.received : HRet → Except Exc Resp
  | .resp r => .ok { r with body := r.body.map Json.wire }
  | .local _ => .error .connectionError

/-- The requests on their way to the service and back. -/
def Ask.sent {α : Type} : Ask Req (Except Exc Resp) α → List Outcome → Ask HOp HRet α
  | .done a, _ => .done a
  | .ask r k, os =>
    match os.headD .ok with
    | .ok => .ask (.req r.wire) fun x => (k x.received).sent os.tail
    | .lost e => (k (.error e)).sent os.tail
    | .noReply e => .ask (.req r.wire) fun _ => (k (.error e)).sent os.tail

/-- A call in the host mode: of a mirror or a reader, with what happens to its requests, or by the process that owns the buffer. -/
inductive HSCall where
  | mirror (c : HMCall) (os : List Outcome)
  | reader (c : RdCall) (os : List Outcome)
  | stopAll
  | reset

/-- What the calls return. -/
inductive HSRet where
  | mirror (r : HMRet)
  | reader (r : RdRet)
  | «local»

/-- A call by a process with the mirror `m` (`stop_all_mirrors`, `reset_states`: `host.py:747-767`). -/
def hostClient (m : HMirror) : HSCall → Ask HOp HRet (HSRet × HMirror)
  | .mirror c os => ((HMAsk.exec c m).sent os).bind fun x => .done (.mirror x.1, x.2)
  | .reader c os => (c.exec.sent os).bind fun x => .done (.reader x, m)
  | .stopAll => .ask .stopAll fun _ => .done (.local, m)
  | .reset => .ask .reset fun _ => .done (.local, m)

/-- The host mode: the processes at work, their requests served by threads of the service; process `i` may make the call `c` if `ok i c`. -/
def hostSystem (env : HEnv) (ok : Nat → HSCall → Prop) : Conc.Sys HostBuf HLock HMirror HSCall HSRet :=
  clients (hostThreads env fun _ o => match o with | .buffer _ => False | _ => True) (fun _ m c => hostClient m c) ok

end SyncStream
