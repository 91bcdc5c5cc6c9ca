import Verif.Spec.HostMirrorShared
import Verif.Spec.ProcSections
/-!
# Specification: the moments of the calls on a host mirror

As in `Spec/ProcSections.lean`: a call on a host mirror that threads share is a sequence of moments, in each of which something is done
at once.  In no moment is more than one request sent, and what is sent without the lock has its own moment.
-/

namespace SyncStream.Spec

/-- What a call does in one moment:
* `isClosed`: is the mirror closed;
* `ask`: the service is asked for the stop signal (`host.py:401-424`);
* `check`: `check_states` while the lock is held (`host.py:448-449`);
* `due c`: is there an unfinished line; if so and if `c` says so, `check_states` (`host.py:262-264`, `448-449`);
* `rest d`: the text `d` is put into the buffer and posted if it ends a line (`host.py:450-468`);
* `read`, `clear`, `flush`: these methods;
* `post m`: the message is posted;
* `shut`: the buffer is closed (`host.py:199-200`). -/
inductive HSec where
  | isClosed
  | ask
  | check
  | due (c : Bool)
  | rest (d : PyStr)
  | read
  | clear
  | flush
  | post (m : Json)
  | shut

/-- `check_states` of a mirror that is not closed (`host.py:401-424`). -/
def askState (env : HEnv) : Py HMNet Unit := do
  let resp ← HMirror.request env (.stateGet (some (lit "closed")))
  if resp.status < 400 then
    match resp.body with
    | none => Py.raise .jsonDecodeError
    | some j =>
      match j.get (lit "data") .null with
      | .bool true => Py.raise .stopIteration
      | _ => return ()
  else resp.fail

/-- `new_line` up to the check: is there an unfinished line (`host.py:262-264`, `448-449`). -/
def lineDue (env : HEnv) (c : Bool) : Py HMNet Bool := do
  let pos ← HMirror.onBuf StringIO.tell
  if pos > 0 then
    (if c then HMirror.checkStates env else pure () : Py HMNet Unit)
    return true
  else return false

/-- `LineHostMirror.__write` after the check (`host.py:450-468`). -/
def postRest (env : HEnv) (data : PyStr) : Py HMNet Nat := do
  let messageLines := splitlines data
  if ← Py.gets (·.1.aggressive) then
    HMirror.sendData env data
    return data.length
  else
    let nLines := messageLines.length
    if nLines > 1 ∨ (nLines = 1 ∧ messageLines.head? = some []) ∨ isEndLineBreak data then
      let res ← HMirror.onBuf (StringIO.write data)
      let text ← HMirror.onBuf StringIO.getvalue
      HMirror.sendData env text
      HMirror.onBuf StringIO.seek0
      HMirror.onBuf StringIO.truncate0
      return res
    else if nLines = 1 then
      HMirror.onBuf (StringIO.write data)
    else
      return 0

/-- What happens in a moment, and the result. -/
def HSec.result (env : HEnv) (x : HSec) (s : HMNet) : HMRet × HMNet :=
  match x with
  | .isClosed => (.bool s.1.buf.closed, s)
  | .ask => let (r, s') := askState env s; (HMRet.of (fun _ => .unit) r, s')
  | .check => let (r, s') := HMirror.checkStates env s; (HMRet.of (fun _ => .unit) r, s')
  | .due c => let (r, s') := lineDue env c s; (HMRet.of .bool r, s')
  | .rest d => let (r, s') := postRest env d s; (HMRet.of .nat r, s')
  | .read => let (r, s') := HMirror.onBuf StringIO.getvalue s; (HMRet.of .text r, s')
  | .clear => let (r, s') := HMirror.clear s; (HMRet.of (fun _ => .unit) r, s')
  | .flush => let (r, s') := HMirror.flush s; (HMRet.of (fun _ => .unit) r, s')
  | .post m => let (r, s') := HMirror.expectOk env (.post (.json m)) s; (HMRet.of (fun _ => .unit) r, s')
  | .shut => let (r, s') := HMirror.onBuf StringIO.close s; (HMRet.of (fun _ => .unit) r, s')

/-- The answer of a moment: its result, and whether the service has processed a request (the thread does not learn this). -/
abbrev HAns := HMRet × Bool

/-- What happens in a moment, and the answer. -/
def HSec.exec (env : HEnv) (x : HSec) (s : HMNet) : HAns × HMNet :=
  let (r, s') := x.result env s
  ((r, s.2.sent.length < s'.2.sent.length), s')

namespace HSec

/-- A moment; an exception ends the call. -/
def andThen (x : HSec) (k : HMRet → Ask HSec HAns HMRet) : Ask HSec HAns HMRet := .ask x fun a =>
  match a.1 with
  | .exc e => .done (.exc e)
  | r => k r

/-- `new_line` (`host.py:258-264`). -/
def newLine (c : Bool) (k : Ask HSec HAns HMRet) : Ask HSec HAns HMRet := andThen (.due c) fun
  | .bool true => andThen (.rest (lit "\n")) fun _ => k
  | _ => k

/-- `send_eof`, `send_error` and `send_warning` (`host.py:266-354`). -/
def sendEnd (c : Bool) (m : Json) (k : Ask HSec HAns HMRet) : Ask HSec HAns HMRet := andThen .isClosed fun
  | .bool true => k
  | _ => newLine c (andThen (.post m) fun _ => k)

end HSec

open HSec in
/-- The moments of a call.  (Setting `aggressive` is not covered.) -/
def hostMoments : HMCall → Ask HSec HAns HMRet
  | .write d => andThen .isClosed fun
    | .bool true => .done (.exc .osError)
    | _ => andThen .check fun _ => andThen (.rest d) .done
  | .newLine c => newLine c (.done .unit)
  | .read => andThen .isClosed fun
    | .bool true => .done (.exc .osError)
    | _ => andThen .read .done
  | .clear => andThen .clear .done
  | .flush => andThen .flush .done
  | .sendData d => andThen .isClosed fun
    | .bool true => .done .unit
    | _ => andThen (.post (HMirror.strMsg d)) .done
  | .sendEof => sendEnd true HMirror.closeMsg (.done .unit)
  | .sendError e => sendEnd (!e.isStop) (HMirror.objMsg (lit "error") (GMsg.new (.exc e))) (.done .unit)
  | .sendWarning e => sendEnd true (HMirror.objMsg (lit "warning") (GMsg.new (.exc e))) (.done .unit)
  | .checkStates => andThen .isClosed fun
    | .bool true => .done .unit
    | _ => andThen .ask .done
  | .close none => andThen .isClosed fun
    | .bool true => .done .unit
    | _ => sendEnd true HMirror.closeMsg (andThen .clear fun _ => andThen .shut .done)
  | .close (some e) => andThen .isClosed fun
    | .bool true => .done .unit
    | _ => sendEnd (!e.isStop) (HMirror.objMsg (lit "error") (GMsg.new (.exc e))) (andThen .clear fun _ => andThen .shut .done)
  | .closed => andThen .isClosed .done
  | .readable => andThen .isClosed fun
    | .bool b => .done (.bool !b)
    | r => .done r
  | .writable => andThen .isClosed fun
    | .bool b => .done (.bool !b)
    | r => .done r
  | .setAggressive _ => .done .unit

/-- The moments of a call that returns `r`, as a client that keeps nothing for itself. -/
def asClient : Ask HSec HAns HMRet → Ask HSec HAns (HMRet × Unit)
  | .done r => .done (r, ())
  | .ask x k => .ask x fun a => asClient (k a)

/-- The calls that are covered: all but setting `aggressive`. -/
def HostCovered : HMCall → Prop
  | .setAggressive _ => False
  | _ => True

/-! ## What is posted -/

/-- A message that has been posted, i.e. a POST request that the service has processed: by which thread, and whether the thread has
learnt of it (otherwise the call has failed).  It is text from the buffer of the mirror, or the thread has sent it directly. -/
inductive HPost where
  | text (i : Nat) (acked : Bool) (d : PyStr)
  | direct (i : Nat) (acked : Bool) (m : Json)

/-- The body of the request. -/
def HPost.msg : HPost → Json
  | .text _ _ d => HMirror.strMsg d
  | .direct _ _ m => m

/-- The bodies of the POST requests. -/
def postBodies (rs : List Req) : List Json := rs.filterMap fun
  | .post (.json j) => some j
  | _ => none

/-- The text from the buffer that has been posted with an acknowledgement. -/
def ackedText (ps : List HPost) : PyStr := ps.flatMap fun
  | .text _ true d => d
  | _ => []

/-- What thread `i` has posted directly, and whether it has been acknowledged. -/
def postedBy (i : Nat) (ps : List HPost) : List (Bool × Json) := ps.filterMap fun
  | .direct j a m => if j = i then some (a, m) else none
  | _ => none

/-- What a call adds to the buffer of the mirror: a `write` its text (if it fails, perhaps); `new_line` and the calls that end a
line perhaps a line break. -/
def HostAdds : HMCall → HMRet → List PyStr → Prop
  | .write d, .nat _, l => l = [d]
  | .write d, _, l => l = [] ∨ l = [d]
  | .newLine _, _, l => l = [] ∨ l = [lit "\n"]
  | .sendEof, _, l => l = [] ∨ l = [lit "\n"]
  | .sendError _, _, l => l = [] ∨ l = [lit "\n"]
  | .sendWarning _, _, l => l = [] ∨ l = [lit "\n"]
  | .close _, _, l => l = [] ∨ l = [lit "\n"]
  | _, _, l => l = []

/-- The message of a call. -/
def hostMessage : HMCall → Option Json
  | .sendData d => some (HMirror.strMsg d)
  | .sendEof => some HMirror.closeMsg
  | .sendError e => some (HMirror.objMsg (lit "error") (GMsg.new (.exc e)))
  | .sendWarning e => some (HMirror.objMsg (lit "warning") (GMsg.new (.exc e)))
  | _ => none

/-- The call has failed. -/
def hostFailed : HMRet → Bool
  | .exc _ => true
  | _ => false

/-- What a call posts directly: its message once, acknowledged; if it fails, perhaps its message, not acknowledged. -/
def HostPosts (c : HMCall) (r : HMRet) (l : List (Bool × Json)) : Prop :=
  if hostFailed r then l = [] ∨ ∃ m, hostMessage c = some m ∧ l = [(false, m)]
  else l = (hostMessage c).toList.map fun m => (true, m)

/-- The calls that take nothing away: all but `clear`, `close` and setting `aggressive`. -/
def HostKeeps : HMCall → Prop
  | .clear => False
  | .close _ => False
  | .setAggressive _ => False
  | _ => True

/-- The calls that announce something: an end, an error or a warning. -/
def HostAnnounces : HMCall → Prop
  | .sendEof => True
  | .sendError _ => True
  | .sendWarning _ => True
  | _ => False

end SyncStream.Spec
