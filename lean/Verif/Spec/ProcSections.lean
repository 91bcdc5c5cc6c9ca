import Verif.Spec.Clients
import Verif.Spec.ProcShared
/-!
# Specification: the moments of the calls on a mirror

A call on a mirror that threads share is a sequence of moments.  In each of them something is done at once, and between two of
them others may do something.  The moments of a call follow each other as in the source: what comes next depends on what the
moments before have answered.
-/

namespace SyncStream.Spec

/-- What a call does in one moment:
* `isClosed`: is the mirror closed;
* `stopped`: has the stop signal been given (`mproc.py:695-706`);
* `due`: if there is an unfinished line, has the stop signal been given (`mproc.py:572-574`, `695-706`);
* `rest d`: the text `d` is put into the buffer and sent if it ends a line (`mproc.py:707-725`);
* `read`, `clear`, `flush`: these methods;
* `put m`: the message is put into the queue;
* `shut`: the buffer is closed (`mproc.py:509-510`). -/
inductive MSec where
  | isClosed
  | stopped
  | due
  | rest (d : PyStr)
  | read (size : Option Int)
  | clear
  | flush
  | put (m : QMsg)
  | shut

/-- `LineProcMirror.__write` after the check (`mproc.py:707-725`). -/
def writeRest (data : PyStr) : Py MNet Nat := do
  let messageLines := splitlines data
  if ← Py.gets (·.1.aggressive) then
    Mirror.sendData data
    return data.length
  else
    let nLines := messageLines.length
    if nLines > 1 ∨ (nLines = 1 ∧ messageLines.head? = some []) ∨ isEndLineBreak data then
      let res ← Mirror.onBuf (StringIO.write data)
      let text ← Mirror.onBuf StringIO.getvalue
      Mirror.sendData text
      Mirror.onBuf StringIO.seek0
      Mirror.onBuf StringIO.truncate0
      return res
    else if nLines = 1 then
      Mirror.onBuf (StringIO.write data)
    else
      return 0

/-- The stop signal has been given. -/
def stopGiven (s : MNet) : Bool := s.1.hasState && s.2.closed.getD false

/-- What happens in a moment, and the answer. -/
def MSec.exec (x : MSec) (s : MNet) : MRet × MNet :=
  match x with
  | .isClosed => (.bool s.1.buf.closed, s)
  | .stopped => (.bool (stopGiven s), s)
  | .due =>
    if s.1.buf.closed then (.exc .valueError, s)
    else if s.1.buf.pos > 0 then (.bool (stopGiven s), s)
    else (.unit, s)
  | .rest d => let (r, s') := writeRest d s; (MRet.of .nat r, s')
  | .read size =>
    let (r, s') := (match size with
      | none => Mirror.onBuf StringIO.getvalue
      | some n => Mirror.onBuf (StringIO.read n) : Py MNet PyStr) s
    (MRet.of .text r, s')
  | .clear => let (r, s') := Mirror.clear s; (MRet.of (fun _ => .unit) r, s')
  | .flush => let (r, s') := Mirror.flush s; (MRet.of (fun _ => .unit) r, s')
  | .put m => let (r, s') := Mirror.put m s; (MRet.of (fun _ => .unit) r, s')
  | .shut => let (r, s') := Mirror.onBuf StringIO.close s; (MRet.of (fun _ => .unit) r, s')

namespace MSec

/-- A moment; an exception ends the call. -/
def andThen (x : MSec) (k : MRet → Ask MSec MRet MRet) : Ask MSec MRet MRet := .ask x fun
  | .exc e => .done (.exc e)
  | r => k r

/-- `__write` (`mproc.py:690-725`). -/
def write (d : PyStr) (k : MRet → Ask MSec MRet MRet) : Ask MSec MRet MRet := andThen .stopped fun
  | .bool true => .done (.exc .stopIteration)
  | _ => andThen (.rest d) k

/-- `new_line` (`mproc.py:569-575`). -/
def newLine (k : Ask MSec MRet MRet) : Ask MSec MRet MRet := andThen .due fun
  | .bool true => .done (.exc .stopIteration)
  | .bool false => andThen (.rest (lit "\n")) fun _ => k
  | _ => k

/-- `send_eof`, `send_error` and `send_warning` (`mproc.py:588-636`). -/
def sendEnd (m : QMsg) (k : Ask MSec MRet MRet) : Ask MSec MRet MRet := andThen .isClosed fun
  | .bool true => k
  | _ => newLine (andThen (.put m) fun _ => k)

end MSec

open MSec in
/-- The moments of a call.  (`timeout` and `aggressive` are not covered.) -/
def momentsOf : MCall → Ask MSec MRet MRet
  | .write d => andThen .isClosed fun
    | .bool true => .done (.exc .osError)
    | _ => MSec.write d .done
  | .newLine => newLine (.done .unit)
  | .read size => andThen .isClosed fun
    | .bool true => .done (.exc .osError)
    | _ => andThen (.read size) .done
  | .clear => andThen .clear .done
  | .flush => andThen .flush .done
  | .sendData d => andThen .isClosed fun
    | .bool true => .done .unit
    | _ => andThen (.put (.str d)) .done
  | .sendEof => sendEnd .close (.done .unit)
  | .sendError e => sendEnd (.error (GMsg.new (.exc e))) (.done .unit)
  | .sendWarning e => sendEnd (.warning (GMsg.new (.exc e))) (.done .unit)
  | .close e => andThen .isClosed fun
    | .bool true => .done .unit
    | _ => sendEnd (match e with
        | none => .close
        | some e => .error (GMsg.new (.exc e))) (andThen .clear fun _ => andThen .shut .done)
  | .closed => andThen .isClosed .done
  | .readable => andThen .isClosed fun
    | .bool b => .done (.bool !b)
    | r => .done r
  | .writable => andThen .isClosed fun
    | .bool b => .done (.bool !b)
    | r => .done r
  | .setTimeout _ => .done .unit
  | .setAggressive _ => .done .unit

/-- What anyone does in one moment: something with the mirror of the own process, or a call in the main process. -/
inductive PSec where
  | mirror (x : MSec)
  | receive
  | stopAll
  | forceStop

/-- What happens in a moment, for a thread of process `p`, and the answer. -/
def PSec.exec (p : Nat) (x : PSec) (s : PShared) : PRet × PShared :=
  match x with
  | .mirror x =>
    let (r, t) := x.exec (s.mirror p, s.net)
    (.mirror r, { s with mirror := upd s.mirror p t.1, net := t.2 })
  | .receive =>
    let (r, t) := ProcBuf.receive (s.main, s.net)
    (.main (Ret.of .bool r), { s with main := t.1, net := t.2 })
  | .stopAll =>
    let (r, t) := ProcBuf.stopAll (s.main, s.net)
    (.main (Ret.of (fun _ => .unit) r), { s with main := t.1, net := t.2 })
  | .forceStop =>
    let (r, t) := ProcBuf.forceStop (s.main, s.net)
    (.main (Ret.of (fun _ => .unit) r), { s with main := t.1, net := t.2 })

/-- The moments of a call on the own mirror among those of all. -/
def inProc : Ask MSec MRet MRet → Ask PSec PRet (PRet × Unit)
  | .done r => .done (.mirror r, ())
  | .ask x k => .ask (.mirror x) fun
    | .mirror r => inProc (k r)
    | .main _ => .done (.main .unit, ())

/-- The moments of a call.  (Those of the main process have one.) -/
def pmoments : PCall → Ask PSec PRet (PRet × Unit)
  | .mirror c => inProc (momentsOf c)
  | .receive => .ask .receive fun r => .done (r, ())
  | .stopAll => .ask .stopAll fun r => .done (r, ())
  | .forceStop => .ask .forceStop fun r => .done (r, ())
  | _ => .done (.main .unit, ())

/-- The calls that are covered: on a mirror all but the setters, in the main process `receive`, `stop_all_mirrors` and
`force_stop`. -/
def HasMoments : PCall → Prop
  | .mirror (.setTimeout _) => False
  | .mirror (.setAggressive _) => False
  | .mirror _ => True
  | .receive => True
  | .stopAll => True
  | .forceStop => True
  | _ => False

/-! ## What is sent -/

/-- In the following, `sent` are the messages put into the queue: by which thread, whether directly (rather than from the buffer of
its mirror), and the message.  This is the text that comes from the buffer of process `p`. -/
def textFrom (proc : Nat → Nat) (p : Nat) (sent : List (Nat × Bool × QMsg)) : PyStr :=
  textOf ((sent.filter fun y => proc y.1 = p && !y.2.1).map (·.2.2))

/-- The messages thread `i` has put into the queue directly. -/
def directBy (i : Nat) (sent : List (Nat × Bool × QMsg)) : List QMsg := (sent.filter fun y => y.1 = i && y.2.1).map (·.2.2)

/-- The events of thread `i`. -/
def eventsBy {C R : Type} (i : Nat) (tr : List (Ev C R)) : List (Ev C R) := tr.filter fun
  | .inv j _ => j = i
  | .ret j _ => j = i

/-- `A c r l`: the call `c` that has returned `r` has contributed `l`.  The calls of thread `i` have contributed these, one after the
other; a call that is not over may have contributed what it contributes with some result. -/
inductive Contrib {C R β : Type} (A : C → R → List β → Prop) (i : Nat) : List (Ev C R) → List β → Prop
  | nil : Contrib A i [] []
  | call (c : C) (r : R) (l : List β) (tr : List (Ev C R)) (l' : List β) : A c r l → Contrib A i tr l' →
      Contrib A i (.inv i c :: .ret i r :: tr) (l ++ l')
  | within (c : C) (r : R) (l : List β) : A c r l → Contrib A i [.inv i c] l

/-- What a call adds to the buffer of the mirror: a `write` its text (if it fails, perhaps); `new_line` and the calls that end a
line perhaps a line break. -/
def AddsText : PCall → PRet → List PyStr → Prop
  | .mirror (.write d), .mirror (.nat _), l => l = [d]
  | .mirror (.write d), _, l => l = [] ∨ l = [d]
  | .mirror .newLine, _, l => l = [] ∨ l = [lit "\n"]
  | .mirror .sendEof, _, l => l = [] ∨ l = [lit "\n"]
  | .mirror (.sendError _), _, l => l = [] ∨ l = [lit "\n"]
  | .mirror (.sendWarning _), _, l => l = [] ∨ l = [lit "\n"]
  | .mirror (.close _), _, l => l = [] ∨ l = [lit "\n"]
  | _, _, l => l = []

/-- The message of a call. -/
def messageOf : PCall → Option QMsg
  | .mirror (.sendData d) => some (.str d)
  | .mirror .sendEof => some .close
  | .mirror (.sendError e) => some (.error (GMsg.new (.exc e)))
  | .mirror (.sendWarning e) => some (.warning (GMsg.new (.exc e)))
  | .forceStop => some .stop
  | _ => none

/-- The call has not failed. -/
def succeeded : PRet → Bool
  | .mirror (.exc _) => false
  | .main (.exc _) => false
  | _ => true

/-- What a call puts into the queue directly: its message, if it does not fail. -/
def PutsMsg (c : PCall) (r : PRet) (l : List QMsg) : Prop := l = if succeeded r then (messageOf c).toList else []

/-- The calls that take nothing away: all but `clear`, `close`, `read(size)` and the setters. -/
def TakesNothing : PCall → Prop
  | .mirror .clear => False
  | .mirror (.close _) => False
  | .mirror (.read (some _)) => False
  | c => HasMoments c

/-- The calls that announce something: an end, an error or a warning. -/
def Announces : PCall → Prop
  | .mirror .sendEof => True
  | .mirror (.sendError _) => True
  | .mirror (.sendWarning _) => True
  | _ => False

end SyncStream.Spec
