import Verif.Model.Calls
/-!
# Model of the process mode: `LineProcMirror` and `LineProcBuffer` (`syncstream/mproc.py:385-941`)

* A mirror object that is sent to another process is a copy: it shares the queue and the state
  dictionary (proxies of the manager), not the `StringIO` and not the attributes.
* The queue is a FIFO list; a `put` is atomic.  Whether there is room in it, and when, is decided
  by an oracle (`Net.room`), because other processes fill and empty the queue.
* The reentrant `__buffer_lock` has no effect on the sequential behaviour of one mirror.
-/

namespace SyncStream

/-- The messages on the queue: the dictionaries built in `mproc.py:601, 616, 633, 660, 888`;
`other` is any other `"type"` value. -/
inductive QMsg where
  | str (data : PyStr)
  | error (m : GMsg)
  | warning (m : GMsg)
  | close
  | stop
  | other

/-- What a `put` finds: room in the queue after `t` units of time, never any room, or a failure
of the connection to the manager. -/
inductive Room where
  | after (t : Nat)
  | never
  | broken (e : Exc)

/-- What the processes share: the queues (numbered; `LineProcBuffer.reset_states` makes a new
one), the dictionary `__state` (its only key is `"closed"`), the oracle for the coming `put`
calls (if it is used up there is room at once), and the time spent waiting for room. -/
structure Net where
  queues : Nat → List QMsg := fun _ => []
  closed : Option Bool := some false
  room : List Room := []
  waited : Nat := 0

/-- `queue.Queue.put(item, block, timeout)` of the standard library: with `block=False` it raises
`Full` at once if there is no room (`timeout` is not used); with `block=True` it waits until there is
room, at most `timeout` if that is not `None`. -/
def Net.put (q : Nat) (msg : QMsg) (block : Bool) (timeout : Option Nat) : Py Net Unit := fun n =>
  let r := n.room.headD (.after 0)
  let n := { n with room := n.room.tail }
  let done := { n with queues := fun i => if i = q then n.queues q ++ [msg] else n.queues i }
  match r with
  | .broken e => (.error e, n)
  | .after t =>
    if block then
      match timeout with
      | none => (.ok (), { done with waited := n.waited + t })
      | some limit =>
        if t ≤ limit then (.ok (), { done with waited := n.waited + t })
        else (.error .queueFull, { n with waited := n.waited + limit })
    else if t = 0 then (.ok (), done)
    else (.error .queueFull, n)
  | .never =>
    if block then
      match timeout with
      | none => (.error .blocked, n)
      | some limit => (.error .queueFull, { n with waited := n.waited + limit })
    else (.error .queueFull, n)

/-- A `LineProcMirror` (`mproc.py:385-450`).  `timeout` in units of time; `hasState` is whether
`_state` and `_state_lock` were given (`mproc.py:442-446`). -/
structure Mirror where
  buf : StringIO := {}
  aggressive : Bool := false
  timeout : Option Nat := none
  block : Bool := true
  queue : Nat := 0
  hasState : Bool := true

/-- A mirror and what it shares with the other processes. -/
abbrev MNet := Mirror × Net

namespace Mirror

/-- `self.__buffer.<method>` -/
def onBuf {α : Type} (m : Py StringIO α) : Py MNet α :=
  Py.onPart (·.1.buf) (fun t s => ({ s.1 with buf := t }, s.2)) m

/-- `self.__queue.put(msg, block=self.__block, timeout=self.__timeout)` -/
def put (msg : QMsg) : Py MNet Unit := fun s =>
  let (r, n) := Net.put s.1.queue msg s.1.block s.1.timeout s.2
  (r, (s.1, n))

/-- `LineProcMirror.__init__` (`mproc.py:394-450`) as called by `LineProcBuffer`: no timeout. -/
def new (queue : Nat) (aggressive : Bool := false) (timeout : Option Nat := none) : Mirror :=
  { aggressive := aggressive, timeout := timeout, block := timeout.isNone, queue := queue }

/-- The setter of `timeout` (`mproc.py:582-586`). -/
def setTimeout (t : Option Nat) : Py MNet Unit :=
  Py.modify fun s => ({ s.1 with timeout := t, block := t.isNone }, s.2)

/-- The public attribute `aggressive` (`mproc.py:434`). -/
def setAggressive (a : Bool) : Py MNet Unit :=
  Py.modify fun s => ({ s.1 with aggressive := a }, s.2)

/-- `LineProcMirror.closed` (`mproc.py:485-489`). -/
def closed : Py MNet Bool := Py.gets (·.1.buf.closed)

/-- `LineProcMirror.readable` (`mproc.py:525-532`). -/
def readable : Py MNet Bool := Py.gets fun s => !s.1.buf.closed

/-- `LineProcMirror.writable` (`mproc.py:534-541`). -/
def writable : Py MNet Bool := Py.gets fun s => !s.1.buf.closed

/-- `LineProcMirror.clear` (`mproc.py:554-567`). -/
def clear : Py MNet Unit := do
  onBuf StringIO.seek0
  onBuf StringIO.truncate0

/-- `LineProcMirror.flush` (`mproc.py:663-666`). -/
def flush : Py MNet Unit := onBuf StringIO.flush

/-- `LineProcMirror.send_data` (`mproc.py:638-661`). -/
def sendData (data : PyStr) : Py MNet Unit := do
  if ← closed then return ()
  put (.str data)

/-- `LineProcMirror.__write` (`mproc.py:690-725`).  `except queue.Empty` never applies. -/
def writeCore (data : PyStr) : Py MNet Nat := do
  let stopped ← Py.gets fun (s : MNet) => s.1.hasState && (s.2.closed.getD false)
  if stopped then Py.raise .stopIteration
  else
    let messageLines := splitlines data
    if ← Py.gets (·.1.aggressive) then
      sendData data
      return data.length
    else
      let nLines := messageLines.length
      if nLines > 1 ∨ (nLines = 1 ∧ messageLines.head? = some []) ∨ isEndLineBreak data then
        let res ← onBuf (StringIO.write data)
        let text ← onBuf StringIO.getvalue
        sendData text
        onBuf StringIO.seek0
        onBuf StringIO.truncate0
        return res
      else if nLines = 1 then
        onBuf (StringIO.write data)
      else
        return 0

/-- `LineProcMirror.write` (`mproc.py:727-751`). -/
def write (data : PyStr) : Py MNet Nat := do
  if !(← writable) then Py.raise .osError
  else writeCore data

/-- `LineProcMirror.new_line` (`mproc.py:569-575`). -/
def newLine : Py MNet Unit := do
  let pos ← onBuf StringIO.tell
  if pos > 0 then
    let _ ← writeCore (lit "\n")
    return ()
  else return ()

/-- `LineProcMirror.send_eof` (`mproc.py:588-602`). -/
def sendEof : Py MNet Unit := do
  if ← closed then return ()
  newLine
  put .close

/-- `LineProcMirror.send_error` (`mproc.py:604-619`). -/
def sendError (e : ExcObj) : Py MNet Unit := do
  if ← closed then return ()
  newLine
  put (.error (GMsg.new (.exc e)))

/-- `LineProcMirror.send_warning` (`mproc.py:621-636`). -/
def sendWarning (e : ExcObj) : Py MNet Unit := do
  if ← closed then return ()
  newLine
  put (.warning (GMsg.new (.exc e)))

/-- `LineProcMirror.close` (`mproc.py:491-510`). -/
def close (exc : Option ExcObj) : Py MNet Unit := do
  if ← closed then return ()
  match exc with
  | none => sendEof
  | some e => sendError e
  clear
  onBuf StringIO.close

/-- `LineProcMirror.read` (`mproc.py:668-688`). -/
def read (size : Option Int) : Py MNet PyStr := do
  if !(← readable) then Py.raise .osError
  else
    match size with
    | none => onBuf StringIO.getvalue
    | some n => onBuf (StringIO.read n)

end Mirror

/-- A call of a public method of a mirror. -/
inductive MCall where
  | write (data : PyStr)
  | newLine
  | read (size : Option Int)
  | clear
  | flush
  | sendData (data : PyStr)
  | sendEof
  | sendError (e : ExcObj)
  | sendWarning (e : ExcObj)
  | close (exc : Option ExcObj)
  | closed
  | readable
  | writable
  | setTimeout (t : Option Nat)
  | setAggressive (a : Bool)

/-- What a call of a mirror's method returns. -/
inductive MRet where
  | unit
  | nat (n : Nat)
  | bool (b : Bool)
  | text (s : PyStr)
  | exc (e : Exc)
  deriving DecidableEq

/-- Turn the outcome of a method into an `MRet`. -/
def MRet.of {α : Type} (f : α → MRet) : Except Exc α → MRet
  | .ok a => f a
  | .error e => .exc e

namespace Mirror

/-- Perform a call. -/
def exec (c : MCall) (s : MNet) : MRet × MNet :=
  match c with
  | .write d => let (r, s') := write d s; (MRet.of .nat r, s')
  | .newLine => let (r, s') := newLine s; (MRet.of (fun _ => .unit) r, s')
  | .read size => let (r, s') := read size s; (MRet.of .text r, s')
  | .clear => let (r, s') := clear s; (MRet.of (fun _ => .unit) r, s')
  | .flush => let (r, s') := flush s; (MRet.of (fun _ => .unit) r, s')
  | .sendData d => let (r, s') := sendData d s; (MRet.of (fun _ => .unit) r, s')
  | .sendEof => let (r, s') := sendEof s; (MRet.of (fun _ => .unit) r, s')
  | .sendError e => let (r, s') := sendError e s; (MRet.of (fun _ => .unit) r, s')
  | .sendWarning e => let (r, s') := sendWarning e s; (MRet.of (fun _ => .unit) r, s')
  | .close e => let (r, s') := close e s; (MRet.of (fun _ => .unit) r, s')
  | .closed => let (r, s') := closed s; (MRet.of .bool r, s')
  | .readable => let (r, s') := readable s; (MRet.of .bool r, s')
  | .writable => let (r, s') := writable s; (MRet.of .bool r, s')
  | .setTimeout t => let (r, s') := setTimeout t s; (MRet.of (fun _ => .unit) r, s')
  | .setAggressive a => let (r, s') := setAggressive a s; (MRet.of (fun _ => .unit) r, s')

/-- Perform a history of calls. -/
def run : List MCall → MNet → List MRet × MNet
  | [], s => ([], s)
  | c :: cs, s =>
    let (r, s') := exec c s
    let (rs, s'') := run cs s'
    (r :: rs, s'')

end Mirror

/-- A `LineProcBuffer` (`mproc.py:754-797`): the inherited line buffer, `n_mirrors`, `__mirror`
(from which copies are sent to the processes), `__maxlen`.  `nextQueue` numbers the queues the
manager has made. -/
structure ProcBuf where
  base : LineBuf
  nMirrors : Int := 0
  mirror : Mirror := Mirror.new 0
  nextQueue : Nat := 1

/-- The main buffer and what it shares with the mirrors. -/
abbrev PNet := ProcBuf × Net

namespace ProcBuf

/-- `super().<method>` of the line buffer. -/
def onBase {α : Type} (m : Py LineBuf α) : Py PNet α :=
  Py.onPart (·.1.base) (fun t s => ({ s.1 with base := t }, s.2)) m

/-- `LineProcBuffer.__init__` (`mproc.py:775-797`). -/
def new (maxlen : Int) : Except Exc ProcBuf := do
  let b ← LineBuf.new maxlen
  return { base := b }

/-- `LineProcBuffer.mirror` (`mproc.py:804-814`): counts, and returns the object (a copy of it
arrives in the other process). -/
def takeMirror : Py PNet Mirror := fun s =>
  (.ok s.1.mirror, ({ s.1 with nMirrors := s.1.nMirrors + 1 }, s.2))

/-- `LineProcBuffer.stop_all_mirrors` (`mproc.py:816-828`). -/
def stopAll : Py PNet Unit := Py.modify fun s => (s.1, { s.2 with closed := some true })

/-- `LineProcBuffer.reset_states` (`mproc.py:830-854`). -/
def resetStates : Py PNet Unit := do
  if (← Py.gets (·.1.nMirrors)) > 0 then Py.raise .typeError
  else
    Py.modify fun s => (s.1, { s.2 with closed := none })
    Py.modify fun s => (s.1, { s.2 with closed := some false })
    Py.modify fun s =>
      ({ s.1 with mirror := Mirror.new s.1.nextQueue, nextQueue := s.1.nextQueue + 1 }, s.2)

/-- `LineProcBuffer.__check_close` (`mproc.py:856-869`). -/
def checkClose : Py PNet Bool := do
  Py.modify fun s => ({ s.1 with nMirrors := s.1.nMirrors - 1 }, s.2)
  return (← Py.gets (·.1.nMirrors)) > 0

/-- `LineProcBuffer.force_stop` (`mproc.py:871-889`): `put` with the default arguments. -/
def forceStop : Py PNet Unit := fun s =>
  let (r, n) := Net.put s.1.mirror.queue .stop true none s.2
  (r, (s.1, n))

/-- `queue.get()`: the oldest message; blocks if there is none. -/
def get : Py PNet QMsg := fun s =>
  match s.2.queues s.1.mirror.queue with
  | [] => (.error .blocked, s)
  | m :: ms =>
    (.ok m, (s.1, { s.2 with
      queues := fun i => if i = s.1.mirror.queue then ms else s.2.queues i }))

/-- `self.storage.append(obj)` -/
def store (i : Item) : Py PNet Unit :=
  onBase (LineBuf.onStorage (Py.modify (Deque.append i)))

/-- `LineProcBuffer.receive` (`mproc.py:891-922`). -/
def receive : Py PNet Bool := do
  let data ← get
  match data with
  | .str d =>
    let _ ← onBase (LineBuf.write d)
    return true
  | .error m =>
    store (.msg m)
    checkClose
  | .warning m =>
    store (.msg m)
    return true
  | .close => checkClose
  | .stop =>
    Py.modify fun s => ({ s.1 with nMirrors := 0 }, s.2)
    return false
  | .other => return false

/-- The loop of `LineProcBuffer.wait` (`mproc.py:924-927`), `fuel` rounds of it. -/
def waitLoop : Nat → Py PNet Unit
  | 0 => Py.raise .blocked
  | fuel + 1 => do
    if ← receive then waitLoop fuel else return ()

/-- `LineProcBuffer.wait` when the messages in the queue are all that ever arrive: every round
takes one message, so this many rounds are enough; `blocked` means it waits for more. -/
def wait : Py PNet Unit := fun s =>
  waitLoop ((s.2.queues s.1.mirror.queue).length + 1) s

/-- `LineProcBuffer.write` (`mproc.py:929-941`). -/
def write (_ : PyStr) : Py PNet Nat := Py.raise .notImplemented

end ProcBuf

/-- Everything: the main buffer, the mirrors taken so far (one copy per process), and what they
share. -/
structure ProcSys where
  main : ProcBuf
  mirrors : List Mirror := []
  net : Net := {}

/-- What can happen: someone uses the main buffer, or a process uses its mirror. -/
inductive ProcOp where
  | take
  | mirror (i : Nat) (c : MCall)
  | receive
  | stopAll
  | forceStop
  | reset
  | buffer (c : Call)

namespace ProcSys

/-- Perform a method of the main buffer. -/
def onMain {α : Type} (m : Py PNet α) (s : ProcSys) : Except Exc α × ProcSys :=
  let (r, (p, n)) := m (s.main, s.net)
  (r, { s with main := p, net := n })

/-- A step of the system.  (The public `write` of the main buffer is not the inherited one.) -/
def step (o : ProcOp) (s : ProcSys) : ProcSys :=
  match o with
  | .take =>
    match onMain ProcBuf.takeMirror s with
    | (.ok m, s') => { s' with mirrors := s'.mirrors ++ [m] }
    | (.error _, s') => s'
  | .mirror i c =>
    match s.mirrors[i]? with
    | none => s
    | some m =>
      let (_, (m', n')) := Mirror.exec c (m, s.net)
      { s with mirrors := s.mirrors.set i m', net := n' }
  | .receive => (onMain ProcBuf.receive s).2
  | .stopAll => (onMain ProcBuf.stopAll s).2
  | .forceStop => (onMain ProcBuf.forceStop s).2
  | .reset => (onMain ProcBuf.resetStates s).2
  | .buffer (.write d) => (onMain (ProcBuf.write d) s).2
  | .buffer c => { s with main := { s.main with base := (LineBuf.exec c s.main.base).2 } }

/-- A history. -/
def run (os : List ProcOp) (s : ProcSys) : ProcSys := os.foldl (fun s o => step o s) s

end ProcSys
end SyncStream
