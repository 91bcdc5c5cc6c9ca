import Verif.Model.Host
/-!
# Model of `syncstream/webtools.py` and of how `host.py` uses it

The methods of `LineHostMirror` and `LineHostReader` once more, with what happens to the responses and the connection pools of
`urllib3`: a response holds a connection from the moment the request is answered until `release_conn()`.  `preload_content=False`
everywhere, so the body of a response stays in the connection until it is read.

Simplifications: `urllib3` is not modelled beyond these events.  A request that raises has no response (the library gives back
the connection itself).  `json.load(req)` reads the whole body first, whether or not it is JSON.
-/

namespace SyncStream

/-- What happens to pools and responses.  Both have numbers; `status` is the status of the answer. -/
inductive WebEv where
  /-- `SafePoolManager(...)` -/
  | made (p : Nat)
  /-- `PoolManager.clear()` -/
  | cleared (p : Nat)
  /-- a request through the pool `p` has been answered -/
  | opened (r p status : Nat)
  /-- the body has been read to its end -/
  | read (r : Nat)
  /-- `release_conn()` -/
  | released (r : Nat)
  /-- `close()` -/
  | closed (r : Nat)
  deriving DecidableEq

/-- The responses and pools made so far, what happened to them, and the attributes `__http_` and `__finalizer` of a
mirror (`host.py:110-111`; the finalizer is the pool that it will clear). -/
structure Web where
  resps : Nat := 0
  pools : Nat := 0
  log : List WebEv := []
  http : Option Nat := none
  finalizer : Option Nat := none

namespace Web
variable {σ α : Type}

/-- A method that does not use `urllib3`. -/
def lift (m : Py σ α) : Py (σ × Web) α := Py.onPart (·.1) (fun t s => (t, s.2)) m

/-- Something happens. -/
def note (e : WebEv) : Py (σ × Web) Unit := Py.modify fun s => (s.1, { s.2 with log := s.2.log ++ [e] })

/-- The answer to a request is there: `SafeRequest(super().request(...))` (`webtools.py:147-151`). -/
def opened (p status : Nat) : Py (σ × Web) Nat := fun s =>
  (.ok s.2.resps, (s.1, { s.2 with resps := s.2.resps + 1, log := s.2.log ++ [.opened s.2.resps p status] }))

/-- `SafeRequest.__exit__` (`webtools.py:83-90`); `close_request_session` (`webtools.py:161-166`) does the same. -/
def finish (r : Nat) : Py (σ × Web) Unit := do
  note (.released r)
  note (.closed r)

/-- `with pool.request(...) as req: body` with `SafePoolManager.request` and `SafeRequest` (`webtools.py:71-90, 114-151`). -/
def withRequest (p : Nat) (request : Py σ Resp) (body : Nat → Resp → Py (σ × Web) α) : Py (σ × Web) α := do
  let resp ← lift request
  let r ← opened p resp.status
  fun s =>
    let x := body r resp s
    (x.1, (finish r x.2).2)

/-- `json.load(req)`: the body is read; `rest` looks at it. -/
def load (r : Nat) (rest : Py σ α) : Py (σ × Web) α := do
  note (.read r)
  lift rest

end Web

namespace WebMirror
open Web

/-- `LineHostMirror.__http` (`host.py:149-162`). -/
def http : Py (HMNet × Web) Nat := fun s =>
  match s.2.http with
  | some p => (.ok p, s)
  | none => (.ok s.2.pools, (s.1, { s.2 with
      pools := s.2.pools + 1
      log := s.2.log ++ [.made s.2.pools]
      http := some s.2.pools
      finalizer := some s.2.pools }))

/-- The mirror is collected, or the interpreter ends: the finalizer calls `clean_http_manager` (`webtools.py:154-158`), once. -/
def finalize : Py (HMNet × Web) Unit := fun s =>
  match s.2.finalizer with
  | none => (.ok (), s)
  | some p => (.ok (), (s.1, { s.2 with log := s.2.log ++ [.cleared p], finalizer := none }))

/-- `with self.__http.request(...) as req: if req.status < 400: return`, else `json.load(req)` and `ConnectionError`
(e.g. `host.py:278-294`). -/
def expectOk (env : HEnv) (r : Req) : Py (HMNet × Web) Unit := do
  let p ← http
  withRequest p (HMirror.request env r) fun k resp =>
    if resp.status < 400 then return ()
    else load k resp.fail

/-- `LineHostMirror.send_data` (`host.py:356-390`). -/
def sendData (env : HEnv) (data : PyStr) : Py (HMNet × Web) Unit := do
  if ← lift HMirror.closed then return ()
  else expectOk env (.post (.json (HMirror.strMsg data)))

/-- `LineHostMirror.check_states` (`host.py:392-424`).  `raise StopIteration` comes after the block. -/
def checkStates (env : HEnv) : Py (HMNet × Web) Unit := do
  if ← lift HMirror.closed then return ()
  else
    let p ← http
    let isClosed ← withRequest p (HMirror.request env (.stateGet (some (lit "closed")))) fun k resp =>
      if resp.status < 400 then load k (match resp.body with
        | none => Py.raise .jsonDecodeError
        | some j => pure (j.get (lit "data") .null))
      else load k resp.fail
    match isClosed with
    | .bool true => Py.raise .stopIteration
    | _ => return ()

/-- `LineHostMirror.__write` (`host.py:443-468`). -/
def writeCore (env : HEnv) (data : PyStr) (check : Bool) : Py (HMNet × Web) Nat := do
  (if check then checkStates env else pure () : Py (HMNet × Web) Unit)
  let messageLines := splitlines data
  if ← lift (Py.gets (·.1.aggressive)) then
    sendData env data
    return data.length
  else
    let nLines := messageLines.length
    if nLines > 1 ∨ (nLines = 1 ∧ messageLines.head? = some []) ∨ isEndLineBreak data then
      let res ← lift (HMirror.onBuf (StringIO.write data))
      let text ← lift (HMirror.onBuf StringIO.getvalue)
      sendData env text
      lift (HMirror.onBuf StringIO.seek0)
      lift (HMirror.onBuf StringIO.truncate0)
      return res
    else if nLines = 1 then
      lift (HMirror.onBuf (StringIO.write data))
    else
      return 0

/-- `LineHostMirror.write` (`host.py:470-494`). -/
def write (env : HEnv) (data : PyStr) : Py (HMNet × Web) Nat := do
  if !(← lift HMirror.writable) then Py.raise .osError
  else writeCore env data true

/-- `LineHostMirror.new_line` (`host.py:258-264`). -/
def newLine (env : HEnv) (check : Bool := true) : Py (HMNet × Web) Unit := do
  let pos ← lift (HMirror.onBuf StringIO.tell)
  if pos > 0 then
    let _ ← writeCore env (lit "\n") check
    return ()
  else return ()

/-- `LineHostMirror.send_eof` (`host.py:266-294`). -/
def sendEof (env : HEnv) : Py (HMNet × Web) Unit := do
  if ← lift HMirror.closed then return ()
  else
    newLine env
    expectOk env (.post (.json HMirror.closeMsg))

/-- `LineHostMirror.send_error` (`host.py:296-324`). -/
def sendError (env : HEnv) (e : ExcObj) : Py (HMNet × Web) Unit := do
  if ← lift HMirror.closed then return ()
  else
    newLine env (!e.isStop)
    expectOk env (.post (.json (HMirror.objMsg (lit "error") (GMsg.new (.exc e)))))

/-- `LineHostMirror.send_warning` (`host.py:326-354`). -/
def sendWarning (env : HEnv) (e : ExcObj) : Py (HMNet × Web) Unit := do
  if ← lift HMirror.closed then return ()
  else
    newLine env
    expectOk env (.post (.json (HMirror.objMsg (lit "warning") (GMsg.new (.exc e)))))

/-- `LineHostMirror.close` (`host.py:181-200`). -/
def close (env : HEnv) (exc : Option ExcObj) : Py (HMNet × Web) Unit := do
  if ← lift HMirror.closed then return ()
  else
    match exc with
    | none => sendEof env
    | some e => sendError env e
    lift HMirror.clear
    lift (HMirror.onBuf StringIO.close)

/-- Perform a call. -/
def exec (env : HEnv) (c : HMCall) (s : HMNet × Web) : HMRet × (HMNet × Web) :=
  match c with
  | .write d => let (r, s') := write env d s; (HMRet.of .nat r, s')
  | .newLine k => let (r, s') := newLine env k s; (HMRet.of (fun _ => .unit) r, s')
  | .read => let (r, s') := lift HMirror.read s; (HMRet.of .text r, s')
  | .clear => let (r, s') := lift HMirror.clear s; (HMRet.of (fun _ => .unit) r, s')
  | .flush => let (r, s') := lift HMirror.flush s; (HMRet.of (fun _ => .unit) r, s')
  | .sendData d => let (r, s') := sendData env d s; (HMRet.of (fun _ => .unit) r, s')
  | .sendEof => let (r, s') := sendEof env s; (HMRet.of (fun _ => .unit) r, s')
  | .sendError e => let (r, s') := sendError env e s; (HMRet.of (fun _ => .unit) r, s')
  | .sendWarning e => let (r, s') := sendWarning env e s; (HMRet.of (fun _ => .unit) r, s')
  | .checkStates => let (r, s') := checkStates env s; (HMRet.of (fun _ => .unit) r, s')
  | .close e => let (r, s') := close env e s; (HMRet.of (fun _ => .unit) r, s')
  | .closed => let (r, s') := lift HMirror.closed s; (HMRet.of .bool r, s')
  | .readable => let (r, s') := lift HMirror.readable s; (HMRet.of .bool r, s')
  | .writable => let (r, s') := lift HMirror.writable s; (HMRet.of .bool r, s')
  | .setAggressive a => let (r, s') := lift (HMirror.setAggressive a) s; (HMRet.of (fun _ => .unit) r, s')

/-- Perform a history of calls. -/
def run (env : HEnv) : List HMCall → HMNet × Web → List HMRet × (HMNet × Web)
  | [], s => ([], s)
  | c :: cs, s =>
    let (r, s') := exec env c s
    let (rs, s'') := run env cs s'
    (r :: rs, s'')

end WebMirror

/-- What is done with a reader. -/
inductive WRCall where
  | enter
  | exit
  | len
  | maxlen
  | closed
  | clear
  | resetStates
  | stopAll
  | read (size : Option Int)

/-- What a call of a reader returns. -/
inductive WRRet where
  | unit
  | json (j : Json)
  | bool (b : Bool)
  | items (l : List Item)
  | exc (e : Exc)

/-- Turn the outcome of a method into a `WRRet`. -/
def WRRet.of {α : Type} (f : α → WRRet) : Except Exc α → WRRet
  | .ok a => f a
  | .error e => .exc e

/-- Perform a call of a reader, without `urllib3`. -/
def Reader.call (env : HEnv) (c : WRCall) (s : RNet) : WRRet × RNet :=
  match c with
  | .enter => let (r, s') := Reader.enter s; (WRRet.of (fun _ => .unit) r, s')
  | .exit => let (r, s') := Reader.exit s; (WRRet.of (fun _ => .unit) r, s')
  | .len => let (r, s') := Reader.len env s; (WRRet.of .json r, s')
  | .maxlen => let (r, s') := Reader.maxlen env s; (WRRet.of .json r, s')
  | .closed => let (r, s') := Reader.closed env s; (WRRet.of .json r, s')
  | .clear => let (r, s') := Reader.clear env s; (WRRet.of .bool r, s')
  | .resetStates => let (r, s') := Reader.resetStates env s; (WRRet.of .bool r, s')
  | .stopAll => let (r, s') := Reader.stopAll env s; (WRRet.of .bool r, s')
  | .read size => let (r, s') := Reader.read env size s; (WRRet.of .items r, s')

/-- Perform a history of calls of a reader, without `urllib3`. -/
def Reader.calls (env : HEnv) : List WRCall → RNet → List WRRet × RNet
  | [], s => ([], s)
  | c :: cs, s =>
    let (r, s') := Reader.call env c s
    let (rs, s'') := Reader.calls env cs s'
    (r :: rs, s'')

namespace WebReader
open Web

/-- Make a `SafePoolManager`. -/
def newPool : Py (RNet × Web) Nat := do
  let p ← lift Reader.newPool
  note (.made p)
  return p

/-- `SafePoolManager.__exit__` (`webtools.py:105-112`). -/
def clearPool (p : Nat) : Py (RNet × Web) Unit := do
  lift (Reader.clearPool p)
  note (.cleared p)

/-- `LineHostReader.__enter__` (`host.py:838-851`). -/
def enter : Py (RNet × Web) Unit := do
  match ← lift (Py.gets (·.reader.http)) with
  | none =>
    let p ← newPool
    lift (Py.modify fun s => { s with reader := { http := some p, stack := s.reader.stack + 1 } })
  | some _ => return ()

/-- `LineHostReader.__exit__` (`host.py:853-864`). -/
def exit : Py (RNet × Web) Unit := do
  lift (Py.modify fun s => { s with reader := { s.reader with stack := s.reader.stack - 1 } })
  if (← lift (Py.gets (·.reader.stack))) = 0 then
    match ← lift (Py.gets (·.reader.http)) with
    | some p => clearPool p
    | none => return ()
  else return ()

/-- `if self.__http_: …`, `with SafePoolManager(…) as _http: …` (e.g. `host.py:878-884`). -/
def withHttp {α : Type} (f : Nat → Py (RNet × Web) α) : Py (RNet × Web) α := do
  match ← lift (Py.gets (·.reader.http)) with
  | some p => f p
  | none =>
    let p ← newPool
    fun s =>
      let x := f p s
      (x.1, (clearPool p x.2).2)

/-- `LineHostReader.__get_states` (`host.py:1072-1110`). -/
def getStates (env : HEnv) (name : PyStr) (p : Nat) : Py (RNet × Web) Json :=
  withRequest p (Reader.request env p (.stateGet (some name))) fun k resp =>
    if resp.status < 400 then load k (Reader.dataOf resp)
    else load k resp.fail

/-- `__clear`, `__reset_states`, `__post_states` (`host.py:1003-1055, 1125-1167`). -/
def successful (env : HEnv) (r : Req) (p : Nat) : Py (RNet × Web) Bool :=
  withRequest p (Reader.request env p r) fun k resp => load k (Reader.successful resp)

/-- `LineHostReader.read` (`host.py:972-1001, 1169-1209`). -/
def read (env : HEnv) (size : Option Int) : Py (RNet × Web) (List Item) := withHttp fun p =>
  withRequest p (Reader.request env p (.get (Reader.query size))) fun k resp =>
    if resp.status < 400 then do
      let data ← load k (Reader.dataOf resp)
      lift fun s => ((do Reader.deserializeAll (← data.toTuple) : Except Exc (List Item)), s)
    else load k resp.fail

/-- Perform a call.  (`__len__`, `maxlen`, `closed`, `clear`, `reset_states`, `stop_all_mirrors`, `read`: `host.py:876-1001`.) -/
def call (env : HEnv) (c : WRCall) (s : RNet × Web) : WRRet × (RNet × Web) :=
  match c with
  | .enter => let (r, s') := enter s; (WRRet.of (fun _ => .unit) r, s')
  | .exit => let (r, s') := exit s; (WRRet.of (fun _ => .unit) r, s')
  | .len => let (r, s') := withHttp (getStates env (lit "curlen")) s; (WRRet.of .json r, s')
  | .maxlen => let (r, s') := withHttp (getStates env (lit "maxlen")) s; (WRRet.of .json r, s')
  | .closed => let (r, s') := withHttp (getStates env (lit "closed")) s; (WRRet.of .json r, s')
  | .clear => let (r, s') := withHttp (successful env .delete) s; (WRRet.of .bool r, s')
  | .resetStates => let (r, s') := withHttp (successful env .stateDelete) s; (WRRet.of .bool r, s')
  | .stopAll =>
    let (r, s') := withHttp (successful env (.statePost (.json
      (.obj [(lit "state", .str (lit "closed")), (lit "value", .str (lit "true"))])))) s
    (WRRet.of .bool r, s')
  | .read size => let (r, s') := read env size s; (WRRet.of .items r, s')

/-- Perform a history of calls. -/
def calls (env : HEnv) : List WRCall → RNet × Web → List WRRet × (RNet × Web)
  | [], s => ([], s)
  | c :: cs, s =>
    let (r, s') := call env c s
    let (rs, s'') := calls env cs s'
    (r :: rs, s'')

end WebReader
end SyncStream
