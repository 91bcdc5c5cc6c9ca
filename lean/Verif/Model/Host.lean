import Verif.Model.Calls
/-!
# Model of the host mode: `LineHostBuffer`, `LineHostMirror`, `LineHostReader` (`syncstream/host.py`)

* The service is the list of its view functions: a request (`Req`) changes the buffer and is answered
  with a status and a body.  An exception in a view function is answered with status 500 and a body
  that is not JSON, a malformed JSON body with 400 (Flask's defaults: no error handlers, no
  `PROPAGATE_EXCEPTIONS`).  The locks have no effect on a single request; they are in
  `Model/HostThreads.lean`.
* What happens to a request of a client is decided by an oracle (`Fate`): before it is processed the
  service may process other requests or be used locally; the request may get lost before or after
  it is processed, and then the client's HTTP library raises some exception.  (`Retry(connect=5, read=2)`
  repeats a POST only if the connection could not be established, so a POST is processed at most once;
  a repeated GET or DELETE is covered because processing it twice is processing it and then again: `Model/Retries.lean` has the attempts,
  and C80 proves this.)
-/

namespace SyncStream

/-- What is left open: `ext`, the Python `repr` of lists and dicts (see `Json.strOf`); `int`, the
function `int(s)` on strings (`none` for `ValueError`). -/
structure HEnv where
  ext : Json → PyStr
  int : PyStr → Option Int

/-- A `dict` with string keys: pairs in any order, one per key. -/
abbrev PyDict := List (PyStr × Json)

/-- `d[k] = v` -/
def PyDict.set (d : PyDict) (k : PyStr) (v : Json) : PyDict := d.filter (·.1 ≠ k) ++ [(k, v)]

/-- A `LineHostBuffer` (`host.py:530-561`): the inherited line buffer and `__state`. -/
structure HostBuf where
  base : LineBuf
  state : PyDict

/-- The body of a POST request: not declared as JSON (`request.is_json` is false), not well-formed, or
a JSON value. -/
inductive Body where
  | notJson
  | malformed
  | json (j : Json)

/-- The requests to the two routes (`host.py:608-730`); the arguments of GET requests come from the
query string (`request.args.get`). -/
inductive Req where
  | post (b : Body)
  | get (n : Option PyStr)
  | delete
  | stateGet (state : Option PyStr)
  | statePost (b : Body)
  | stateDelete

/-- The request as it arrives: its body has been through `json.dumps` and `json.loads`. -/
def Req.wire : Req → Req
  | .post (.json j) => .post (.json j.wire)
  | .statePost (.json j) => .statePost (.json j.wire)
  | r => r

/-- A response: status, and the body if it is JSON. -/
structure Resp where
  status : Nat
  body : Option Json

namespace HostBuf

/-- Methods of the inherited line buffer. -/
def onBase {α : Type} (m : Py LineBuf α) : Py HostBuf α :=
  Py.onPart (·.base) (fun t b => { b with base := t }) m

/-- `LineHostBuffer.__init__` (`host.py:530-561`) for an `int` argument `maxlen` and a non-empty
route. -/
def new (maxlen : Int) : Except Exc HostBuf := do
  let b ← LineBuf.new maxlen
  return { base := b, state := [(lit "closed", .bool false), (lit "maxlen", .int maxlen)] }

/-- `{"message": "success"}` -/
def success : Json := .obj [(lit "message", .str (lit "success"))]

/-- `{"message": "success", "data": data}` -/
def successData (data : Json) : Json := .obj [(lit "message", .str (lit "success")), (lit "data", data)]

/-- The generator in `read_serialized` (`host.py:585-588`): `GroupedMessage.serialize(val)` of a plain
dict raises `AttributeError`. -/
def serializeAll : List Item → Except Exc (List Json)
  | [] => .ok []
  | .str s :: rest => do return .str s :: (← serializeAll rest)
  | .msg m :: rest => do return m.serialize :: (← serializeAll rest)
  | .raw _ :: _ => .error .attributeError

/-- A value or an exception. -/
def lift {α : Type} (x : Except Exc α) : Py HostBuf α := fun b => (x, b)

/-- `LineHostBuffer.read_serialized` (`host.py:563-588`). -/
def readSerialized (size : Option Int) : Py HostBuf (List Json) := do
  let items ← onBase (LineBuf.read size)
  lift (serializeAll items)

/-- `self.storage.append(data)` -/
def store (i : Item) : Py HostBuf Unit :=
  onBase (LineBuf.onStorage (Py.modify (Deque.append i)))

/-- The body of a POST request as the view functions see it (`request.is_json`, `request.get_json()`,
`isinstance(args, Mapping)`; `host.py:613-623, 692-702`).  `none`: answered with 400 by Flask. -/
def jsonArgs : Body → Except Exc (Option Json)
  | .notJson => .error .typeError
  | .malformed => .ok none
  | .json j => if j.isMapping then .ok (some j) else .error .typeError

/-- `BufferPost.post` after the body has been decoded (`host.py:624-644`). -/
def post (env : HEnv) (args : Json) : Py HostBuf Unit := do
  let dtype := strip ((args.get (lit "type") (.str [])).strOf env.ext)
  if dtype = lit "str" then
    let data := args.get (lit "data") .null
    if data.isMapping then
      match data.get (lit "value") .null with
      | .null => return ()
      | v =>
        let _ ← onBase (LineBuf.write (v.strOf env.ext))
        return ()
    else return ()
  else if dtype = lit "error" ∨ dtype = lit "warning" then
    let data := args.get (lit "data") .null
    if data.isMapping then
      onBase LineBuf.newLine
      let item ← lift (GMsg.deserialize data)
      store item
    else return ()
  else if dtype = lit "close" then
    onBase LineBuf.newLine
  else Py.raise .typeError

/-- `BufferPost.get` (`host.py:646-662`). -/
def get (env : HEnv) (n : Option PyStr) : Py HostBuf (List Json) := do
  let number ← (match n with
    | none => pure none
    | some s => match env.int s with
      | some k => pure (some k)
      | none => Py.raise .valueError : Py HostBuf (Option Int))
  readSerialized number

/-- `BufferStatePost.get` (`host.py:673-688`). -/
def stateGet (state : Option PyStr) : Py HostBuf Json := do
  let name := strip (state.getD [])
  if name = [] then Py.raise .typeError
  else if name = lit "curlen" then
    let n ← onBase LineBuf.len
    return .int n
  else
    Py.gets fun b => (Json.obj b.state).get name .null

/-- Lower case of the ASCII letters.  (`str.casefold` changes other characters too, but none of them
becomes one of the letters of `true`.) -/
def asciiLower (s : PyStr) : PyStr := s.map fun c => if 65 ≤ c ∧ c ≤ 90 then c + 32 else c

/-- `BufferStatePost.post` after the body has been decoded (`host.py:703-714`). -/
def statePost (env : HEnv) (args : Json) : Py HostBuf Unit := do
  let name := strip ((args.get (lit "state") (.str [])).strOf env.ext)
  if name = [] then Py.raise .typeError
  else if name = lit "closed" then
    let value := strip (asciiLower ((args.get (lit "value") .null).strOf env.ext))
    Py.modify fun b => { b with state := PyDict.set b.state name (.bool (value = lit "true")) }
  else return ()

/-- `LineHostBuffer.stop_all_mirrors` (`host.py:747-758`). -/
def stopAll : Py HostBuf Unit :=
  Py.modify fun b => { b with state := PyDict.set b.state (lit "closed") (.bool true) }

/-- `LineHostBuffer.reset_states` (`host.py:760-767`). -/
def resetStates : Py HostBuf Unit := do
  Py.modify fun b => { b with state := [] }
  Py.modify fun b => { b with state := PyDict.set b.state (lit "closed") (.bool false) }

/-- `LineHostBuffer.write` (`host.py:732-745`). -/
def write (_ : PyStr) : Py HostBuf Nat := Py.raise .notImplemented

/-- Flask's answer for the outcome of a view function. -/
def answer {α : Type} (status : Nat) (f : α → Json) : Except Exc α → Resp
  | .ok a => { status := status, body := some (f a) }
  | .error _ => { status := 500, body := none }

/-- The answer for a POST request. -/
def answerPost (b : Body) (m : Json → Py HostBuf Unit) (h : HostBuf) : Resp × HostBuf :=
  match jsonArgs b with
  | .error _ => ({ status := 500, body := none }, h)
  | .ok none => ({ status := 400, body := none }, h)
  | .ok (some args) =>
    let (r, h') := m args h
    (answer 201 (fun _ => success) r, h')

/-- Process a request (`host.py:590-730`). -/
def handle (env : HEnv) (r : Req) (h : HostBuf) : Resp × HostBuf :=
  match r with
  | .post b => answerPost b (post env) h
  | .get n => let (x, h') := get env n h; (answer 200 (fun l => successData (.arr l)) x, h')
  | .delete => let (x, h') := onBase LineBuf.clear h; (answer 200 (fun _ => success) x, h')
  | .stateGet s => let (x, h') := stateGet s h; (answer 200 successData x, h')
  | .statePost b => answerPost b (statePost env) h
  | .stateDelete => let (x, h') := resetStates h; (answer 200 (fun _ => success) x, h')

end HostBuf

/-- What can happen to a host buffer: a request, or a local call (the public `write` raises
`NotImplementedError`). -/
inductive HOp where
  | req (r : Req)
  | buffer (c : Call)
  | stopAll
  | reset

namespace HostBuf

/-- Perform an operation. -/
def step (env : HEnv) (o : HOp) (h : HostBuf) : HostBuf :=
  match o with
  | .req r => (handle env r h).2
  | .buffer (.write d) => (HostBuf.write d h).2
  | .buffer c => { h with base := (LineBuf.exec c h.base).2 }
  | .stopAll => (HostBuf.stopAll h).2
  | .reset => (resetStates h).2

/-- Perform operations. -/
def run (env : HEnv) (os : List HOp) (h : HostBuf) : HostBuf := os.foldl (fun h o => step env o h) h

end HostBuf

/-- The fate of a client's request: what the service does before it arrives; then it is processed and
answered, or lost before, or lost after it has been processed. -/
inductive Outcome where
  | ok
  | lost (e : Exc)
  | noReply (e : Exc)

/-- See `Outcome`. -/
structure Fate where
  before : List HOp := []
  outcome : Outcome := .ok

/-- The service and the oracle for the coming requests (if it is used up, they are processed at once).
`sent` records the requests that have been processed for this client. -/
structure HNet where
  service : HostBuf
  fates : List Fate := []
  sent : List Req := []

/-- `with http.request(...) as req` -/
def HNet.request (env : HEnv) (r : Req) : Py HNet Resp := fun n =>
  let f := n.fates.headD {}
  let n := { n with fates := n.fates.tail, service := HostBuf.run env f.before n.service }
  let (resp, service) := HostBuf.handle env r.wire n.service
  let done := { n with service := service, sent := n.sent ++ [r] }
  match f.outcome with
  | .ok => (.ok { resp with body := resp.body.map Json.wire }, done)
  | .lost e => (.error e, n)
  | .noReply e => (.error e, done)

/-- The `else` branches after `if req.status < 400` (e.g. `host.py:287-294`): `json.load(req)`, then
`ConnectionError`. -/
def Resp.fail {σ α : Type} (r : Resp) : Py σ α :=
  match r.body with
  | none => Py.raise .jsonDecodeError
  | some _ => Py.raise .connectionError

/-- A `LineHostMirror` (`host.py:67-115`). -/
structure HMirror where
  buf : StringIO := {}
  aggressive : Bool := false

/-- A mirror and the network. -/
abbrev HMNet := HMirror × HNet

namespace HMirror

/-- `self.__buffer.<method>` -/
def onBuf {α : Type} (m : Py StringIO α) : Py HMNet α :=
  Py.onPart (·.1.buf) (fun t s => ({ s.1 with buf := t }, s.2)) m

/-- A request. -/
def request (env : HEnv) (r : Req) : Py HMNet Resp :=
  Py.onPart (·.2) (fun t s => (s.1, t)) (HNet.request env r)

/-- `if req.status < 400: return` … -/
def expectOk (env : HEnv) (r : Req) : Py HMNet Unit := do
  let resp ← request env r
  if resp.status < 400 then return ()
  else resp.fail

/-- The public attribute `aggressive` (`host.py:93`). -/
def setAggressive (a : Bool) : Py HMNet Unit := Py.modify fun s => ({ s.1 with aggressive := a }, s.2)

/-- `LineHostMirror.closed` (`host.py:175-179`). -/
def closed : Py HMNet Bool := Py.gets (·.1.buf.closed)

/-- `LineHostMirror.readable` (`host.py:215-222`). -/
def readable : Py HMNet Bool := Py.gets fun s => !s.1.buf.closed

/-- `LineHostMirror.writable` (`host.py:224-231`). -/
def writable : Py HMNet Bool := Py.gets fun s => !s.1.buf.closed

/-- `LineHostMirror.clear` (`host.py:244-256`). -/
def clear : Py HMNet Unit := do
  onBuf StringIO.seek0
  onBuf StringIO.truncate0

/-- `LineHostMirror.flush` (`host.py:426-429`). -/
def flush : Py HMNet Unit := onBuf StringIO.flush

/-- The body of the POST request in `send_data` (`host.py:379`). -/
def strMsg (data : PyStr) : Json :=
  .obj [(lit "type", .str (lit "str")), (lit "data", .obj [(lit "value", .str data)])]

/-- The bodies of the POST requests in `send_error`, `send_warning` (`host.py:311-313, 341-343`). -/
def objMsg (type : PyStr) (m : GMsg) : Json := .obj [(lit "type", .str type), (lit "data", m.serialize)]

/-- The body of the POST request in `send_eof` (`host.py:283`). -/
def closeMsg : Json := .obj [(lit "type", .str (lit "close"))]

/-- `LineHostMirror.send_data` (`host.py:356-390`). -/
def sendData (env : HEnv) (data : PyStr) : Py HMNet Unit := do
  if ← closed then return ()
  else expectOk env (.post (.json (strMsg data)))

/-- `LineHostMirror.check_states` (`host.py:392-424`): `is_closed is True`. -/
def checkStates (env : HEnv) : Py HMNet Unit := do
  if ← closed then return ()
  else
    let resp ← request env (.stateGet (some (lit "closed")))
    if resp.status < 400 then
      match resp.body with
      | none => Py.raise .jsonDecodeError
      | some j =>
        match j.get (lit "data") .null with
        | .bool true => Py.raise .stopIteration
        | _ => return ()
    else resp.fail

/-- `LineHostMirror.__write` (`host.py:443-468`). -/
def writeCore (env : HEnv) (data : PyStr) (check : Bool) : Py HMNet Nat := do
  (if check then checkStates env else pure () : Py HMNet Unit)
  let messageLines := splitlines data
  if ← Py.gets (·.1.aggressive) then
    sendData env data
    return data.length
  else
    let nLines := messageLines.length
    if nLines > 1 ∨ (nLines = 1 ∧ messageLines.head? = some []) ∨ isEndLineBreak data then
      let res ← onBuf (StringIO.write data)
      let text ← onBuf StringIO.getvalue
      sendData env text
      onBuf StringIO.seek0
      onBuf StringIO.truncate0
      return res
    else if nLines = 1 then
      onBuf (StringIO.write data)
    else
      return 0

/-- `LineHostMirror.write` (`host.py:470-494`). -/
def write (env : HEnv) (data : PyStr) : Py HMNet Nat := do
  if !(← writable) then Py.raise .osError
  else writeCore env data true

/-- `LineHostMirror.new_line` (`host.py:258-264`). -/
def newLine (env : HEnv) (check : Bool := true) : Py HMNet Unit := do
  let pos ← onBuf StringIO.tell
  if pos > 0 then
    let _ ← writeCore env (lit "\n") check
    return ()
  else return ()

/-- `LineHostMirror.send_eof` (`host.py:266-294`). -/
def sendEof (env : HEnv) : Py HMNet Unit := do
  if ← closed then return ()
  else
    newLine env
    expectOk env (.post (.json closeMsg))

/-- `LineHostMirror.send_error` (`host.py:296-324`). -/
def sendError (env : HEnv) (e : ExcObj) : Py HMNet Unit := do
  if ← closed then return ()
  else
    newLine env (!e.isStop)
    expectOk env (.post (.json (objMsg (lit "error") (GMsg.new (.exc e)))))

/-- `LineHostMirror.send_warning` (`host.py:326-354`). -/
def sendWarning (env : HEnv) (e : ExcObj) : Py HMNet Unit := do
  if ← closed then return ()
  else
    newLine env
    expectOk env (.post (.json (objMsg (lit "warning") (GMsg.new (.exc e)))))

/-- `LineHostMirror.close` (`host.py:181-200`). -/
def close (env : HEnv) (exc : Option ExcObj) : Py HMNet Unit := do
  if ← closed then return ()
  else
    match exc with
    | none => sendEof env
    | some e => sendError env e
    clear
    onBuf StringIO.close

/-- `LineHostMirror.read` (`host.py:431-441`). -/
def read : Py HMNet PyStr := do
  if !(← readable) then Py.raise .osError
  else onBuf StringIO.getvalue

end HMirror

/-- A call of a public method of a host mirror. -/
inductive HMCall where
  | write (data : PyStr)
  | newLine (check : Bool)
  | read
  | clear
  | flush
  | sendData (data : PyStr)
  | sendEof
  | sendError (e : ExcObj)
  | sendWarning (e : ExcObj)
  | checkStates
  | close (exc : Option ExcObj)
  | closed
  | readable
  | writable
  | setAggressive (a : Bool)

/-- What a call of a host mirror's method returns. -/
inductive HMRet where
  | unit
  | nat (n : Nat)
  | bool (b : Bool)
  | text (s : PyStr)
  | exc (e : Exc)
  deriving DecidableEq

/-- Turn the outcome of a method into an `HMRet`. -/
def HMRet.of {α : Type} (f : α → HMRet) : Except Exc α → HMRet
  | .ok a => f a
  | .error e => .exc e

namespace HMirror

/-- Perform a call. -/
def exec (env : HEnv) (c : HMCall) (s : HMNet) : HMRet × HMNet :=
  match c with
  | .write d => let (r, s') := write env d s; (HMRet.of .nat r, s')
  | .newLine k => let (r, s') := newLine env k s; (HMRet.of (fun _ => .unit) r, s')
  | .read => let (r, s') := read s; (HMRet.of .text r, s')
  | .clear => let (r, s') := clear s; (HMRet.of (fun _ => .unit) r, s')
  | .flush => let (r, s') := flush s; (HMRet.of (fun _ => .unit) r, s')
  | .sendData d => let (r, s') := sendData env d s; (HMRet.of (fun _ => .unit) r, s')
  | .sendEof => let (r, s') := sendEof env s; (HMRet.of (fun _ => .unit) r, s')
  | .sendError e => let (r, s') := sendError env e s; (HMRet.of (fun _ => .unit) r, s')
  | .sendWarning e => let (r, s') := sendWarning env e s; (HMRet.of (fun _ => .unit) r, s')
  | .checkStates => let (r, s') := checkStates env s; (HMRet.of (fun _ => .unit) r, s')
  | .close e => let (r, s') := close env e s; (HMRet.of (fun _ => .unit) r, s')
  | .closed => let (r, s') := closed s; (HMRet.of .bool r, s')
  | .readable => let (r, s') := readable s; (HMRet.of .bool r, s')
  | .writable => let (r, s') := writable s; (HMRet.of .bool r, s')
  | .setAggressive a => let (r, s') := setAggressive a s; (HMRet.of (fun _ => .unit) r, s')

/-- Perform a history of calls. -/
def run (env : HEnv) : List HMCall → HMNet → List HMRet × HMNet
  | [], s => ([], s)
  | c :: cs, s =>
    let (r, s') := exec env c s
    let (rs, s'') := run env cs s'
    (r :: rs, s'')

end HMirror

/-- What happens to the connection pools of a reader. -/
inductive PoolEv where
  | created (p : Nat)
  | used (p : Nat)
  | cleared (p : Nat)
  deriving DecidableEq

/-- A `LineHostReader` (`host.py:803-836`): `__http_` (the number of a pool), `__enter_stack`. -/
structure Reader where
  http : Option Nat := none
  stack : Nat := 0

/-- A reader, the network, and the pools made so far with what happened to them. -/
structure RNet where
  reader : Reader := {}
  net : HNet
  nextPool : Nat := 0
  pools : List PoolEv := []

namespace Reader

/-- Make a `SafePoolManager`. -/
def newPool : Py RNet Nat := fun s =>
  (.ok s.nextPool, { s with nextPool := s.nextPool + 1, pools := s.pools ++ [.created s.nextPool] })

/-- `SafePoolManager.__exit__` (`webtools.py:105-112`): `self.clear()`. -/
def clearPool (p : Nat) : Py RNet Unit := Py.modify fun s => { s with pools := s.pools ++ [.cleared p] }

/-- `LineHostReader.__enter__` (`host.py:838-851`). -/
def enter : Py RNet Unit := do
  match ← Py.gets (·.reader.http) with
  | none =>
    let p ← newPool
    Py.modify fun s => { s with reader := { http := some p, stack := s.reader.stack + 1 } }
  | some _ => return ()

/-- `LineHostReader.__exit__` (`host.py:853-864`). -/
def exit : Py RNet Unit := do
  Py.modify fun s => { s with reader := { s.reader with stack := s.reader.stack - 1 } }
  if (← Py.gets (·.reader.stack)) = 0 then
    match ← Py.gets (·.reader.http) with
    | some p => clearPool p
    | none => return ()
  else return ()

/-- A request through a pool. -/
def request (env : HEnv) (p : Nat) (r : Req) : Py RNet Resp := do
  Py.modify fun s => { s with pools := s.pools ++ [.used p] }
  Py.onPart (·.net) (fun t s => { s with net := t }) (HNet.request env r)

/-- `if self.__http_: …`, `with SafePoolManager(…) as _http: …` (e.g. `host.py:878-884`). -/
def withHttp {α : Type} (f : Nat → Py RNet α) : Py RNet α := do
  match ← Py.gets (·.reader.http) with
  | some p => f p
  | none =>
    let p ← newPool
    fun s =>
      let (r, s') := f p s
      (r, (clearPool p s').2)

/-- `json.load(req)` of a response with a status below 400, then `res["data"]`. -/
def dataOf (resp : Resp) : Py RNet Json :=
  match resp.body with
  | none => Py.raise .jsonDecodeError
  | some j => fun s => (j.getItem (lit "data"), s)

/-- `LineHostReader.__get_states` (`host.py:1072-1110`). -/
def getStates (env : HEnv) (name : PyStr) (p : Nat) : Py RNet Json := do
  let resp ← request env p (.stateGet (some name))
  if resp.status < 400 then dataOf resp
  else resp.fail

/-- The end of `__clear`, `__reset_states`, `__post_states` (`host.py:1017-1028`): whether the message
is `success`. -/
def successful (resp : Resp) : Py RNet Bool :=
  if resp.status < 400 then
    match resp.body with
    | none => Py.raise .jsonDecodeError
    | some j => pure ((j.get (lit "message") (.str [])).eqStr (lit "success"))
  else resp.fail

/-- `LineHostReader.__len__` (`host.py:876-884`). -/
def len (env : HEnv) : Py RNet Json := withHttp (getStates env (lit "curlen"))

/-- `LineHostReader.maxlen` (`host.py:886-895`). -/
def maxlen (env : HEnv) : Py RNet Json := withHttp (getStates env (lit "maxlen"))

/-- `LineHostReader.closed` (`host.py:897-906`). -/
def closed (env : HEnv) : Py RNet Json := withHttp (getStates env (lit "closed"))

/-- `LineHostReader.clear` (`host.py:908-927, 1003-1028`). -/
def clear (env : HEnv) : Py RNet Bool := withHttp fun p => do successful (← request env p .delete)

/-- `LineHostReader.reset_states` (`host.py:929-946, 1030-1055`). -/
def resetStates (env : HEnv) : Py RNet Bool := withHttp fun p => do successful (← request env p .stateDelete)

/-- `LineHostReader.stop_all_mirrors` (`host.py:948-970, 1125-1167`). -/
def stopAll (env : HEnv) : Py RNet Bool := withHttp fun p => do
  successful (← request env p (.statePost (.json
    (.obj [(lit "state", .str (lit "closed")), (lit "value", .str (lit "true"))]))))

/-- The generator at the end of `__read` (`host.py:1198-1201`). -/
def deserializeAll : List Json → Except Exc (List Item)
  | [] => .ok []
  | .str s :: rest => do return .str s :: (← deserializeAll rest)
  | j :: rest => do
    let i ← GMsg.deserialize j
    return i :: (← deserializeAll rest)

/-- The query string of `__read` (`host.py:1186-1190`). -/
def query : Option Int → Option PyStr
  | none => none
  | some n => some (Json.natStr n.toNat)

/-- `LineHostReader.read` (`host.py:972-1001, 1169-1209`). -/
def read (env : HEnv) (size : Option Int) : Py RNet (List Item) := withHttp fun p => do
  let resp ← request env p (.get (query size))
  if resp.status < 400 then
    let data ← dataOf resp
    fun s => ((do deserializeAll (← data.toTuple) : Except Exc (List Item)), s)
  else resp.fail

end Reader
end SyncStream
