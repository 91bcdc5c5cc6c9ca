import Verif.Model.Host
import Verif.Model.Threads
/-!
# The host service used by several threads (`syncstream/host.py:530-767`)

Flask serves requests in threads; the process that owns the buffer uses it too.  The view functions of
`Model/Host.lean` again, as programs with the three locks they take: `__config_lock` and `__state_lock`
of `LineHostBuffer` (`host.py:558-559`) and `__last_line_lock` of the inherited line buffer.  The methods
of the line buffer are the programs of `Model/Threads.lean`.  What is done with the request before the
locks are taken (decoding, converting the arguments) touches nothing that is shared and is no step.
One access to the dictionary `__state` is one step.

`Lemmas/HostThreads.lean` proves that without interruption the programs do what `Model/Host.lean` says.
-/

namespace SyncStream

/-- The locks of a host buffer: `__config_lock`, `__state_lock`, `__last_line_lock`. -/
inductive HLock where
  | config
  | state
  | line
  deriving DecidableEq

/-- Programs of the threads of a service. -/
abbrev HProg := Prog HostBuf HLock

namespace HThr
open HostBuf

/-- Methods of the inherited line buffer. -/
def line {α : Type} (p : TProg α) : HProg α :=
  p.onPart (·.base) (fun t b => { b with base := t }) fun _ => .line

/-- `with config_lock:` -/
def config {α : Type} (p : HProg α) : HProg α := Prog.withLock .config true p

/-- `with state_lock:` -/
def state {α : Type} (p : HProg α) : HProg α := Prog.withLock .state true p

/-- A value or an exception. -/
def lift {α : Type} : Except Exc α → HProg α
  | .ok a => .ret a
  | .error e => .raise e

/-- `LineHostBuffer.read_serialized` (`host.py:563-588`). -/
def readSerialized (size : Option Int) : HProg (List Json) := do
  let items ← line (Thr.read size)
  lift (serializeAll items)

/-- `BufferPost.post` after the body has been decoded (`host.py:624-644`). -/
def post (env : HEnv) (args : Json) : HProg Unit :=
  let dtype := strip ((args.get (lit "type") (.str [])).strOf env.ext)
  config do
    if dtype = lit "str" then
      let data := args.get (lit "data") .null
      if data.isMapping then
        match data.get (lit "value") .null with
        | .null => return ()
        | v =>
          let _ ← line (Thr.write (v.strOf env.ext))
          return ()
      else return ()
    else if dtype = lit "error" ∨ dtype = lit "warning" then
      let data := args.get (lit "data") .null
      if data.isMapping then
        line Thr.newLine
        let item ← lift (GMsg.deserialize data)
        line (Thr.deliver item)
      else return ()
    else if dtype = lit "close" then
      line Thr.newLine
    else .raise .typeError

/-- `BufferPost.get` (`host.py:646-662`). -/
def get (env : HEnv) (n : Option PyStr) : HProg (List Json) :=
  match n with
  | none => config (readSerialized none)
  | some s =>
    match env.int s with
    | some k => config (readSerialized (some k))
    | none => .raise .valueError

/-- `BufferPost.delete` (`host.py:664-668`). -/
def delete : HProg Unit := config (line Thr.clear)

/-- `BufferStatePost.get` (`host.py:673-688`). -/
def stateGet (name : Option PyStr) : HProg Json :=
  let name := strip (name.getD [])
  if name = [] then .raise .typeError
  else config do
    if name = lit "curlen" then
      let n ← line Thr.len
      return .int n
    else
      state (Prog.atom (Py.gets fun b => (Json.obj b.state).get name .null))

/-- `BufferStatePost.post` after the body has been decoded (`host.py:703-714`). -/
def statePost (env : HEnv) (args : Json) : HProg Unit :=
  let name := strip ((args.get (lit "state") (.str [])).strOf env.ext)
  if name = [] then .raise .typeError
  else config (state (
    if name = lit "closed" then
      let value := strip (asciiLower ((args.get (lit "value") .null).strOf env.ext))
      Prog.atom (Py.modify fun b => { b with state := PyDict.set b.state name (.bool (value = lit "true")) })
    else return ()))

/-- `LineHostBuffer.stop_all_mirrors` (`host.py:747-758`). -/
def stopAll : HProg Unit :=
  state (Prog.atom (Py.modify fun b => { b with state := PyDict.set b.state (lit "closed") (.bool true) }))

/-- `LineHostBuffer.reset_states` (`host.py:760-767`). -/
def resetStates : HProg Unit := state do
  Prog.atom (Py.modify fun b => { b with state := [] })
  Prog.atom (Py.modify fun b => { b with state := PyDict.set b.state (lit "closed") (.bool false) })

/-- The answer for a POST request. -/
def answerPost (b : Body) (p : Json → HProg Unit) : HProg Resp :=
  match jsonArgs b with
  | .error _ => return { status := 500, body := none }
  | .ok none => return { status := 400, body := none }
  | .ok (some args) => do return answer 201 (fun _ => success) (← (p args).outcome)

/-- Process a request (`host.py:590-730`). -/
def handle (env : HEnv) : Req → HProg Resp
  | .post b => answerPost b (post env)
  | .get n => do return answer 200 (fun l => successData (.arr l)) (← (get env n).outcome)
  | .delete => do return answer 200 (fun _ => success) (← delete.outcome)
  | .stateGet s => do return answer 200 successData (← (stateGet s).outcome)
  | .statePost b => answerPost b (statePost env)
  | .stateDelete => do return answer 200 (fun _ => success) (← resetStates.outcome)

end HThr

/-- What an operation gives: the answer to a request, or the result of a local call. -/
inductive HRet where
  | resp (r : Resp)
  | local (r : Ret)

/-- The program of an operation and what it returns. -/
def HThr.prog (env : HEnv) : HOp → HProg HRet
  | .req r => do return .resp (← handle env r)
  | .buffer (.write d) => do return .local (Ret.of .nat (← (Prog.atom (HostBuf.write d)).outcome))
  | .buffer c => do return .local (← line (Thr.prog (.call c)))
  | .stopAll => do return .local (Ret.of (fun _ => .unit) (← stopAll.outcome))
  | .reset => do return .local (Ret.of (fun _ => .unit) (← resetStates.outcome))

/-- The threads of a service; `ok i o`: thread `i` may perform the operation `o`. -/
def hostThreads (env : HEnv) (ok : Nat → HOp → Prop) : Conc.Sys HostBuf HLock Unit HOp HRet where
  call _ _ o := do return (← HThr.prog env o, ())
  ok := ok

end SyncStream
