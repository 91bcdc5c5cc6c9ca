import Verif.Model.Retries
/-!
# The host mode as a whole, with the attempts of `urllib3` (`syncstream/host.py`)

`Model/HostSystem.lean` again, where every request of a call is now the attempts that `urllib3` makes (`Model/Retries.lean`), each of them a
request that the service performs step by step in a thread of its own.  How the attempts of a call end is decided before.  A request that was
given up may still be processed later (the service had it, but the client has stopped waiting): then it is a `late` call, made by any
process at any time.  (Nothing here says that such a request was made before: the theorems hold for more than can happen.)
-/

namespace SyncStream

/-- `HTTPConnectionPool.urlopen`, as in `TNet.urlopen`; `k` goes on with what comes of it and the remaining attempts. -/
def Ask.urlopen {α : Type} (r : Req) (k : Except Exc Resp → List Attempt → Ask HOp HRet α) : List Attempt → Retry → Ask HOp HRet α
  | [], _ => .ask (.req r.wire) fun x => k x.received []
  | t :: ts, c =>
    match t with
    | .answered => .ask (.req r.wire) fun x => k x.received ts
    | .refused counted e =>
      match c.noConnection counted with
      | none => k (.error e) ts
      | some c => urlopen r k ts c
    | .lost e =>
      match c.readError r with
      | none => k (.error e) ts
      | some c => urlopen r k ts c
    | .noReply e => .ask (.req r.wire) fun _ =>
      match c.readError r with
      | none => k (.error e) ts
      | some c => urlopen r k ts c

/-- The requests of a method with their attempts (`with self.__http.request(...) as req`). -/
def Ask.tried {α : Type} : Ask Req (Except Exc Resp) α → List Attempt → Ask HOp HRet α
  | .done a, _ => .done a
  | .ask r k, ts => Ask.urlopen r (fun x ts => (k x).tried ts) ts {}

/-- A call in the host mode: of a mirror or a reader, with what happens to the attempts, by the process that owns the buffer, or a request
that was given up and is processed now. -/
inductive HTCall where
  | mirror (c : HMCall) (ts : List Attempt)
  | reader (c : RdCall) (ts : List Attempt)
  | late (r : Req)
  | stopAll
  | reset

/-- A call by a process with the mirror `m` (`stop_all_mirrors`, `reset_states`: `host.py:747-767`). -/
def retryClient (m : HMirror) : HTCall → Ask HOp HRet (HSRet × HMirror)
  | .mirror c ts => ((HMAsk.exec c m).tried ts).bind fun x => .done (.mirror x.1, x.2)
  | .reader c ts => (c.exec.tried ts).bind fun x => .done (.reader x, m)
  | .late r => .ask (.req r.wire) fun _ => .done (.local, m)
  | .stopAll => .ask .stopAll fun _ => .done (.local, m)
  | .reset => .ask .reset fun _ => .done (.local, m)

/-- The host mode with attempts; process `i` may make the call `c` if `ok i c`. -/
def retrySystem (env : HEnv) (ok : Nat → HTCall → Prop) : Conc.Sys HostBuf HLock HMirror HTCall HSRet :=
  clients (hostThreads env fun _ o => match o with | .buffer _ => False | _ => True) (fun _ m c => retryClient m c) ok

end SyncStream
