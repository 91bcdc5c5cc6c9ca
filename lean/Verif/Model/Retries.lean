import Verif.Model.HostSystem
/-!
# Model of the retries of `urllib3` (`host.py:158, 846, 881, ...`: `Retry(connect=5, read=2, redirect=5)`)

`Model/Host.lean` says of a request only whether it was processed and whether the client got the answer.  Here a request is the
sequence of attempts that `urllib3` makes (`HTTPConnectionPool.urlopen`, `Retry.increment`, `Retry.is_exhausted` of urllib3 1.26 and 2):

* An attempt may fail because no connection could be made: then it has not been processed.  `urllib3` 1.26 counts this as a connect
  error; version 2 counts some of these errors (`NewConnectionError`) in `total` only.  Both are allowed (`counted`).
* It may fail later (a read timeout, an aborted connection), before or after it has been processed; this is a read error.  A read error
  of a POST request is raised at once (POST is not in `Retry.DEFAULT_ALLOWED_METHODS`); other requests are made again.
* Each counter that is used is decremented, and so is `total` (its default is 10); a counter below zero raises `MaxRetryError`.
* Left out: redirects (the service never answers with one) and `Retry-After` (it never sends one), the time between the attempts
  (others may use the service before each attempt), and the type of the exception (any).
-/

namespace SyncStream

/-- What is left of the counters of a `Retry` object. -/
structure Retry where
  total : Nat := 10
  connect : Nat := 5
  read : Nat := 2

/-- How an attempt ends: no connection, lost before it is processed, lost afterwards, or answered. -/
inductive Attempt where
  | refused (counted : Bool) (e : Exc)
  | lost (e : Exc)
  | noReply (e : Exc)
  | answered

/-- An attempt, and what the service does before it arrives. -/
structure Try where
  before : List HOp := []
  what : Attempt := .answered

/-- Whether a request is made again after a read error (`Retry._is_method_retryable`): GET and DELETE. -/
def Req.again : Req → Bool
  | .post _ => false
  | .statePost _ => false
  | _ => true

namespace Retry

/-- `Retry.increment` for a connection that could not be made; `none`: the exception is raised. -/
def noConnection (counted : Bool) (t : Retry) : Option Retry :=
  if t.total = 0 then none
  else if counted then
    if t.connect = 0 then none else some { t with total := t.total - 1, connect := t.connect - 1 }
  else some { t with total := t.total - 1 }

/-- `Retry.increment` for a read error. -/
def readError (r : Req) (t : Retry) : Option Retry :=
  if r.again then
    if t.total = 0 ∨ t.read = 0 then none else some { t with total := t.total - 1, read := t.read - 1 }
  else none

end Retry

/-- The service and the coming attempts (if they are used up, the attempt is answered at once); `sent` records what has been
processed for this client, and `made` the attempts. -/
structure TNet where
  service : HostBuf
  tries : List Try := []
  sent : List Req := []
  made : List Try := []

namespace TNet

/-- The service processes the request. -/
def process (env : HEnv) (r : Req) (n : TNet) : TNet :=
  { n with service := (HostBuf.handle env r.wire n.service).2, sent := n.sent ++ [r] }

/-- The answer is there. -/
def answer (env : HEnv) (r : Req) (n : TNet) : Except Exc Resp :=
  let resp := (HostBuf.handle env r.wire n.service).1
  .ok { resp with body := resp.body.map Json.wire }

/-- `HTTPConnectionPool.urlopen`: the attempts for one request; the first argument is `n.tries`. -/
def urlopen (env : HEnv) (r : Req) : List Try → Retry → TNet → Except Exc Resp × TNet
  | [], _, n => (answer env r n, { process env r n with tries := [], made := n.made ++ [{}] })
  | t :: ts, c, n =>
    let n := { n with tries := ts, service := HostBuf.run env t.before n.service, made := n.made ++ [t] }
    match t.what with
    | .answered => (answer env r n, process env r n)
    | .refused counted e =>
      match c.noConnection counted with
      | none => (.error e, n)
      | some c => urlopen env r ts c n
    | .lost e =>
      match c.readError r with
      | none => (.error e, n)
      | some c => urlopen env r ts c n
    | .noReply e =>
      match c.readError r with
      | none => (.error e, process env r n)
      | some c => urlopen env r ts c (process env r n)

/-- `with http.request(...) as req` -/
def request (env : HEnv) (r : Req) (n : TNet) : Except Exc Resp × TNet := urlopen env r n.tries {} n

end TNet

/-- A client whose requests are made again. -/
def Ask.onTries {α : Type} (env : HEnv) : Ask Req (Except Exc Resp) α → TNet → α × TNet
  | .done a, n => (a, n)
  | .ask r k, n => (k (TNet.request env r n).1).onTries env (TNet.request env r n).2

namespace TNet

/-- Calls of a mirror's methods. -/
def mirrorRun (env : HEnv) : List HMCall → HMirror → TNet → List HMRet × HMirror × TNet
  | [], m, n => ([], m, n)
  | c :: cs, m, n =>
    let x := (HMAsk.exec c m).onTries env n
    let y := mirrorRun env cs x.1.2 x.2
    (x.1.1 :: y.1, y.2)

/-- A call of a reader's method. -/
def readerRun (env : HEnv) (c : RdCall) (n : TNet) : RdRet × TNet := c.exec.onTries env n

end TNet
end SyncStream
