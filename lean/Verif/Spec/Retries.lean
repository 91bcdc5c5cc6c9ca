import Verif.Model.Retries
/-!
# Specification of the attempts that are made for a request

Nothing here uses the counters: which attempts are made is said by counting those that failed.
-/

namespace SyncStream.Spec

/-- The attempt arrived at the service and was processed. -/
def reached (t : Try) : Bool :=
  match t.what with
  | .noReply _ => true
  | .answered => true
  | _ => false

/-- No connection could be made, and this was counted as a connect error. -/
def unconnected (t : Try) : Bool :=
  match t.what with
  | .refused true _ => true
  | _ => false

/-- The connection broke after the request had been sent. -/
def broken (t : Try) : Bool :=
  match t.what with
  | .lost _ => true
  | .noReply _ => true
  | _ => false

/-- The attempt was answered. -/
def answered (t : Try) : Bool :=
  match t.what with
  | .answered => true
  | _ => false

/-- `http.request` uses POST. -/
def isPost : Req → Bool
  | .post _ => true
  | .statePost _ => true
  | _ => false

/-- After these failures the request is made again: at most `total` failures, at most `connect` of them connect errors, at most `read`
of them read errors, and none of them a read error if the request is a POST. -/
def Again (total connect read : Nat) (r : Req) (fails : List Try) : Prop :=
  (∀ t ∈ fails, answered t = false) ∧ fails.length ≤ total ∧ fails.countP unconnected ≤ connect ∧
    fails.countP broken ≤ read ∧ (isPost r = true → fails.countP broken = 0)

/-- The attempts made for a request are `fails` and then `t`: after each of `fails` the request was made again, and after `t` it was not. -/
def Made (total connect read : Nat) (r : Req) (tries fails : List Try) (t : Try) : Prop :=
  fails ++ [t] <+: tries ++ [⟨[], .answered⟩] ∧ Again total connect read r fails ∧ ¬ Again total connect read r (fails ++ [t])

/-- How the request ends. -/
def ending (t : Try) : Outcome :=
  match t.what with
  | .refused _ e => .lost e
  | .lost e => .lost e
  | .noReply e => .noReply e
  | .answered => .ok

/-- What the service does until the last attempt arrives: what the others ask for, and the earlier attempts that arrived. -/
def meanwhile (r : Req) (fails : List Try) (t : Try) : List HOp :=
  (fails.flatMap fun t => t.before ++ if reached t then [.req r.wire] else []) ++ t.before

/-- What the others ask for until the last attempt arrives. -/
def others (ts : List Try) : List HOp := ts.flatMap (·.before)

/-- What a service that performs operations one after the other answers to the requests among them. -/
def replies (env : HEnv) : List HOp → HostBuf → List Resp
  | [], _ => []
  | .req r :: os, h => (HostBuf.handle env r h).1 :: replies env os (HostBuf.step env (.req r) h)
  | o :: os, h => replies env os (HostBuf.step env o h)

end SyncStream.Spec
