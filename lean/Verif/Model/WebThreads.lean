import Verif.Model.HostWorld
import Verif.Model.WebTools
/-!
# Responses and connection pools when threads share a mirror or a reader

`Model/WebTools.lean` again for threads: the responses and the pools of `urllib3`, step by step.  A mirror makes its pool on the first use
(`host.py:149-162`), without protection; a reader makes one when a context is entered (`host.py:838-851`).  Between the answer to a request
and the end of its `with` block the methods look at nothing that threads share, so the methods of a mirror are those of
`Model/HostWorld.lean`, with the steps of a request put in place of the request.

Simplifications: those of `Model/WebTools.lean`; a request with its answer is one step, with an oracle as in `Model/HostMirrorThreads.lean`.
-/

namespace SyncStream

/-- The responses and pools made so far, what happened to them, the attribute `__http_` (`host.py:110`, `host.py:836`), and the pools that
the finalizers registered for the object will clear (`weakref.finalize`; a finalizer remains registered if the attribute `__finalizer` is
set again). -/
structure WebT where
  resps : Nat := 0
  pools : Nat := 0
  log : List WebEv := []
  http : Option Nat := none
  finalizers : List Nat := []

namespace WebT

/-- `SafePoolManager(...)` -/
def new : Py WebT Nat := fun w => (.ok w.pools, { w with pools := w.pools + 1, log := w.log ++ [.made w.pools] })

/-- Something happens. -/
def note (e : WebEv) : Py WebT Unit := Py.modify fun w => { w with log := w.log ++ [e] }

/-- `self.__http_ = p` -/
def setHttp (p : Nat) : Py WebT Unit := Py.modify fun w => { w with http := some p }

/-- `weakref.finalize(self, clean_http_manager, p)` -/
def register (p : Nat) : Py WebT Unit := Py.modify fun w => { w with finalizers := w.finalizers ++ [p] }

/-- A request through the pool `p`; the response, if there is one, gets a number (`webtools.py:114-151`). -/
def request (env : HEnv) (p : Nat) (r : Req) (s : HNet × WebT) : Except Exc (Resp × Nat) × (HNet × WebT) :=
  match HNet.request env r s.1 with
  | (.ok resp, n) => (.ok (resp, s.2.resps), (n, { s.2 with resps := s.2.resps + 1, log := s.2.log ++ [.opened s.2.resps p resp.status] }))
  | (.error e, n) => (.error e, (n, s.2))

/-- The object is collected, or the interpreter ends: the finalizers call `clean_http_manager` (`webtools.py:154-158`), the last one first. -/
def collected (w : WebT) : List WebEv := w.log ++ w.finalizers.reverse.map .cleared

end WebT

/-! ## Mirrors -/

/-- Programs of threads that share a host mirror, with the responses and pools. -/
abbrev WMProg := Prog ((HMProc × HNet) × WebT) Nat

namespace WMThr

/-- One step on responses and pools. -/
def web {α : Type} (m : Py WebT α) : WMProg α := Prog.atom (Py.onPart (·.2) (fun t s => (s.1, t)) m)

/-- `LineHostMirror.__http` (`host.py:149-162`); `self.__http_` is looked up again for the finalizer. -/
def http : WMProg Nat := do
  if (← web (Py.gets (·.http))).isNone then
    let p ← web WebT.new
    web (WebT.setHttp p)
    let q ← web (Py.gets (·.http))
    web (WebT.register (q.getD 0))
  else pure ()
  return (← web (Py.gets (·.http))).getD 0

/-- The request, in one step. -/
def answered (env : HEnv) (p : Nat) (r : Req) : WMProg (Except Exc (Resp × Nat)) :=
  Prog.atom fun s =>
    let x := WebT.request env p r (s.1.2, s.2)
    (.ok x.1, ((s.1.1, x.2.1), x.2.2))

/-- Whether the method reads the body of the response: `check_states` always (`host.py:402-424`), the others if the service refuses
(e.g. `host.py:287-294`). -/
def reads (r : Req) (resp : Resp) : Bool :=
  match r with
  | .stateGet _ => true
  | _ => !decide (resp.status < 400)

/-- The `with` block of a request: the body may be read (`json.load`), then `SafeRequest.__exit__` (`webtools.py:83-90`). -/
def block (r : Req) (resp : Resp) (n : Nat) : WMProg Unit := do
  if reads r resp then web (WebT.note (.read n)) else pure ()
  web (WebT.note (.released n))
  web (WebT.note (.closed n))

/-- `with self.__http.request(...) as req: …` -/
def request (env : HEnv) (r : Req) : WMProg (Except Exc Resp) := do
  let p ← http
  match ← answered env p r with
  | .error e => return .error e
  | .ok (resp, n) => do
    block r resp n
    return .ok resp

end WMThr

/-- A method of a mirror with the responses and pools. -/
def Mix.web {α : Type} (env : HEnv) : HMixed α → WMProg α
  | .ret a => .ret a
  | .raise e => .raise e
  | .act f k => .act (fun s => ((f s.1.1, s.1.2), s.2)) fun s => (k s.1.1).web env
  | .acq l w k => .acq l w (k.web env)
  | .rel l w k => .rel l w (k.web env)
  | .ask r k => (WMThr.request env r).bind fun x => (k x).web env

/-- Threads that share a host mirror, with the responses and pools. -/
def webMirrorThreads (env : HEnv) (ok : Nat → HMCall → Prop) : Conc.Sys ((HMProc × HNet) × WebT) Nat Unit HMCall HMRet where
  call _ _ c := do return (← (HMixed.prog c).web env, ())
  ok := ok
  reentrant _ := True

/-! ## Readers -/

/-- A reader: the service, the pools with `__http_`, and `__enter_stack` (`host.py:822`), which can become negative among threads. -/
structure RProc where
  net : HNet
  web : WebT := {}
  stack : Int := 0

/-- Programs of threads that share a reader; it has no locks. -/
abbrev WRProg := Prog RProc Unit

/-- What a thread does with a reader. -/
inductive WTCall where
  | enter
  | exit
  | call (c : RdCall)

/-- What it gets. -/
inductive WTRet where
  | unit
  | reader (r : RdRet)

namespace WRThr

/-- One step on responses and pools. -/
def web {α : Type} (m : Py WebT α) : WRProg α := Prog.atom (Py.onPart (·.web) (fun t s => { s with web := t }) m)

/-- Reading `__enter_stack`. -/
def stack : WRProg Int := Prog.atom (Py.gets (·.stack))

/-- Setting `__enter_stack`. -/
def setStack (n : Int) : WRProg Unit := Prog.atom (Py.modify fun s => { s with stack := n })

/-- `LineHostReader.__enter__` (`host.py:838-851`); `SafePoolManager.__enter__` does nothing. -/
def enter : WRProg Unit := do
  if (← web (Py.gets (·.http))).isNone then
    let p ← web WebT.new
    web (WebT.setHttp p)
    let n ← stack
    setStack (n + 1)
  else return ()

/-- The second half of `LineHostReader.__exit__` (`host.py:862-863`). -/
def leave : WRProg Unit := do
  if (← stack) ≤ 0 then
    if (← web (Py.gets (·.http))).isSome then
      let p ← web (Py.gets (·.http))
      web (WebT.note (.cleared (p.getD 0)))
    else return ()
  else return ()

/-- `LineHostReader.__exit__` (`host.py:853-864`). -/
def exit : WRProg Unit := do
  if (← stack) > 0 then
    let n ← stack
    setStack (n - 1)
    leave
  else leave

/-- The request, in one step. -/
def answered (env : HEnv) (p : Nat) (r : Req) : WRProg (Except Exc (Resp × Nat)) :=
  Prog.atom fun s =>
    let x := WebT.request env p r (s.net, s.web)
    (.ok x.1, { s with net := x.2.1, web := x.2.2 })

/-- `with http_pool.request(...) as req: …` (`host.py:1003-1209`); the body is read in any case. -/
def request (env : HEnv) (p : Nat) (c : RdCall) : WRProg RdRet := do
  match ← answered env p c.req with
  | .error e => return c.answer (.error e)
  | .ok (resp, n) => do
    web (WebT.note (.read n))
    web (WebT.note (.released n))
    web (WebT.note (.closed n))
    return c.answer (.ok resp)

/-- `if self.__http_: return self.__…(self.__http_)`, else `with SafePoolManager(…) as _http: …` (e.g. `host.py:876-884`).  The result,
exception or not, is given as a value, so the pool is cleared in any case. -/
def call (env : HEnv) (c : RdCall) : WRProg RdRet := do
  if (← web (Py.gets (·.http))).isSome then
    let p ← web (Py.gets (·.http))
    request env (p.getD 0) c
  else
    let p ← web WebT.new
    let r ← request env p c
    web (WebT.note (.cleared p))
    return r

/-- The program of a call. -/
def prog (env : HEnv) : WTCall → WRProg WTRet
  | .enter => do
    enter
    return .unit
  | .exit => do
    exit
    return .unit
  | .call c => do return .reader (← call env c)

end WRThr

/-- Threads that share a reader. -/
def webReaderThreads (env : HEnv) (ok : Nat → WTCall → Prop) : Conc.Sys RProc Unit Unit WTCall WTRet where
  call _ _ c := do return (← WRThr.prog env c, ())
  ok := ok

end SyncStream
