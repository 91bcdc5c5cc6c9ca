import Verif.Model.Clients
/-!
# Programs that share something in their process and ask a service

The threads of a process share what the process has, with locks of their own, and now and then ask a service that all processes share.
The service is a system of `Model/Conc.lean`, whose operations are programs of primitive steps with locks of their own; the steps of the
processes and those of the service are interleaved in every possible way.
-/

namespace SyncStream

/-- Programs over the state `σ` of a process with locks `L` (as in `Model/Prog.lean`) that also ask a service for operations `Q` and get
answers `A`. -/
inductive Mix (σ L Q A α : Type) where
  | ret (a : α)
  | raise (e : Exc)
  | act (f : σ → σ) (k : σ → Mix σ L Q A α)
  | acq (l : L) (w : Bool) (k : Mix σ L Q A α)
  | rel (l : L) (w : Bool) (k : Mix σ L Q A α)
  | ask (q : Q) (k : A → Mix σ L Q A α)

namespace Mix
variable {σ L Q A Q' A' τ M α β : Type}

/-- Sequencing; an exception skips the rest. -/
protected def bind : Mix σ L Q A α → (α → Mix σ L Q A β) → Mix σ L Q A β
  | ret a, g => g a
  | raise e, _ => raise e
  | act f k, g => act f fun s => (k s).bind g
  | acq l w k, g => acq l w (k.bind g)
  | rel l w k, g => rel l w (k.bind g)
  | ask q k, g => ask q fun a => (k a).bind g

instance : Monad (Mix σ L Q A) where
  pure := ret
  bind := Mix.bind

/-- A value or an exception. -/
def ofExcept : Except Exc α → Mix σ L Q A α
  | .ok a => ret a
  | .error e => raise e

/-- One indivisible step, given as a method. -/
def atom (m : Py σ α) : Mix σ L Q A α := act (fun s => (m s).2) fun s => ofExcept (m s).1

/-- The end of a `with lock:` block: the lock is released, also after an exception. -/
def andRelease (l : L) (w : Bool) : Mix σ L Q A α → Mix σ L Q A α
  | ret a => rel l w (ret a)
  | raise e => rel l w (raise e)
  | act f k => act f fun s => (k s).andRelease l w
  | acq l' w' k => acq l' w' (k.andRelease l w)
  | rel l' w' k => rel l' w' (k.andRelease l w)
  | ask q k => ask q fun a => (k a).andRelease l w

/-- `with lock: p` -/
def withLock (l : L) (w : Bool) (p : Mix σ L Q A α) : Mix σ L Q A α := acq l w (p.andRelease l w)

/-- The result, exception or value, as a value. -/
def outcome : Mix σ L Q A α → Mix σ L Q A (Except Exc α)
  | ret a => ret (.ok a)
  | raise e => ret (.error e)
  | act f k => act f fun s => (k s).outcome
  | acq l w k => acq l w k.outcome
  | rel l w k => rel l w k.outcome
  | ask q k => ask q fun a => (k a).outcome

/-- A client that has nothing to share. -/
def ofAsk : Ask Q A α → Mix σ L Q A α
  | .done a => ret a
  | .ask q k => ask q fun a => ofAsk (k a)

/-- At work, in process `p`, as thread `i`: the steps of the service are among those of all. -/
def fine (svc : Conc.Sys τ M Unit Q A) (p i : Nat) : Mix σ L Q A α → Prog ((Nat → σ) × τ) (Nat × L ⊕ M) α
  | ret a => .ret a
  | raise e => .raise e
  | act f k => .act (fun s => (upd s.1 p (f (s.1 p)), s.2)) fun s => (k (s.1 p)).fine svc p i
  | acq l w k => .acq (.inl (p, l)) w (k.fine svc p i)
  | rel l w k => .rel (.inl (p, l)) w (k.fine svc p i)
  | ask q k => ((svc.call i () q).onPart (·.2) (fun t s => (s.1, t)) .inr).bind fun x => (k x.1).fine svc p i

end Mix

/-- The threads of all processes at work; thread `i` belongs to process `proc i`, and `call c` is the call `c`. -/
def mixSys {σ L Q A τ M C R : Type} (svc : Conc.Sys τ M Unit Q A) (proc : Nat → Nat) (call : C → Mix σ L Q A (R × Unit))
    (ok : Nat → C → Prop) (re : L → Prop) : Conc.Sys ((Nat → σ) × τ) (Nat × L ⊕ M) Unit C R where
  call i _ c := (call c).fine svc (proc i) i
  ok := ok
  reentrant := fun
    | .inl x => re x.2
    | .inr m => svc.reentrant m

end SyncStream
