import Verif.Model.Conc
/-!
# Clients of a service

A client computes on its own and now and then asks a service that it shares with others for an operation, waiting for the answer.  The
service is a system of `Model/Conc.lean`: its operations are programs of primitive steps, and those for different clients are interleaved.
What a client does between two operations touches nothing shared, so it is no step of its own.
-/

namespace SyncStream

/-- A client that asks for operations `C`, gets answers `R` and ends with a result. -/
inductive Ask (C R α : Type) where
  | done (a : α)
  | ask (c : C) (k : R → Ask C R α)

namespace Ask
variable {C R C' R' α β σ L O : Type}

/-- One after the other. -/
protected def bind : Ask C R α → (α → Ask C R β) → Ask C R β
  | done a, g => g a
  | ask c k, g => ask c fun r => (k r).bind g

instance : Monad (Ask C R) where
  pure := done
  bind := Ask.bind

/-- The client at work: every operation is the program of the service. -/
def prog (sys : Conc.Sys σ L Unit C R) (i : Nat) : Ask C R α → Prog σ L α
  | done a => .ret a
  | ask c k => (sys.call i () c).bind fun x => (k x.1).prog sys i

/-- All operations asked for are among `P`, whatever the answers. -/
def Within (P : C → Prop) : Ask C R α → Prop
  | done _ => True
  | ask c k => P c ∧ ∀ r, (k r).Within P

end Ask

/-- Clients at work, each with an object of its own: `cl i o c` is the call `c` by client `i` with its object `o`. -/
def clients {C R C' R' σ L O : Type} (sys : Conc.Sys σ L Unit C R) (cl : Nat → O → C' → Ask C R (R' × O)) (ok : Nat → C' → Prop) :
    Conc.Sys σ L O C' R' where
  call i o c := (cl i o c).prog sys i
  ok := ok
  reentrant := sys.reentrant

end SyncStream
