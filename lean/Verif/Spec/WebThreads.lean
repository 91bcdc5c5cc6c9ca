import Verif.Spec.Web
/-!
# When threads handle responses and pools with care

About a log of events only, as `Spec/Web.lean`.  Among threads several responses can be open at a time.
-/

namespace SyncStream.Spec

/-- The response `r` has been given back: released once, then closed once, read at most once, before that; and nothing else has happened
to it. -/
def BackOnce (r : Nat) (log : List WebEv) : Prop :=
  ∃ p st, aboutResp r log = [.opened r p st, .released r, .closed r] ∨ aboutResp r log = [.opened r p st, .read r, .released r, .closed r]

/-- It has been read, too. -/
def ReadOnce (r : Nat) (log : List WebEv) : Prop := ∃ p st, aboutResp r log = [.opened r p st, .read r, .released r, .closed r]

/-- The pool an event is about. -/
def poolOf : WebEv → Option Nat
  | .made p => some p
  | .cleared p => some p
  | .opened _ p _ => some p
  | _ => none

/-- What happened to a pool. -/
def aboutPool (p : Nat) (log : List WebEv) : List WebEv := log.filter fun e => poolOf e == some p

/-- The pool `p` was made, used once or not at all, cleared, and nothing else has happened to it. -/
def UsedUp (p : Nat) (log : List WebEv) : Prop :=
  aboutPool p log = [.made p, .cleared p] ∨ ∃ r st, aboutPool p log = [.made p, .opened r p st, .cleared p]

/-- A pool is cleared only while no response that came through it is open. -/
def ClearedClosed (log : List WebEv) : Prop :=
  ∀ a p b, log = a ++ WebEv.cleared p :: b → ∀ r st, WebEv.opened r p st ∈ a → WebEv.closed r ∈ a

end SyncStream.Spec
