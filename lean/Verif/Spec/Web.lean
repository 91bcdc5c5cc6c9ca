import Verif.Model.WebTools
/-!
# When responses and pools are handled with care

About a log of events only; how the code makes it does not matter here.
-/

namespace SyncStream.Spec

/-- The response an event is about. -/
def respOf : WebEv → Option Nat
  | .opened r _ _ => some r
  | .read r => some r
  | .released r => some r
  | .closed r => some r
  | _ => none

/-- What happened to a response. -/
def aboutResp (r : Nat) (log : List WebEv) : List WebEv := log.filter fun e => respOf e == some r

/-- Every response there was has been given back: its connection is released once, then it is closed once, it is read at most
once, before that, and nothing happens to it afterwards. -/
def GivenBack (log : List WebEv) : Prop :=
  ∀ e ∈ log, ∀ r, respOf e = some r → ∃ p st, aboutResp r log = [.opened r p st, .released r, .closed r] ∨
    aboutResp r log = [.opened r p st, .read r, .released r, .closed r]

/-- The responses that are open at the end. -/
def openResps : List WebEv → List Nat → List Nat
  | [], o => o
  | .opened r _ _ :: l, o => openResps l (r :: o)
  | .closed r :: l, o => openResps l (o.erase r)
  | _ :: l, o => openResps l o

/-- At every moment at most one response is open: one connection is enough. -/
def OneOpen (log : List WebEv) : Prop := ∀ l, l <+: log → (openResps l []).length ≤ 1

/-- Pools are cleared only while no response is open. -/
def ClearedIdle (log : List WebEv) : Prop :=
  ∀ a p b, log = a ++ WebEv.cleared p :: b → openResps a [] = []

/-- Every response has been read to its end before its connection was given back. -/
def ReadBeforeRelease (log : List WebEv) : Prop :=
  ∀ a r b, log = a ++ WebEv.released r :: b → WebEv.read r ∈ a

/-- A pool is used only after it has been made and before it is cleared. -/
def PoolAlive (log : List WebEv) : Prop :=
  ∀ a r p st b, log = a ++ WebEv.opened r p st :: b → WebEv.made p ∈ a ∧ WebEv.cleared p ∉ a

/-- Every pool that has been made has been cleared, once, after its last use. -/
def PoolsEnded (log : List WebEv) : Prop :=
  ∀ p, WebEv.made p ∈ log → ∃ a b, log = a ++ WebEv.cleared p :: b ∧ WebEv.cleared p ∉ a ∧
    ∀ e ∈ b, e ≠ .cleared p ∧ e ≠ .made p ∧ ∀ r st, e ≠ .opened r p st

end SyncStream.Spec
