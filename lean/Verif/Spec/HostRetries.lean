import Verif.Model.HostRetries
import Verif.Spec.HostShared
import Verif.Spec.HostSystem
import Verif.Spec.Merge
import Verif.Spec.Retries
/-!
# Specification: the host mode as a whole, with attempts
-/

namespace SyncStream.Spec

/-- The operations that the service performs, as the attempts of process `i`: before each attempt that arrives, the service performs some
operations for others. -/
inductive Attempted (i : Nat) : List Try → List (Nat × HOp × HRet) → Prop
  | nil : Attempted i [] []
  | arrives (others : List (Nat × HOp × HRet)) (q : HOp) (a : HRet) (w : Attempt) (ts : List Try) (l : List (Nat × HOp × HRet)) :
      mine i others = [] → reached ⟨asked others, w⟩ = true → Attempted i ts l →
      Attempted i (⟨asked others, w⟩ :: ts) (others ++ (i, q, a) :: l)
  | fails (w : Attempt) (ts : List Try) (l : List (Nat × HOp × HRet)) : reached ⟨[], w⟩ = false → Attempted i ts l →
      Attempted i (⟨[], w⟩ :: ts) l

/-- The operations that are not for process `i`. -/
def notMine {C R : Type} (i : Nat) (l : List (Nat × C × R)) : List (Nat × C × R) := l.filter fun x => x.1 ≠ i

/-- The exception of an attempt that fails. -/
def error? : Attempt → Option Exc
  | .refused _ e => some e
  | .lost e => some e
  | .noReply e => some e
  | .answered => none

/-- The calls of process `i` on its mirror, in order. -/
def mirrorAsks {R : Type} (i : Nat) (tr : List (Ev HTCall R)) : List HMCall :=
  (callsBy i tr).filterMap fun
    | .mirror c _ => some c
    | _ => none

/-- A call on a mirror or a question of a reader, with any attempts, or a message or a question that arrives too late. -/
def HTCall.Calm : HTCall → Prop
  | .late (.post b) => ∃ m : HMsg, b = .json m.post
  | .mirror _ _ => True
  | .reader (.read _) _ => True
  | .reader .len _ => True
  | .reader .maxlen _ => True
  | .reader .closed _ => True
  | .late (.get _) => True
  | .late (.stateGet _) => True
  | _ => False

/-- The messages among calls that are requests which arrive too late. -/
inductive Lates : List HTCall → List HMsg → Prop
  | nil : Lates [] []
  | msg (m : HMsg) (cs : List HTCall) (ms : List HMsg) : Lates cs ms → Lates (.late (.post (.json m.post)) :: cs) (m :: ms)
  | other (c : HTCall) (cs : List HTCall) (ms : List HMsg) : (∀ b, c ≠ .late (.post b)) → Lates cs ms → Lates (c :: cs) ms

/-- A mirror of process `i` has raised the exception of an attempt. -/
def GaveUp (i : Nat) (tr : List (Ev HTCall HSRet)) : Prop :=
  ∃ c ts w e, .mirror c ts ∈ callsBy i tr ∧ w ∈ ts ∧ error? w = some e ∧ .exc e ∈ mirrorRets i tr

/-- Calls that stop all mirrors (`true`) or let them go on (`false`), late requests included. -/
def HTCall.sets : HTCall → Option Bool
  | .stopAll => some true
  | .reader .stopAll _ => some true
  | .late (.statePost _) => some true
  | .reset => some false
  | .reader .resetStates _ => some false
  | .late .stateDelete => some false
  | _ => none

/-- A late request that sets the states is that of `stop_all_mirrors` (no other is made). -/
def HTCall.Usual (c : HTCall) : Prop := ∀ b, c = .late (.statePost b) → b = .json stopBody

end SyncStream.Spec
