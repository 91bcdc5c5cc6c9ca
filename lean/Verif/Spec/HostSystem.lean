import Verif.Model.HostSystem
import Verif.Spec.Clients
import Verif.Spec.HostShared
import Verif.Spec.Merge
import Verif.Spec.ProcSteps
/-!
# Specification: the host mode as a whole

How the processes of the host mode look to one of them: what the service does for the others happens before some request of its own.
-/

namespace SyncStream.Spec

/-- The operations performed for process `i`, with the answers. -/
def mine {C R : Type} (i : Nat) (l : List (Nat × C × R)) : List (C × R) := l.filterMap fun x => if x.1 = i then some x.2 else none

/-- What the service is asked for, by whomever. -/
def asked {C R : Type} (l : List (Nat × C × R)) : List C := l.map (·.2.1)

/-- The operations that the service performs, as the fates of the requests of process `i`: before each of them the service performs some
operations for others; then it performs the request and answers it, or the answer is lost; or the request is lost. -/
inductive Woven (i : Nat) : List Fate → List (Nat × HOp × HRet) → Prop
  | nil : Woven i [] []
  | ok (others : List (Nat × HOp × HRet)) (q : HOp) (a : HRet) (fs : List Fate) (l : List (Nat × HOp × HRet)) :
      mine i others = [] → Woven i fs l → Woven i (⟨asked others, .ok⟩ :: fs) (others ++ (i, q, a) :: l)
  | noReply (others : List (Nat × HOp × HRet)) (q : HOp) (a : HRet) (e : Exc) (fs : List Fate) (l : List (Nat × HOp × HRet)) :
      mine i others = [] → Woven i fs l → Woven i (⟨asked others, .noReply e⟩ :: fs) (others ++ (i, q, a) :: l)
  | lost (e : Exc) (fs : List Fate) (l : List (Nat × HOp × HRet)) : Woven i fs l → Woven i (⟨[], .lost e⟩ :: fs) l

/-- A message after JSON has been encoded and decoded: surrogate pairs have been joined. -/
def HMsg.wire : HMsg → HMsg
  | .text d => .text (Json.wireStr d)
  | .error m => .error ⟨Json.wire m.type, Json.wireList m.data⟩
  | .warning m => .warning ⟨Json.wire m.type, Json.wireList m.data⟩
  | .close => .close

/-- The messages that requests of a mirror bring to the service. -/
inductive Posts : List Req → List HMsg → Prop
  | nil : Posts [] []
  | msg (m : HMsg) (rs : List Req) (ms : List HMsg) : Posts rs ms → Posts (.post (.json m.post) :: rs) (m :: ms)
  | check (rs : List Req) (ms : List HMsg) : Posts rs ms → Posts (.stateGet (some (lit "closed")) :: rs) ms

/-- The calls of process `i` on its mirror, in order. -/
def mirrorCalls {R : Type} (i : Nat) (tr : List (Ev HSCall R)) : List HMCall :=
  (callsBy i tr).filterMap fun
    | .mirror c _ => some c
    | _ => none

/-- What these calls have returned. -/
def mirrorRets {C : Type} (i : Nat) (tr : List (Ev C HSRet)) : List HMRet :=
  (retsBy i tr).filterMap fun
    | .mirror r => some r
    | _ => none

/-- A call on a mirror whose requests are all answered, or a question of a reader, answered or not. -/
def HSCall.Peaceful : HSCall → Prop
  | .mirror _ os => os = []
  | .reader (.read _) _ => True
  | .reader .len _ => True
  | .reader .maxlen _ => True
  | .reader .closed _ => True
  | _ => False

/-- Calls that stop all mirrors (`true`) or let them go on (`false`), by the owner of the buffer or by a reader. -/
def HSCall.sets : HSCall → Option Bool
  | .stopAll => some true
  | .reader .stopAll _ => some true
  | .reset => some false
  | .reader .resetStates _ => some false
  | _ => none

/-- All calls with `P` that begin in `u` have returned within its beginning `a`. -/
def Over {C R : Type} (P : C → Prop) (a u : List (Ev C R)) : Prop :=
  ∀ x k c y, u = x ++ .inv k c :: y → P c → ∃ y1 r y2, a = x ++ .inv k c :: y1 ++ .ret k r :: y2

end SyncStream.Spec
