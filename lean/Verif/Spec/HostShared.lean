import Verif.Spec.HostLog
import Verif.Model.HostThreads
/-!
# Specification of a host service used by many clients at a time

A log and a flag; every request takes effect at once.
-/

namespace SyncStream.Spec

/-- The service as its users see it: the log, and whether the mirrors are told to stop. -/
structure HShared where
  log : Log
  stopped : Bool := false

/-- The body of the POST request for a message. -/
def HMsg.post : HMsg → Json
  | .text d => .obj [(lit "type", .str (lit "str")), (lit "data", .obj [(lit "value", .str d)])]
  | .error m => .obj [(lit "type", .str (lit "error")), (lit "data", m.serialize)]
  | .warning m => .obj [(lit "type", .str (lit "warning")), (lit "data", m.serialize)]
  | .close => .obj [(lit "type", .str (lit "close"))]

/-- An item as it is sent to a reader. -/
def shownJson : Item → Json
  | .str s => .str s
  | .msg m => m.serialize
  | .raw j => j

/-- `{"message": "success"}` with the given status. -/
def done (status : Nat) : HRet := .resp ⟨status, some (.obj [(lit "message", .str (lit "success"))])⟩

/-- `{"message": "success", "data": data}` with status 200. -/
def found (data : Json) : HRet :=
  .resp ⟨200, some (.obj [(lit "message", .str (lit "success")), (lit "data", data)])⟩

/-- The body of the POST request with which a reader stops the mirrors. -/
def stopBody : Json := .obj [(lit "state", .str (lit "closed")), (lit "value", .str (lit "true"))]

/-- The operations in one moment.  `int` converts the parameter `n` of a GET request. -/
inductive HShared.Step (int : PyStr → Option Int) : HShared → Nat → HOp → HRet → HShared → Prop
  | msg (s : HShared) (i : Nat) (m : HMsg) (l : Log) : HArrives s.log m l →
      Step int s i (.req (.post (.json (HMsg.post m)))) (done 201) { s with log := l }
  | readAll (s : HShared) (i : Nat) :
      Step int s i (.req (.get none)) (found (.arr (s.log.view.map shownJson))) s
  | readSize (s : HShared) (i : Nat) (n : PyStr) (k : Int) : int n = some k → 0 < k →
      Step int s i (.req (.get (some n))) (found (.arr ((lastN k.toNat s.log.view).map shownJson))) s
  | readNonPos (s : HShared) (i : Nat) (n : PyStr) (k : Int) : int n = some k → k ≤ 0 →
      Step int s i (.req (.get (some n))) (found (.arr [])) s
  | readBad (s : HShared) (i : Nat) (n : PyStr) : int n = none →
      Step int s i (.req (.get (some n))) (.resp ⟨500, none⟩) s
  | clear (s : HShared) (i : Nat) :
      Step int s i (.req .delete) (done 200) { s with log := { s.log with done := [], part := [] } }
  | curlen (s : HShared) (i : Nat) :
      Step int s i (.req (.stateGet (some (lit "curlen"))))
        (found (.int (min s.log.cap ((lastN s.log.cap s.log.done).length + 1) : Nat))) s
  | closed (s : HShared) (i : Nat) :
      Step int s i (.req (.stateGet (some (lit "closed")))) (found (.bool s.stopped)) s
  | stop (s : HShared) (i : Nat) : Step int s i .stopAll (.local .unit) { s with stopped := true }
  | reset (s : HShared) (i : Nat) : Step int s i .reset (.local .unit) { s with stopped := false }
  | stopPost (s : HShared) (i : Nat) :
      Step int s i (.req (.statePost (.json stopBody))) (done 201) { s with stopped := true }
  | stateDelete (s : HShared) (i : Nat) :
      Step int s i (.req .stateDelete) (done 200) { s with stopped := false }

/-- The operations meant above. -/
def HShared.Meant : HOp → Prop
  | .req (.post b) => ∃ m : HMsg, b = .json (HMsg.post m)
  | .req (.stateGet n) => n = some (lit "curlen") ∨ n = some (lit "closed")
  | .req (.statePost b) => b = .json stopBody
  | .buffer _ => False
  | _ => True

end SyncStream.Spec
