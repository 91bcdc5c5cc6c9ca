import Verif.Spec.HostSections
import Verif.Spec.HostWorld
/-!
# Specification: what the threads of all processes bring to the service
-/

namespace SyncStream.Spec

/-- The messages among operations of the service. -/
def opBodies (qs : List HOp) : List Json := qs.filterMap fun
  | .req (.post (.json j)) => some j
  | _ => none

/-- Has the thread learnt that the message has been posted? -/
def HPost.acked : HPost → Bool
  | .text _ a _ => a
  | .direct _ a _ => a

end SyncStream.Spec
