import Verif.Spec.ModeOverride
import Verif.Spec.NoneItems
/-!
# Specification of the process mode when `None` may be stored
-/

namespace SyncStream.Spec

variable {U : Type}

/-- What happens to the main buffer if the items may be `None`: as in C91, except that reading is as in C92. -/
inductive DidAny (par : List Item → Py (Deque Item × U) Unit) : OvLog U → Did → OvLog U → Prop
  | did (l : OvLog U) (x : Did) (l' : OvLog U) : (∀ n, x ≠ .called (.read n)) → DidStep par l x l' → DidAny par l x l'
  | read (l : OvLog U) (n : Option Int) (r : Ret) (l' : OvLog U) : NoneStep par l (.read n) r l' → DidAny par l (.called (.read n)) l'

/-- One after the other. -/
inductive DidsAny (par : List Item → Py (Deque Item × U) Unit) : OvLog U → List Did → OvLog U → Prop
  | nil (l : OvLog U) : DidsAny par l [] l
  | cons (l l1 l2 : OvLog U) (x : Did) (xs : List Did) : DidAny par l x l1 → DidsAny par l1 xs l2 → DidsAny par l (x :: xs) l2

end SyncStream.Spec
