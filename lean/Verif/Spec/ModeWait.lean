import Verif.Spec.Override
import Verif.Model.Proc
/-!
# Specification of waiting for the mirrors with a user's `parse_lines`
-/

namespace SyncStream.Spec

/-- The log with an item stored after the others. -/
def OvLog.storing {U : Type} (l : OvLog U) (i : Item) : OvLog U := { l with store := l.store.append i }

/-- `Waits par l k ms r l' k' ms'`: the main buffer is `l`, `k` mirrors have not ended, and the messages `ms` are all that arrive.  Then
`wait` ends with `r`; the main buffer is `l'` then, `k'` mirrors are left, and the messages `ms'` have not been received. -/
inductive Waits {U : Type} (par : List Item → Py (Deque Item × U) Unit) :
    OvLog U → Int → List QMsg → Except Exc Unit → OvLog U → Int → List QMsg → Prop
  /-- Nothing has ended it yet. -/
  | more (l : OvLog U) (k : Int) : Waits par l k [] (.error .blocked) l k []
  | text (l l1 l' : OvLog U) (k k' : Int) (d : PyStr) (n : Nat) (ms ms' : List QMsg) (r : Except Exc Unit) :
      OvStep par l 0 (.write d) (.nat n) l1 → Waits par l1 k ms r l' k' ms' → Waits par l k (.str d :: ms) r l' k' ms'
  /-- The user's function raises: so does `wait`, and the messages after the text stay in the queue. -/
  | raised (l l' : OvLog U) (k : Int) (d : PyStr) (e : Exc) (ms : List QMsg) :
      OvStep par l 0 (.write d) (.exc e) l' → Waits par l k (.str d :: ms) (.error e) l' k ms
  | warning (l l' : OvLog U) (k k' : Int) (m : GMsg) (ms ms' : List QMsg) (r : Except Exc Unit) :
      Waits par (l.storing (.msg m)) k ms r l' k' ms' → Waits par l k (.warning m :: ms) r l' k' ms'
  /-- An error ends its mirror; `wait` goes on if there are others. -/
  | error (l l' : OvLog U) (k k' : Int) (m : GMsg) (ms ms' : List QMsg) (r : Except Exc Unit) : 1 < k →
      Waits par (l.storing (.msg m)) (k - 1) ms r l' k' ms' → Waits par l k (.error m :: ms) r l' k' ms'
  | lastError (l : OvLog U) (k : Int) (m : GMsg) (ms : List QMsg) : k ≤ 1 →
      Waits par l k (.error m :: ms) (.ok ()) (l.storing (.msg m)) (k - 1) ms
  | close (l l' : OvLog U) (k k' : Int) (ms ms' : List QMsg) (r : Except Exc Unit) : 1 < k →
      Waits par l (k - 1) ms r l' k' ms' → Waits par l k (.close :: ms) r l' k' ms'
  | lastClose (l : OvLog U) (k : Int) (ms : List QMsg) : k ≤ 1 → Waits par l k (.close :: ms) (.ok ()) l (k - 1) ms
  | stop (l : OvLog U) (k : Int) (ms : List QMsg) : Waits par l k (.stop :: ms) (.ok ()) l 0 ms
  | other (l : OvLog U) (k : Int) (ms : List QMsg) : Waits par l k (.other :: ms) (.ok ()) l k ms

end SyncStream.Spec
