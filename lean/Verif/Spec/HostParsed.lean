import Verif.Spec.ModeOverride
import Verif.Spec.NoneItems
import Verif.Spec.HostShared
/-!
# Specification of serving what a user's `parse_lines` stores
-/

namespace SyncStream.Spec

variable {U : Type}

/-- What is asked of the service: a post of a mirror, a GET request for records, or to delete them. -/
inductive WebAsk where
  | post (x : Posted)
  | get (n : Option PyStr)
  | delete

/-- The request. -/
def WebAsk.req : WebAsk → Req
  | .post x => .post (.json x.body)
  | .get n => .get n
  | .delete => .delete

/-- The parameter `n` of the request asks for `k` items; `int` converts it. -/
def AsksFor (int : PyStr → Option Int) (n : Option PyStr) (k : Option Int) : Prop :=
  (n = none ∧ k = none) ∨ ∃ s i, n = some s ∧ int s = some i ∧ k = some i

/-- A text or a message: not a value of the subclass. -/
def IsRecord : Item → Prop
  | .str _ => True
  | .msg _ => True
  | .raw _ => False

/-- The answer that shows items. -/
def answerShowing (is : List Item) : Resp :=
  ⟨200, some (.obj [(lit "message", .str (lit "success")), (lit "data", .arr (is.map shownJson))])⟩

/-- The answer to a request that fails. -/
def answerRefused : Resp := ⟨500, none⟩

/-- The answer to a request to delete the records. -/
def answerDeleted : Resp := ⟨200, some (.obj [(lit "message", .str (lit "success"))])⟩

/-- The log without its records; the attributes of the subclass stay. -/
def OvLog.cleared (l : OvLog U) : OvLog U := { l with part := [], store := { l.store with items := [] } }

/-- What each request does, and the answer. -/
inductive AskStep (par : List Item → Py (Deque Item × U) Unit) (int : PyStr → Option Int) :
    OvLog U → WebAsk → Resp → OvLog U → Prop
  | post (l : OvLog U) (x : Posted) (r : Resp) (l' : OvLog U) : PostStep par l x r.status l' → AskStep par int l (.post x) r l'
  | shows (l : OvLog U) (n : Option PyStr) (k : Option Int) (is : List Item) (l' : OvLog U) : AsksFor int n k →
      NoneStep par l (.read k) (.items is) l' → (∀ i ∈ is, IsRecord i) → AskStep par int l (.get n) (answerShowing is) l'
  /-- One value of the subclass among the items: none of them is shown. -/
  | foreign (l : OvLog U) (n : Option PyStr) (k : Option Int) (is : List Item) (j : Item) (l' : OvLog U) : AsksFor int n k →
      NoneStep par l (.read k) (.items is) l' → j ∈ is → ¬ IsRecord j → AskStep par int l (.get n) answerRefused l'
  | fails (l : OvLog U) (n : Option PyStr) (k : Option Int) (e : Exc) (l' : OvLog U) : AsksFor int n k →
      NoneStep par l (.read k) (.exc e) l' → AskStep par int l (.get n) answerRefused l'
  | noNumber (l : OvLog U) (s : PyStr) : int s = none → AskStep par int l (.get (some s)) answerRefused l
  | delete (l : OvLog U) : AskStep par int l .delete answerDeleted l.cleared

/-- What is documented: a GET request shows what `read` shows, and changes nothing. -/
inductive AskRight (par : List Item → Py (Deque Item × U) Unit) (int : PyStr → Option Int) :
    OvLog U → WebAsk → Resp → OvLog U → Prop
  | post (l : OvLog U) (x : Posted) (r : Resp) (l' : OvLog U) : PostStep par l x r.status l' → AskRight par int l (.post x) r l'
  | shows (l : OvLog U) (n : Option PyStr) (k : Option Int) (is : List Item) (l' : OvLog U) : AsksFor int n k →
      OvStep par l 0 (.read k) (.items is) l' → AskRight par int l (.get n) (answerShowing is) l'
  | noNumber (l : OvLog U) (s : PyStr) : int s = none → AskRight par int l (.get (some s)) answerRefused l
  | delete (l : OvLog U) : AskRight par int l .delete answerDeleted l.cleared

/-- One request after the other. -/
inductive AskSteps (R : OvLog U → WebAsk → Resp → OvLog U → Prop) : OvLog U → List WebAsk → List Resp → OvLog U → Prop
  | nil (l : OvLog U) : AskSteps R l [] [] l
  | cons (l l1 l2 : OvLog U) (x : WebAsk) (xs : List WebAsk) (r : Resp) (rs : List Resp) :
      R l x r l1 → AskSteps R l1 xs rs l2 → AskSteps R l (x :: xs) (r :: rs) l2

/-- Only texts and messages. -/
def OnlyRecords (is : List Item) : Prop := ∀ i ∈ is, IsRecord i

/-- The user's function stores texts and messages only, also if it raises. -/
def StoresRecords (par : List Item → Py (Deque Item × U) Unit) : Prop :=
  ∀ ls x, OnlyRecords ls → OnlyRecords x.1.items → OnlyRecords (par ls x).2.1.items

end SyncStream.Spec
