import Verif.Spec.Override
/-!
# Specification of reading a buffer that stores `None`

The reading that is documented is that of `OvStep`.  `NoneStep` says what the calls do where this is not so.
-/

namespace SyncStream.Spec

variable {U : Type}

/-- A line is unfinished, the storage is full, and its oldest item is `None`; the others are `a`. -/
def Blocked (l : OvLog U) (a : List Item) : Prop :=
  l.part ≠ [] ∧ l.store.items = .raw .null :: a ∧ l.store.items.length = l.store.maxlen

/-- The log with the items `a` in its storage. -/
def OvLog.holding (l : OvLog U) (a : List Item) : OvLog U := { l with store := { l.store with items := a } }

/-- What each call does and returns if the items may be `None`. -/
inductive NoneStep (par : List Item → Py (Deque Item × U) Unit) : OvLog U → Call → Ret → OvLog U → Prop
  /-- As documented. -/
  | right (l : OvLog U) (c : Call) (r : Ret) (l' : OvLog U) :
      (∀ n a, c = .read (some n) → 0 < n → ¬ Blocked l a) → OvStep par l 0 c r l' → NoneStep par l c r l'
  /-- What is shown is right, but the `None` is lost. -/
  | lost (l : OvLog U) (n : Int) (a : List Item) : Blocked l a → 0 < n → n ≤ l.store.maxlen →
      NoneStep par l (.read (some n)) (.items (lastN n.toNat l.view)) (l.holding a)
  /-- The newest item is shown a second time, in the place of the `None`, and the `None` is lost. -/
  | again (l : OvLog U) (n : Int) (a : List Item) (x : Item) : Blocked l (a ++ [x]) → l.store.maxlen < n →
      NoneStep par l (.read (some n)) (.items (x :: (a ++ [x, .str l.part]))) (l.holding (a ++ [x]))
  /-- The `None` is all that is stored: the reading fails, and the `None` is lost. -/
  | fails (l : OvLog U) (n : Int) : Blocked l [] → l.store.maxlen < n →
      NoneStep par l (.read (some n)) (.exc .indexError) (l.holding [])

/-- One call after the other. -/
inductive NoneSteps (par : List Item → Py (Deque Item × U) Unit) :
    OvLog U → List Call → List Ret → OvLog U → Prop
  | nil (l : OvLog U) : NoneSteps par l [] [] l
  | cons (l m l' : OvLog U) (c : Call) (r : Ret) (cs : List Call) (rs : List Ret) :
      NoneStep par l c r m → NoneSteps par m cs rs l' → NoneSteps par l (c :: cs) (r :: rs) l'

/-- One call after the other, each as documented. -/
inductive OvSteps (par : List Item → Py (Deque Item × U) Unit) :
    OvLog U → List Call → List Ret → OvLog U → Prop
  | nil (l : OvLog U) : OvSteps par l [] [] l
  | cons (l m l' : OvLog U) (c : Call) (r : Ret) (cs : List Call) (rs : List Ret) :
      OvStep par l 0 c r m → OvSteps par m cs rs l' → OvSteps par l (c :: cs) (r :: rs) l'

/-- No item is `None`. -/
def NoNone (d : Deque Item) : Prop := Item.raw .null ∉ d.items

/-- The user's function never stores a `None`, also if it raises. -/
def StoresNoNone (par : List Item → Py (Deque Item × U) Unit) : Prop :=
  ∀ ls x, Item.raw .null ∉ ls → NoNone x.1 → NoNone (par ls x).2.1

end SyncStream.Spec
