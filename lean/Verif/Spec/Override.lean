import Verif.Model.Calls
import Verif.Spec.Log
import Verif.Py.Deque
/-!
# Specification of a line buffer with a user's `parse_lines`

An unfinished line, the storage and the attributes of the user.  A call that completes lines hands them
to the user's function, in one piece and once; nothing else calls it.
-/

namespace SyncStream.Spec

/-- The abstract buffer. -/
structure OvLog (U : Type) where
  part : PyStr := []
  store : Deque Item
  own : U

/-- What `read()` shows. -/
def OvLog.view {U : Type} (l : OvLog U) : List Item :=
  lastN l.store.maxlen (l.store.items ++ if l.part = [] then [] else [.str l.part])

/-- What each call does and returns, with the user's function `par` (which changes the storage and the
user's attributes, and may raise). -/
inductive OvStep {U : Type} (par : List Item → Py (Deque Item × U) Unit) :
    OvLog U → Nat → Call → Ret → OvLog U → Prop
  /-- No line is completed: the user's function is not called. -/
  | writePart (l : OvLog U) (i : Nat) (d r : PyStr) (n : Nat) :
      Lines (l.part ++ d) [] r → Log.WriteRet d n → OvStep par l i (.write d) (.nat n) { l with part := r }
  /-- The completed lines are handed over in one call. -/
  | write (l : OvLog U) (i : Nat) (d r : PyStr) (ls : List PyStr) (n : Nat) (st : Deque Item) (u : U) :
      Lines (l.part ++ d) ls r → ls ≠ [] → par (ls.map .str) (l.store, l.own) = (.ok (), (st, u)) →
      Log.WriteRet d n → OvStep par l i (.write d) (.nat n) { part := r, store := st, own := u }
  /-- The user's function raises: so does `write`, and the unfinished line is what it was. -/
  | writeRaise (l : OvLog U) (i : Nat) (d r : PyStr) (ls : List PyStr) (e : Exc) (st : Deque Item) (u : U) :
      Lines (l.part ++ d) ls r → ls ≠ [] → par (ls.map .str) (l.store, l.own) = (.error e, (st, u)) →
      OvStep par l i (.write d) (.exc e) { part := l.part, store := st, own := u }
  | newLineEmpty (l : OvLog U) (i : Nat) : l.part = [] → OvStep par l i .newLine .unit l
  | newLine (l : OvLog U) (i : Nat) (st : Deque Item) (u : U) :
      l.part ≠ [] → par [.str l.part] (l.store, l.own) = (.ok (), (st, u)) →
      OvStep par l i .newLine .unit { part := [], store := st, own := u }
  | newLineRaise (l : OvLog U) (i : Nat) (e : Exc) (st : Deque Item) (u : U) :
      l.part ≠ [] → par [.str l.part] (l.store, l.own) = (.error e, (st, u)) →
      OvStep par l i .newLine (.exc e) { part := l.part, store := st, own := u }
  | readAll (l : OvLog U) (i : Nat) : OvStep par l i (.read none) (.items l.view) l
  | readSize (l : OvLog U) (i : Nat) (n : Int) : 0 < n →
      OvStep par l i (.read (some n)) (.items (lastN n.toNat l.view)) l
  | readNonPos (l : OvLog U) (i : Nat) (n : Int) : n ≤ 0 → OvStep par l i (.read (some n)) (.items []) l
  | flush (l : OvLog U) (i : Nat) : OvStep par l i .flush .unit l
  | closed (l : OvLog U) (i : Nat) : OvStep par l i .closed (.bool false) l
  | readable (l : OvLog U) (i : Nat) : OvStep par l i .readable (.bool true) l
  | writable (l : OvLog U) (i : Nat) : OvStep par l i .writable (.bool true) l

/-- The storage is a deque: it has room for at least one item and is not overfull. -/
def IsDeque (d : Deque Item) : Prop := 1 ≤ d.maxlen ∧ d.items.length ≤ d.maxlen

/-- The user's function leaves a deque behind, also if it raises. -/
def KeepsDeque {U : Type} (par : List Item → Py (Deque Item × U) Unit) : Prop :=
  ∀ ls x, IsDeque x.1 → IsDeque (par ls x).2.1

/-- The lines that calls complete, one after the other, when the unfinished line is `part`: the calls that
raise complete none.  At the end the unfinished line is `rest`. -/
inductive Handed : PyStr → List (Call × Ret) → List PyStr → PyStr → Prop
  | nil (part : PyStr) : Handed part [] [] part
  | write (part d mid rest : PyStr) (n : Nat) (cs : List (Call × Ret)) (ls ls' : List PyStr) :
      Lines (part ++ d) ls mid → Handed mid cs ls' rest →
      Handed part ((.write d, .nat n) :: cs) (ls ++ ls') rest
  | newLine (part rest : PyStr) (cs : List (Call × Ret)) (ls : List PyStr) : part ≠ [] →
      Handed [] cs ls rest → Handed part ((.newLine, .unit) :: cs) (part :: ls) rest
  | newLineEmpty (rest : PyStr) (cs : List (Call × Ret)) (ls : List PyStr) :
      Handed [] cs ls rest → Handed [] ((.newLine, .unit) :: cs) ls rest
  | raised (part rest : PyStr) (c : Call) (e : Exc) (cs : List (Call × Ret)) (ls : List PyStr) :
      Handed part cs ls rest → Handed part ((c, .exc e) :: cs) ls rest
  | other (part rest : PyStr) (c : Call) (r : Ret) (cs : List (Call × Ret)) (ls : List PyStr) :
      (∀ d, c ≠ .write d) → c ≠ .newLine → Handed part cs ls rest → Handed part ((c, r) :: cs) ls rest

end SyncStream.Spec
