import Verif.Model.Calls
import Verif.Spec.Lines
/-!
# Specification of a line buffer: a log of completed items and an unfinished line

The simplest object a user could have in mind: it remembers *everything* completed since the
last `clear()`; `view` is what `read()` shows.
-/

namespace SyncStream.Spec

/-- The abstract buffer. -/
structure Log where
  cap : Nat
  done : List Item := []
  part : PyStr := []
  closed : Bool := false

namespace Log

/-- Completed items followed by the unfinished line, if it is not empty. -/
def all (l : Log) : List Item := l.done ++ (if l.part = [] then [] else [.str l.part])

/-- What `read()` shows: the newest `cap` entries. -/
def view (l : Log) : List Item := lastN l.cap l.all

/-- The value that `write(d)` returns (not what its documentation says, see C08): 1 for a lone
line terminator, otherwise the length of what follows the last terminator of `d`. -/
def WriteRet (d : PyStr) (n : Nat) : Prop :=
  ∃ ls r, Lines d ls r ∧ n = if ls = [[]] ∧ r = [] then 1 else r.length

/-- What each call does to the abstract buffer and what it returns. -/
inductive Step : Log → Call → Ret → Log → Prop
  | write (l : Log) (d : PyStr) (ls : List PyStr) (r : PyStr) (n : Nat) :
      l.closed = false → Lines (l.part ++ d) ls r → WriteRet d n →
      Step l (.write d) (.nat n) { l with done := l.done ++ ls.map .str, part := r }
  | writeClosed (l : Log) (d : PyStr) : l.closed = true →
      Step l (.write d) (.exc .osError) l
  | newLine (l : Log) : l.closed = false → l.part ≠ [] →
      Step l .newLine .unit { l with done := l.done ++ [.str l.part], part := [] }
  | newLineEmpty (l : Log) : l.closed = false → l.part = [] →
      Step l .newLine .unit l
  | newLineClosed (l : Log) : l.closed = true → Step l .newLine (.exc .valueError) l
  | readAll (l : Log) : l.closed = false → Step l (.read none) (.items l.view) l
  | readSize (l : Log) (n : Int) : l.closed = false → 0 < n →
      Step l (.read (some n)) (.items (lastN n.toNat l.view)) l
  | readNonPos (l : Log) (n : Int) : l.closed = false → n ≤ 0 →
      Step l (.read (some n)) (.items []) l
  | readClosed (l : Log) (s : Option Int) : l.closed = true →
      Step l (.read s) (.exc .osError) l
  | len (l : Log) : Step l .len (.nat (min l.cap ((lastN l.cap l.done).length + 1))) l
  | maxlen (l : Log) : Step l .maxlen (.nat l.cap) l
  | clear (l : Log) : l.closed = false →
      Step l .clear .unit { l with done := [], part := [] }
  | clearClosed (l : Log) : l.closed = true → Step l .clear (.exc .valueError) l
  | flush (l : Log) : l.closed = false → Step l .flush .unit l
  | flushClosed (l : Log) : l.closed = true → Step l .flush (.exc .valueError) l
  | close (l : Log) : l.closed = false →
      Step l .close .unit { l with done := [], part := [], closed := true }
  | closeClosed (l : Log) : l.closed = true → Step l .close .unit l
  | closed (l : Log) : Step l .closed (.bool l.closed) l
  | readable (l : Log) : Step l .readable (.bool (!l.closed)) l
  | writable (l : Log) : Step l .writable (.bool (!l.closed)) l

/-- A history of calls. -/
inductive Steps : Log → List Call → List Ret → Log → Prop
  | nil (l : Log) : Steps l [] [] l
  | cons (l l' l'' : Log) (c : Call) (cs : List Call) (r : Ret) (rs : List Ret) :
      Step l c r l' → Steps l' cs rs l'' → Steps l (c :: cs) (r :: rs) l''

end Log
end SyncStream.Spec
