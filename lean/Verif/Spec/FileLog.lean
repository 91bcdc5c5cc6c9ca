import Verif.Model.File
import Verif.Spec.Lines
/-!
# Specification of a file buffer: a log of completed texts and an unfinished line

Like `Spec/Log.lean`, with texts only, exceptions stored as texts, and the calls of
`LineFileBuffer`.  `done` is what is shared by all processes, `part` and `closed` are one
process's own.
-/

namespace SyncStream.Spec

/-- The abstract file buffer, as one process sees it. -/
structure FLog where
  cap : Nat
  done : List PyStr := []
  part : PyStr := []
  closed : Bool := false

namespace FLog

/-- Completed records followed by the unfinished line, if it is not empty. -/
def all (l : FLog) : List PyStr := l.done ++ (if l.part = [] then [] else [l.part])

/-- What `read()` shows: the newest `cap` entries. -/
def view (l : FLog) : List PyStr := lastN l.cap l.all

/-- The texts with a separator between any two. -/
def sepBy (sep : PyStr) : List PyStr → PyStr
  | [] => []
  | p :: ps => p ++ (ps.map (sep ++ ·)).flatten

/-- The text of an exception's record: its formatted traceback, every line terminator replaced by
`\n`, without the last one. -/
def ExcText (e : ExcObj) (t : PyStr) : Prop :=
  ∃ ls r, Lines e.formatted.flatten ls r ∧
    t = sepBy (lit "\n") (ls ++ if r = [] then [] else [r])

/-- The value that `write(d)` returns: 1 for a lone line terminator, otherwise the length of what
follows the last terminator of `d`. -/
def WriteRet (d : PyStr) (n : Nat) : Prop :=
  ∃ ls r, Lines d ls r ∧ n = if ls = [[]] ∧ r = [] then 1 else r.length

/-- The unfinished line becomes a record, if there is one. -/
def finish (l : FLog) : FLog :=
  if l.part = [] then l else { l with done := l.done ++ [l.part], part := [] }

/-- What each call does and returns. -/
inductive Step : FLog → FCall → Ret → FLog → Prop
  | write (l : FLog) (d : PyStr) (ls : List PyStr) (r : PyStr) (n : Nat) :
      l.closed = false → Lines (l.part ++ d) ls r → WriteRet d n →
      Step l (.write d) (.nat n) { l with done := l.done ++ ls, part := r }
  | writeClosed (l : FLog) (d : PyStr) : l.closed = true → Step l (.write d) (.exc .osError) l
  | newLine (l : FLog) : l.closed = false → Step l .newLine .unit l.finish
  | newLineClosed (l : FLog) : l.closed = true → Step l .newLine .unit l
  | readAll (l : FLog) : l.closed = false → Step l (.read none) (.items (l.view.map .str)) l
  | readSize (l : FLog) (n : Int) : l.closed = false → 0 < n →
      Step l (.read (some n)) (.items ((lastN n.toNat l.view).map .str)) l
  | readNonPos (l : FLog) (n : Int) : l.closed = false → n ≤ 0 →
      Step l (.read (some n)) (.items []) l
  | readClosed (l : FLog) (s : Option Int) : l.closed = true →
      Step l (.read s) (.exc .osError) l
  | len (l : FLog) : Step l .len (.nat l.view.length) l
  | maxlen (l : FLog) : Step l .maxlen (.nat l.cap) l
  | clear (l : FLog) : Step l .clear .unit { l with done := [], part := [] }
  | flush (l : FLog) : Step l .flush .unit l
  | sendExc (l : FLog) (e : ExcObj) (t : PyStr) : l.closed = false → ExcText e t →
      Step l (.sendExc e) .unit { l with done := l.done ++ [t] }
  | sendExcClosed (l : FLog) (e : ExcObj) : l.closed = true → Step l (.sendExc e) .unit l
  | close (l : FLog) : l.closed = false →
      Step l (.close none) .unit { l.finish with closed := true }
  | closeExc (l : FLog) (e : ExcObj) (t : PyStr) : l.closed = false → ExcText e t →
      Step l (.close (some e)) .unit { l with done := l.done ++ [t], closed := true }
  | closeClosed (l : FLog) (x : Option ExcObj) : l.closed = true → Step l (.close x) .unit l
  | exit (l : FLog) : l.closed = false → Step l (.exit none) .unit l.finish
  | exitExc (l : FLog) (e : ExcObj) (t : PyStr) : l.closed = false → ExcText e t →
      Step l (.exit (some e)) .unit { l with done := l.done ++ [t] }
  | exitClosed (l : FLog) (x : Option ExcObj) : l.closed = true → Step l (.exit x) .unit l
  | closed (l : FLog) : Step l .closed (.bool l.closed) l
  | readable (l : FLog) : Step l .readable (.bool (!l.closed)) l
  | writable (l : FLog) : Step l .writable (.bool (!l.closed)) l

/-- A history of calls. -/
inductive Steps : FLog → List FCall → List Ret → FLog → Prop
  | nil (l : FLog) : Steps l [] [] l
  | cons (l l' l'' : FLog) (c : FCall) (cs : List FCall) (r : Ret) (rs : List Ret) :
      Step l c r l' → Steps l' cs rs l'' → Steps l (c :: cs) (r :: rs) l''

end FLog
end SyncStream.Spec
