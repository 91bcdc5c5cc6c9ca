import Verif.Model.Host
import Verif.Spec.Log
/-!
# Specification of the host service: what the messages of the mirrors do to a log

Different from the process mode (`Spec/Merge.lean`): an error, a warning and an end signal complete
the unfinished line first.
-/

namespace SyncStream.Spec

/-- What a mirror can send. -/
inductive HMsg where
  | text (d : PyStr)
  | error (m : GMsg)
  | warning (m : GMsg)
  | close

/-- The unfinished line becomes a completed one (if it is not empty). -/
def Log.finish (l : Log) : Log := { l with done := l.all, part := [] }

/-- What one message does to the log of the service. -/
inductive HArrives : Log → HMsg → Log → Prop
  | text (l : Log) (d : PyStr) (ls : List PyStr) (r : PyStr) : Lines (l.part ++ d) ls r →
      HArrives l (.text d) { l with done := l.done ++ ls.map .str, part := r }
  | error (l : Log) (m : GMsg) : HArrives l (.error m) { l with done := l.all ++ [.msg m], part := [] }
  | warning (l : Log) (m : GMsg) :
      HArrives l (.warning m) { l with done := l.all ++ [.msg m], part := [] }
  | close (l : Log) : HArrives l .close { l with done := l.all, part := [] }

/-- Messages arriving one after the other. -/
inductive HReplays : Log → List HMsg → Log → Prop
  | nil (l : Log) : HReplays l [] l
  | cons (l l' l'' : Log) (m : HMsg) (ms : List HMsg) :
      HArrives l m l' → HReplays l' ms l'' → HReplays l (m :: ms) l''

/-- No character is a surrogate (a text that can be encoded as UTF-8). -/
def NoSurrogate (s : PyStr) : Prop := ∀ c ∈ s, ¬ (0xD800 ≤ c ∧ c ≤ 0xDFFF)

instance (s : PyStr) : Decidable (NoSurrogate s) :=
  inferInstanceAs (Decidable (∀ c ∈ s, ¬ (0xD800 ≤ c ∧ c ≤ 0xDFFF)))

end SyncStream.Spec
