import Verif.Model.Proc
import Verif.Spec.Log
/-!
# Specification of the process mode: interleavings, and messages arriving at a log
-/

namespace SyncStream.Spec

/-- `Merge streams out`: `out` is an interleaving of the streams: again and again, the first entry
of some stream is taken, until all streams are empty. -/
inductive Merge {α : Type} : List (List α) → List α → Prop
  | done (streams : List (List α)) : (∀ s ∈ streams, s = []) → Merge streams []
  | take (streams : List (List α)) (i : Nat) (x : α) (rest out : List α) :
      streams[i]? = some (x :: rest) → Merge (streams.set i rest) out → Merge streams (x :: out)

/-- What one message does to the log of the main buffer: a text is written, an error or a warning is
one item; everything else does not concern the log. -/
inductive Arrives : Log → QMsg → Log → Prop
  | text (l : Log) (d : PyStr) (ls : List PyStr) (r : PyStr) : Lines (l.part ++ d) ls r →
      Arrives l (.str d) { l with done := l.done ++ ls.map .str, part := r }
  | error (l : Log) (m : GMsg) : Arrives l (.error m) { l with done := l.done ++ [.msg m] }
  | warning (l : Log) (m : GMsg) : Arrives l (.warning m) { l with done := l.done ++ [.msg m] }
  | close (l : Log) : Arrives l .close l
  | stop (l : Log) : Arrives l .stop l
  | other (l : Log) : Arrives l .other l

/-- Messages arriving one after the other. -/
inductive Replays : Log → List QMsg → Log → Prop
  | nil (l : Log) : Replays l [] l
  | cons (l l' l'' : Log) (m : QMsg) (ms : List QMsg) :
      Arrives l m l' → Replays l' ms l'' → Replays l (m :: ms) l''

/-- An end signal of a mirror: end of file, or an error. -/
def IsEnd : QMsg → Prop
  | .close => True
  | .error _ => True
  | _ => False

/-- An ordinary message: a text or a warning. -/
def IsBody : QMsg → Prop
  | .str _ => True
  | .warning _ => True
  | _ => False

/-- A proper stream of a mirror: ordinary messages and then exactly one end signal. -/
def ProperStream (s : List QMsg) : Prop :=
  ∃ body e, s = body ++ [e] ∧ (∀ m ∈ body, IsBody m) ∧ IsEnd e

end SyncStream.Spec
