import Verif.Spec.Counting
import Verif.Spec.ProcSteps
/-!
# Specification: mirrors shared by threads, each closed by one of them
-/

namespace SyncStream.Spec

/-- How many of the mirrors of the processes `ps` are open. -/
def openMirrors (w : PWorld) : List Nat → Int
  | [] => 0
  | p :: ps => (if (w.procs p).mirror.buf.closed then 0 else 1) + openMirrors w ps

/-- `n_mirrors` is the number of the mirrors that are open, or closed with the end signal still waiting: every mirror that was
closed has sent one end signal, no more and no less. -/
def EachOnce (ps : List Nat) (w : PWorld) : Prop := w.main.nMirrors = openMirrors w ps + ends (waiting w)

/-- The mirrors send to the queue `q` of the main buffer, nobody has forced a stop, and the messages are messages of
mirrors. -/
structure Joined (q : Nat) (w : PWorld) : Prop where
  main : w.main.mirror.queue = q
  procs : ∀ p, (w.procs p).mirror.queue = q
  known : ∀ m ∈ w.net.queues q, m ≠ .stop ∧ m ≠ .other

/-- Who does what: thread `t p` of process `p` is the only one that closes the mirror of `p`, for `p` in `ps`; the other mirrors
are not closed.  Thread `r` is the only one that receives.  No thread sends an end signal of its own, hands out mirrors, forces a
stop or resets the states; anything else is done by everyone. -/
structure OneCloser (ps : List Nat) (t : Nat → Nat) (r : Nat) (proc : Nat → Nat) (ok : Nat → PCall → Prop) : Prop where
  nodup : ps.Nodup
  home : ∀ p ∈ ps, proc (t p) = p
  apart : ∀ p ∈ ps, t p ≠ r
  receives : ∀ i, ok i .receive → i = r
  closes : ∀ i e, ok i (.mirror (.close e)) → proc i ∈ ps ∧ i = t (proc i)
  others : ∀ i c, ok i c → match c with
    | .mirror .sendEof | .mirror (.sendError _) | .take _ | .forceStop | .reset => False
    | _ => True

/-- Some `close()` among these calls has returned without an exception. -/
def HasClosed (cs : List (PCall × PRet)) : Prop := ∃ e, (.mirror (.close e), .mirror .unit) ∈ cs

/-- Some `receive()` among these calls has returned `False`, which ends a `wait()`. -/
def HasEnded (cs : List (PCall × PRet)) : Prop := (.receive, .main (.bool false)) ∈ cs

end SyncStream.Spec
