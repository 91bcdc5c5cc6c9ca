import Verif.Model.Sending
/-!
# Specification: every holder of a mirror has its own

What programs that send mirrors to processes are meant to observe: `abs` forgets the objects and the
messages that carry them, so that in `ProcSys` everyone who took a mirror has one of its own.
-/

namespace SyncStream.Spec

/-- The same step if each reference were a mirror of its own. -/
def abs : SOp → List ProcOp
  | .take => [.take]
  | .send _ => []
  | .fork _ => []
  | .use t c => [.mirror t c]
  | .enter _ => []
  | .leave t exc => [.mirror t (.close exc)]
  | .receive => [.receive]
  | .stopAll => [.stopAll]
  | .forceStop => [.forceStop]
  | .reset => [.reset]
  | .buffer c => [.buffer c]

/-- The rules: a reference is sent (alone in its message) or forked before its mirror is used.  `n`
references have been taken before, and those in `sent` have been sent. -/
def Proper : Nat → List Nat → List SOp → Prop
  | _, _, [] => True
  | n, sent, .take :: os => Proper (n + 1) sent os
  | n, sent, .send ts :: os => ∃ t, ts = [t] ∧ t < n ∧ Proper n (t :: sent) os
  | n, sent, .fork t :: os => t < n ∧ Proper n (t :: sent) os
  | n, sent, .use t _ :: os => t ∈ sent ∧ Proper n sent os
  | n, sent, .enter t :: os => t ∈ sent ∧ Proper n sent os
  | n, sent, .leave t _ :: os => t ∈ sent ∧ Proper n sent os
  | n, sent, _ :: os => Proper n sent os

/-- Steps in which mirrors are used for output inside their contexts: the end signals come from leaving
the contexts only, and the main process neither forces a stop nor resets. -/
def Ordinary : SOp → Prop
  | .use _ .sendEof => False
  | .use _ (.sendError _) => False
  | .use _ (.close _) => False
  | .forceStop => False
  | .reset => False
  | _ => True

/-- Setting the configuration of a mirror is not a use of it. -/
def Setter : MCall → Prop
  | .setTimeout _ => True
  | .setAggressive _ => True
  | _ => False

/-- The holder of `t` uses its mirror, or enters or leaves its context. -/
def Uses (t : Nat) : SOp → Prop
  | .use t' c => t' = t ∧ ¬ Setter c
  | .enter t' => t' = t
  | .leave t' _ => t' = t
  | _ => False

/-- Steps in which no mirror is used and no context is entered or left. -/
def UnusedStep : SOp → Prop
  | .use _ c => Setter c
  | .enter _ => False
  | .leave _ _ => False
  | _ => True

/-- Steps that do not separate the references `i` and `j`: each message has both or neither. -/
def Together (i j : Nat) : SOp → Prop
  | .send ts => i ∈ ts ↔ j ∈ ts
  | .fork t => t ≠ i ∧ t ≠ j
  | _ => True

/-- The messages with references of a history. -/
def messages : List SOp → List (List Nat)
  | [] => []
  | .send ts :: os => ts :: messages os
  | _ :: os => messages os

/-- What happens while processes work: messages arrive, and processes use the mirrors that have arrived
(those in `sent` have arrived before). -/
def Working : List Nat → List SOp → Prop
  | _, [] => True
  | sent, .send ts :: os => Working (ts ++ sent) os
  | sent, .use t _ :: os => t ∈ sent ∧ Working sent os
  | sent, .enter t :: os => t ∈ sent ∧ Working sent os
  | sent, .leave t _ :: os => t ∈ sent ∧ Working sent os
  | _, _ :: _ => False

/-- The calls of mirrors in a history; leaving a context calls `close`. -/
def calls : List SOp → List (Nat × MCall)
  | [] => []
  | .use t c :: os => (t, c) :: calls os
  | .leave t exc :: os => (t, .close exc) :: calls os
  | _ :: os => calls os

end SyncStream.Spec
