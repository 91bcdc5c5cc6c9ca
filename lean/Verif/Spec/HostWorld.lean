import Verif.Model.HostSystem
import Verif.Spec.Clients
import Verif.Spec.HostSystem
/-!
# Specification: one process among all that use the host mode

What one process, whose threads share a mirror, sees of the whole.
-/

namespace SyncStream.Spec

/-- The calls on the mirror of process `p` among all calls; thread `i` belongs to process `proc i`. -/
def mirrorEvents (proc : Nat → Nat) (p : Nat) (tr : List (Ev HSCall HSRet)) : List (Ev HMCall HMRet) := tr.filterMap fun
  | .inv i (.mirror c _) => if proc i = p then some (.inv i c) else none
  | .ret i (.mirror r) => if proc i = p then some (.ret i r) else none
  | _ => none

/-- The operations of a history: those asked for by calls on the mirror of process `p`, and all others.  (`cur i`: thread `i` is in
such a call.) -/
structure Sorted where
  cur : Nat → Bool := fun _ => false
  own : List HOp := []
  others : List HOp := []

/-- The next event. -/
def Sorted.next (proc : Nat → Nat) (p : Nat) (x : Sorted) : HEvent HSCall HSRet HOp HRet → Sorted
  | .inv i (.mirror _ _) => { x with cur := upd x.cur i (proc i == p) }
  | .inv i _ => { x with cur := upd x.cur i false }
  | .op i q _ => if x.cur i then { x with own := x.own ++ [q] } else { x with others := x.others ++ [q] }
  | .ret i _ => { x with cur := upd x.cur i false }

/-- The operations of a history, sorted. -/
def sortOps (proc : Nat → Nat) (p : Nat) (h : List (HEvent HSCall HSRet HOp HRet)) : Sorted := h.foldl (Sorted.next proc p) {}

/-- What happened to the requests of the mirror of process `p` in the history `h`, as its threads see it.  `W`: for each request, in order,
what the service did for others since the last one and whether it or its answer was lost, with the operation if it was performed; `after`:
what the service has done for others since. -/
structure Fates (proc : Nat → Nat) (p : Nat) (h : List (HEvent HSCall HSRet HOp HRet)) (W : List (Fate × Option HOp)) (after : List HOp) : Prop where
  /-- these are all operations, in their order -/
  all : asked (opsOf h) = W.flatMap (fun x => x.1.before ++ x.2.toList) ++ after
  /-- those that calls on the mirror asked for -/
  own : (sortOps proc p h).own = W.filterMap (·.2)
  /-- and those that other calls asked for -/
  others : (sortOps proc p h).others = W.flatMap (·.1.before) ++ after
  /-- only lost requests are not performed -/
  lost : ∀ x ∈ W, x.2 = none ↔ ∃ e, x.1.outcome = .lost e
  /-- requests and answers are lost only as it comes with the calls -/
  from_ : ∀ x ∈ W, x.1.outcome = .ok ∨ ∃ i c os, proc i = p ∧ .inv i (.mirror c os) ∈ h ∧ x.1.outcome ∈ os

/-- The calls allowed to the threads of a process. -/
def okHere (proc : Nat → Nat) (ok : Nat → HSCall → Prop) (p : Nat) (i : Nat) (c : HMCall) : Prop := proc i = p ∧ ∃ os, ok i (.mirror c os)

end SyncStream.Spec
