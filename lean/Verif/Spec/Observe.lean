import Verif.Model.Conc
/-!
# Specification: calls in an observation
-/

namespace SyncStream.Spec

variable {C R : Type}

/-- The event is one of thread `i`. -/
def ofThread (i : Nat) : Ev C R → Prop
  | .inv j _ => j = i
  | .ret j _ => j = i

/-- In the observation `tr` thread `i` starts the call `c`, and later this call returns `r`. -/
def Returns (tr : List (Ev C R)) (i : Nat) (c : C) (r : R) : Prop :=
  ∃ a b d, tr = a ++ .inv i c :: b ++ .ret i r :: d ∧ ∀ e ∈ b, ¬ ofThread i e

/-- The calls that thread `t` has started, in order. -/
def callsBy (t : Nat) (tr : List (Ev C R)) : List C :=
  tr.filterMap fun
    | .inv i c => if i = t then some c else none
    | .ret _ _ => none

/-- `since j` lists what something was at the moments since the beginning of the call of thread `j`, the last moment first; this is the
list after an event, when it is `x`. -/
def watched {X : Type} (since : Nat → List X) (e : Option (Ev C R)) (x : X) (j : Nat) : List X :=
  match e with
  | some (.inv i _) => if j = i then [x] else x :: since j
  | _ => x :: since j

end SyncStream.Spec
