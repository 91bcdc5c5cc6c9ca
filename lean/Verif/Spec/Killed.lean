import Verif.Model.Kill
import Verif.Spec.Waiting
/-!
# Specification: those who are alive go on
-/

namespace SyncStream.Spec
open Conc

variable {σ L O C R : Type} [DecidableEq L]

/-- An execution in which no call starts and the dead do not move. -/
inductive LiveRun (sys : Sys σ L O C R) (dead : Nat → Prop) : Conf σ L O C R → Conf σ L O C R → Prop
  | stop (κ : Conf σ L O C R) : LiveRun sys dead κ κ
  | step (κ κ' κ'' : Conf σ L O C R) (e : Option (Ev C R)) : Step sys κ e κ' → (∀ d, dead d → κ'.cur d = κ.cur d) →
      (∀ i c, e ≠ some (.inv i c)) → LiveRun sys dead κ' κ'' → LiveRun sys dead κ κ''

/-- Everybody alive who is in a call can go on or waits, directly or indirectly, for somebody alive who can; the calls of those who are alive
can all be brought to their ends by themselves; and they do come to an end, in whatever order they go on, unless calls start again and
again. -/
def AliveGoOn (sys : Sys σ L O C R) (κ : Conf σ L O C R) (dead : Nat → Prop) : Prop :=
  (∀ i, ¬dead i → κ.cur i ≠ none → ∃ j, ¬dead j ∧ Chain sys κ i j ∧ CanGoOn sys κ j) ∧
  (∃ κ', LiveRun sys dead κ κ' ∧ ∀ i, ¬dead i → κ'.cur i = none) ∧
  ¬ ∃ f : Nat → Conf σ L O C R, f 0 = κ ∧
    ∀ n, ∃ e, Step sys (f n) e (f (n + 1)) ∧ (∀ d, dead d → (f (n + 1)).cur d = (f n).cur d) ∧ ∀ i c, e ≠ some (.inv i c)

/-- In `tr`, thread `i` calls `c`, and this call returns `r`. -/
def Answered (i : Nat) (c : C) (r : R) (tr : List (Ev C R)) : Prop :=
  ∃ tr₁ tr₂ tr₃, tr = tr₁ ++ .inv i c :: tr₂ ++ .ret i r :: tr₃ ∧ ∀ r', .ret i r' ∉ tr₂

end SyncStream.Spec
