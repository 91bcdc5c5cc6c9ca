import Verif.Model.Death
import Verif.Lemmas.Sched
/-!
# Executions with deaths that can be computed
-/

namespace SyncStream.Conc
variable {σ L O C R : Type} [DecidableEq L]

/-- A move, or the death of a process. -/
inductive DMove (C : Type) where
  | mv (m : Move C)
  | die (i : Nat)

/-- A list of moves and deaths; `o i` is the object of a process that takes the place of number `i`. -/
def dmoves (sys : Sys σ L O C R) (n : Nat) (o : Nat → O) : List (DMove C) → Conf σ L O C R → Option (List (Ev C R) × Conf σ L O C R)
  | [], κ => some ([], κ)
  | .mv m :: ms, κ =>
    match move sys n κ (fun _ => false) m with
    | none => none
    | some (e, κ') =>
      match dmoves sys n o ms κ' with
      | none => none
      | some (tr, κ'') => some (e.toList ++ tr, κ'')
  | .die i :: ms, κ =>
    dmoves sys n o ms { κ with held := upd κ.held i fun _ => [], obj := upd κ.obj i (o i), cur := upd κ.cur i none }

theorem dexec_cons {sys : Sys σ L O C R} {Fresh : Nat → O → Prop} {κ κ' κ'' : Conf σ L O C R} {e : Option (Ev C R)}
    {tr : List (Ev C R)} (h1 : DStep sys Fresh κ e κ') (h2 : DExec sys Fresh κ' tr κ'') :
    DExec sys Fresh κ (e.toList ++ tr) κ'' := by
  induction h2 with
  | nil => simpa using DExec.snoc _ _ _ _ _ (.nil κ) h1
  | snoc _ _ _ _ _ h3 ih => rw [← List.append_assoc]; exact .snoc _ _ _ _ _ ih h3

theorem dmoves_sound {sys : Sys σ L O C R} {Fresh : Nat → O → Prop} {n : Nat} {o : Nat → O} (hm : ∀ i c, sys.ok i c)
    (ho : ∀ i, Fresh i (o i)) {κ κ' : Conf σ L O C R} {ms : List (DMove C)} {tr : List (Ev C R)} (hf : Free n κ)
    (h : dmoves sys n o ms κ = some (tr, κ')) : DExec sys Fresh κ tr κ' := by
  induction ms generalizing κ tr with
  | nil => cases h; exact .nil _
  | cons m ms ih =>
    cases m with
    | mv m =>
      simp only [dmoves] at h
      split at h
      · cases h
      · rename_i e κ1 h1
        split at h
        · cases h
        · rename_i tr' κ2 h2
          cases h
          obtain ⟨h3, h4⟩ := move_sound (fun i c _ => hm i c) hf h1 nofun
          exact dexec_cons (.step _ _ _ h3) (ih h4 h2)
    | die i =>
      refine dexec_cons (e := none) (.die κ i (o i) (ho i)) (ih (fun j l hj => ?_) h)
      by_cases e : j = i
      · subst e; dsimp only; rw [upd_same]
      · dsimp only; rw [upd_other _ _ e]; exact hf j l hj

end SyncStream.Conc
