import Verif.Spec.ProcSteps
/-!
# Calls and results in an observation
-/

namespace SyncStream
open Spec

variable {C R : Type}

theorem callsBy_snoc_inv (i j : Nat) (c : C) (tr : List (Ev C R)) :
    callsBy i (tr ++ [.inv j c]) = callsBy i tr ++ if j = i then [c] else [] := by
  unfold callsBy
  rw [List.filterMap_append]
  congr 1
  by_cases h : j = i <;> simp [h]

theorem callsBy_snoc_ret (i j : Nat) (r : R) (tr : List (Ev C R)) : callsBy i (tr ++ [.ret j r]) = callsBy i tr := by
  unfold callsBy
  rw [List.filterMap_append]
  simp

theorem retsBy_snoc_ret (i j : Nat) (r : R) (tr : List (Ev C R)) :
    retsBy i (tr ++ [.ret j r]) = retsBy i tr ++ if j = i then [r] else [] := by
  unfold retsBy
  rw [List.filterMap_append]
  congr 1
  by_cases h : j = i <;> simp [h]

theorem retsBy_snoc_inv (i j : Nat) (c : C) (tr : List (Ev C R)) : retsBy i (tr ++ [.inv j c]) = retsBy i tr := by
  unfold retsBy
  rw [List.filterMap_append]
  simp

theorem mem_of_retsBy {i : Nat} {r : R} {tr : List (Ev C R)} (h : r ∈ retsBy i tr) : Ev.ret i r ∈ tr := by
  obtain ⟨e, he, h⟩ := List.mem_filterMap.1 h
  cases e with
  | inv j c => cases h
  | ret j r' =>
    dsimp only at h
    by_cases hj : j = i
    · subst hj
      rw [if_pos rfl] at h
      cases h
      exact he
    · rw [if_neg hj] at h
      cases h

end SyncStream
