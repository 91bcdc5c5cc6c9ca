import Verif.Lemmas.Clients
/-!
# Clients of a service that performs every operation in one step
-/

namespace SyncStream

open Spec Conc

namespace Conc
variable {σ L O C R C' R' : Type} [DecidableEq L]

/-- The service: operation `c` for client `i` is the step `act i c`. -/
def atomSys (act : Nat → C → σ → R × σ) : Sys σ L Unit C R where
  call i _ c := .act (fun s => (act i c s).2) fun s => .ret ((act i c s).1, ())
  ok _ _ := True
  reentrant _ := False

/-- Every execution of the clients is a history of calls and operations. -/
theorem atom_history {act : Nat → C → σ → R × σ} {cl : Nat → O → C' → Ask C R (R' × O)} {ok : Nat → C' → Prop} {s : σ} {obj : Nat → O}
    {tr : List (Ev C' R')} {κ : Conf σ L O C' R'} (hx : Exec (clients (atomSys act) cl ok) (init s obj) tr κ) :
    ∃ (h : List (HEvent C' R' C R)) (rest : Nat → Option (C' × Ask C R (R' × O))), seen h = tr ∧
      Serves (fun s i q a t => act i q s = (a, t)) s (opsOf h) κ.st ∧
      (∀ i, ClientRun (cl i) i (obj i) (own i h) (κ.obj i) (rest i)) ∧
      ∀ i, κ.cur i = (rest i).map fun x => (x.1, x.2.prog (atomSys act) i) := by
  generalize hκ : init s obj = κ0 at hx
  induction hx with
  | nil =>
    subst hκ
    exact ⟨[], fun _ => none, rfl, .nil _, fun _ => .nil _, fun _ => rfl⟩
  | snoc κ' κ'' tr e h1 h2 ih =>
    obtain ⟨h, rest, rfl, e2, e3, e4⟩ := ih
    cases h2 with
    | inv i c hc hok =>
      have hr : rest i = none := by
        have := e4 i
        rw [hc] at this
        cases hx : rest i with
        | none => rfl
        | some x => rw [hx] at this; cases this
      refine ⟨h ++ [.inv i c], upd rest i (some (c, cl i (κ'.obj i) c)), by rw [seen_append]; rfl, ?_, fun j => ?_, fun j => ?_⟩
      · rw [opsOf_append]
        simpa [opsOf] using e2
      · rw [own_append]
        by_cases hj : j = i
        · subst hj
          have h3 := e3 j
          rw [hr] at h3
          rw [upd_same, own_same (show (HEvent.inv j c : HEvent C' R' C R).who = j from rfl)]
          exact h3.inv c
        · rw [upd_other _ _ hj, own_other (fun h => hj (by cases h; rfl)), List.append_nil]
          exact e3 j
      · by_cases hj : j = i
        · subst hj
          simp only [upd_same]
          rfl
        · simp only [upd_other _ _ hj]
          exact e4 j
    | act i c f k hc =>
      have h5 := e4 i
      rw [hc] at h5
      cases hr : rest i with
      | none => rw [hr] at h5; cases h5
      | some x =>
        obtain ⟨c', q⟩ := x
        rw [hr] at h5
        cases q with
        | done a => cases h5
        | ask x kk =>
          cases h5
          refine ⟨h ++ [.op i x (act i x κ'.st).1], upd rest i (some (c', kk (act i x κ'.st).1)), by rw [seen_append]; simp [seen], ?_, fun j => ?_, fun j => ?_⟩
          · rw [opsOf_append]
            exact e2.append (.cons _ _ _ i x _ _ rfl (.nil _))
          · rw [own_append]
            by_cases hj : j = i
            · subst hj
              have h3 := e3 j
              rw [hr] at h3
              rw [upd_same, own_same (show (HEvent.op j x _ : HEvent C' R' C R).who = j from rfl)]
              exact h3.op _
            · rw [upd_other _ _ hj, own_other (fun h => hj (by cases h; rfl)), List.append_nil]
              exact e3 j
          · by_cases hj : j = i
            · subst hj
              simp only [upd_same]
              rfl
            · simp only [upd_other _ _ hj]
              exact e4 j
    | acq i c l w k hc =>
      have h5 := e4 i
      rw [hc] at h5
      cases hr : rest i with
      | none => rw [hr] at h5; cases h5
      | some x =>
        obtain ⟨c', q⟩ := x
        rw [hr] at h5
        cases q <;> cases h5
    | rel i c l w k hc =>
      have h5 := e4 i
      rw [hc] at h5
      cases hr : rest i with
      | none => rw [hr] at h5; cases h5
      | some x =>
        obtain ⟨c', q⟩ := x
        rw [hr] at h5
        cases q <;> cases h5
    | ret i c r o hc =>
      have h5 := e4 i
      rw [hc] at h5
      cases hr : rest i with
      | none => rw [hr] at h5; cases h5
      | some x =>
        obtain ⟨c', q⟩ := x
        rw [hr] at h5
        cases q with
        | ask x kk => cases h5
        | done a =>
          cases h5
          refine ⟨h ++ [.ret i r], upd rest i none, by rw [seen_append]; rfl, ?_, fun j => ?_, fun j => ?_⟩
          · rw [opsOf_append]
            simpa [opsOf] using e2
          · rw [own_append]
            by_cases hj : j = i
            · subst hj
              have h3 := e3 j
              rw [hr] at h3
              simp only [upd_same]
              rw [own_same (show (HEvent.ret j r : HEvent C' R' C R).who = j from rfl)]
              exact h3.ret
            · simp only [upd_other _ _ hj]
              rw [own_other (fun h => hj (by cases h; rfl)), List.append_nil]
              exact e3 j
          · by_cases hj : j = i
            · subst hj
              simp only [upd_same]
              rfl
            · simp only [upd_other _ _ hj]
              exact e4 j

end Conc
end SyncStream
