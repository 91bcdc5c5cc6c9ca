import Verif.Model.Conc
/-!
# A call that is made while nobody else is doing anything
-/

namespace SyncStream.Conc
variable {σ L O C R : Type} [DecidableEq L] {sys : Sys σ L O C R}

/-- The call of a thread, made and finished while no other call is running, does what its program does uninterrupted. -/
theorem exec_alone {κ κ' : Conf σ L O C R} {j : Nat} {c : C} {r : R} (h0 : ∀ i, κ.cur i = none)
    (hx : Exec sys κ [.inv j c, .ret j r] κ') : ∃ o, (sys.call j (κ.obj j) c).seq κ.st = (.ok (r, o), κ'.st) := by
  have key : ∀ {tr : List (Ev C R)}, Exec sys κ tr κ' → tr <+: [.inv j c, .ret j r] →
      (tr = [] ∧ (∀ i, κ'.cur i = none) ∧ κ'.st = κ.st ∧ κ'.obj = κ.obj) ∨
      (tr = [.inv j c] ∧ (∀ i, i ≠ j → κ'.cur i = none) ∧ ∃ p, κ'.cur j = some (c, p) ∧
        p.seq κ'.st = (sys.call j (κ.obj j) c).seq κ.st) ∨
      (tr = [.inv j c, .ret j r] ∧ (∀ i, κ'.cur i = none) ∧ ∃ o, (sys.call j (κ.obj j) c).seq κ.st = (.ok (r, o), κ'.st)) := by
    clear hx
    intro tr hx
    induction hx with
    | nil => exact fun _ => .inl ⟨rfl, h0, rfl, rfl⟩
    | snoc κ1 κ2 tr e hx st ih =>
      intro hp
      rcases ih ((List.prefix_append ..).trans hp) with ⟨h1, h2, h3, h4⟩ | ⟨h1, h2, p, h3, h4⟩ | ⟨h1, h2, h3⟩
      · subst h1
        cases st with
        | inv i c' hc hok =>
          obtain ⟨t, ht⟩ := hp
          cases ht
          refine .inr (.inl ⟨rfl, fun i hi => ?_, _, upd_same .., ?_⟩)
          · dsimp only; rw [upd_other _ _ hi]; exact h2 i
          · dsimp only; rw [h3, h4]
        | act i c' f k hc => rw [h2 i] at hc; cases hc
        | acq i c' l w k hc => rw [h2 i] at hc; cases hc
        | rel i c' l w k hc => rw [h2 i] at hc; cases hc
        | ret i c' r' o hc => rw [h2 i] at hc; cases hc
      · subst h1
        have hj : ∀ {i q}, κ1.cur i = some q → i = j := fun {i q} hc => by
          by_cases hi : i = j
          · exact hi
          · rw [h2 i hi] at hc; cases hc
        cases st with
        | inv i c' hc hok =>
          obtain ⟨t, ht⟩ := hp
          cases ht
        | act i c' f k hc =>
          cases hj hc
          rw [h3] at hc
          cases hc
          exact .inr (.inl ⟨rfl, fun i hi => by dsimp only; rw [upd_other _ _ hi]; exact h2 i hi, _, upd_same .., h4⟩)
        | acq i c' l w k hc =>
          cases hj hc
          rw [h3] at hc
          cases hc
          exact .inr (.inl ⟨rfl, fun i hi => by dsimp only; rw [upd_other _ _ hi]; exact h2 i hi, _, upd_same .., h4⟩)
        | rel i c' l w k hc =>
          cases hj hc
          rw [h3] at hc
          cases hc
          exact .inr (.inl ⟨rfl, fun i hi => by dsimp only; rw [upd_other _ _ hi]; exact h2 i hi, _, upd_same .., h4⟩)
        | ret i c' r' o hc =>
          cases hj hc
          rw [h3] at hc
          cases hc
          obtain ⟨t, ht⟩ := hp
          cases ht
          refine .inr (.inr ⟨rfl, fun i => ?_, o, h4.symm⟩)
          dsimp only
          by_cases hi : i = j
          · subst hi; exact upd_same ..
          · rw [upd_other _ _ hi]; exact h2 i hi
      · subst h1
        cases st with
        | inv i c' hc hok =>
          obtain ⟨t, ht⟩ := hp
          cases ht
        | act i c' f k hc => rw [h2 i] at hc; cases hc
        | acq i c' l w k hc => rw [h2 i] at hc; cases hc
        | rel i c' l w k hc => rw [h2 i] at hc; cases hc
        | ret i c' r' o hc => rw [h2 i] at hc; cases hc
  rcases key hx (List.prefix_refl _) with ⟨h, _⟩ | ⟨h, _⟩ | ⟨_, _, h⟩
  · cases h
  · cases h
  · exact h

end SyncStream.Conc
