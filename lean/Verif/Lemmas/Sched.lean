import Verif.Model.Conc
/-!
# Executions that can be computed

A list of moves determines an execution, if every move is possible.  Only threads with numbers below
`n` move; the locks `l` with `re l` are taken as reentrant.
-/

namespace SyncStream.Conc

/-- A thread starts a call, or makes a step in its call. -/
inductive Move (C : Type) where
  | start (i : Nat) (c : C)
  | go (i : Nat)

variable {σ L O C R : Type} [DecidableEq L]

/-- Thread `i` can take the lock `l`, as far as the threads below `n` are concerned. -/
def canTake (n : Nat) (κ : Conf σ L O C R) (i : Nat) (l : L) (w : Bool)
    (re : L → Bool := fun _ => false) : Bool :=
  ((κ.held i l).isEmpty || re l) &&
  (List.range n).all fun j => j == i || (!(κ.held j l).contains true && (!w || (κ.held j l).isEmpty))

/-- One move. -/
def move (sys : Sys σ L O C R) (n : Nat) (κ : Conf σ L O C R) (re : L → Bool := fun _ => false) :
    Move C → Option (Option (Ev C R) × Conf σ L O C R)
  | .start i c =>
    if i < n then
      match κ.cur i with
      | none => some (some (.inv i c), { κ with cur := upd κ.cur i (some (c, sys.call i (κ.obj i) c)) })
      | some _ => none
    else none
  | .go i =>
    if i < n then
      match κ.cur i with
      | none => none
      | some (c, .act f k) =>
        some (none, { κ with st := f κ.st, cur := upd κ.cur i (some (c, k κ.st)) })
      | some (c, .acq l w k) =>
        if canTake n κ i l w re then
          some (none, { κ with
                        held := upd κ.held i fun l' => if l' = l then w :: κ.held i l else κ.held i l'
                        cur := upd κ.cur i (some (c, k)) })
        else none
      | some (c, .rel l _ k) =>
        some (none, { κ with
                      held := upd κ.held i fun l' => if l' = l then (κ.held i l).tail else κ.held i l'
                      cur := upd κ.cur i (some (c, k)) })
      | some (_, .ret (r, o)) =>
        some (some (.ret i r), { κ with obj := upd κ.obj i o, cur := upd κ.cur i none })
      | some (_, .raise _) => none
    else none

/-- A list of moves. -/
def moves (sys : Sys σ L O C R) (n : Nat) (ms : List (Move C)) (κ : Conf σ L O C R)
    (re : L → Bool := fun _ => false) : Option (List (Ev C R) × Conf σ L O C R) :=
  match ms with
  | [] => some ([], κ)
  | m :: ms =>
    match move sys n κ re m with
    | none => none
    | some (e, κ') =>
      match moves sys n ms κ' re with
      | none => none
      | some (tr, κ'') => some (e.toList ++ tr, κ'')

/-- The threads from `n` on hold no locks. -/
def Free (n : Nat) (κ : Conf σ L O C R) : Prop := ∀ j l, n ≤ j → κ.held j l = []

theorem move_sound {sys : Sys σ L O C R} {n : Nat} {κ κ' : Conf σ L O C R} {m : Move C}
    {e : Option (Ev C R)} {re : L → Bool} (hm : ∀ i c, m = .start i c → sys.ok i c) (hf : Free n κ)
    (h : move sys n κ re m = some (e, κ')) (hre : ∀ l, re l = true → sys.reentrant l) : Step sys κ e κ' ∧ Free n κ' := by
  cases m with
  | start i c =>
    simp only [move] at h
    split at h
    · split at h
      · rename_i hc
        cases h
        exact ⟨.inv κ i c hc (hm i c rfl), hf⟩
      · cases h
    · cases h
  | go i =>
    simp only [move] at h
    split at h
    · rename_i hi
      split at h
      · cases h
      · rename_i c f k hc
        cases h
        exact ⟨.act κ i c f k hc, hf⟩
      · rename_i c l w k hc
        split at h
        · rename_i ht
          cases h
          refine ⟨.acq κ i c l w k hc ?_, fun j l' hj => ?_⟩
          · simp only [canTake, Bool.and_eq_true, List.isEmpty_iff, List.all_eq_true, List.mem_range,
              Bool.or_eq_true, beq_iff_eq, Bool.not_eq_true', List.contains_eq_mem,
              decide_eq_false_iff_not] at ht
            refine ⟨ht.1.imp id (hre l), fun j hj => ?_⟩
            by_cases hn : j < n
            · rcases ht.2 j hn with h1 | h1
              · exact absurd h1 hj
              · exact ⟨h1.1, fun hw => by
                  rcases h1.2 with h2 | h2
                  · rw [hw] at h2; cases h2
                  · exact h2⟩
            · rw [hf j l (by omega)]; simp
          · have : j ≠ i := by omega
            simp only [upd_other _ _ this]
            exact hf j l' hj
        · cases h
      · rename_i c l w k hc
        cases h
        refine ⟨.rel κ i c l w k hc, fun j l' hj => ?_⟩
        have : j ≠ i := by omega
        simp only [upd_other _ _ this]
        exact hf j l' hj
      · rename_i c r o hc
        cases h
        exact ⟨.ret κ i c r o hc, hf⟩
      · cases h
    · cases h

theorem exec_cons {sys : Sys σ L O C R} {κ κ' κ'' : Conf σ L O C R} {e : Option (Ev C R)}
    {tr : List (Ev C R)} (h1 : Step sys κ e κ') (h2 : Exec sys κ' tr κ'') :
    Exec sys κ (e.toList ++ tr) κ'' := by
  induction h2 with
  | nil => simpa using Exec.snoc _ _ _ _ _ (.nil κ) h1
  | snoc _ _ _ _ _ h3 ih => rw [← List.append_assoc]; exact .snoc _ _ _ _ _ ih h3

theorem moves_sound {sys : Sys σ L O C R} {n : Nat} {κ κ' : Conf σ L O C R} {ms : List (Move C)}
    {tr : List (Ev C R)} {re : L → Bool} (hm : ∀ m ∈ ms, ∀ i c, m = .start i c → sys.ok i c) (hf : Free n κ)
    (h : moves sys n ms κ re = some (tr, κ')) (hre : ∀ l, re l = true → sys.reentrant l := by nofun) : Exec sys κ tr κ' := by
  induction ms generalizing κ tr with
  | nil => cases h; exact .nil _
  | cons m ms ih =>
    simp only [moves] at h
    split at h
    · cases h
    · rename_i e κ1 h1
      split at h
      · cases h
      · rename_i tr' κ2 h2
        cases h
        obtain ⟨h3, h4⟩ := move_sound (hm m (List.mem_cons_self ..)) hf h1 hre
        exact exec_cons h3 (ih (fun m hm' => hm m (List.mem_cons_of_mem _ hm')) h4 h2)

/-- Two lists of moves, one after the other. -/
theorem moves_sound2 {sys : Sys σ L O C R} {n : Nat} {κ κ' κ'' : Conf σ L O C R} {ms ms' : List (Move C)}
    {tr tr' : List (Ev C R)} {re : L → Bool} (hm : ∀ i c, sys.ok i c) (hf : Free n κ)
    (h : moves sys n ms κ re = some (tr, κ')) (h' : moves sys n ms' κ' re = some (tr', κ''))
    (hre : ∀ l, re l = true → sys.reentrant l := by nofun) : Exec sys κ tr κ' ∧ Exec sys κ' tr' κ'' := by
  refine ⟨moves_sound (fun _ _ i c _ => hm i c) hf h hre, moves_sound (fun _ _ i c _ => hm i c) ?_ h' hre⟩
  clear h'
  induction ms generalizing κ tr with
  | nil => cases h; exact hf
  | cons m ms ih =>
    simp only [moves] at h
    split at h
    · cases h
    · rename_i e κ1 h1
      split at h
      · cases h
      · rename_i tr' κ2 h2
        cases h
        exact ih (move_sound (fun i c _ => hm i c) hf h1 hre).2 h2

theorem move_idle {sys : Sys σ L O C R} {n : Nat} {κ κ' : Conf σ L O C R} {m : Move C}
    {e : Option (Ev C R)} {re : L → Bool} (h : move sys n κ re m = some (e, κ')) {i : Nat} (hi : n ≤ i)
    (h0 : κ.cur i = none) : κ'.cur i = none := by
  have key : ∀ (j : Nat) (x : Option (C × Prog σ L (R × O))), j < n → upd κ.cur j x i = none :=
    fun j x hj => by rw [upd_other _ _ (by omega)]; exact h0
  unfold move at h
  repeat' split at h
  all_goals first
    | (cases h; done)
    | (cases h; exact key _ _ (by assumption))

/-- Threads from `n` on do not start calls. -/
theorem moves_idle {sys : Sys σ L O C R} {n : Nat} {κ κ' : Conf σ L O C R} {ms : List (Move C)}
    {tr : List (Ev C R)} {re : L → Bool} (h : moves sys n ms κ re = some (tr, κ')) {i : Nat} (hi : n ≤ i)
    (h0 : κ.cur i = none) : κ'.cur i = none := by
  induction ms generalizing κ tr with
  | nil => cases h; exact h0
  | cons m ms ih =>
    simp only [moves] at h
    split at h
    · cases h
    · rename_i e κ1 h1
      split at h
      · cases h
      · rename_i tr' κ2 h2
        cases h
        exact ih h2 (move_idle h1 hi h0)

end SyncStream.Conc
