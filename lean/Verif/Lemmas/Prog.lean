import Verif.Model.Prog
/-!
# Uninterrupted execution and crashes of composed programs
-/

namespace SyncStream.Prog
variable {σ L α β : Type}

@[simp] theorem bind_eq (p : Prog σ L α) (g : α → Prog σ L β) : (p >>= g) = p.bind g := rfl
@[simp] theorem pure_eq (a : α) : (pure a : Prog σ L α) = ret a := rfl

theorem seq_bind (p : Prog σ L α) (g : α → Prog σ L β) (s : σ) :
    (p >>= g).seq s = (p.seq >>= fun a => (g a).seq) s := by
  simp only [bind_eq]
  induction p generalizing s with
  | ret a => rfl
  | raise e => rfl
  | act f k ih => exact ih s (f s)
  | acq l w k ih => exact ih s
  | rel l w k ih => exact ih s

theorem seq_bind_ok {p : Prog σ L α} {g : α → Prog σ L β} {s s' : σ} {a : α}
    (h : p.seq s = (.ok a, s')) : (p >>= g).seq s = (g a).seq s' := by
  rw [seq_bind, Py.bind_ok h]

theorem seq_bind_error {p : Prog σ L α} {g : α → Prog σ L β} {s s' : σ} {e : Exc}
    (h : p.seq s = (.error e, s')) : (p >>= g).seq s = (.error e, s') := by
  rw [seq_bind, Py.bind_error h]

@[simp] theorem seq_pure (a : α) (s : σ) : (pure a : Prog σ L α).seq s = (.ok a, s) := rfl

@[simp] theorem seq_ret (a : α) (s : σ) : (ret a : Prog σ L α).seq s = (.ok a, s) := rfl

@[simp] theorem seq_raise (e : Exc) (s : σ) : (raise e : Prog σ L α).seq s = (.error e, s) := rfl

@[simp] theorem seq_atom (m : Py σ α) (s : σ) : (atom m : Prog σ L α).seq s = m s := by
  simp only [atom, seq]
  cases h : m s with
  | mk r s' => cases r <;> rfl

@[simp] theorem seq_andRelease (l : L) (w : Bool) (p : Prog σ L α) (s : σ) :
    (p.andRelease l w).seq s = p.seq s := by
  induction p generalizing s with
  | ret a => rfl
  | raise e => rfl
  | act f k ih => exact ih s (f s)
  | acq l w k ih => exact ih s
  | rel l w k ih => exact ih s

@[simp] theorem seq_withLock (l : L) (w : Bool) (p : Prog σ L α) (s : σ) :
    (p.withLock l w).seq s = p.seq s := by
  simp [withLock, seq]

@[simp] theorem seq_outcome (p : Prog σ L α) (s : σ) :
    p.outcome.seq s = (.ok (p.seq s).1, (p.seq s).2) := by
  induction p generalizing s with
  | ret a => rfl
  | raise e => rfl
  | act f k ih => exact ih s (f s)
  | acq l w k ih => exact ih s
  | rel l w k ih => exact ih s

theorem ite_seq (c : Prop) [Decidable c] (p q : Prog σ L α) (s : σ) :
    (if c then p else q).seq s = if c then p.seq s else q.seq s := by
  split <;> rfl

/-! ## Crashes -/

theorem crash_bind {p : Prog σ L α} {g : α → Prog σ L β} {s s' : σ} (h : Crash (p >>= g) s s') :
    Crash p s s' ∨ ∃ a s1, p.seq s = (.ok a, s1) ∧ Crash (g a) s1 s' := by
  simp only [bind_eq] at h
  induction p generalizing s with
  | ret a => exact .inr ⟨a, s, rfl, h⟩
  | raise e => cases h; exact .inl (.now _ _)
  | act f k ih =>
    cases h with
    | now => exact .inl (.now _ _)
    | act _ _ _ _ h =>
      rcases ih s h with h | h
      · exact .inl (.act _ _ _ _ h)
      · exact .inr h
  | acq l w k ih =>
    cases h with
    | now => exact .inl (.now _ _)
    | acq _ _ _ _ _ h =>
      rcases ih h with h | h
      · exact .inl (.acq _ _ _ _ _ h)
      · exact .inr h
  | rel l w k ih =>
    cases h with
    | now => exact .inl (.now _ _)
    | rel _ _ _ _ _ h =>
      rcases ih h with h | h
      · exact .inl (.rel _ _ _ _ _ h)
      · exact .inr h

theorem crash_andRelease {p : Prog σ L α} {l : L} {w : Bool} {s s' : σ}
    (h : Crash (p.andRelease l w) s s') : Crash p s s' := by
  induction p generalizing s with
  | ret a =>
    cases h with
    | now => exact .now _ _
    | rel _ _ _ _ _ h => cases h; exact .now _ _
  | raise e =>
    cases h with
    | now => exact .now _ _
    | rel _ _ _ _ _ h => cases h; exact .now _ _
  | act f k ih =>
    cases h with
    | now => exact .now _ _
    | act _ _ _ _ h => exact .act _ _ _ _ (ih s h)
  | acq l w k ih =>
    cases h with
    | now => exact .now _ _
    | acq _ _ _ _ _ h => exact .acq _ _ _ _ _ (ih h)
  | rel l w k ih =>
    cases h with
    | now => exact .now _ _
    | rel _ _ _ _ _ h => exact .rel _ _ _ _ _ (ih h)

theorem crash_withLock {p : Prog σ L α} {l : L} {w : Bool} {s s' : σ}
    (h : Crash (p.withLock l w) s s') : Crash p s s' := by
  cases h with
  | now => exact .now _ _
  | acq _ _ _ _ _ h => exact crash_andRelease h

theorem crash_atom {m : Py σ α} {s s' : σ} (h : Crash (atom m : Prog σ L α) s s') :
    s' = s ∨ s' = (m s).2 := by
  cases h with
  | now => exact .inl rfl
  | act _ _ _ _ h =>
    right
    dsimp only at h
    split at h <;> · cases h; rfl

theorem crash_pure {a : α} {s s' : σ} (h : Crash (pure a : Prog σ L α) s s') : s' = s := by
  cases h; rfl

theorem crash_raise {e : Exc} {s s' : σ} (h : Crash (raise e : Prog σ L α) s s') : s' = s := by
  cases h; rfl

/-- The state after the whole program is one of the states a crash can leave. -/
theorem crash_end (p : Prog σ L α) (s : σ) : Crash p s (p.seq s).2 := by
  induction p generalizing s with
  | ret a => exact .now _ _
  | raise e => exact .now _ _
  | act f k ih => exact .act _ _ _ _ (ih s (f s))
  | acq l w k ih => exact .acq _ _ _ _ _ (ih s)
  | rel l w k ih => exact .rel _ _ _ _ _ (ih s)

theorem crash_end_of {p : Prog σ L α} {s s' : σ} {r : Except Exc α} (h : p.seq s = (r, s')) :
    Crash p s s' := by
  have := crash_end p s; rwa [h] at this

theorem crash_bind_left {p : Prog σ L α} {g : α → Prog σ L β} {s s' : σ} (h : Crash p s s') :
    Crash (p >>= g) s s' := by
  simp only [bind_eq]
  induction h with
  | now => exact .now _ _
  | act f k s s' _ ih => exact .act _ _ _ _ ih
  | acq l w k s s' _ ih => exact .acq _ _ _ _ _ ih
  | rel l w k s s' _ ih => exact .rel _ _ _ _ _ ih

theorem crash_bind_right {p : Prog σ L α} {g : α → Prog σ L β} {s s1 s' : σ} {a : α}
    (h : p.seq s = (.ok a, s1)) (h' : Crash (g a) s1 s') : Crash (p >>= g) s s' := by
  simp only [bind_eq]
  induction p generalizing s with
  | ret x => cases h; exact h'
  | raise e => cases h
  | act f k ih => exact .act _ _ _ _ (ih s h)
  | acq l w k ih => exact .acq _ _ _ _ _ (ih h)
  | rel l w k ih => exact .rel _ _ _ _ _ (ih h)

theorem crash_andRelease_of {p : Prog σ L α} {l : L} {w : Bool} {s s' : σ} (h : Crash p s s') :
    Crash (p.andRelease l w) s s' := by
  induction h with
  | now => exact .now _ _
  | act f k s s' _ ih => exact .act _ _ _ _ ih
  | acq l w k s s' _ ih => exact .acq _ _ _ _ _ ih
  | rel l w k s s' _ ih => exact .rel _ _ _ _ _ ih

theorem crash_withLock_of {p : Prog σ L α} {l : L} {w : Bool} {s s' : σ} (h : Crash p s s') :
    Crash (p.withLock l w) s s' := .acq _ _ _ _ _ (crash_andRelease_of h)

theorem crash_outcome {p : Prog σ L α} {s s' : σ} (h : Crash p.outcome s s') : Crash p s s' := by
  induction p generalizing s with
  | ret a => cases h; exact .now _ _
  | raise e => cases h; exact .now _ _
  | act f k ih =>
    cases h with
    | now => exact .now _ _
    | act _ _ _ _ h => exact .act _ _ _ _ (ih s h)
  | acq l w k ih =>
    cases h with
    | now => exact .now _ _
    | acq _ _ _ _ _ h => exact .acq _ _ _ _ _ (ih h)
  | rel l w k ih =>
    cases h with
    | now => exact .now _ _
    | rel _ _ _ _ _ h => exact .rel _ _ _ _ _ (ih h)

/-- A crash during a program followed by something that leaves the state alone. -/
theorem crash_bind_silent {p : Prog σ L α} {g : α → Prog σ L β}
    (hg : ∀ a s s', Crash (g a) s s' → s' = s) {s s' : σ} (h : Crash (p >>= g) s s') :
    Crash p s s' := by
  rcases crash_bind h with h | ⟨a, s1, h1, h2⟩
  · exact h
  · rw [hg _ _ _ h2]; exact crash_end_of h1

end SyncStream.Prog
