import Verif.Lemmas.Rely
/-!
# A part of the state with an owner

Either one thread is the only one that changes the part (`Owns`), or it is changed by whoever holds a lock (`Keeps`).
-/

namespace SyncStream

namespace Prog
variable {σ L V α β : Type}

/-- The part `v` is changed by this program only; it is `x` now.  The program ends with a result and a part for which
`Q` holds. -/
def Owns (v : σ → V) (Q : Except Exc α → V → Prop) : Prog σ L α → V → Prop
  | ret a, x => Q (.ok a) x
  | raise e, x => Q (.error e) x
  | act f k, x => ∀ s, v s = x → (k s).Owns v Q (v (f s))
  | acq _ _ k, x => k.Owns v Q x
  | rel _ _ k, x => k.Owns v Q x

variable {v : σ → V}

theorem Owns.mono {Q Q' : Except Exc α → V → Prop} {p : Prog σ L α} {x : V} (h : p.Owns v Q x)
    (hQ : ∀ r y, Q r y → Q' r y) : p.Owns v Q' x := by
  induction p generalizing x with
  | ret a => exact hQ _ _ h
  | raise e => exact hQ _ _ h
  | act f k ih => exact fun s hs => ih s (h s hs)
  | acq l w k ih => exact ih h
  | rel l w k ih => exact ih h

theorem Owns.bind {Q : Except Exc β → V → Prop} {p : Prog σ L α} {g : α → Prog σ L β} {x : V}
    (h : p.Owns v (fun r y => match r with
      | .ok a => (g a).Owns v Q y
      | .error e => Q (.error e) y) x) : (p >>= g).Owns v Q x := by
  change (p.bind g).Owns v Q x
  induction p generalizing x with
  | ret a => exact h
  | raise e => exact h
  | act f k ih => exact fun s hs => ih s (h s hs)
  | acq l w k ih => exact ih h
  | rel l w k ih => exact ih h

theorem Owns.atom {Q : Except Exc α → V → Prop} {m : Py σ α} {x : V}
    (h : ∀ s, v s = x → Q (m s).1 (v (m s).2)) : (atom m : Prog σ L α).Owns v Q x := by
  intro s hs
  have := h s hs
  show Owns v Q (match (m s).1 with
    | .ok a => ret a
    | .error e => raise e) _
  revert this
  cases (m s).1 <;> exact id

theorem Owns.andRelease {Q : Except Exc α → V → Prop} {p : Prog σ L α} {l : L} {w : Bool} {x : V}
    (h : p.Owns v Q x) : (p.andRelease l w).Owns v Q x := by
  induction p generalizing x with
  | ret a => exact h
  | raise e => exact h
  | act f k ih => exact fun s hs => ih s (h s hs)
  | acq l w k ih => exact ih h
  | rel l w k ih => exact ih h

theorem Owns.withLock {Q : Except Exc α → V → Prop} {p : Prog σ L α} {l : L} {w : Bool} {x : V}
    (h : p.Owns v Q x) : (withLock l w p).Owns v Q x := h.andRelease

theorem Owns.outcome {Q : Except Exc (Except Exc α) → V → Prop} {p : Prog σ L α} {x : V}
    (h : p.Owns v (fun r y => Q (.ok r) y) x) : p.outcome.Owns v Q x := by
  induction p generalizing x with
  | ret a => exact h
  | raise e => exact h
  | act f k ih => exact fun s hs => ih s (h s hs)
  | acq l w k ih => exact ih h
  | rel l w k ih => exact ih h

/-- A program that leaves the part alone. -/
theorem Owns.leaves {p : Prog σ L α} (h : p.Guar (fun s t => v t = v s)) (x : V) : p.Owns v (fun _ y => y = x) x := by
  induction p with
  | ret a => rfl
  | raise e => rfl
  | act f k ih =>
    intro s hs
    rw [h.1 s, hs]
    exact ih s (h.2 s)
  | acq l w k ih => exact ih h
  | rel l w k ih => exact ih h

/-- The part `v` is changed only while the lock `S` is held, and satisfies `I` when it is not held.  `h`: the part, if
this thread holds the lock. -/
def Keeps [DecidableEq L] (v : σ → V) (S : L) (I : V → Prop) (Q : Except Exc α → Option V → Prop) :
    Prog σ L α → Option V → Prop
  | ret a, h => Q (.ok a) h
  | raise e, h => Q (.error e) h
  | act f k, none => (∀ s, v (f s) = v s) ∧ ∀ s, (k s).Keeps v S I Q none
  | act f k, some x => ∀ s, v s = x → (k s).Keeps v S I Q (some (v (f s)))
  | acq l w k, h =>
    (l ≠ S ∧ k.Keeps v S I Q h) ∨ (l = S ∧ w = true ∧ h = none ∧ ∀ x, I x → k.Keeps v S I Q (some x))
  | rel l _ k, h =>
    (l ≠ S ∧ k.Keeps v S I Q h) ∨ (l = S ∧ ∃ x, h = some x ∧ I x ∧ k.Keeps v S I Q none)

/-- The program changes nothing of the part `v` and does not use the lock `S`. -/
def Leaves (v : σ → V) (S : L) : Prog σ L α → Prop
  | ret _ => True
  | raise _ => True
  | act f k => (∀ s, v (f s) = v s) ∧ ∀ s, (k s).Leaves v S
  | acq l _ k => l ≠ S ∧ k.Leaves v S
  | rel l _ k => l ≠ S ∧ k.Leaves v S

section
variable {τ L' : Type} {S : L} {I : V → Prop}

theorem Leaves.bind {p : Prog σ L α} {g : α → Prog σ L β} (hp : p.Leaves v S) (hg : ∀ a, (g a).Leaves v S) :
    (p >>= g).Leaves v S := by
  change (p.bind g).Leaves v S
  induction p with
  | ret a => exact hg a
  | raise e => trivial
  | act f k ih => exact ⟨hp.1, fun s => ih s (hp.2 s)⟩
  | acq l w k ih => exact ⟨hp.1, ih hp.2⟩
  | rel l w k ih => exact ⟨hp.1, ih hp.2⟩

theorem Leaves.atom {m : Py σ α} (h : ∀ s, v (m s).2 = v s) : (atom m : Prog σ L α).Leaves v S := by
  refine ⟨h, fun s => ?_⟩
  show Leaves v S (match (m s).1 with
    | .ok a => ret a
    | .error e => raise e)
  cases (m s).1 <;> trivial

theorem Leaves.andRelease {p : Prog σ L α} {l : L} {w : Bool} (hl : l ≠ S) (hp : p.Leaves v S) :
    (p.andRelease l w).Leaves v S := by
  induction p with
  | ret a => exact ⟨hl, trivial⟩
  | raise e => exact ⟨hl, trivial⟩
  | act f k ih => exact ⟨hp.1, fun s => ih s (hp.2 s)⟩
  | acq l w k ih => exact ⟨hp.1, ih hp.2⟩
  | rel l w k ih => exact ⟨hp.1, ih hp.2⟩

theorem Leaves.withLock {p : Prog σ L α} {l : L} {w : Bool} (hl : l ≠ S) (hp : p.Leaves v S) :
    (withLock l w p).Leaves v S := ⟨hl, hp.andRelease hl⟩

theorem Leaves.outcome {p : Prog σ L α} (hp : p.Leaves v S) : p.outcome.Leaves v S := by
  induction p with
  | ret a => trivial
  | raise e => trivial
  | act f k ih => exact ⟨hp.1, fun s => ih s (hp.2 s)⟩
  | acq l w k ih => exact ⟨hp.1, ih hp.2⟩
  | rel l w k ih => exact ⟨hp.1, ih hp.2⟩

/-- A program on another part. -/
theorem Leaves.onPart {v : τ → V} {S : L'} {get : τ → σ} {set : σ → τ → τ} {ren : L → L'}
    (h : ∀ s t, v (set s t) = v t) (hr : ∀ l, ren l ≠ S) (p : Prog σ L α) : (p.onPart get set ren).Leaves v S := by
  induction p with
  | ret a => trivial
  | raise e => trivial
  | act f k ih => exact ⟨fun _ => h _ _, fun _ => ih _⟩
  | acq l w k ih => exact ⟨hr l, ih⟩
  | rel l w k ih => exact ⟨hr l, ih⟩

theorem Leaves.guar {p : Prog σ L α} (hp : p.Leaves v S) : p.Guar (fun s t => v t = v s) := by
  induction p with
  | ret a => trivial
  | raise e => trivial
  | act f k ih => exact ⟨hp.1, fun s => ih s (hp.2 s)⟩
  | acq l w k ih => exact ih hp.2
  | rel l w k ih => exact ih hp.2

variable [DecidableEq L]

/-- A program that leaves the part and the lock alone. -/
theorem Keeps.leaves {Q : Except Exc α → Option V → Prop} {p : Prog σ L α} (h : p.Leaves v S)
    (x : Option V) (hQ : ∀ r, Q r x) : p.Keeps v S I Q x := by
  induction p with
  | ret a => exact hQ _
  | raise e => exact hQ _
  | act f k ih =>
    cases x with
    | none => exact ⟨h.1, fun s => ih s (h.2 s)⟩
    | some x =>
      intro s hs
      rw [h.1 s, hs]
      exact ih s (h.2 s)
  | acq l w k ih => exact .inl ⟨h.1, ih h.2⟩
  | rel l w k ih => exact .inl ⟨h.1, ih h.2⟩

theorem Keeps.mono {Q Q' : Except Exc α → Option V → Prop} {p : Prog σ L α} {x : Option V} (h : p.Keeps v S I Q x)
    (hQ : ∀ r y, Q r y → Q' r y) : p.Keeps v S I Q' x := by
  induction p generalizing x with
  | ret a => exact hQ _ _ h
  | raise e => exact hQ _ _ h
  | act f k ih =>
    cases x with
    | none => exact ⟨h.1, fun s => ih s (h.2 s)⟩
    | some x => exact fun s hs => ih s (h s hs)
  | acq l w k ih =>
    rcases h with h | ⟨h1, h2, h3, h4⟩
    · exact .inl ⟨h.1, ih h.2⟩
    · exact .inr ⟨h1, h2, h3, fun x hx => ih (h4 x hx)⟩
  | rel l w k ih =>
    rcases h with h | ⟨h1, x, h2, h3, h4⟩
    · exact .inl ⟨h.1, ih h.2⟩
    · exact .inr ⟨h1, x, h2, h3, ih h4⟩

theorem Keeps.bind {Q : Except Exc β → Option V → Prop} {p : Prog σ L α} {g : α → Prog σ L β} {x : Option V}
    (h : p.Keeps v S I (fun r y => match r with
      | .ok a => (g a).Keeps v S I Q y
      | .error e => Q (.error e) y) x) : (p >>= g).Keeps v S I Q x := by
  change (p.bind g).Keeps v S I Q x
  induction p generalizing x with
  | ret a => exact h
  | raise e => exact h
  | act f k ih =>
    cases x with
    | none => exact ⟨h.1, fun s => ih s (h.2 s)⟩
    | some x => exact fun s hs => ih s (h s hs)
  | acq l w k ih =>
    rcases h with h | ⟨h1, h2, h3, h4⟩
    · exact .inl ⟨h.1, ih h.2⟩
    · exact .inr ⟨h1, h2, h3, fun x hx => ih (h4 x hx)⟩
  | rel l w k ih =>
    rcases h with h | ⟨h1, x, h2, h3, h4⟩
    · exact .inl ⟨h.1, ih h.2⟩
    · exact .inr ⟨h1, x, h2, h3, ih h4⟩

theorem Keeps.outcome {Q : Except Exc (Except Exc α) → Option V → Prop} {p : Prog σ L α} {x : Option V}
    (h : p.Keeps v S I (fun r y => Q (.ok r) y) x) : p.outcome.Keeps v S I Q x := by
  induction p generalizing x with
  | ret a => exact h
  | raise e => exact h
  | act f k ih =>
    cases x with
    | none => exact ⟨h.1, fun s => ih s (h.2 s)⟩
    | some x => exact fun s hs => ih s (h s hs)
  | acq l w k ih =>
    rcases h with h | ⟨h1, h2, h3, h4⟩
    · exact .inl ⟨h.1, ih h.2⟩
    · exact .inr ⟨h1, h2, h3, fun x hx => ih (h4 x hx)⟩
  | rel l w k ih =>
    rcases h with h | ⟨h1, x, h2, h3, h4⟩
    · exact .inl ⟨h.1, ih h.2⟩
    · exact .inr ⟨h1, x, h2, h3, ih h4⟩

/-- Inside the section: the program owns the part and does not use the lock. -/
def Inside (v : σ → V) (S : L) (Q : Except Exc α → V → Prop) : Prog σ L α → V → Prop
  | ret a, x => Q (.ok a) x
  | raise e, x => Q (.error e) x
  | act f k, x => ∀ s, v s = x → (k s).Inside v S Q (v (f s))
  | acq l _ k, x => l ≠ S ∧ k.Inside v S Q x
  | rel l _ k, x => l ≠ S ∧ k.Inside v S Q x

omit [DecidableEq L] in
theorem Inside.leaves {p : Prog σ L α} (h : p.Leaves v S) (x : V) : p.Inside v S (fun _ y => y = x) x := by
  induction p with
  | ret a => rfl
  | raise e => rfl
  | act f k ih =>
    intro s hs
    rw [h.1 s, hs]
    exact ih s (h.2 s)
  | acq l w k ih => exact ⟨h.1, ih h.2⟩
  | rel l w k ih => exact ⟨h.1, ih h.2⟩

omit [DecidableEq L] in
theorem Inside.mono {Q Q' : Except Exc α → V → Prop} {p : Prog σ L α} {x : V} (h : p.Inside v S Q x)
    (hQ : ∀ r y, Q r y → Q' r y) : p.Inside v S Q' x := by
  induction p generalizing x with
  | ret a => exact hQ _ _ h
  | raise e => exact hQ _ _ h
  | act f k ih => exact fun s hs => ih s (h s hs)
  | acq l w k ih => exact ⟨h.1, ih h.2⟩
  | rel l w k ih => exact ⟨h.1, ih h.2⟩

omit [DecidableEq L] in
theorem Inside.bind {Q : Except Exc β → V → Prop} {p : Prog σ L α} {g : α → Prog σ L β} {x : V}
    (h : p.Inside v S (fun r y => match r with
      | .ok a => (g a).Inside v S Q y
      | .error e => Q (.error e) y) x) : (p >>= g).Inside v S Q x := by
  change (p.bind g).Inside v S Q x
  induction p generalizing x with
  | ret a => exact h
  | raise e => exact h
  | act f k ih => exact fun s hs => ih s (h s hs)
  | acq l w k ih => exact ⟨h.1, ih h.2⟩
  | rel l w k ih => exact ⟨h.1, ih h.2⟩

omit [DecidableEq L] in
theorem Inside.atom {Q : Except Exc α → V → Prop} {m : Py σ α} {x : V}
    (h : ∀ s, v s = x → Q (m s).1 (v (m s).2)) : (atom m : Prog σ L α).Inside v S Q x := by
  intro s hs
  have := h s hs
  show Inside v S Q (match (m s).1 with
    | .ok a => ret a
    | .error e => raise e) _
  revert this
  cases (m s).1 <;> exact id

omit [DecidableEq L] in
/-- Forget about the lock. -/
theorem Inside.owns {Q : Except Exc α → V → Prop} {p : Prog σ L α} {x : V} (h : p.Inside v S Q x) : p.Owns v Q x := by
  induction p generalizing x with
  | ret a => exact h
  | raise e => exact h
  | act f k ih => exact fun s hs => ih s (h s hs)
  | acq l w k ih => exact ih h.2
  | rel l w k ih => exact ih h.2

/-- `with lock:` -/
theorem Keeps.withLock {Q : Except Exc α → Option V → Prop} {p : Prog σ L α}
    (h : ∀ x, I x → p.Inside v S (fun r y => I y ∧ Q r none) x) : (withLock S true p).Keeps v S I Q none := by
  refine .inr ⟨rfl, rfl, rfl, fun x hx => ?_⟩
  have := h x hx
  clear h hx
  induction p generalizing x with
  | ret a => exact .inr ⟨rfl, x, rfl, this.1, this.2⟩
  | raise e => exact .inr ⟨rfl, x, rfl, this.1, this.2⟩
  | act f k ih => exact fun s hs => ih s _ (this s hs)
  | acq l w k ih => exact .inl ⟨this.1, ih _ this.2⟩
  | rel l w k ih => exact .inl ⟨this.1, ih _ this.2⟩

end
end Prog

namespace Conc
open Prog

variable {σ L O C R V : Type} [DecidableEq L] {sys : Sys σ L O C R} {v : σ → V}

/-- The threads and the lock. -/
structure LockInv (v : σ → V) (S : L) (I : V → Prop) (κ : Conf σ L O C R) : Prop where
  part : (∀ i, κ.held i S = []) → I (v κ.st)
  one : ∀ i j, κ.held i S ≠ [] → κ.held j S ≠ [] → i = j
  idle : ∀ i, κ.cur i = none → κ.held i S = []
  run : ∀ i c p, κ.cur i = some (c, p) →
    (κ.held i S = [] ∧ p.Keeps v S I (fun _ h => h = none) none) ∨
    (κ.held i S = [true] ∧ p.Keeps v S I (fun _ h => h = none) (some (v κ.st)))

/-- A part that is changed only under a lock satisfies the invariant whenever the lock is free. -/
theorem exec_keeps {S : L} {I : V → Prop}
    (hs : ∀ i o c, sys.ok i c → (sys.call i o c).Keeps v S I (fun _ h => h = none) none) {s : σ} {obj : Nat → O}
    (h0 : I (v s)) {tr : List (Ev C R)} {κ : Conf σ L O C R} (h : Exec sys (init s obj) tr κ) : LockInv v S I κ := by
  generalize hk : (init s obj : Conf σ L O C R) = κ0 at h
  induction h with
  | nil =>
    subst hk
    exact ⟨fun _ => h0, fun i j h => absurd rfl h, fun _ _ => rfl, (fun _ _ _ h => nomatch h)⟩
  | snoc κ1 κ2 tr e h1 h2 ih =>
    obtain ⟨ih1, ih2, ih3, ih4⟩ := ih
    cases h2 with
    | inv i c hi hok =>
      refine ⟨ih1, ih2, fun j hj => ?_, fun j c' p hj => ?_⟩
      · by_cases e : j = i
        · subst e; exact ih3 j hi
        · dsimp only at hj; rw [upd_other _ _ e] at hj; exact ih3 j hj
      · by_cases e : j = i
        · subst e
          dsimp only at hj
          rw [upd_same] at hj
          cases hj
          exact .inl ⟨ih3 j hi, hs j _ c hok⟩
        · dsimp only at hj
          rw [upd_other _ _ e] at hj
          exact ih4 j c' p hj
    | act i c f k hi =>
      have hidle : ∀ j, upd κ1.cur i (some (c, k κ1.st)) j = none → κ1.held j S = [] := fun j hj => by
        by_cases e : j = i
        · subst e; rw [upd_same] at hj; cases hj
        · rw [upd_other _ _ e] at hj; exact ih3 j hj
      rcases ih4 i c _ hi with ⟨hh, hk⟩ | ⟨hh, hk⟩
      · have hv : v (f κ1.st) = v κ1.st := hk.1 _
        refine ⟨fun h => by rw [hv]; exact ih1 h, ih2, hidle, fun j c' p hj => ?_⟩
        dsimp only at hj ⊢
        by_cases e : j = i
        · subst e
          rw [upd_same] at hj
          cases hj
          exact .inl ⟨hh, hk.2 _⟩
        · rw [upd_other _ _ e] at hj
          rw [hv]
          exact ih4 j c' p hj
      · refine ⟨fun h => ?_, ih2, hidle, fun j c' p hj => ?_⟩
        · have := h i
          rw [hh] at this
          cases this
        · dsimp only at hj ⊢
          by_cases e : j = i
          · subst e
            rw [upd_same] at hj
            cases hj
            exact .inr ⟨hh, hk _ rfl⟩
          · rw [upd_other _ _ e] at hj
            rcases ih4 j c' p hj with h | ⟨h, _⟩
            · exact .inl h
            · exact absurd (ih2 j i (by rw [h]; nofun) (by rw [hh]; nofun)) e
    | acq i c l w k hi hc =>
      have hidle : ∀ j, upd κ1.cur i (some (c, k)) j = none →
          upd κ1.held i (fun l' => if l' = l then w :: κ1.held i l else κ1.held i l') j S = [] := fun j hj => by
        by_cases e : j = i
        · subst e; rw [upd_same] at hj; cases hj
        · rw [upd_other _ _ e] at hj ⊢; exact ih3 j hj
      by_cases hl : l = S
      · subst hl
        rcases ih4 i c _ hi with ⟨hh, hk⟩ | ⟨hh, hk⟩
        · rcases hk with ⟨h, _⟩ | ⟨_, rfl, _, hk⟩
          · exact absurd rfl h
          · have free : ∀ j, κ1.held j l = [] := fun j => by
              by_cases e : j = i
              · rw [e]; exact hh
              · exact (hc.2 j e).2 rfl
            have him : upd κ1.held i (fun l' => if l' = l then true :: κ1.held i l else κ1.held i l') i l = [true] := by
              rw [upd_same, if_pos rfl, hh]
            have hne : ∀ j, j ≠ i →
                upd κ1.held i (fun l' => if l' = l then true :: κ1.held i l else κ1.held i l') j l = [] := fun j e => by
              rw [upd_other _ _ e]; exact free j
            refine ⟨fun h => ?_, fun j j' hj hj' => ?_, hidle, fun j c' p hj => ?_⟩
            · cases him.symm.trans (h i)
            · have e1 : j = i := Classical.byContradiction fun e => hj (hne j e)
              have e2 : j' = i := Classical.byContradiction fun e => hj' (hne j' e)
              rw [e1, e2]
            · dsimp only at hj ⊢
              by_cases e : j = i
              · subst e
                rw [upd_same] at hj
                cases hj
                exact .inr ⟨him, hk _ (ih1 free)⟩
              · rw [upd_other _ _ e] at hj
                rw [hne j e]
                rcases ih4 j c' p hj with h | ⟨h, _⟩
                · exact .inl ⟨rfl, h.2⟩
                · rw [free j] at h; cases h
        · rcases hk with ⟨h, _⟩ | ⟨_, _, h, _⟩
          · exact absurd rfl h
          · cases h
      · have hsame : ∀ j, upd κ1.held i (fun l' => if l' = l then w :: κ1.held i l else κ1.held i l') j S = κ1.held j S :=
          fun j => by
            by_cases e : j = i
            · rw [e, upd_same, if_neg (fun e => hl e.symm)]
            · rw [upd_other _ _ e]
        refine ⟨fun h => ih1 fun j => (hsame j).symm.trans (h j), fun j j' hj hj' => ?_, hidle, fun j c' p hj => ?_⟩
        · dsimp only at hj hj'
          rw [hsame] at hj hj'
          exact ih2 j j' hj hj'
        · dsimp only at hj ⊢
          rw [hsame]
          by_cases e : j = i
          · subst e
            rw [upd_same] at hj
            cases hj
            rcases ih4 j c _ hi with ⟨hh, ⟨_, hk⟩ | ⟨h, _⟩⟩ | ⟨hh, ⟨_, hk⟩ | ⟨h, _⟩⟩
            · exact .inl ⟨hh, hk⟩
            · exact absurd h hl
            · exact .inr ⟨hh, hk⟩
            · exact absurd h hl
          · rw [upd_other _ _ e] at hj
            exact ih4 j c' p hj
    | rel i c l w k hi =>
      by_cases hl : l = S
      · subst hl
        rcases ih4 i c _ hi with ⟨hh, ⟨h, _⟩ | ⟨_, x, h, _⟩⟩ | ⟨hh, ⟨h, _⟩ | ⟨_, x, hx, hI, hk⟩⟩
        · exact absurd rfl h
        · cases h
        · exact absurd rfl h
        · cases hx
          have hfree : ∀ j,
              upd κ1.held i (fun l' => if l' = l then (κ1.held i l).tail else κ1.held i l') j l = [] := fun j => by
            by_cases e : j = i
            · rw [e, upd_same, if_pos rfl, hh]; rfl
            · rw [upd_other _ _ e]
              refine Classical.byContradiction fun h => e (ih2 j i h ?_)
              rw [hh]
              nofun
          refine ⟨fun _ => hI, fun j j' hj => absurd (hfree j) hj, fun j _ => hfree j, fun j c' p hj => ?_⟩
          dsimp only at hj ⊢
          rw [hfree]
          by_cases e : j = i
          · subst e
            rw [upd_same] at hj
            cases hj
            exact .inl ⟨rfl, hk⟩
          · rw [upd_other _ _ e] at hj
            rcases ih4 j c' p hj with h | ⟨h, _⟩
            · exact .inl ⟨rfl, h.2⟩
            · exact absurd (ih2 j i (by rw [h]; nofun) (by rw [hh]; nofun)) e
      · have hsame : ∀ j,
            upd κ1.held i (fun l' => if l' = l then (κ1.held i l).tail else κ1.held i l') j S = κ1.held j S :=
          fun j => by
            by_cases e : j = i
            · rw [e, upd_same, if_neg (fun e => hl e.symm)]
            · rw [upd_other _ _ e]
        refine ⟨fun h => ih1 fun j => (hsame j).symm.trans (h j), fun j j' hj hj' => ?_, fun j hj => ?_,
          fun j c' p hj => ?_⟩
        · dsimp only at hj hj'
          rw [hsame] at hj hj'
          exact ih2 j j' hj hj'
        · dsimp only at hj ⊢
          rw [hsame]
          by_cases e : j = i
          · subst e; rw [upd_same] at hj; cases hj
          · rw [upd_other _ _ e] at hj; exact ih3 j hj
        · dsimp only at hj ⊢
          rw [hsame]
          by_cases e : j = i
          · subst e
            rw [upd_same] at hj
            cases hj
            rcases ih4 j c _ hi with ⟨hh, ⟨_, hk⟩ | ⟨h, _⟩⟩ | ⟨hh, ⟨_, hk⟩ | ⟨h, _⟩⟩
            · exact .inl ⟨hh, hk⟩
            · exact absurd h hl
            · exact .inr ⟨hh, hk⟩
            · exact absurd h hl
          · rw [upd_other _ _ e] at hj
            exact ih4 j c' p hj
    | ret i c r o hi =>
      refine ⟨ih1, ih2, fun j hj => ?_, fun j c' p hj => ?_⟩
      · by_cases e : j = i
        · subst e
          rcases ih4 j c _ hi with h | ⟨_, h⟩
          · exact h.1
          · cases h
        · dsimp only at hj; rw [upd_other _ _ e] at hj; exact ih3 j hj
      · dsimp only at hj
        by_cases e : j = i
        · subst e
          rw [upd_same] at hj
          cases hj
        · rw [upd_other _ _ e] at hj
          exact ih4 j c' p hj

/-- A part that only thread `t` changes: what its calls do to it is what they do alone.  `P tr`: what holds of the
part when thread `t` has made the calls in `tr` and is not in a call. -/
theorem exec_owns {t : Nat} (ho : ∀ i o c, sys.ok i c → i ≠ t → (sys.call i o c).Guar (fun s s' => v s' = v s))
    {P : List C → V → Prop}
    (ht : ∀ o c cs x, sys.ok t c → P cs x → (sys.call t o c).Owns v (fun _ y => P (cs ++ [c]) y) x) {s : σ}
    {obj : Nat → O} (h0 : P [] (v s)) {tr : List (Ev C R)} {κ : Conf σ L O C R} (h : Exec sys (init s obj) tr κ) :
    (∀ i c p, i ≠ t → κ.cur i = some (c, p) → p.Guar (fun s s' => v s' = v s)) ∧
    (κ.cur t = none → P (Spec.callsBy t tr) (v κ.st)) ∧
    (∀ c p, κ.cur t = some (c, p) → p.Owns v (fun _ y => P (Spec.callsBy t tr) y) (v κ.st)) := by
  generalize hk : (init s obj : Conf σ L O C R) = κ0 at h
  induction h with
  | nil => subst hk; exact ⟨(fun _ _ _ _ h => nomatch h), fun _ => h0, (fun _ _ h => nomatch h)⟩
  | snoc κ1 κ2 tr e h1 h2 ih =>
    obtain ⟨ih1, ih2, ih3⟩ := ih
    have hsilent : ∀ i r, Spec.callsBy t (tr ++ [Ev.ret i r]) = Spec.callsBy t tr := fun i r => by
      simp [Spec.callsBy]
    have keep : ∀ (i : Nat) (c : C) (p' : Prog σ L (R × O)), (i ≠ t → p'.Guar (fun s s' => v s' = v s)) →
        ∀ j c' p, j ≠ t → upd κ1.cur i (some (c, p')) j = some (c', p) → p.Guar (fun s s' => v s' = v s) := by
      intro i c p' hp j c' p hj hc
      by_cases e : j = i
      · subst e; rw [upd_same] at hc; cases hc; exact hp hj
      · rw [upd_other _ _ e] at hc; exact ih1 j c' p hj hc
    cases h2 with
    | inv i c hi hok =>
      refine ⟨keep i c _ fun hi => ho i _ c hok hi, fun h => ?_, fun c' p hc => ?_⟩
      · dsimp only at h ⊢
        by_cases e : t = i
        · subst e; rw [upd_same] at h; cases h
        · rw [upd_other _ _ e] at h
          have : Spec.callsBy t (tr ++ [Ev.inv i c]) = Spec.callsBy t tr := by
            simp [Spec.callsBy, Ne.symm e]
          show P (Spec.callsBy t (tr ++ [Ev.inv i c])) _
          rw [this]
          exact ih2 h
      · dsimp only at hc ⊢
        by_cases e : t = i
        · subst e
          rw [upd_same] at hc
          cases hc
          have : Spec.callsBy t (tr ++ [Ev.inv t c]) = Spec.callsBy t tr ++ [c] := by simp [Spec.callsBy]
          show Owns v (fun _ y => P (Spec.callsBy t (tr ++ [Ev.inv t c])) y) _ _
          rw [this]
          exact ht _ c _ _ hok (ih2 hi)
        · rw [upd_other _ _ e] at hc
          have : Spec.callsBy t (tr ++ [Ev.inv i c]) = Spec.callsBy t tr := by
            simp [Spec.callsBy, Ne.symm e]
          show Owns v (fun _ y => P (Spec.callsBy t (tr ++ [Ev.inv i c])) y) _ _
          rw [this]
          exact ih3 c' p hc
    | act i c f k hi =>
      simp only [Option.toList, List.append_nil]
      by_cases e : t = i
      · subst e
        refine ⟨keep t c _ fun h => absurd rfl h, fun h => ?_, fun c' p hc => ?_⟩
        · rw [upd_same] at h; cases h
        · rw [upd_same] at hc; cases hc
          exact ih3 c _ hi _ rfl
      · have hg := ih1 i c _ (Ne.symm e) hi
        have hv : v (f κ1.st) = v κ1.st := hg.1 _
        refine ⟨keep i c _ fun _ => hg.2 _, fun h => ?_, fun c' p hc => ?_⟩
        · rw [upd_other _ _ e] at h; rw [hv]; exact ih2 h
        · rw [upd_other _ _ e] at hc; rw [hv]; exact ih3 c' p hc
    | acq i c l w k hi _ =>
      simp only [Option.toList, List.append_nil]
      refine ⟨keep i c _ fun h => (by have := ih1 i c _ h hi; exact this), fun h => ?_, fun c' p hc => ?_⟩
      · by_cases e : t = i
        · subst e; rw [upd_same] at h; cases h
        · rw [upd_other _ _ e] at h; exact ih2 h
      · by_cases e : t = i
        · subst e; rw [upd_same] at hc; cases hc
          have := ih3 c _ hi
          exact this
        · rw [upd_other _ _ e] at hc; exact ih3 c' p hc
    | rel i c l w k hi =>
      simp only [Option.toList, List.append_nil]
      refine ⟨keep i c _ fun h => (by have := ih1 i c _ h hi; exact this), fun h => ?_, fun c' p hc => ?_⟩
      · by_cases e : t = i
        · subst e; rw [upd_same] at h; cases h
        · rw [upd_other _ _ e] at h; exact ih2 h
      · by_cases e : t = i
        · subst e; rw [upd_same] at hc; cases hc
          have := ih3 c _ hi
          exact this
        · rw [upd_other _ _ e] at hc; exact ih3 c' p hc
    | ret i c r o hi =>
      refine ⟨fun j c' p hj hc => ?_, fun h => ?_, fun c' p hc => ?_⟩
      · dsimp only at hc
        by_cases e : j = i
        · subst e; rw [upd_same] at hc; cases hc
        · rw [upd_other _ _ e] at hc; exact ih1 j c' p hj hc
      · show P (Spec.callsBy t (tr ++ [Ev.ret i r])) _
        rw [hsilent]
        dsimp only at h
        by_cases e : t = i
        · subst e
          exact ih3 c _ hi
        · rw [upd_other _ _ e] at h; exact ih2 h
      · show Owns v (fun _ y => P (Spec.callsBy t (tr ++ [Ev.ret i r])) y) _ _
        rw [hsilent]
        dsimp only at hc
        by_cases e : t = i
        · subst e; rw [upd_same] at hc; cases hc
        · rw [upd_other _ _ e] at hc; exact ih3 c' p hc

end Conc
end SyncStream
