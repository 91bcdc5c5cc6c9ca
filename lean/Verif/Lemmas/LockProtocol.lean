import Verif.Lemmas.Protocol
/-!
# Threads that follow protocols and hold locks

As in `Lemmas/Protocol.lean` every thread is at a stage of its protocol; here what it knows and may do depends also on the locks it
holds.  Reentrant locks are allowed.
-/

namespace SyncStream

/-- The locks held after taking `l`. -/
def took {L : Type} [DecidableEq L] (h : L → List Bool) (l : L) (w : Bool) : L → List Bool :=
  fun l' => if l' = l then w :: h l else h l'

/-- The locks held after releasing `l`. -/
def dropped {L : Type} [DecidableEq L] (h : L → List Bool) (l : L) : L → List Bool :=
  fun l' => if l' = l then (h l).tail else h l'

theorem dropped_took {L : Type} [DecidableEq L] (h : L → List Bool) (l : L) (w : Bool) : dropped (took h l w) l = h := by
  funext l'
  simp only [dropped, took]
  split
  · rename_i e; subst e; simp
  · rfl

/-- `Ok x h s`: what a thread at the stage `x` that holds the locks `h` knows of the state `s`.  `T x h s t y`: it may make a step from
`s` to `t` and is then at the stage `y`. -/
structure LockProtocol (σ L K : Type) where
  Ok : K → (L → List Bool) → σ → Prop
  T : K → (L → List Bool) → σ → σ → K → Prop

namespace Prog
variable {σ L K α β : Type} [DecidableEq L]

/-- From the stage `x` on, holding `h`, the program follows the protocol, and ends with a result, a stage and locks for which `Q` holds. -/
def Minds (P : LockProtocol σ L K) (Q : Except Exc α → K → (L → List Bool) → Prop) : Prog σ L α → K → (L → List Bool) → Prop
  | ret a, x, h => Q (.ok a) x h
  | raise e, x, h => Q (.error e) x h
  | act f k, x, h => ∀ s, P.Ok x h s → ∃ y, P.T x h s (f s) y ∧ (k s).Minds P Q y h
  | acq l w k, x, h => k.Minds P Q x (took h l w)
  | rel l _ k, x, h => (∀ s, P.Ok x h s → P.Ok x (dropped h l) s) ∧ k.Minds P Q x (dropped h l)

variable {P : LockProtocol σ L K}

theorem Minds.mono {Q Q' : Except Exc α → K → (L → List Bool) → Prop} {p : Prog σ L α} {x : K} {h : L → List Bool}
    (hp : p.Minds P Q x h) (hQ : ∀ r y h', Q r y h' → Q' r y h') : p.Minds P Q' x h := by
  induction p generalizing x h with
  | ret a => exact hQ _ _ _ hp
  | raise e => exact hQ _ _ _ hp
  | act f k ih =>
    intro s hs
    obtain ⟨y, h1, h2⟩ := hp s hs
    exact ⟨y, h1, ih s h2⟩
  | acq l w k ih => exact ih hp
  | rel l w k ih => exact ⟨hp.1, ih hp.2⟩

theorem Minds.bind {Q : Except Exc β → K → (L → List Bool) → Prop} {p : Prog σ L α} {g : α → Prog σ L β} {x : K} {h : L → List Bool}
    (hp : p.Minds P (fun r y h' => match r with
      | .ok a => (g a).Minds P Q y h'
      | .error e => Q (.error e) y h') x h) : (p >>= g).Minds P Q x h := by
  change (p.bind g).Minds P Q x h
  induction p generalizing x h with
  | ret a => exact hp
  | raise e => exact hp
  | act f k ih =>
    intro s hs
    obtain ⟨y, h1, h2⟩ := hp s hs
    exact ⟨y, h1, ih s h2⟩
  | acq l w k ih => exact ih hp
  | rel l w k ih => exact ⟨hp.1, ih hp.2⟩

theorem Minds.atom {Q : Except Exc α → K → (L → List Bool) → Prop} {m : Py σ α} {x : K} {h : L → List Bool}
    (hm : ∀ s, P.Ok x h s → ∃ y, P.T x h s (m s).2 y ∧ Q (m s).1 y h) : (atom m : Prog σ L α).Minds P Q x h := by
  intro s hs
  obtain ⟨y, h1, h2⟩ := hm s hs
  refine ⟨y, h1, ?_⟩
  show Minds P Q (match (m s).1 with
    | .ok a => ret a
    | .error e => raise e) y h
  revert h2
  cases (m s).1 <;> exact id

theorem Minds.withLock {Q : Except Exc α → K → (L → List Bool) → Prop} {p : Prog σ L α} {l : L} {w : Bool} {x : K} {h : L → List Bool}
    (hp : p.Minds P (fun r y h' => h' = took h l w ∧ (∀ s, P.Ok y (took h l w) s → P.Ok y h s) ∧ Q r y h) x (took h l w)) :
    (withLock l w p).Minds P Q x h := by
  show (p.andRelease l w).Minds P Q x (took h l w)
  have key : ∀ {h1}, p.Minds P (fun r y h' => (∀ s, P.Ok y h' s → P.Ok y (dropped h' l) s) ∧ Q r y (dropped h' l)) x h1 →
      (p.andRelease l w).Minds P Q x h1 := by
    clear hp
    intro h1 hp
    induction p generalizing x h1 with
    | ret a => exact hp
    | raise e => exact hp
    | act f k ih =>
      intro s hs
      obtain ⟨y, h1, h2⟩ := hp s hs
      exact ⟨y, h1, ih s h2⟩
    | acq l w k ih => exact ih hp
    | rel l w k ih => exact ⟨hp.1, ih hp.2⟩
  refine key (hp.mono fun r y h' hq => ?_)
  obtain ⟨e1, e2, e3⟩ := hq
  subst e1
  rw [dropped_took]
  exact ⟨e2, e3⟩

theorem Minds.outcome {Q : Except Exc (Except Exc α) → K → (L → List Bool) → Prop} {p : Prog σ L α} {x : K} {h : L → List Bool}
    (hp : p.Minds P (fun r y h' => Q (.ok r) y h') x h) : p.outcome.Minds P Q x h := by
  induction p generalizing x h with
  | ret a => exact hp
  | raise e => exact hp
  | act f k ih =>
    intro s hs
    obtain ⟨y, h1, h2⟩ := hp s hs
    exact ⟨y, h1, ih s h2⟩
  | acq l w k ih => exact ih hp
  | rel l w k ih => exact ⟨hp.1, ih hp.2⟩

end Prog

namespace Conc
open Prog Spec
variable {σ L O C R K : Type} [DecidableEq L]

/-- Who holds a lock for writing holds it alone. -/
def Excl (H : Nat → L → List Bool) : Prop := ∀ i j l, j ≠ i → true ∈ H i l → H j l = []

/-- Every thread is at a stage of its protocol and will end its call with `Q`. -/
structure Minding (P : LockProtocol σ L K) (Inv : (Nat → K) → σ → Prop) (Idle : K → Prop)
    (Q : Nat → C → Except Exc (R × O) → K → Prop) (κ : Conf σ L O C R) (a : Nat → K) : Prop where
  excl : Excl κ.held
  ok : ∀ i, P.Ok (a i) (κ.held i) κ.st
  inv : Inv a κ.st
  idle : ∀ i, κ.cur i = none → Idle (a i) ∧ κ.held i = fun _ => []
  run : ∀ i c p, κ.cur i = some (c, p) → p.Minds P (fun r y h => (∀ v, r = .ok v → Idle y ∧ h = fun _ => []) ∧ Q i c r y) (a i) (κ.held i)

/-- A step; only when a call starts, it must be known to follow its protocol. -/
theorem minding_step {sys : Sys σ L O C R} {P : LockProtocol σ L K} {Inv : (Nat → K) → σ → Prop} {Idle : K → Prop}
    {Q : Nat → C → Except Exc (R × O) → K → Prop}
    (hT : ∀ (a : Nat → K) (H : Nat → L → List Bool) s t i y, Excl H → (∀ j, P.Ok (a j) (H j) s) → Inv a s → P.T (a i) (H i) s t y →
      (∀ j, P.Ok (upd a i y j) (H j) t) ∧ Inv (upd a i y) t)
    (hA : ∀ x h l w s, P.Ok x h s → P.Ok x (took h l w) s)
    {κ κ' : Conf σ L O C R} {a : Nat → K} (h : Minding P Inv Idle Q κ a) {e : Option (Ev C R)} (st : Step sys κ e κ')
    (hcall : ∀ i c, e = some (.inv i c) → (sys.call i (κ.obj i) c).Minds P
      (fun r y h => (∀ v, r = .ok v → Idle y ∧ h = fun _ => []) ∧ Q i c r y) (a i) fun _ => []) :
    ∃ a', Minding P Inv Idle Q κ' a' := by
  obtain ⟨h1, h2, h3, h4, h5⟩ := h
  cases st with
  | inv i c hi hok =>
    refine ⟨a, h1, h2, h3, fun j hj => ?_, fun j c' p hj => ?_⟩ <;> dsimp only at hj ⊢
    · by_cases e : j = i
      · subst e; rw [upd_same] at hj; cases hj
      · rw [upd_other _ _ e] at hj; exact h4 j hj
    · by_cases e : j = i
      · subst e
        rw [upd_same] at hj
        cases hj
        rw [(h4 j hi).2]
        exact hcall j c rfl
      · rw [upd_other _ _ e] at hj; exact h5 j c' p hj
  | act i c f k hi =>
    obtain ⟨y, hy, hk⟩ := h5 i c _ hi κ.st (h2 i)
    obtain ⟨h6, h7⟩ := hT a κ.held κ.st (f κ.st) i y h1 h2 h3 hy
    refine ⟨upd a i y, h1, h6, h7, fun j hj => ?_, fun j c' p hj => ?_⟩ <;> dsimp only at hj ⊢
    · by_cases e : j = i
      · subst e; rw [upd_same] at hj; cases hj
      · rw [upd_other _ _ e] at hj ⊢; exact h4 j hj
    · by_cases e : j = i
      · subst e; rw [upd_same] at hj ⊢; cases hj; exact hk
      · rw [upd_other _ _ e] at hj ⊢; exact h5 j c' p hj
  | acq i c l w k hi hc =>
    refine ⟨a, fun i' j l' hij hw => ?_, fun j => ?_, h3, fun j hj => ?_, fun j c' p hj => ?_⟩
    · show upd κ.held i (took (κ.held i) l w) j l' = []
      change true ∈ upd κ.held i (took (κ.held i) l w) i' l' at hw
      by_cases ei : i' = i
      · subst ei
        rw [upd_other _ _ hij]
        rw [upd_same] at hw
        simp only [took] at hw
        split at hw
        · rename_i el
          subst el
          rcases List.mem_cons.mp hw with e | e
          · exact (hc.2 j hij).2 e.symm
          · exact h1 _ _ _ hij e
        · exact h1 _ _ _ hij hw
      · rw [upd_other _ _ ei] at hw
        by_cases ej : j = i
        · subst ej
          rw [upd_same]
          have := h1 _ _ _ hij hw
          simp only [took]
          split
          · rename_i el
            subst el
            exact absurd hw (hc.2 i' ei).1
          · exact this
        · rw [upd_other _ _ ej]
          exact h1 _ _ _ hij hw
    · show P.Ok (a j) (upd κ.held i (took (κ.held i) l w) j) κ.st
      by_cases e : j = i
      · subst e; rw [upd_same]; exact hA _ _ _ _ _ (h2 j)
      · rw [upd_other _ _ e]; exact h2 j
    · have hj : upd κ.cur i (some (c, k)) j = none := hj
      show Idle (a j) ∧ upd κ.held i (took (κ.held i) l w) j = _
      by_cases e : j = i
      · subst e; rw [upd_same] at hj; cases hj
      · rw [upd_other _ _ e] at hj ⊢; exact h4 j hj
    · have hj : upd κ.cur i (some (c, k)) j = some (c', p) := hj
      show Minds P _ p (a j) (upd κ.held i (took (κ.held i) l w) j)
      by_cases e : j = i
      · subst e; rw [upd_same] at hj ⊢; cases hj; exact h5 j c _ hi
      · rw [upd_other _ _ e] at hj ⊢; exact h5 j c' p hj
  | rel i c l w k hi =>
    obtain ⟨h6, h7⟩ := h5 i c _ hi
    have hsub : ∀ i' l', true ∈ upd κ.held i (dropped (κ.held i) l) i' l' → true ∈ κ.held i' l' := fun i' l' hw => by
      by_cases ei : i' = i
      · subst ei
        rw [upd_same] at hw
        simp only [dropped] at hw
        split at hw
        · rename_i el; subst el; exact List.mem_of_mem_tail hw
        · exact hw
      · rwa [upd_other _ _ ei] at hw
    refine ⟨a, fun i' j l' hij hw => ?_, fun j => ?_, h3, fun j hj => ?_, fun j c' p hj => ?_⟩
    · show upd κ.held i (dropped (κ.held i) l) j l' = []
      have := h1 i' j l' hij (hsub i' l' hw)
      by_cases ej : j = i
      · subst ej
        rw [upd_same]
        simp only [dropped]
        split
        · rename_i el; subst el; rw [this]; rfl
        · exact this
      · rw [upd_other _ _ ej]; exact this
    · show P.Ok (a j) (upd κ.held i (dropped (κ.held i) l) j) κ.st
      by_cases e : j = i
      · subst e; rw [upd_same]; exact h6 _ (h2 j)
      · rw [upd_other _ _ e]; exact h2 j
    · have hj : upd κ.cur i (some (c, k)) j = none := hj
      show Idle (a j) ∧ upd κ.held i (dropped (κ.held i) l) j = _
      by_cases e : j = i
      · subst e; rw [upd_same] at hj; cases hj
      · rw [upd_other _ _ e] at hj ⊢; exact h4 j hj
    · have hj : upd κ.cur i (some (c, k)) j = some (c', p) := hj
      show Minds P _ p (a j) (upd κ.held i (dropped (κ.held i) l) j)
      by_cases e : j = i
      · subst e; rw [upd_same] at hj ⊢; cases hj; exact h7
      · rw [upd_other _ _ e] at hj ⊢; exact h5 j c' p hj
  | ret i c r o hi =>
    refine ⟨a, h1, h2, h3, fun j hj => ?_, fun j c' p hj => ?_⟩ <;> dsimp only at hj ⊢
    · by_cases e : j = i
      · subst e; exact (h5 j c _ hi).1 _ rfl
      · rw [upd_other _ _ e] at hj; exact h4 j hj
    · by_cases e : j = i
      · subst e; rw [upd_same] at hj; cases hj
      · rw [upd_other _ _ e] at hj; exact h5 j c' p hj

/-- Less may be known of the results. -/
theorem Minding.mono {P : LockProtocol σ L K} {Inv : (Nat → K) → σ → Prop} {Idle : K → Prop}
    {Q Q' : Nat → C → Except Exc (R × O) → K → Prop} {κ : Conf σ L O C R} {a : Nat → K} (h : Minding P Inv Idle Q κ a)
    (hQ : ∀ i c r y, Q i c r y → Q' i c r y) : Minding P Inv Idle Q' κ a :=
  ⟨h.excl, h.ok, h.inv, h.idle, fun i c p hp => (h.run i c p hp).mono fun _ _ _ hq => ⟨hq.1, hQ _ _ _ _ hq.2⟩⟩

/-- From the beginning on. -/
theorem minding_exec {sys : Sys σ L O C R} {P : LockProtocol σ L K} {Inv : (Nat → K) → σ → Prop} {Idle : K → Prop}
    {Q : Nat → C → Except Exc (R × O) → K → Prop}
    (hT : ∀ (a : Nat → K) (H : Nat → L → List Bool) s t i y, Excl H → (∀ j, P.Ok (a j) (H j) s) → Inv a s → P.T (a i) (H i) s t y →
      (∀ j, P.Ok (upd a i y j) (H j) t) ∧ Inv (upd a i y) t)
    (hA : ∀ x h l w s, P.Ok x h s → P.Ok x (took h l w) s)
    (hcall : ∀ i o c x, sys.ok i c → Idle x → (sys.call i o c).Minds P
      (fun r y h => (∀ v, r = .ok v → Idle y ∧ h = fun _ => []) ∧ Q i c r y) x fun _ => [])
    {κ κ' : Conf σ L O C R} {a : Nat → K} (h : Minding P Inv Idle Q κ a) {tr : List (Ev C R)} (hx : Exec sys κ tr κ') :
    ∃ a', Minding P Inv Idle Q κ' a' := by
  induction hx with
  | nil => exact ⟨a, h⟩
  | snoc _ _ _ e hx st ih =>
    obtain ⟨a', ih⟩ := ih
    refine minding_step hT hA ih st fun i c he => ?_
    subst he
    cases st with
    | inv _ _ hi hok => exact hcall i _ c _ hok (ih.idle i hi).1

theorem minding_init {P : LockProtocol σ L K} {Inv : (Nat → K) → σ → Prop} {Idle : K → Prop}
    {Q : Nat → C → Except Exc (R × O) → K → Prop} {s : σ} {obj : Nat → O} {x : K} (hok : P.Ok x (fun _ => []) s)
    (hI : Inv (fun _ => x) s) (hid : Idle x) : Minding P Inv Idle Q (init s obj) fun _ => x :=
  ⟨fun _ _ _ _ _ => rfl, fun _ => hok, hI, fun _ _ => ⟨hid, rfl⟩, (fun _ _ _ h => nomatch h)⟩

end Conc
end SyncStream
