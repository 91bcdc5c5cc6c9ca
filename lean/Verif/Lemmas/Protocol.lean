import Verif.Lemmas.Rely
import Verif.Spec.ProcSteps
/-!
# Threads that follow protocols

Every thread is at a stage of its protocol: what it knows of the state, what it has begun.  The stages are not part of
the program; they are found from its steps.
-/

namespace SyncStream

/-- `Ok x s`: what a thread at the stage `x` knows of the state `s`.  `T x s t y`: at the stage `x` it may make a step from `s`
to `t` and is then at the stage `y`. -/
structure Protocol (σ K : Type) where
  Ok : K → σ → Prop
  T : K → σ → σ → K → Prop

/-- Only stages with `J` are entered. -/
def Protocol.only {σ K : Type} (P : Protocol σ K) (J : K → Prop) : Protocol σ K :=
  ⟨P.Ok, fun x s t y => P.T x s t y ∧ J y⟩

namespace Prog
variable {σ τ L L' K α β : Type}

/-- From the stage `x` on, the program follows the protocol, and ends with a result and a stage for which `Q` holds. -/
def Follows (P : Protocol σ K) (Q : Except Exc α → K → Prop) : Prog σ L α → K → Prop
  | ret a, x => Q (.ok a) x
  | raise e, x => Q (.error e) x
  | act f k, x => ∀ s, P.Ok x s → ∃ y, P.T x s (f s) y ∧ (k s).Follows P Q y
  | acq _ _ k, x => k.Follows P Q x
  | rel _ _ k, x => k.Follows P Q x

variable {P : Protocol σ K}

theorem Follows.mono {Q Q' : Except Exc α → K → Prop} {p : Prog σ L α} {x : K} (h : p.Follows P Q x)
    (hQ : ∀ r y, Q r y → Q' r y) : p.Follows P Q' x := by
  induction p generalizing x with
  | ret a => exact hQ _ _ h
  | raise e => exact hQ _ _ h
  | act f k ih =>
    intro s hs
    obtain ⟨y, h1, h2⟩ := h s hs
    exact ⟨y, h1, ih s h2⟩
  | acq l w k ih => exact ih h
  | rel l w k ih => exact ih h

theorem Follows.bind {Q : Except Exc β → K → Prop} {p : Prog σ L α} {g : α → Prog σ L β} {x : K}
    (h : p.Follows P (fun r y => match r with
      | .ok a => (g a).Follows P Q y
      | .error e => Q (.error e) y) x) : (p >>= g).Follows P Q x := by
  change (p.bind g).Follows P Q x
  induction p generalizing x with
  | ret a => exact h
  | raise e => exact h
  | act f k ih =>
    intro s hs
    obtain ⟨y, h1, h2⟩ := h s hs
    exact ⟨y, h1, ih s h2⟩
  | acq l w k ih => exact ih h
  | rel l w k ih => exact ih h

theorem Follows.atom {Q : Except Exc α → K → Prop} {m : Py σ α} {x : K}
    (h : ∀ s, P.Ok x s → ∃ y, P.T x s (m s).2 y ∧ Q (m s).1 y) : (atom m : Prog σ L α).Follows P Q x := by
  intro s hs
  obtain ⟨y, h1, h2⟩ := h s hs
  refine ⟨y, h1, ?_⟩
  show Follows P Q (match (m s).1 with
    | .ok a => ret a
    | .error e => raise e) y
  revert h2
  cases (m s).1 <;> exact id

theorem Follows.withLock {Q : Except Exc α → K → Prop} {p : Prog σ L α} {l : L} {w : Bool} {x : K}
    (h : p.Follows P Q x) : (withLock l w p).Follows P Q x := by
  show (p.andRelease l w).Follows P Q x
  induction p generalizing x with
  | ret a => exact h
  | raise e => exact h
  | act f k ih =>
    intro s hs
    obtain ⟨y, h1, h2⟩ := h s hs
    exact ⟨y, h1, ih s h2⟩
  | acq l w k ih => exact ih h
  | rel l w k ih => exact ih h

theorem Follows.outcome {Q : Except Exc (Except Exc α) → K → Prop} {p : Prog σ L α} {x : K}
    (h : p.Follows P (fun r y => Q (.ok r) y) x) : p.outcome.Follows P Q x := by
  induction p generalizing x with
  | ret a => exact h
  | raise e => exact h
  | act f k ih =>
    intro s hs
    obtain ⟨y, h1, h2⟩ := h s hs
    exact ⟨y, h1, ih s h2⟩
  | acq l w k ih => exact ih h
  | rel l w k ih => exact ih h

/-- What the steps do to the stages. -/
theorem Follows.track {D : K → K → Prop} (h0 : ∀ x, D x x) (ht : ∀ {x y z}, D x y → D y z → D x z)
    (hD : ∀ x s t y, P.Ok x s → P.T x s t y → D x y) {Q : Except Exc α → K → Prop} {p : Prog σ L α} {x : K}
    (h : p.Follows P Q x) : p.Follows P (fun r y => Q r y ∧ D x y) x := by
  induction p generalizing x with
  | ret a => exact ⟨h, h0 x⟩
  | raise e => exact ⟨h, h0 x⟩
  | act f k ih =>
    intro s hs
    obtain ⟨y, h1, h2⟩ := h s hs
    exact ⟨y, h1, (ih s h2).mono fun r z hz => ⟨hz.1, ht (hD _ _ _ _ hs h1) hz.2⟩⟩
  | acq l w k ih => exact ih h
  | rel l w k ih => exact ih h

/-- A program with steps of one kind, which do not change the stage. -/
theorem Follows.quiet {G : σ → σ → Prop} {p : Prog σ L α} {x : K} (hG : ∀ s t, P.Ok x s → G s t → P.T x s t x)
    (h : p.Guar G) : p.Follows P (fun _ y => y = x) x := by
  induction p with
  | ret a => rfl
  | raise e => rfl
  | act f k ih => exact fun s hs => ⟨x, hG s _ hs (h.1 s), ih s (h.2 s)⟩
  | acq l w k ih => exact ih h
  | rel l w k ih => exact ih h

/-- The same followed by something else. -/
theorem Follows.quiet_bind {G : σ → σ → Prop} {Q : Except Exc β → K → Prop} {p : Prog σ L α} {g : α → Prog σ L β} {x : K}
    (hG : ∀ s t, P.Ok x s → G s t → P.T x s t x) (h : p.Guar G) (hg : ∀ a, (g a).Follows P Q x)
    (he : ∀ e, Q (.error e) x) : (p >>= g).Follows P Q x :=
  .bind ((Follows.quiet hG h).mono fun r y hy => by
    subst hy
    cases r with
    | ok a => exact hg a
    | error e => exact he e)

/-- A program that works on a part of the state. -/
theorem Follows.onPart {P' : Protocol τ K} {get : τ → σ} {set : σ → τ → τ} {ren : L → L'}
    (hOk : ∀ x t, P'.Ok x t → P.Ok x (get t)) (hT : ∀ x t s y, P'.Ok x t → P.T x (get t) s y → P'.T x t (set s t) y)
    {Q : Except Exc α → K → Prop} {p : Prog σ L α} {x : K} (h : p.Follows P Q x) :
    (p.onPart get set ren).Follows P' Q x := by
  induction p generalizing x with
  | ret a => exact h
  | raise e => exact h
  | act f k ih =>
    intro t ht
    obtain ⟨y, h1, h2⟩ := h _ (hOk x t ht)
    exact ⟨y, hT _ _ _ _ ht h1, ih _ h2⟩
  | acq l w k ih => exact ih h
  | rel l w k ih => exact ih h

end Prog

namespace Conc
open Prog Spec
variable {σ L O C R K : Type} [DecidableEq L]

theorem returned_idle {cs : List C} {rs : List R} (h : cs.length = rs.length) (c : C) :
    (cs ++ [c]).zip rs = cs.zip rs := by
  conv => lhs; rw [← List.append_nil rs]
  rw [List.zip_append h]
  simp

/-- Every thread has a protocol `P i`, is `Idle` between its calls, at a stage of its call (`J`) during it, and has learned from what
its calls returned (`M`, kept by its steps).  A step keeps what all threads know and the invariant of the stages and the state. -/
theorem exec_follows {sys : Sys σ L O C R} {P : Nat → Protocol σ K} {Idle : Nat → K → Prop}
    {J : Nat → C → K → Prop} {M : Nat → List (C × R) → K → Prop} {Inv : (Nat → K) → σ → Prop}
    (hT : ∀ (a : Nat → K) s t i y, (∀ j, (P j).Ok (a j) s) → Inv a s → (P i).T (a i) s t y →
      (∀ j, (P j).Ok (upd a i y j) t) ∧ Inv (upd a i y) t)
    (hM : ∀ i cs x s t y, M i cs x → (P i).Ok x s → (P i).T x s t y → M i cs y)
    (hJ : ∀ i c x, Idle i x → J i c x)
    (hcall : ∀ i o c cs x, sys.ok i c → Idle i x → M i cs x → (sys.call i o c).Follows ((P i).only (J i c))
      (fun r y => ∀ r' o', r = .ok (r', o') → Idle i y ∧ M i (cs ++ [(c, r')]) y) x)
    {s0 : σ} {obj : Nat → O} {a0 : Nat → K} (h0 : ∀ i, (P i).Ok (a0 i) s0) (hi0 : ∀ i, Idle i (a0 i))
    (hM0 : ∀ i, M i [] (a0 i)) (hI0 : Inv a0 s0) {tr : List (Ev C R)} {κ : Conf σ L O C R}
    (h : Exec sys (init s0 obj) tr κ) :
    ∃ a : Nat → K, (∀ i, (P i).Ok (a i) κ.st) ∧ Inv a κ.st ∧ (∀ i, M i (returned i tr) (a i)) ∧
      (∀ i, κ.cur i = none → Idle i (a i) ∧ (callsBy i tr).length = (retsBy i tr).length) ∧
      ∀ i c p, κ.cur i = some (c, p) →
        (∃ cs, callsBy i tr = cs ++ [c] ∧ cs.length = (retsBy i tr).length) ∧ J i c (a i) ∧
        p.Follows ((P i).only (J i c)) (fun r y => ∀ r' o', r = .ok (r', o') → Idle i y ∧ M i (returned i tr ++ [(c, r')]) y) (a i) := by
  generalize hk : (init s0 obj : Conf σ L O C R) = κ0 at h
  induction h with
  | nil =>
    subst hk
    exact ⟨a0, h0, hI0, hM0, fun i _ => ⟨hi0 i, rfl⟩, (fun _ _ _ h => nomatch h)⟩
  | snoc κ1 κ2 tr e h1 h2 ih =>
    obtain ⟨a, ih1, ih2, ih3, ih4, ih5⟩ := ih
    cases h2 with
    | inv i c hi hok =>
      obtain ⟨hid, hlen⟩ := ih4 i hi
      have ec : ∀ j, callsBy j (tr ++ (some (Ev.inv i c)).toList) = callsBy j tr ++ (if i = j then [c] else []) := fun j => by
        by_cases e : i = j <;> simp [callsBy, e]
      have er : ∀ j, retsBy j (tr ++ (some (Ev.inv i c)).toList) = retsBy j tr := fun j => by simp [retsBy]
      have et : ∀ j, returned j (tr ++ (some (Ev.inv i c)).toList) = returned j tr := fun j => by
        unfold returned
        rw [ec, er]
        by_cases e : i = j
        · subst e
          rw [if_pos rfl]
          exact returned_idle hlen c
        · rw [if_neg e, List.append_nil]
      refine ⟨a, ih1, ih2, fun j => (et j).symm ▸ ih3 j, fun j hj => ?_, fun j c' p hj => ?_⟩
      · dsimp only at hj
        by_cases e : j = i
        · subst e; rw [upd_same] at hj; cases hj
        · rw [upd_other _ _ e] at hj
          rw [ec, er, if_neg (Ne.symm e), List.append_nil]
          exact ih4 j hj
      · dsimp only at hj
        rw [ec, er, et]
        by_cases e : j = i
        · subst e
          rw [upd_same] at hj
          cases hj
          rw [if_pos rfl]
          exact ⟨⟨_, rfl, hlen⟩, hJ j c _ hid, hcall j _ c _ _ hok hid (ih3 j)⟩
        · rw [upd_other _ _ e] at hj
          rw [if_neg (Ne.symm e), List.append_nil]
          exact ih5 j c' p hj
    | act i c f k hi =>
      obtain ⟨hl, _, hp⟩ := ih5 i c _ hi
      obtain ⟨y, ⟨hy, hy'⟩, hk'⟩ := hp κ1.st (ih1 i)
      obtain ⟨h3, h4⟩ := hT a κ1.st (f κ1.st) i y ih1 ih2 hy
      have et : (tr ++ (none : Option (Ev C R)).toList) = tr := by simp
      refine ⟨upd a i y, h3, h4, fun j => ?_, fun j hj => ?_, fun j c' p hj => ?_⟩
      · rw [et]
        by_cases e : j = i
        · subst e; rw [upd_same]; exact hM _ _ _ _ _ _ (ih3 j) (ih1 j) hy
        · rw [upd_other _ _ e]; exact ih3 j
      · dsimp only at hj
        rw [et]
        by_cases e : j = i
        · subst e; rw [upd_same] at hj; cases hj
        · rw [upd_other _ _ e] at hj ⊢; exact ih4 j hj
      · dsimp only at hj
        rw [et]
        by_cases e : j = i
        · subst e; rw [upd_same] at hj ⊢; cases hj; exact ⟨hl, hy', hk'⟩
        · rw [upd_other _ _ e] at hj ⊢; exact ih5 j c' p hj
    | acq i c l w k hi hc =>
      have et : (tr ++ (none : Option (Ev C R)).toList) = tr := by simp
      refine ⟨a, ih1, ih2, fun j => by rw [et]; exact ih3 j, fun j hj => ?_, fun j c' p hj => ?_⟩ <;> dsimp only at hj <;> rw [et]
      · by_cases e : j = i
        · subst e; rw [upd_same] at hj; cases hj
        · rw [upd_other _ _ e] at hj; exact ih4 j hj
      · by_cases e : j = i
        · subst e; rw [upd_same] at hj; cases hj; have h5 := ih5 j c _ hi; exact ⟨h5.1, h5.2⟩
        · rw [upd_other _ _ e] at hj; exact ih5 j c' p hj
    | rel i c l w k hi =>
      have et : (tr ++ (none : Option (Ev C R)).toList) = tr := by simp
      refine ⟨a, ih1, ih2, fun j => by rw [et]; exact ih3 j, fun j hj => ?_, fun j c' p hj => ?_⟩ <;> dsimp only at hj <;> rw [et]
      · by_cases e : j = i
        · subst e; rw [upd_same] at hj; cases hj
        · rw [upd_other _ _ e] at hj; exact ih4 j hj
      · by_cases e : j = i
        · subst e; rw [upd_same] at hj; cases hj; have h5 := ih5 j c _ hi; exact ⟨h5.1, h5.2⟩
        · rw [upd_other _ _ e] at hj; exact ih5 j c' p hj
    | ret i c r o hi =>
      obtain ⟨⟨cs, hl, hl'⟩, _, hp⟩ := ih5 i c _ hi
      have hp := hp r o rfl
      have ec : ∀ j, callsBy j (tr ++ (some (Ev.ret (C := C) i r)).toList) = callsBy j tr := fun j => by simp [callsBy]
      have er : ∀ j, retsBy j (tr ++ (some (Ev.ret (C := C) i r)).toList) = retsBy j tr ++ (if i = j then [r] else []) := fun j => by
        by_cases e : i = j <;> simp [retsBy, e]
      have et : returned i (tr ++ (some (Ev.ret (C := C) i r)).toList) = returned i tr ++ [(c, r)] := by
        unfold returned
        rw [ec, er, if_pos rfl, hl, List.zip_append hl', returned_idle hl']
        rfl
      have et' : ∀ j, j ≠ i → returned j (tr ++ (some (Ev.ret (C := C) i r)).toList) = returned j tr := fun j e => by
        unfold returned
        rw [ec, er, if_neg (Ne.symm e), List.append_nil]
      refine ⟨a, ih1, ih2, fun j => ?_, fun j hj => ?_, fun j c' p hj => ?_⟩
      · by_cases e : j = i
        · subst e; rw [et]; exact hp.2
        · rw [et' j e]; exact ih3 j
      · dsimp only at hj
        rw [ec, er]
        by_cases e : j = i
        · subst e
          rw [hl, if_pos rfl, List.length_append, List.length_append, hl']
          exact ⟨hp.1, rfl⟩
        · rw [upd_other _ _ e] at hj
          rw [if_neg (Ne.symm e), List.append_nil]
          exact ih4 j hj
      · dsimp only at hj
        by_cases e : j = i
        · subst e; rw [upd_same] at hj; cases hj
        · rw [upd_other _ _ e] at hj
          rw [ec, er, et' j e, if_neg (Ne.symm e), List.append_nil]
          exact ih5 j c' p hj

end Conc
end SyncStream
