import Verif.Spec.Atomic
/-!
# Showing that something cannot be observed of an atomic object

For an object whose calls are computed by a function, all states of the atomic object that a given
observation can lead to are enumerated; if there is none, the observation is impossible.
-/

namespace SyncStream.Spec

variable {A C R : Type}

/-- All states that calls taking effect can lead to; at most `k` of them take effect. -/
def clos (f : A → Nat → C → R × A) (n : Nat) : Nat → AConf A C R → List (AConf A C R)
  | 0, a => [a]
  | k + 1, a => a :: (List.range n).flatMap fun i =>
      match a.stat i with
      | .called c => clos f n k ⟨(f a.st i c).2, upd a.stat i (.done (f a.st i c).1)⟩
      | _ => []

/-- What an event does; `same` is true for equal results. -/
def event (same : R → R → Bool) (a : AConf A C R) : Ev C R → List (AConf A C R)
  | .inv i c => match a.stat i with
    | .idle => [{ a with stat := upd a.stat i (.called c) }]
    | _ => []
  | .ret i r => match a.stat i with
    | .done r' => if same r' r then [{ a with stat := upd a.stat i .idle }] else []
    | _ => []

/-- All states that an observation can lead to. -/
def reach (f : A → Nat → C → R × A) (same : R → R → Bool) (n : Nat) :
    List (Ev C R) → List (AConf A C R) → List (AConf A C R)
  | [], as => as
  | e :: tr, as => reach f same n tr ((as.flatMap fun a => event same a e).flatMap (clos f n n))

theorem reach_append (f : A → Nat → C → R × A) (same : R → R → Bool) (n : Nat) (tr tr' : List (Ev C R))
    (as : List (AConf A C R)) : reach f same n (tr ++ tr') as = reach f same n tr' (reach f same n tr as) := by
  induction tr generalizing as with
  | nil => rfl
  | cons e tr ih => exact ih _

/-- How many of the first `n` threads are in a call that has not taken effect. -/
def pending (s : Nat → Stat C R) : Nat → Nat
  | 0 => 0
  | n + 1 => pending s n + match s n with
    | .called _ => 1
    | _ => 0

theorem pending_le (s : Nat → Stat C R) (n : Nat) : pending s n ≤ n := by
  induction n with
  | zero => exact Nat.le_refl _
  | succ n ih => simp only [pending]; split <;> omega

theorem pending_upd_ge (s : Nat → Stat C R) (n i : Nat) (x : Stat C R) (h : n ≤ i) :
    pending (upd s i x) n = pending s n := by
  induction n with
  | zero => rfl
  | succ n ih => simp only [pending]; rw [ih (by omega), upd_other _ _ (by omega)]

theorem pending_done (s : Nat → Stat C R) (n i : Nat) (c : C) (r : R) (h : i < n) (hs : s i = .called c) :
    pending (upd s i (.done r)) n + 1 = pending s n := by
  induction n with
  | zero => omega
  | succ n ih =>
    simp only [pending]
    by_cases hi : i = n
    · subst hi; simp [pending_upd_ge _ i i _ (Nat.le_refl _), hs]
    · have := ih (by omega)
      have hn : n ≠ i := fun e => hi e.symm
      rw [upd_other _ _ hn]; omega

theorem self_mem_clos (f : A → Nat → C → R × A) (n k : Nat) (a : AConf A C R) : a ∈ clos f n k a := by
  cases k <;> simp [clos]

theorem clos_effect {f : A → Nat → C → R × A} {n k : Nat} {a b : AConf A C R} {i : Nat} {c : C} (hi : i < n)
    (hb : b ∈ clos f n k a) (hk : pending a.stat n ≤ k) (hc : b.stat i = .called c) :
    (⟨(f b.st i c).2, upd b.stat i (.done (f b.st i c).1)⟩ : AConf A C R) ∈ clos f n k a := by
  induction k generalizing a with
  | zero =>
    simp only [clos, List.mem_singleton] at hb
    subst hb
    have := pending_done b.stat n i c (f b.st i c).1 hi hc
    omega
  | succ k ih =>
    simp only [clos, List.mem_cons, List.mem_flatMap, List.mem_range] at hb ⊢
    rcases hb with rfl | ⟨j, hj, hb⟩
    · exact .inr ⟨i, hi, by rw [hc]; exact self_mem_clos ..⟩
    · refine .inr ⟨j, hj, ?_⟩
      cases hs : a.stat j with
      | called c' =>
        rw [hs] at hb
        refine ih hb ?_
        have := pending_done a.stat n j c' (f a.st j c').1 hj hs
        simp only
        omega
      | idle => rw [hs] at hb; cases hb
      | done => rw [hs] at hb; cases hb

/-- Only the threads below `n` are in calls. -/
def Below (n : Nat) (a : AConf A C R) : Prop := ∀ j c, a.stat j = .called c → j < n

/-- Every state that the observation can lead to is enumerated. -/
theorem mem_reach {spec : A → Nat → C → R → A → Prop} {f : A → Nat → C → R × A} {same : R → R → Bool}
    (hf : ∀ a i c r a', spec a i c r a' → f a i c = (r, a')) (hsame : ∀ r, same r r = true) {n : Nat} {s : A}
    {tr : List (Ev C R)} {a : AConf A C R} (hn : ∀ i c, Ev.inv i c ∈ tr → i < n)
    (hx : AExec spec ⟨s, fun _ => .idle⟩ tr a) :
    a ∈ reach f same n tr [⟨s, fun _ => .idle⟩] ∧ Below n a ∧
    ∀ b i c, b ∈ reach f same n tr [⟨s, fun _ => .idle⟩] → i < n → b.stat i = .called c →
      (⟨(f b.st i c).2, upd b.stat i (.done (f b.st i c).1)⟩ : AConf A C R) ∈
        reach f same n tr [⟨s, fun _ => .idle⟩] := by
  generalize h0 : (⟨s, fun _ => .idle⟩ : AConf A C R) = a0 at hx ⊢
  induction hx with
  | nil =>
    subst h0
    refine ⟨by simp [reach], fun j c h => (by cases h), fun b i c hb _ hc => ?_⟩
    simp only [reach, List.mem_singleton] at hb
    subst hb; cases hc
  | snoc a' a'' tr e h1 h2 ih =>
    obtain ⟨ih1, ih2, ih3⟩ := ih (fun i c h => hn i c (List.mem_append_left _ h))
    have hclosed : ∀ ev, ∀ b i c, b ∈ reach f same n (tr ++ [ev]) [a0] → i < n → b.stat i = .called c →
        (⟨(f b.st i c).2, upd b.stat i (.done (f b.st i c).1)⟩ : AConf A C R) ∈
          reach f same n (tr ++ [ev]) [a0] := by
      intro ev b i c hb hi hc
      rw [reach_append] at hb ⊢
      simp only [reach, List.mem_flatMap] at hb ⊢
      obtain ⟨x, hx, hb⟩ := hb
      exact ⟨x, hx, clos_effect hi hb (pending_le ..) hc⟩
    cases h2 with
    | inv i c hi =>
      refine ⟨?_, fun j c' hj => ?_, hclosed _⟩
      · rw [reach_append]
        simp only [reach, Option.toList, List.mem_flatMap]
        exact ⟨_, ⟨a', ih1, by simp only [event, hi]; exact List.mem_singleton_self _⟩, self_mem_clos ..⟩
      · by_cases hji : j = i
        · subst hji; exact hn j c (by simp)
        · simp only [upd_other _ _ hji] at hj; exact ih2 j c' hj
    | effect i c r st hi hsp =>
      simp only [Option.toList, List.append_nil]
      have e := hf _ _ _ _ _ hsp
      refine ⟨?_, fun j c' hj => ?_, ih3⟩
      · have := ih3 a' i c ih1 (ih2 i c hi) hi
        rw [e] at this; exact this
      · by_cases hji : j = i
        · subst hji; simp at hj
        · simp only [upd_other _ _ hji] at hj; exact ih2 j c' hj
    | ret i r hi =>
      refine ⟨?_, fun j c' hj => ?_, hclosed _⟩
      · rw [reach_append]
        simp only [reach, Option.toList, List.mem_flatMap]
        exact ⟨_, ⟨a', ih1, by simp only [event, hi, hsame]; exact List.mem_singleton_self _⟩, self_mem_clos ..⟩
      · by_cases hji : j = i
        · subst hji; simp at hj
        · simp only [upd_other _ _ hji] at hj; exact ih2 j c' hj

end SyncStream.Spec
