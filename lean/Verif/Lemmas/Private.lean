import Verif.Lemmas.Rely
import Verif.Spec.FileShared
/-!
# What a thread has for itself

If nobody else changes what belongs to a thread, its calls can be followed one after the other.
-/

namespace SyncStream

namespace Prog
variable {σ L α β : Type}

/-- All values that the program returns satisfy `K`. -/
def Yields (K : α → Prop) : Prog σ L α → Prop
  | ret a => K a
  | raise _ => True
  | act _ k => ∀ s, (k s).Yields K
  | acq _ _ k => k.Yields K
  | rel _ _ k => k.Yields K

theorem Yields.bind {K : β → Prop} {p : Prog σ L α} {g : α → Prog σ L β} (hg : ∀ a, (g a).Yields K) :
    (p >>= g).Yields K := by
  change (p.bind g).Yields K
  induction p with
  | ret a => exact hg a
  | raise e => trivial
  | act f k ih => exact fun s => ih s
  | acq l w k ih => exact ih
  | rel l w k ih => exact ih

theorem Yields.onPart {τ L' : Type} {get : τ → σ} {set : σ → τ → τ} {ren : L → L'} {K : α → Prop} {p : Prog σ L α}
    (h : p.Yields K) : (p.onPart get set ren).Yields K := by
  induction p with
  | ret a => exact h
  | raise e => trivial
  | act f k ih => exact fun t => ih _ (h _)
  | acq l w k ih => exact ih h
  | rel l w k ih => exact ih h

end Prog

namespace Spec
variable {C R : Type}

theorem callsOf_snoc (i : Nat) (tr : List (Ev C R)) (e : Ev C R) :
    callsOf i (tr ++ [e]) = callsOf i tr ++ match e with
      | .inv j c => if j = i then [c] else []
      | .ret _ _ => [] := by
  induction tr with
  | nil => cases e <;> simp [callsOf]
  | cons x tr ih =>
    cases x with
    | inv j c =>
      simp only [List.cons_append, callsOf]
      split <;> simp [ih]
    | ret j r => simpa only [List.cons_append, callsOf] using ih

theorem resultsOf_snoc (i : Nat) (tr : List (Ev C R)) (e : Ev C R) :
    resultsOf i (tr ++ [e]) = resultsOf i tr ++ match e with
      | .inv _ _ => []
      | .ret j r => if j = i then [r] else [] := by
  induction tr with
  | nil => cases e <;> simp [resultsOf]
  | cons x tr ih =>
    cases x with
    | ret j c =>
      simp only [List.cons_append, resultsOf]
      split <;> simp [ih]
    | inv j r => simpa only [List.cons_append, resultsOf] using ih

end Spec

namespace Conc
open Prog Spec
variable {σ L O C R : Type} [DecidableEq L] {sys : Sys σ L O C R} {G : σ → σ → Prop}

/-- What is known of the calls of thread `i` after the observation `tr`. -/
structure Followed (sys : Sys σ L O C R) (G : σ → σ → Prop) (i : Nat) (K : Nat → O → Prop)
    (Inv : List (C × R) → O → σ → Prop) (tr : List (Ev C R)) (κ : Conf σ L O C R) : Prop where
  objs : ∀ j, K j (κ.obj j)
  yields : ∀ j c p, κ.cur j = some (c, p) → p.Yields fun x => K j x.2
  guar : ∀ j c p, j ≠ i → κ.cur j = some (c, p) → p.Guar G
  idle : κ.cur i = none → (callsOf i tr).length = (resultsOf i tr).length ∧
    Inv ((callsOf i tr).zip (resultsOf i tr)) (κ.obj i) κ.st
  busy : ∀ c p, κ.cur i = some (c, p) → ∃ cs, callsOf i tr = cs ++ [c] ∧ cs.length = (resultsOf i tr).length ∧
    p.Meets G (fun x t => ∃ r o, x = .ok (r, o) ∧ Inv (cs.zip (resultsOf i tr) ++ [(c, r)]) o t) κ.st

/-- The invariant `Inv` of thread `i`, on its finished calls, its object and the state, holds whenever it is idle,
if its calls preserve it while the others do what they like within `G`. -/
theorem exec_private (hG : Steady G) {i : Nat} {K : Nat → O → Prop} {Inv : List (C × R) → O → σ → Prop}
    (hyield : ∀ j o c, sys.ok j c → K j o → (sys.call j o c).Yields fun x => K j x.2)
    (hguar : ∀ j o c, j ≠ i → sys.ok j c → K j o → (sys.call j o c).Guar G)
    (hinv : ∀ h o s t, Inv h o s → G s t → Inv h o t)
    (hcall : ∀ h o c s, sys.ok i c → K i o → Inv h o s →
      (sys.call i o c).Meets G (fun x t => ∃ r o', x = .ok (r, o') ∧ Inv (h ++ [(c, r)]) o' t) s)
    {s : σ} {obj : Nat → O} (hobj : ∀ j, K j (obj j)) (h0 : Inv [] (obj i) s) {tr : List (Ev C R)}
    {κ : Conf σ L O C R} (hx : Exec sys (init s obj) tr κ) : Followed sys G i K Inv tr κ := by
  generalize hk : (init s obj : Conf σ L O C R) = κ₀ at hx
  induction hx with
  | nil =>
    subst hk
    exact ⟨hobj, fun _ _ _ h => (nomatch h), fun _ _ _ _ h => (nomatch h), fun _ => ⟨rfl, h0⟩, fun _ _ h => (nomatch h)⟩
  | snoc κ1 κ2 tr e h1 h2 ih =>
    cases h2 with
    | inv j c hj hok =>
      show Followed sys G i K Inv (tr ++ [.inv j c]) _
      by_cases hji : j = i
      · subst hji
        obtain ⟨l1, l2⟩ := ih.idle hj
        refine ⟨ih.objs, ?_, ?_, ?_, ?_⟩
        · intro m c' p hm
          by_cases hmj : m = j
          · subst hmj
            dsimp only at hm
            rw [upd_same] at hm
            cases hm
            exact hyield _ _ _ hok (ih.objs _)
          · dsimp only at hm
            rw [upd_other _ _ hmj] at hm
            exact ih.yields _ _ _ hm
        · intro m c' p hmj hm
          dsimp only at hm
          rw [upd_other _ _ hmj] at hm
          exact ih.guar _ _ _ hmj hm
        · intro hm
          dsimp only at hm
          rw [upd_same] at hm
          cases hm
        · intro c' p hm
          dsimp only at hm
          rw [upd_same] at hm
          cases hm
          refine ⟨callsOf j tr, ?_, ?_, ?_⟩
          · rw [callsOf_snoc]; simp
          · rw [resultsOf_snoc]; simpa using l1
          · rw [resultsOf_snoc, List.append_nil]
            exact hcall _ _ _ _ hok (ih.objs _) l2
      · have hij : i ≠ j := fun e => hji e.symm
        have e1 : callsOf i (tr ++ [.inv j c]) = callsOf i tr := by rw [callsOf_snoc]; simp [hji]
        have e2 : resultsOf i (tr ++ [.inv j c]) = resultsOf i tr := by rw [resultsOf_snoc]; simp
        refine ⟨ih.objs, ?_, ?_, ?_, ?_⟩
        · intro m c' p hm
          by_cases hmj : m = j
          · subst hmj
            dsimp only at hm
            rw [upd_same] at hm
            cases hm
            exact hyield _ _ _ hok (ih.objs _)
          · dsimp only at hm
            rw [upd_other _ _ hmj] at hm
            exact ih.yields _ _ _ hm
        · intro m c' p hmi hm
          by_cases hmj : m = j
          · subst hmj
            dsimp only at hm
            rw [upd_same] at hm
            cases hm
            exact hguar _ _ _ hmi hok (ih.objs _)
          · dsimp only at hm
            rw [upd_other _ _ hmj] at hm
            exact ih.guar _ _ _ hmi hm
        · intro hm
          rw [e1, e2]
          dsimp only at hm
          rw [upd_other _ _ hij] at hm
          exact ih.idle hm
        · intro c' p hm
          rw [e1, e2]
          dsimp only at hm
          rw [upd_other _ _ hij] at hm
          exact ih.busy _ _ hm
    | act j c f k hj =>
      show Followed sys G i K Inv (tr ++ []) _
      rw [List.append_nil]
      by_cases hji : j = i
      · subst hji
        obtain ⟨cs, l1, l2, l3⟩ := ih.busy _ _ hj
        refine ⟨ih.objs, ?_, ?_, ?_, ?_⟩
        · intro m c' p hm
          by_cases hmj : m = j
          · subst hmj
            dsimp only at hm
            rw [upd_same] at hm
            cases hm
            exact ih.yields _ _ _ hj _
          · dsimp only at hm
            rw [upd_other _ _ hmj] at hm
            exact ih.yields _ _ _ hm
        · intro m c' p hmj hm
          dsimp only at hm
          rw [upd_other _ _ hmj] at hm
          exact ih.guar _ _ _ hmj hm
        · intro hm
          dsimp only at hm
          rw [upd_same] at hm
          cases hm
        · intro c' p hm
          dsimp only at hm
          rw [upd_same] at hm
          cases hm
          exact ⟨cs, l1, l2, l3 _ (hG.refl _)⟩
      · have hij : i ≠ j := fun e => hji e.symm
        have hg := ih.guar _ _ _ hji hj
        refine ⟨ih.objs, ?_, ?_, ?_, ?_⟩
        · intro m c' p hm
          by_cases hmj : m = j
          · subst hmj
            dsimp only at hm
            rw [upd_same] at hm
            cases hm
            exact ih.yields _ _ _ hj _
          · dsimp only at hm
            rw [upd_other _ _ hmj] at hm
            exact ih.yields _ _ _ hm
        · intro m c' p hmi hm
          by_cases hmj : m = j
          · subst hmj
            dsimp only at hm
            rw [upd_same] at hm
            cases hm
            exact hg.2 _
          · dsimp only at hm
            rw [upd_other _ _ hmj] at hm
            exact ih.guar _ _ _ hmi hm
        · intro hm
          dsimp only at hm
          rw [upd_other _ _ hij] at hm
          exact ⟨(ih.idle hm).1, hinv _ _ _ _ (ih.idle hm).2 (hg.1 _)⟩
        · intro c' p hm
          dsimp only at hm
          rw [upd_other _ _ hij] at hm
          obtain ⟨cs, l1, l2, l3⟩ := ih.busy _ _ hm
          exact ⟨cs, l1, l2, l3.later hG (hg.1 _)⟩
    | acq j c l w k hj hcan =>
      show Followed sys G i K Inv (tr ++ []) _
      rw [List.append_nil]
      refine ⟨ih.objs, ?_, ?_, ?_, ?_⟩
      · intro m c' p hm
        by_cases hmj : m = j
        · subst hmj
          dsimp only at hm
          rw [upd_same] at hm
          cases hm
          have := ih.yields _ _ _ hj; exact this
        · dsimp only at hm
          rw [upd_other _ _ hmj] at hm
          exact ih.yields _ _ _ hm
      · intro m c' p hmi hm
        by_cases hmj : m = j
        · subst hmj
          dsimp only at hm
          rw [upd_same] at hm
          cases hm
          have := ih.guar _ _ _ hmi hj; exact this
        · dsimp only at hm
          rw [upd_other _ _ hmj] at hm
          exact ih.guar _ _ _ hmi hm
      · intro hm
        by_cases hij : i = j
        · subst hij
          dsimp only at hm
          rw [upd_same] at hm
          cases hm
        · dsimp only at hm
          rw [upd_other _ _ hij] at hm
          exact ih.idle hm
      · intro c' p hm
        by_cases hij : i = j
        · subst hij
          dsimp only at hm
          rw [upd_same] at hm
          cases hm
          have := ih.busy _ _ hj; exact this
        · dsimp only at hm
          rw [upd_other _ _ hij] at hm
          exact ih.busy _ _ hm
    | rel j c l w k hj =>
      show Followed sys G i K Inv (tr ++ []) _
      rw [List.append_nil]
      refine ⟨ih.objs, ?_, ?_, ?_, ?_⟩
      · intro m c' p hm
        by_cases hmj : m = j
        · subst hmj
          dsimp only at hm
          rw [upd_same] at hm
          cases hm
          have := ih.yields _ _ _ hj; exact this
        · dsimp only at hm
          rw [upd_other _ _ hmj] at hm
          exact ih.yields _ _ _ hm
      · intro m c' p hmi hm
        by_cases hmj : m = j
        · subst hmj
          dsimp only at hm
          rw [upd_same] at hm
          cases hm
          have := ih.guar _ _ _ hmi hj; exact this
        · dsimp only at hm
          rw [upd_other _ _ hmj] at hm
          exact ih.guar _ _ _ hmi hm
      · intro hm
        by_cases hij : i = j
        · subst hij
          dsimp only at hm
          rw [upd_same] at hm
          cases hm
        · dsimp only at hm
          rw [upd_other _ _ hij] at hm
          exact ih.idle hm
      · intro c' p hm
        by_cases hij : i = j
        · subst hij
          dsimp only at hm
          rw [upd_same] at hm
          cases hm
          have := ih.busy _ _ hj; exact this
        · dsimp only at hm
          rw [upd_other _ _ hij] at hm
          exact ih.busy _ _ hm
    | ret j c r o hj =>
      show Followed sys G i K Inv (tr ++ [.ret j r]) _
      have hobj' : ∀ m, K m (upd κ1.obj j o m) := fun m => by
        by_cases hmj : m = j
        · subst hmj
          rw [upd_same]
          exact ih.yields _ _ _ hj
        · rw [upd_other _ _ hmj]
          exact ih.objs m
      have hne : ∀ m c' p, upd κ1.cur j none m = some (c', p) → m ≠ j ∧ κ1.cur m = some (c', p) := by
        intro m c' p hm
        by_cases hmj : m = j
        · subst hmj
          rw [upd_same] at hm
          cases hm
        · rw [upd_other _ _ hmj] at hm
          exact ⟨hmj, hm⟩
      by_cases hji : j = i
      · subst hji
        obtain ⟨cs, l1, l2, l3⟩ := ih.busy _ _ hj
        obtain ⟨r', o', e, l4⟩ := l3 _ (hG.refl _)
        cases e
        refine ⟨hobj', fun m c' p hm => ih.yields _ _ _ (hne _ _ _ hm).2,
          fun m c' p hmi hm => ih.guar _ _ _ hmi (hne _ _ _ hm).2, fun _ => ?_, fun c' p hm => absurd rfl (hne _ _ _ hm).1⟩
        rw [callsOf_snoc, resultsOf_snoc]
        simp only [List.append_nil, if_true, l1, upd_same]
        refine ⟨by simp [l2], ?_⟩
        rw [List.zip_append l2]
        exact l4
      · have hij : i ≠ j := fun e => hji e.symm
        have e1 : callsOf i (tr ++ [.ret j r]) = callsOf i tr := by rw [callsOf_snoc]; simp
        have e2 : resultsOf i (tr ++ [.ret j r]) = resultsOf i tr := by rw [resultsOf_snoc]; simp [hji]
        refine ⟨hobj', fun m c' p hm => ih.yields _ _ _ (hne _ _ _ hm).2,
          fun m c' p hmi hm => ih.guar _ _ _ hmi (hne _ _ _ hm).2, fun hm => ?_, fun c' p hm => ?_⟩
        · dsimp only at hm
          rw [upd_other _ _ hij] at hm
          rw [e1, e2]
          dsimp only
          rw [upd_other _ _ hij]
          exact ih.idle hm
        · rw [e1, e2]
          exact ih.busy _ _ (hne _ _ _ hm).2

end Conc
end SyncStream
