import Verif.Lemmas.Deadlock
import Verif.Lemmas.Sched
import Verif.Spec.Killed
/-!
# Killed processes: who can be in the way of whom
-/

namespace SyncStream
namespace Prog
variable {σ L α β : Type} {S : L → Prop}

/-- The locks that a program takes. -/
def Touches (S : L → Prop) : Prog σ L α → Prop
  | ret _ => True
  | raise _ => True
  | act _ k => ∀ s, (k s).Touches S
  | acq l _ k => S l ∧ k.Touches S
  | rel _ _ k => k.Touches S

theorem Touches.bind {p : Prog σ L α} {g : α → Prog σ L β} (hp : p.Touches S) (hg : ∀ a, (g a).Touches S) : (p >>= g).Touches S := by
  induction p with
  | ret a => exact hg a
  | raise e => trivial
  | act f k ih => exact fun s => ih s (hp s)
  | acq l w k ih => exact ⟨hp.1, ih hp.2⟩
  | rel l w k ih => exact ih hp

theorem Touches.outcome {p : Prog σ L α} (hp : p.Touches S) : p.outcome.Touches S := by
  induction p with
  | ret a => trivial
  | raise e => trivial
  | act f k ih => exact fun s => ih s (hp s)
  | acq l w k ih => exact ⟨hp.1, ih hp.2⟩
  | rel l w k ih => exact ih hp

theorem Touches.andRelease {p : Prog σ L α} {l : L} {w : Bool} (hp : p.Touches S) : (p.andRelease l w).Touches S := by
  induction p with
  | ret a => trivial
  | raise e => trivial
  | act f k ih => exact fun s => ih s (hp s)
  | acq l w k ih => exact ⟨hp.1, ih hp.2⟩
  | rel l w k ih => exact ih hp

theorem Touches.withLock {p : Prog σ L α} {l : L} {w : Bool} (hl : S l) (hp : p.Touches S) : (withLock l w p).Touches S :=
  ⟨hl, hp.andRelease⟩

theorem Touches.ret (a : α) : (Prog.ret a : Prog σ L α).Touches S := trivial
theorem Touches.pure (a : α) : (pure a : Prog σ L α).Touches S := trivial
theorem Touches.raise (e : Exc) : (Prog.raise e : Prog σ L α).Touches S := trivial

theorem Touches.atom (m : Py σ α) : (Prog.atom m : Prog σ L α).Touches S := fun s => by
  dsimp only
  split <;> trivial

theorem Touches.onPart {τ L' : Type} {get : τ → σ} {set : σ → τ → τ} {ren : L → L'} {S' : L' → Prop} {p : Prog σ L α}
    (hr : ∀ l, S l → S' (ren l)) (hp : p.Touches S) : (p.onPart get set ren).Touches S' := by
  induction p with
  | ret a => trivial
  | raise e => trivial
  | act f k ih => exact fun s => ih _ (hp _)
  | acq l w k ih => exact ⟨hr l hp.1, ih hp.2⟩
  | rel l w k ih => exact ih hp

end Prog

/-- Prove which locks a program takes by going through its text. -/
macro "touches" : tactic => `(tactic| repeat' first
  | exact Prog.Touches.ret _
  | exact Prog.Touches.pure _
  | exact Prog.Touches.raise _
  | exact Prog.Touches.atom _
  | assumption
  | with_reducible refine Prog.Touches.bind ?_ fun _ => ?_
  | split)

namespace Conc
open Spec
variable {σ L O C R : Type} [DecidableEq L] {sys : Sys σ L O C R}

/-- Thread `i` takes only locks with `S i`. -/
structure Within (S : Nat → L → Prop) (κ : Conf σ L O C R) : Prop where
  held : ∀ i l, κ.held i l ≠ [] → S i l
  cur : ∀ i c p, κ.cur i = some (c, p) → p.Touches (S i)

variable {S : Nat → L → Prop}

omit [DecidableEq L] in
theorem within_init (s : σ) (obj : Nat → O) : Within S (init s obj : Conf σ L O C R) := ⟨fun _ _ h => absurd rfl h, nofun⟩

theorem within_step (hs : ∀ i o c, sys.ok i c → (sys.call i o c).Touches (S i)) {κ κ' : Conf σ L O C R} {e : Option (Ev C R)}
    (h : Within S κ) (st : Step sys κ e κ') : Within S κ' := by
  have cu : ∀ (i : Nat) (x : Option (C × Prog σ L (R × O))), (∀ c p, x = some (c, p) → p.Touches (S i)) →
      ∀ j c p, upd κ.cur i x j = some (c, p) → p.Touches (S j) := by
    intro i x hx j c p hj
    by_cases hji : j = i
    · subst hji; rw [upd_same] at hj; exact hx c p hj
    · rw [upd_other _ _ hji] at hj; exact h.cur j c p hj
  cases st with
  | inv i c hc hok => exact ⟨h.held, cu i _ (by rintro _ _ ⟨⟩; exact hs i _ c hok)⟩
  | act i c f k hc => exact ⟨h.held, cu i _ (by rintro _ _ ⟨⟩; exact h.cur i _ _ hc _)⟩
  | acq i c l w k hc ht =>
    refine ⟨fun j l' hj => ?_, cu i _ (by rintro _ _ ⟨⟩; exact (h.cur i _ _ hc).2)⟩
    by_cases hji : j = i
    · subst hji
      dsimp only at hj
      rw [upd_same] at hj
      by_cases hl : l' = l
      · subst hl; exact (h.cur j _ _ hc).1
      · simp only [hl, if_false] at hj; exact h.held j l' hj
    · dsimp only at hj; rw [upd_other _ _ hji] at hj; exact h.held j l' hj
  | rel i c l w k hc =>
    refine ⟨fun j l' hj => ?_, cu i _ (by rintro _ _ ⟨⟩; exact (h.cur i _ _ hc : (Prog.rel l w k).Touches (S i)))⟩
    by_cases hji : j = i
    · subst hji
      dsimp only at hj
      rw [upd_same] at hj
      by_cases hl : l' = l
      · subst hl
        refine h.held j l' fun e => hj ?_
        simp [e]
      · simp only [hl, if_false] at hj; exact h.held j l' hj
    · dsimp only at hj; rw [upd_other _ _ hji] at hj; exact h.held j l' hj
  | ret i c r o hc => exact ⟨h.held, cu i _ nofun⟩

theorem within_exec (hs : ∀ i o c, sys.ok i c → (sys.call i o c).Touches (S i)) {κ κ' : Conf σ L O C R} {tr : List (Ev C R)}
    (h : Within S κ) (hx : Exec sys κ tr κ') : Within S κ' := by
  induction hx with
  | nil => exact h
  | snoc _ _ _ _ _ st ih => exact within_step hs ih st

omit [DecidableEq L] in
theorem not_smaller (x : Option (C × Prog σ L (R × O))) : ¬Smaller x x := fun h => by
  have := acc_smaller x
  induction this with
  | intro x _ ih => exact ih x h h

/-- Who does not move keeps what it holds. -/
theorem held_of_cur {κ κ' : Conf σ L O C R} {e : Option (Ev C R)} (st : Step sys κ e κ') {d : Nat} (h : κ'.cur d = κ.cur d) :
    κ'.held d = κ.held d := by
  cases st with
  | inv i c hc hok => rfl
  | act i c f k hc => rfl
  | acq i c l w k hc ht =>
    refine upd_other _ _ fun e => ?_
    subst e
    dsimp only at h
    rw [upd_same, hc] at h
    have h' : Smaller (some (c, k)) (some (c, Prog.acq l w k)) := .acq ..
    rw [h] at h'
    exact not_smaller _ h'
  | rel i c l w k hc =>
    refine upd_other _ _ fun e => ?_
    subst e
    dsimp only at h
    rw [upd_same, hc] at h
    have h' : Smaller (some (c, k)) (some (c, Prog.rel l w k)) := .rel ..
    rw [h] at h'
    exact not_smaller _ h'
  | ret i c r o hc => rfl

/-- Who does not move neither starts a call nor returns. -/
theorem silent_of_cur {κ κ' : Conf σ L O C R} {e : Option (Ev C R)} (st : Step sys κ e κ') {d : Nat} (h : κ'.cur d = κ.cur d) :
    (∀ c, e ≠ some (.inv d c)) ∧ ∀ r, e ≠ some (.ret d r) := by
  cases st with
  | inv i c hc hok =>
    refine ⟨fun c' e => ?_, nofun⟩
    cases e
    dsimp only at h
    rw [upd_same, hc] at h
    cases h
  | act i c f k hc => exact ⟨nofun, nofun⟩
  | acq i c l w k hc ht => exact ⟨nofun, nofun⟩
  | rel i c l w k hc => exact ⟨nofun, nofun⟩
  | ret i c r o hc =>
    refine ⟨nofun, fun r' e => ?_⟩
    cases e
    dsimp only at h
    rw [upd_same, hc] at h
    cases h

/-- One that can go on does a step, and nobody else moves. -/
theorem step_of_canGoOn_alone {κ : Conf σ L O C R} {i : Nat} (h : CanGoOn sys κ i) :
    ∃ e κ', Step sys κ e κ' ∧ (∀ j c, e ≠ some (.inv j c)) ∧ ∀ j, j ≠ i → κ'.cur j = κ.cur j := by
  obtain ⟨c, p, hc, hp⟩ := h
  cases p with
  | ret a => exact ⟨_, _, .ret κ i c a.1 a.2 hc, by simp, fun j hj => upd_other _ _ hj⟩
  | raise e => cases hp
  | act f g => exact ⟨_, _, .act κ i c f g hc, by simp, fun j hj => upd_other _ _ hj⟩
  | rel l w g => exact ⟨_, _, .rel κ i c l w g hc, by simp, fun j hj => upd_other _ _ hj⟩
  | acq l w k => exact ⟨_, _, .acq κ i c l w k hc hp, by simp, fun j hj => upd_other _ _ hj⟩

/-- The dead hold no lock that somebody alive may need. -/
def OutOfTheWay (S : Nat → L → Prop) (dead : Nat → Prop) (κ : Conf σ L O C R) : Prop :=
  ∀ d i l, dead d → ¬dead i → S i l → κ.held d l = []

variable {dead : Nat → Prop}

theorem outOfTheWay_step {κ κ' : Conf σ L O C R} {e : Option (Ev C R)} (h : OutOfTheWay S dead κ) (st : Step sys κ e κ')
    (hd : ∀ d, dead d → κ'.cur d = κ.cur d) : OutOfTheWay S dead κ' := fun d i l h1 h2 h3 => by
  rw [held_of_cur st (hd d h1)]
  exact h d i l h1 h2 h3

omit [DecidableEq L] in
theorem waits_live {κ : Conf σ L O C R} (hS : Within S κ) (h : OutOfTheWay S dead κ) {i j : Nat} (hi : ¬dead i)
    (hw : WaitsFor sys κ i j) : ¬dead j := by
  obtain ⟨c, l, w, k, h1, h2 | ⟨_, h2⟩⟩ := hw
  · rw [h2.1]; exact hi
  · intro hj
    rw [h j i l hj hi (hS.cur i _ _ h1).1] at h2
    rcases h2 with h2 | h2
    · cases h2
    · exact h2.2 rfl

omit [DecidableEq L] in
theorem chain_live {κ : Conf σ L O C R} (hS : Within S κ) (h : OutOfTheWay S dead κ) {i j : Nat} (hi : ¬dead i)
    (hw : Chain sys κ i j) : ¬dead j := by
  induction hw with
  | here => exact hi
  | next i j k h1 _ ih => exact ih (waits_live hS h hi h1)

variable {W : Rules σ L}

theorem completes_live (hs : RisingSys sys W) (hS : ∀ i o c, sys.ok i c → (sys.call i o c).Touches (S i)) {κ : Conf σ L O C R}
    (ha : Acc (Goes sys) κ) {n : Nat} (hn : ∀ i, n ≤ i → κ.cur i = none) (ht : Tended sys W κ) (hw : Within S κ)
    (ho : OutOfTheWay S dead κ) : ∃ κ', LiveRun sys dead κ κ' ∧ ∀ i, ¬dead i → κ'.cur i = none := by
  induction ha with
  | intro κ _ ih =>
    by_cases h : ∀ i, ¬dead i → κ.cur i = none
    · exact ⟨κ, .stop κ, h⟩
    · obtain ⟨i, hi⟩ := Classical.not_forall.mp h
      obtain ⟨hi1, hi2⟩ := Classical.not_imp.mp hi
      obtain ⟨j, hch, hj⟩ := waiting_ends ht hn hi2
      have hjl := chain_live hw ho hi1 hch
      obtain ⟨e, κ1, st, he, hoth⟩ := step_of_canGoOn_alone hj
      have hd : ∀ d, dead d → κ1.cur d = κ.cur d := fun d hd => hoth d fun e => hjl (e ▸ hd)
      obtain ⟨κ', r1, r2⟩ := ih κ1 ⟨e, st, he⟩ (fun i hi => by
        obtain ⟨j, h1, h2, h3⟩ := step_smaller st he
        by_cases hij : i = j
        · exact absurd (hn j (hij ▸ hi)) h1
        · rw [h3 i hij]; exact hn i hi) (tended_step hs ht st) (within_step hS hw st) (outOfTheWay_step ho st hd)
      exact ⟨κ', .step _ _ _ _ st hd he r1, r2⟩

/-- If the dead are not in the way, then those who are alive go on. -/
theorem alive_go_on (hs : RisingSys sys W) (hS : ∀ i o c, sys.ok i c → (sys.call i o c).Touches (S i)) {s : σ} (hJ : W.J s)
    {obj : Nat → O} {tr : List (Ev C R)} {κ : Conf σ L O C R} (hx : Exec sys (init s obj) tr κ) (ho : OutOfTheWay S dead κ) :
    AliveGoOn sys κ dead := by
  have ht := tended_exec hs (tended_init hJ obj) hx
  have hw := within_exec hS (within_init s obj) hx
  obtain ⟨n, hn⟩ := finitely_many hx fun _ => rfl
  have ha : Acc (Goes sys) κ := goes_acc hn
  refine ⟨fun i h1 h2 => ?_, completes_live hs hS ha hn ht hw ho, fun ⟨f, h0, h⟩ => no_infinite ha ⟨f, h0, fun n => ?_⟩⟩
  · obtain ⟨j, h3, h4⟩ := waiting_ends ht hn h2
    exact ⟨j, chain_live hw ho h1 h3, h3, h4⟩
  · obtain ⟨e, h1, _, h2⟩ := h n
    exact ⟨e, h1, h2⟩

/-! ## Executions with killed processes are executions -/

variable {proc : Nat → Nat} {remote : L → Prop}

theorem kexec_exec {x y : Conf σ L O C R × (Nat → Prop)} {tr : List (Ev C R)} (h : KExec sys proc remote x tr y) :
    Exec sys x.1 tr y.1 := by
  induction h with
  | nil => exact .nil _
  | snoc x' x'' tr e _ st ih =>
    cases st with
    | step κ κ' dead _ st hd => exact .snoc _ _ _ _ _ ih st
    | served κ dead d c l w k hd hr hc ht => exact .snoc _ _ _ _ none ih (.acq κ d c l w k hc ht)
    | kill κ dead p => rw [Option.toList_none, List.append_nil]; exact ih

/-- The dead stay dead. -/
theorem kstep_dead {x y : Conf σ L O C R × (Nat → Prop)} {e : Option (Ev C R)} (h : KStep sys proc remote x e y) {d : Nat}
    (hd : x.2 d) : y.2 d := by
  cases h with
  | step => exact hd
  | served => exact hd
  | kill => exact .inl hd

theorem kexec_dead {x y : Conf σ L O C R × (Nat → Prop)} {tr : List (Ev C R)} (h : KExec sys proc remote x tr y) {d : Nat}
    (hd : x.2 d) : y.2 d := by
  induction h with
  | nil => exact hd
  | snoc _ _ _ _ _ st ih => exact kstep_dead st ih

/-- All threads of a process die together. -/
theorem kexec_whole {x y : Conf σ L O C R × (Nat → Prop)} {tr : List (Ev C R)} (h : KExec sys proc remote x tr y)
    (h0 : ∀ i j, proc i = proc j → x.2 i → x.2 j) : ∀ i j, proc i = proc j → y.2 i → y.2 j := by
  induction h with
  | nil => exact h0
  | snoc _ _ _ _ _ st ih =>
    cases st with
    | step => exact ih
    | served => exact ih
    | kill κ dead p => exact fun i j e h => h.imp (ih i j e) fun h => e.symm.trans h

/-- The dead start nothing and return nothing. -/
theorem kstep_silent {x y : Conf σ L O C R × (Nat → Prop)} {e : Option (Ev C R)} (h : KStep sys proc remote x e y) {d : Nat}
    (hd : x.2 d) : (∀ c, e ≠ some (.inv d c)) ∧ ∀ r, e ≠ some (.ret d r) := by
  cases h with
  | step κ κ' dead e st h => exact silent_of_cur st (h d hd)
  | served => exact ⟨nofun, nofun⟩
  | kill => exact ⟨nofun, nofun⟩

theorem kexec_silent {x y : Conf σ L O C R × (Nat → Prop)} {tr : List (Ev C R)} (h : KExec sys proc remote x tr y) {d : Nat}
    (hd : x.2 d) : (∀ c, .inv d c ∉ tr) ∧ ∀ r, .ret d r ∉ tr := by
  induction h with
  | nil => exact ⟨nofun, nofun⟩
  | snoc x' x'' tr e h1 st ih =>
    obtain ⟨h2, h3⟩ := kstep_silent st (kexec_dead h1 hd)
    refine ⟨fun c hc => ?_, fun r hr => ?_⟩
    · rcases List.mem_append.mp hc with h | h
      · exact ih.1 c h
      · exact h2 c (by simpa [eq_comm] using h)
    · rcases List.mem_append.mp hr with h | h
      · exact ih.2 r h
      · exact h3 r (by simpa [eq_comm] using h)

/-- What a dead thread holds it holds for ever. -/
theorem kstep_holds {x y : Conf σ L O C R × (Nat → Prop)} {e : Option (Ev C R)} (h : KStep sys proc remote x e y) {d : Nat} {l : L}
    (hd : x.2 d) (hl : true ∈ x.1.held d l) : true ∈ y.1.held d l := by
  cases h with
  | step κ κ' dead e st h => dsimp only at hd hl ⊢; rw [held_of_cur st (h d hd)]; exact hl
  | served κ dead j c l' w k hj hr hc ht =>
    dsimp only at hd hl ⊢
    by_cases e : d = j
    · subst e
      rw [upd_same]
      by_cases e : l = l'
      · subst e; rw [if_pos rfl]; exact List.mem_cons_of_mem _ hl
      · rw [if_neg e]; exact hl
    · rw [upd_other _ _ e]; exact hl
  | kill => exact hl

theorem kexec_holds {x y : Conf σ L O C R × (Nat → Prop)} {tr : List (Ev C R)} (h : KExec sys proc remote x tr y) {d : Nat} {l : L}
    (hd : x.2 d) (hl : true ∈ x.1.held d l) : true ∈ y.1.held d l := by
  induction h with
  | nil => exact hl
  | snoc _ _ _ _ h1 st ih => exact kstep_holds st (kexec_dead h1 hd) ih

/-- Who waits for a lock that another one holds stays where it is. -/
theorem step_waits {κ κ' : Conf σ L O C R} {e : Option (Ev C R)} (st : Step sys κ e κ') {d i : Nat} {c : C} {l : L} {w : Bool}
    {k : Prog σ L (R × O)} (hne : d ≠ i) (hl : true ∈ κ.held d l) (hc : κ.cur i = some (c, .acq l w k)) :
    κ'.cur i = some (c, .acq l w k) := by
  have ot : ∀ (j : Nat) x, (j = i → False) → upd κ.cur j x i = some (c, .acq l w k) := fun j x h => by
    rw [upd_other _ _ fun e => h e.symm]; exact hc
  cases st with
  | inv j c' hj hok => exact ot j _ fun e => by subst e; rw [hc] at hj; cases hj
  | act j c' f g hj => exact ot j _ fun e => by subst e; rw [hc] at hj; cases hj
  | acq j c' l' w' g hj ht =>
    refine ot j _ fun e => ?_
    subst e
    rw [hc] at hj
    cases hj
    exact (ht.2 d hne).1 hl
  | rel j c' l' w' g hj => exact ot j _ fun e => by subst e; rw [hc] at hj; cases hj
  | ret j c' r o hj => exact ot j _ fun e => by subst e; rw [hc] at hj; cases hj

theorem kstep_waits {x y : Conf σ L O C R × (Nat → Prop)} {e : Option (Ev C R)} (h : KStep sys proc remote x e y) {d i : Nat} {c : C}
    {l : L} {w : Bool} {k : Prog σ L (R × O)} (hne : d ≠ i) (hl : true ∈ x.1.held d l)
    (hc : x.1.cur i = some (c, .acq l w k)) : y.1.cur i = some (c, .acq l w k) := by
  cases h with
  | step κ κ' dead e st h => exact step_waits st hne hl hc
  | served κ dead j c l' w k hj hr hj' ht => exact step_waits (.acq κ j c l' w k hj' ht) hne hl hc
  | kill => exact hc

/-! ## Executions put together -/

theorem kexec_append {x y z : Conf σ L O C R × (Nat → Prop)} {tr tr' : List (Ev C R)} (h : KExec sys proc remote x tr y)
    (h' : KExec sys proc remote y tr' z) : KExec sys proc remote x (tr ++ tr') z := by
  induction h' with
  | nil => rw [List.append_nil]; exact h
  | snoc _ _ _ _ _ st ih => rw [← List.append_assoc]; exact .snoc _ _ _ _ _ ih st

theorem kexec_one {x y : Conf σ L O C R × (Nat → Prop)} {e : Option (Ev C R)} (h : KStep sys proc remote x e y) :
    KExec sys proc remote x e.toList y := .snoc _ _ _ _ _ (.nil x) h

/-- Who moves. -/
def Move.by : Move C → Nat
  | .start i _ => i
  | .go i => i

theorem move_others {n : Nat} {κ κ' : Conf σ L O C R} {m : Move C} {e : Option (Ev C R)} {re : L → Bool}
    (h : move sys n κ re m = some (e, κ')) {j : Nat} (hj : j ≠ m.by) : κ'.cur j = κ.cur j := by
  unfold move at h
  repeat' split at h
  all_goals first
    | (cases h; done)
    | (cases h; exact upd_other _ _ hj)

/-- Moves of those who are alive. -/
theorem kexec_moves {n : Nat} {κ κ' : Conf σ L O C R} {ms : List (Move C)} {tr : List (Ev C R)} {re : L → Bool}
    (h : moves sys n ms κ re = some (tr, κ')) (hm : ∀ m ∈ ms, ∀ i c, m = .start i c → sys.ok i c) (hf : Free n κ) (hre : ∀ l, re l = true → sys.reentrant l)
    (hd : ∀ m ∈ ms, ¬dead m.by) : KExec sys proc remote (κ, dead) tr (κ', dead) ∧ Free n κ' := by
  induction ms generalizing κ tr with
  | nil => cases h; exact ⟨.nil _, hf⟩
  | cons m ms ih =>
    simp only [moves] at h
    split at h
    · cases h
    · rename_i e κ1 h1
      split at h
      · cases h
      · rename_i tr' κ2 h2
        cases h
        obtain ⟨h3, h4⟩ := move_sound (hm m (List.mem_cons_self ..)) hf h1 hre
        obtain ⟨h5, h6⟩ := ih h2 (fun m hm' => hm m (List.mem_cons_of_mem _ hm')) h4 fun m hm' => hd m (List.mem_cons_of_mem _ hm')
        refine ⟨kexec_append (kexec_one (.step _ _ _ _ h3 fun d hdd => ?_)) h5, h6⟩
        exact move_others h1 fun e => hd m (List.mem_cons_self ..) (e ▸ hdd)

/-- The server takes a lock for a dead thread. -/
theorem kexec_served {x : Conf σ L O C R × (Nat → Prop)} {tr : List (Ev C R)} {n : Nat} {κ : Conf σ L O C R} {d : Nat} {c : C} {l : L} {w : Bool}
    {k : Prog σ L (R × O)} (hx : KExec sys proc remote x tr (κ, dead)) (hf : Free n κ) (hn : d < n) (hd : dead d) (hr : remote l)
    (hc : κ.cur d = some (c, .acq l w k)) (ht : CanTake sys κ d l w) :
    KExec sys proc remote x tr ({ κ with
        held := upd κ.held d fun l' => if l' = l then w :: κ.held d l else κ.held d l'
        cur := upd κ.cur d (some (c, k)) }, dead) ∧
      Free n { κ with
        held := upd κ.held d fun l' => if l' = l then w :: κ.held d l else κ.held d l'
        cur := upd κ.cur d (some (c, k)) } := by
  have := kexec_append hx (kexec_one (.served κ dead d c l w k hd hr hc ht))
  rw [Option.toList_none, List.append_nil] at this
  refine ⟨this, fun j l' hj => ?_⟩
  dsimp only
  rw [upd_other _ _ (by omega)]
  exact hf j l' hj

end Conc
end SyncStream
