import Verif.Lemmas.ProcCount
import Verif.Lemmas.Sched
/-!
# Counting the mirrors in use: C63
-/

namespace SyncStream
open Conc Prog Spec

/-! ## C63 -/

/-- The main process takes a mirror in one thread while it receives in another: the thread that takes the mirror reads
`n_mirrors`, the end signal of the mirror in use is counted, and then the old number plus one is stored. One mirror is
in use and `n_mirrors` is 2: a `wait()` does not return when that mirror is closed. -/
theorem C63_violated : ¬ ∀ (lk : MProg MLock) (proc : Nat → Nat) (w : PWorld) (tr : List (Ev PCall PRet))
    (κ : Conc.Conf PWorld PLock Unit PCall PRet), (∀ m ∈ waiting w, m ≠ .stop) →
    Exec (procThreads lk proc fun _ c => OfMain c) (init w fun _ => ()) tr κ → (∀ i, κ.cur i = none) →
    Counted w tr κ.st := by
  intro h
  let w : PWorld := ⟨{ base := { storage := { maxlen := 9 } }, nMirrors := 1 }, fun _ => { mirror := .new 0 },
    { queues := fun _ => [.close] }⟩
  let ms : List (Move PCall) := .start 0 (.take 1) :: .go 0 :: .start 1 .receive :: List.replicate 8 (.go 1) ++
    List.replicate 3 (.go 0)
  obtain ⟨tr, κ, e, h0, h1, hc, hq, ht⟩ : ∃ tr κ, moves (procThreads MThr.lazyLock id fun _ c => OfMain c) 2 ms
      (init w fun _ => ()) (fun | .buf _ _ => true | _ => false) = some (tr, κ) ∧ κ.cur 0 = none ∧ κ.cur 1 = none ∧
      κ.st.main.nMirrors = 2 ∧ waiting κ.st = [] ∧ taken tr = 1 := ⟨_, _, rfl, rfl, rfl, rfl, rfl, rfl⟩
  have hx := moves_sound (sys := procThreads MThr.lazyLock id fun _ c => OfMain c) (ms := ms) (n := 2)
    (re := fun | .buf _ _ => true | _ => false) (fun m hm i c e => ?_) (fun _ _ _ => rfl) e ?_
  · have hi : ∀ i, κ.cur i = none := by
      intro i
      match i with
      | 0 => exact h0
      | 1 => exact h1
      | i + 2 => exact moves_idle e (Nat.le_add_left 2 i) rfl
    have := h _ _ w tr κ (fun m hm => by rcases List.mem_singleton.1 hm with rfl; nofun) hx hi
    unfold Counted at this
    rw [hc, hq, ht] at this
    revert this
    decide
  · subst e
    simp [ms] at hm
    rcases hm with ⟨-, rfl⟩ | ⟨-, rfl⟩ <;> trivial
  · intro l hl
    cases l with
    | buf p k => exact ⟨p, k, rfl⟩
    | _ => cases hl

variable {lk : MProg MLock} {proc : Nat → Nat} {ok : Nat → PCall → Prop} {w : PWorld}
  {κ : Conc.Conf PWorld PLock Unit PCall PRet} {tr : List (Ev PCall PRet)}

/-- **C63** if the mirrors are taken by the thread that receives, whatever the other threads do with the buffer. What is
missing: threads that take mirrors while another receives, for which it fails (`C63_violated`). -/
theorem C63_one_thread_partial (t : Nat) (hok : ∀ i c, ok i c → OfMain c)
    (ht : ∀ i, ok i .receive → i = t) (ht' : ∀ i p, ok i (.take p) → i = t) (hw : ∀ m ∈ waiting w, m ≠ .stop)
    (h : Exec (procThreads lk proc ok) (init w fun _ => ()) tr κ) (hi : κ.cur t = none) : Counted w tr κ.st := by
  have hx := (exec_owns (v := PThr.count) (t := t)
    (P := fun cs x => PThr.Right (w.main.nMirrors - ends (waiting w) + takes cs) x) (fun i o c hc hne => ?_)
    (fun o c cs x hc hx => ?_) ⟨hw, ?_⟩ h).2.1 hi
  · have := hx.2
    rw [← taken_callsBy t tr fun i p hm => ht' i p (exec_ok h i _ hm)] at this
    show κ.st.main.nMirrors = _
    have e : κ.st.main.nMirrors = w.main.nMirrors - ends (waiting w) + taken tr + ends (waiting κ.st) := this
    omega
  · cases c with
    | mirror c => exact (hok i _ hc).elim
    | take p => exact absurd (ht' i p hc) hne
    | receive => exact absurd (ht i hc) hne
    | stopAll => exact .bind (PThr.leaves_stopAll lk _).guar fun _ => trivial
    | forceStop => exact (hok i _ hc).elim
    | reset => exact (hok i _ hc).elim
    | buffer c => exact .bind (PThr.leaves_buffer lk _ c).guar fun _ => trivial
  · have same : takes [c] = 0 → PThr.Right (w.main.nMirrors - ends (waiting w) + takes (cs ++ [c])) x := fun h => by
      rw [takes_snoc, h, Int.add_zero]
      exact hx
    cases c with
    | mirror c => exact (hok t _ hc).elim
    | take p =>
      refine .bind ((PThr.owns_take lk _ p _ x hx).mono fun r y hy => ?_)
      have : PThr.Right (w.main.nMirrors - ends (waiting w) + takes (cs ++ [.take p])) y := by
        rw [takes_snoc]
        show PThr.Right (_ + (_ + (0 + 1))) y
        rw [Int.zero_add, ← Int.add_assoc]
        exact hy
      cases r <;> exact this
    | receive =>
      refine .bind ((PThr.owns_receive lk _ _ x (same rfl)).mono fun r y hy => ?_)
      cases r <;> exact hy
    | stopAll =>
      refine .bind (((Inside.leaves (PThr.leaves_stopAll lk _) x).owns).mono fun r y hy => ?_)
      subst hy
      cases r <;> exact same rfl
    | forceStop => exact (hok t _ hc).elim
    | reset => exact (hok t _ hc).elim
    | buffer c =>
      refine .bind (((Inside.leaves (PThr.leaves_buffer lk _ c) x).owns).mono fun r y hy => ?_)
      subst hy
      cases r <;> exact same rfl
  · show w.main.nMirrors = w.main.nMirrors - ends (waiting w) + 0 + ends (waiting w)
    omega

/-- **C63** for any number of threads that receive, as long as no mirror is taken: no end signal is lost, since the
threads count them under `__config_lock`. What is missing: threads that take mirrors. -/
theorem C63_receivers_partial (hok : ∀ i c, ok i c → OfMain c) (ht : ∀ i p, ¬ ok i (.take p))
    (hw : ∀ m ∈ waiting w, m ≠ .stop)
    (h : Exec (procThreads lk proc ok) (init w fun _ => ()) tr κ) (hi : ∀ i, κ.cur i = none) : Counted w tr κ.st := by
  have hx := exec_keeps (v := PThr.count) (S := .config) (I := PThr.Right (w.main.nMirrors - ends (waiting w)))
    (fun i o c hc => ?_) ⟨hw, ?_⟩ h
  · have := (hx.part fun i => hx.idle i (hi i)).2
    have e : κ.st.main.nMirrors = w.main.nMirrors - ends (waiting w) + ends (waiting κ.st) := this
    unfold Counted
    rw [taken_none tr fun i p hm => ht i p (exec_ok h i _ hm)]
    omega
  · cases c with
    | mirror c => exact (hok i _ hc).elim
    | take p => exact absurd hc (ht i p)
    | receive =>
      refine .bind ((PThr.keeps_receive lk _ _).mono fun r y hy => ?_)
      cases r <;> exact hy
    | stopAll => exact .bind ((Keeps.leaves (PThr.leaves_stopAll lk _) none (Q := fun _ h => h = none) fun _ => rfl).mono
      fun r y hy => by cases r <;> exact hy)
    | forceStop => exact (hok i _ hc).elim
    | reset => exact (hok i _ hc).elim
    | buffer c => exact .bind ((Keeps.leaves (PThr.leaves_buffer lk _ c) none (Q := fun _ h => h = none) fun _ => rfl).mono
      fun r y hy => by cases r <;> exact hy)
  · show w.main.nMirrors = w.main.nMirrors - ends (waiting w) + ends (waiting w)
    omega

/-- One thread takes two mirrors and receives what they sent; the count comes back to 1. -/
example : ∃ tr κ, Exec (procThreads MThr.lazyLock id fun _ c => OfMain c)
      (init ⟨{ base := { storage := { maxlen := 9 } } }, fun _ => { mirror := .new 0 },
        { queues := fun _ => [.str (lit "a\n"), .close] }⟩ fun _ => ()) tr κ ∧
    taken tr = 2 ∧ κ.st.main.nMirrors = 1 ∧ waiting κ.st = [] := by
  refine ⟨_, _, moves_sound (re := fun | .buf _ _ => true | _ => false)
    (ms := .start 0 (.take 1) :: List.replicate 4 (.go 0) ++ .start 0 (.take 2) :: List.replicate 4 (.go 0) ++
      .start 0 .receive :: List.replicate 15 (.go 0) ++ .start 0 .receive :: List.replicate 8 (.go 0))
    (n := 1) (fun m hm i c e => ?_) (fun _ _ _ => rfl) rfl ?_, rfl, rfl, rfl⟩
  · subst e
    simp at hm
    rcases hm with ⟨-, rfl⟩ | ⟨-, rfl⟩ | ⟨-, rfl⟩ <;> trivial
  · intro l hl
    cases l with
    | buf p k => exact ⟨p, k, rfl⟩
    | _ => cases hl

/-- Two threads receive the end signals of two mirrors at the same time. -/
example : ∃ tr κ, Exec (procThreads MThr.lazyLock id fun _ c => OfMain c)
      (init ⟨{ base := { storage := { maxlen := 9 } }, nMirrors := 2 }, fun _ => { mirror := .new 0 },
        { queues := fun _ => [.error ⟨.str (lit "error"), [.str (lit "E")]⟩, .close] }⟩ fun _ => ()) tr κ ∧
    tr = [.inv 0 .receive, .inv 1 .receive, .ret 0 (.main (.bool true)), .ret 1 (.main (.bool false))] ∧
    κ.st.main.nMirrors = 0 ∧ waiting κ.st = [] := by
  refine ⟨_, _, moves_sound (re := fun | .buf _ _ => true | _ => false)
    (ms := .start 0 .receive :: .start 1 .receive :: List.replicate 9 (.go 0) ++ List.replicate 8 (.go 1))
    (n := 2) (fun m hm i c e => ?_) (fun _ _ _ => rfl) rfl ?_, rfl, rfl, rfl⟩
  · subst e
    simp at hm
    rcases hm with ⟨-, rfl⟩ | ⟨-, rfl⟩ <;> trivial
  · intro l hl
    cases l with
    | buf p k => exact ⟨p, k, rfl⟩
    | _ => cases hl

end SyncStream
