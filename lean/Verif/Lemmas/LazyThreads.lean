import Verif.Lemmas.LockProtocol
import Verif.Spec.LazyThreads
/-!
# What threads that use lazy modules know

For newer versions of Python: who is loading a module holds its lock.
-/

namespace SyncStream.LazyThreads
open Prog Conc Spec
variable {α β : Type}

/-- What a thread that holds the lock of a module has seen: that its class is `importlib.util._LazyModule`, that it is not being loaded; and that
it has itself set `is_loading`. -/
inductive Phase where
  | none
  | seen (i : Nat)
  | fresh (i : Nat)
  | starting (i : Nat)

/-- The stage of a thread: the modules whose code it is running (`run`), those it knows to have ended (`known`) and to have been loaded
(`fin`). -/
structure Stage where
  phase : Phase
  run : List Nat
  known : List Nat
  fin : List Nat

/-- What the phase says of the state. -/
def Phase.Ok (h : Nat → List Bool) (s : LTWorld) : Phase → Prop
  | none => True
  | seen i => true ∈ h i ∧ (s.objs i).cls = .imp
  | fresh i => true ∈ h i ∧ (s.objs i).cls = .imp ∧ (s.objs i).loading = false
  | starting i => true ∈ h i ∧ (s.objs i).cls = .imp ∧ (s.objs i).loading = true ∧ i ∉ s.started

/-- What the stage says of the state. -/
structure Stage.Ok (x : Stage) (h : Nat → List Bool) (s : LTWorld) : Prop where
  phase : x.phase.Ok h s
  run : ∀ i ∈ x.run, true ∈ h i ∧ (s.objs i).cls = .imp ∧ (s.objs i).loading = true
  known : ∀ i ∈ x.known, i ∈ s.finished ∨ i ∈ s.failed
  fin : ∀ i ∈ x.fin, i ∈ s.finished ∧ (s.objs i).loading = true ∧ ((s.objs i).cls = .imp ∨ (s.objs i).cls = .plain)

/-- What a thread may do. -/
inductive Stage.T (x : Stage) (h : Nat → List Bool) (s : LTWorld) : LTWorld → Stage → Prop
  | quiet (t : LTWorld) : t.started = s.started → t.finished = s.finished → t.failed = s.failed →
      (∀ i, (t.objs i).loading = (s.objs i).loading) → (∀ i, (t.objs i).cls = (s.objs i).cls ∨ (t.objs i).cls = .imp) → T x h s t x
  | forget (i : Nat) : x.phase = .seen i → T x h s s { x with phase := .none }
  | see (i : Nat) : x.phase = .none → true ∈ h i → (s.objs i).cls = .imp → T x h s s { x with phase := .seen i }
  | find (i : Nat) : x.phase = .seen i → (s.objs i).loading = false → T x h s s { x with phase := .fresh i }
  | mark (i : Nat) (t : LTWorld) : x.phase = .fresh i → t.started = s.started → t.finished = s.finished → t.failed = s.failed →
      (∀ j, (t.objs j).cls = (s.objs j).cls) → (∀ j, j ≠ i → (t.objs j).loading = (s.objs j).loading) →
      (t.objs i).loading = true → T x h s t { x with phase := .starting i }
  | start (i : Nat) : x.phase = .starting i →
      T x h s { s with started := s.started ++ [i] } { x with phase := .none, run := i :: x.run }
  | finish (i : Nat) (r : List Nat) : x.run = i :: r → x.phase = .none →
      T x h s { s with finished := s.finished ++ [i] } { x with run := r, known := i :: x.known, fin := i :: x.fin }
  | fail (i : Nat) (r : List Nat) : x.run = i :: r → x.phase = .none →
      T x h s { s with failed := s.failed ++ [i] } { x with run := r, known := i :: x.known }
  | settle (i : Nat) (t : LTWorld) : x.phase = .none → i ∈ x.fin → i ∉ x.run → true ∈ h i → t.started = s.started → t.finished = s.finished → t.failed = s.failed →
      (∀ j, (t.objs j).loading = (s.objs j).loading) → (∀ j, j ≠ i → (t.objs j).cls = (s.objs j).cls) → (t.objs i).cls = .plain →
      T x h s t x
  | learn (i : Nat) : x.phase = .seen i → (s.objs i).loading = true → i ∉ x.run →
      T x h s s { x with phase := .none, known := i :: x.known }
  | plain (i : Nat) : (s.objs i).cls = .plain → T x h s s { x with known := i :: x.known, fin := i :: x.fin }

/-- The protocol. -/
def protocol : LockProtocol LTWorld Nat Stage := ⟨Stage.Ok, Stage.T⟩

/-- What holds for all threads together. -/
structure Inv (a : Nat → Stage) (s : LTWorld) : Prop where
  nodup : s.started.Nodup
  loading : ∀ i ∈ s.started, (s.objs i).loading = true
  plain : ∀ i, (s.objs i).cls = .plain → i ∈ s.finished
  finished : ∀ i ∈ s.finished, (s.objs i).loading = true ∧ ((s.objs i).cls = .imp ∨ (s.objs i).cls = .plain)
  begun : ∀ i, (s.objs i).loading = true → i ∈ s.started ∨ ∃ j, (a j).phase = .starting i
  running : ∀ i ∈ s.started, i ∈ s.finished ∨ i ∈ s.failed ∨ ∃ j, i ∈ (a j).run

theorem Stage.Ok.took {x : Stage} {h : Nat → List Bool} {s : LTWorld} (hx : x.Ok h s) (l : Nat) (w : Bool) : x.Ok (took h l w) s := by
  have hm : ∀ i, true ∈ h i → true ∈ SyncStream.took h l w i := fun i hi => by
    simp only [SyncStream.took]
    split
    · rename_i e; subst e; exact .tail _ hi
    · exact hi
  refine ⟨?_, fun i hi => ⟨hm _ (hx.run i hi).1, (hx.run i hi).2⟩, hx.known, hx.fin⟩
  have := hx.phase
  revert this
  cases x.phase with
  | none => exact id
  | seen i => exact fun h1 => ⟨hm _ h1.1, h1.2⟩
  | fresh i => exact fun h1 => ⟨hm _ h1.1, h1.2⟩
  | starting i => exact fun h1 => ⟨hm _ h1.1, h1.2⟩

/-- A change that does not disturb: nothing is unloaded, and where the thread holds the lock, nothing changes but the class, to
`importlib.util._LazyModule`. -/
theorem Stage.Ok.later {x : Stage} {h : Nat → List Bool} {s t : LTWorld} (hx : x.Ok h s)
    (hf : ∀ i ∈ s.finished, i ∈ t.finished) (hg : ∀ i ∈ s.failed, i ∈ t.failed)
    (hl : ∀ i, (s.objs i).loading = true → (t.objs i).loading = true)
    (hc : ∀ i ∈ s.finished, (s.objs i).cls = .imp ∨ (s.objs i).cls = .plain → (t.objs i).cls = .imp ∨ (t.objs i).cls = .plain)
    (hi : ∀ i, true ∈ h i → (t.objs i).loading = (s.objs i).loading ∧ ((t.objs i).cls = (s.objs i).cls ∨ (t.objs i).cls = .imp) ∧
      (i ∈ t.started → i ∈ s.started)) : x.Ok h t := by
  have hcl : ∀ i, true ∈ h i → (s.objs i).cls = .imp → (t.objs i).cls = .imp := fun i h1 h2 =>
    (hi i h1).2.1.elim (fun e => e.trans h2) id
  refine ⟨?_, fun i hr => ?_, fun i hk => (hx.known i hk).imp (hf i) (hg i), fun i hk => ?_⟩
  · have := hx.phase
    revert this
    cases x.phase with
    | none => exact id
    | seen i => exact fun h1 => ⟨h1.1, hcl _ h1.1 h1.2⟩
    | fresh i => exact fun h1 => ⟨h1.1, hcl _ h1.1 h1.2.1, (hi i h1.1).1.trans h1.2.2⟩
    | starting i => exact fun h1 => ⟨h1.1, hcl _ h1.1 h1.2.1, (hi i h1.1).1.trans h1.2.2.1, fun h2 => h1.2.2.2 ((hi i h1.1).2.2 h2)⟩
  · obtain ⟨h1, h2, h3⟩ := hx.run i hr
    exact ⟨h1, hcl _ h1 h2, hl _ h3⟩
  · obtain ⟨h1, h2, h3⟩ := hx.fin i hk
    exact ⟨hf i h1, hl i h2, hc i h1 h3⟩

theorem phase_upd {a : Nat → Stage} {i : Nat} {y : Stage} {k : Nat} (hn : (a i).phase ≠ .starting k)
    (h : ∃ j, (a j).phase = .starting k) : ∃ j, (upd a i y j).phase = .starting k := by
  obtain ⟨j, hj⟩ := h
  by_cases e : j = i
  · subst e; exact absurd hj hn
  · exact ⟨j, by rw [upd_other _ _ e]; exact hj⟩

theorem phase_upd' {a : Nat → Stage} {i : Nat} {y : Stage} {k : Nat} (hy : (a i).phase = .starting k → y.phase = .starting k)
    (h : ∃ j, (a j).phase = .starting k) : ∃ j, (upd a i y j).phase = .starting k := by
  obtain ⟨j, hj⟩ := h
  by_cases e : j = i
  · subst e; exact ⟨j, by rw [upd_same]; exact hy hj⟩
  · exact ⟨j, by rw [upd_other _ _ e]; exact hj⟩

theorem run_upd {a : Nat → Stage} {i : Nat} {y : Stage} {k : Nat} (hy : k ∈ (a i).run → k ∈ y.run)
    (h : ∃ j, k ∈ (a j).run) : ∃ j, k ∈ (upd a i y j).run := by
  obtain ⟨j, hj⟩ := h
  by_cases e : j = i
  · subst e; exact ⟨j, by rw [upd_same]; exact hy hj⟩
  · exact ⟨j, by rw [upd_other _ _ e]; exact hj⟩

theorem ok_upd {a : Nat → Stage} {H : Nat → Nat → List Bool} {i : Nat} {y : Stage} {t : LTWorld}
    (h1 : ∀ j, j ≠ i → (a j).Ok (H j) t) (h2 : y.Ok (H i) t) (j : Nat) : (upd a i y j).Ok (H j) t := by
  by_cases e : j = i
  · subst e; rw [upd_same]; exact h2
  · rw [upd_other _ _ e]; exact h1 j e

/-- A thread that follows the protocol keeps what the others know. -/
theorem step_keeps (a : Nat → Stage) (H : Nat → Nat → List Bool) (s t : LTWorld) (i : Nat) (y : Stage) (hE : Excl H)
    (hok : ∀ j, (a j).Ok (H j) s) (hI : Inv a s) (hT : Stage.T (a i) (H i) s t y) :
    (∀ j, (upd a i y j).Ok (H j) t) ∧ Inv (upd a i y) t := by
  have hoi := hok i
  have hne : ∀ {k j}, true ∈ H i k → j ≠ i → true ∉ H j k := fun hk hj hk' => by
    rw [hE _ _ _ hj hk] at hk'; cases hk'
  cases hT with
  | quiet _ e1 e2 e3 e4 e5 =>
    have key : ∀ (x : Stage) h, x.Ok h s → x.Ok h t := fun x h hx => hx.later (by rw [e2]; exact fun _ => id) (by rw [e3]; exact fun _ => id)
      (fun i hi => (e4 i).trans hi) (fun k _ hk => (e5 k).elim (fun e => e ▸ hk) .inl)
      fun k _ => ⟨e4 k, e5 k, by rw [e1]; exact id⟩
    refine ⟨ok_upd (fun j _ => key _ _ (hok j)) (key _ _ hoi), by rw [e1]; exact hI.nodup, fun k hk => ?_, fun k hk => ?_, fun k hk => ?_,
      fun k hk => ?_, fun k hk => ?_⟩
    · rw [e1] at hk; rw [e4]; exact hI.loading k hk
    · rw [e2]
      rcases e5 k with e | e
      · exact hI.plain k (e ▸ hk)
      · rw [e] at hk; cases hk
    · rw [e2] at hk
      rw [e4]
      exact ⟨(hI.finished k hk).1, (e5 k).elim (fun e => e ▸ (hI.finished k hk).2) .inl⟩
    · rw [e1]; rw [e4] at hk
      exact (hI.begun k hk).imp id (phase_upd' id)
    · rw [e1] at hk; rw [e2, e3]
      exact (hI.running k hk).imp id (.imp id (run_upd id))
  | forget k h1 =>
    exact ⟨ok_upd (fun j _ => hok j) ⟨trivial, hoi.run, hoi.known, hoi.fin⟩, hI.nodup, hI.loading, hI.plain, hI.finished,
      fun k hk => (hI.begun k hk).imp id (phase_upd (by rw [h1]; nofun)),
      fun k hk => (hI.running k hk).imp id (.imp id (run_upd id))⟩
  | see k h0 h1 h2 =>
    exact ⟨ok_upd (fun j _ => hok j) ⟨⟨h1, h2⟩, hoi.run, hoi.known, hoi.fin⟩, hI.nodup, hI.loading, hI.plain, hI.finished,
      fun k hk => (hI.begun k hk).imp id (phase_upd (by rw [h0]; nofun)),
      fun k hk => (hI.running k hk).imp id (.imp id (run_upd id))⟩
  | find k h1 h2 =>
    have hp := hoi.phase
    rw [h1] at hp
    exact ⟨ok_upd (fun j _ => hok j) ⟨⟨hp.1, hp.2, h2⟩, hoi.run, hoi.known, hoi.fin⟩, hI.nodup, hI.loading, hI.plain, hI.finished,
      fun k hk => (hI.begun k hk).imp id (phase_upd (by rw [h1]; nofun)),
      fun k hk => (hI.running k hk).imp id (.imp id (run_upd id))⟩
  | mark k _ h1 e1 e2 e3 e4 e5 e6 =>
    have hp := hoi.phase
    rw [h1] at hp
    obtain ⟨p1, p2, p3⟩ := hp
    have hk : k ∉ s.started := fun h => by rw [hI.loading k h] at p3; cases p3
    have hup : ∀ j, (s.objs j).loading = true → (t.objs j).loading = true := fun j hj => by
      by_cases e : j = k
      · rw [e]; exact e6
      · rw [e5 j e]; exact hj
    have hlat : ∀ (x : Stage) h, x.Ok h s → (∀ j, true ∈ h j → j ≠ k) → x.Ok h t := fun x h hx hn =>
      hx.later (by rw [e2]; exact fun _ => id) (by rw [e3]; exact fun _ => id) hup (fun j _ hj => by rw [e4]; exact hj)
        fun j hj => ⟨e5 j (hn j hj), .inl (e4 j), by rw [e1]; exact id⟩
    refine ⟨ok_upd (fun j hj => hlat _ _ (hok j) fun l hl e => hne p1 hj (e ▸ hl)) ⟨⟨p1, by rw [e4]; exact p2, e6, by rw [e1]; exact hk⟩,
      fun j hj => ?_, by rw [e2, e3]; exact hoi.known, fun j hj => ?_⟩, by rw [e1]; exact hI.nodup, fun j hj => ?_, fun j hj => ?_, fun j hj => ?_,
      fun j hj => ?_, fun j hj => ?_⟩
    · obtain ⟨r1, r2, r3⟩ := hoi.run j hj
      exact ⟨r1, by rw [e4]; exact r2, hup j r3⟩
    · obtain ⟨r1, r2, r3⟩ := hoi.fin j hj
      exact ⟨by rw [e2]; exact r1, hup j r2, by rw [e4]; exact r3⟩
    · rw [e1] at hj; exact hup j (hI.loading j hj)
    · rw [e4] at hj; rw [e2]; exact hI.plain j hj
    · rw [e2] at hj; rw [e4]; exact ⟨hup j (hI.finished j hj).1, (hI.finished j hj).2⟩
    · rw [e1]
      by_cases e : j = k
      · exact .inr ⟨i, by rw [upd_same, e]⟩
      · rw [e5 j e] at hj
        exact (hI.begun j hj).imp id (phase_upd (by rw [h1]; nofun))
    · rw [e1] at hj; rw [e2, e3]
      exact (hI.running j hj).imp id (.imp id (run_upd id))
  | start k h1 =>
    have hp := hoi.phase
    rw [h1] at hp
    obtain ⟨p1, p2, p3, p4⟩ := hp
    refine ⟨ok_upd (fun j hj => (hok j).later (fun _ => id) (fun _ => id) (fun _ => id) (fun _ _ => id) fun l hl => ⟨rfl, .inl rfl, fun h => ?_⟩)
      ⟨trivial, fun j hj => ?_, hoi.known, hoi.fin⟩, ?_, fun j hj => ?_, hI.plain, hI.finished, fun j hj => ?_, fun j hj => ?_⟩
    · rcases List.mem_append.mp h with h | h
      · exact h
      · cases List.mem_singleton.mp h
        exact absurd hl (hne p1 hj)
    · rcases List.mem_cons.mp hj with e | hj
      · subst e; exact ⟨p1, p2, p3⟩
      · exact hoi.run j hj
    · exact List.nodup_append.mpr ⟨hI.nodup, by simp, fun x hx y hy e => p4 (by cases List.mem_singleton.mp hy; exact e ▸ hx)⟩
    · rcases List.mem_append.mp hj with h | h
      · exact hI.loading j h
      · cases List.mem_singleton.mp h
        exact p3
    · by_cases e : j = k
      · exact .inl (List.mem_append.mpr (.inr (List.mem_singleton.mpr e)))
      · exact (hI.begun j hj).imp (fun h => List.mem_append.mpr (.inl h)) (phase_upd (by rw [h1]; exact fun h => e (Phase.starting.inj h).symm))
    · rcases List.mem_append.mp hj with h | h
      · exact (hI.running j h).imp id (.imp id (run_upd fun h => .tail _ h))
      · cases List.mem_singleton.mp h
        exact .inr (.inr ⟨i, by rw [upd_same]; exact .head _⟩)
  | finish k r h1 h2 =>
    obtain ⟨p1, p2, p3⟩ := hoi.run k (h1 ▸ .head _)
    have hm : ∀ j ∈ s.finished, j ∈ s.finished ++ [k] := fun j hj => List.mem_append.mpr (.inl hj)
    have hmk : k ∈ s.finished ++ [k] := List.mem_append.mpr (.inr (.head _))
    have hlat : ∀ (x : Stage) h, x.Ok h s → x.Ok h { s with finished := s.finished ++ [k] } := fun x h hx =>
      hx.later hm (fun _ => id) (fun _ => id) (fun _ _ => id) fun l hl => ⟨rfl, .inl rfl, id⟩
    have hoi' := hlat _ _ hoi
    refine ⟨ok_upd (fun j hj => hlat _ _ (hok j)) ⟨by rw [h2]; trivial, fun j hj => hoi.run j (by rw [h1]; exact .tail _ hj), fun j hj => ?_, fun j hj => ?_⟩,
      hI.nodup, hI.loading, fun j hj => hm j (hI.plain j hj), fun j hj => ?_,
      fun j hj => (hI.begun j hj).imp id (phase_upd (by rw [h2]; nofun)), fun j hj => ?_⟩
    · rcases List.mem_cons.mp hj with e | hj
      · subst e; exact .inl hmk
      · exact hoi'.known j hj
    · rcases List.mem_cons.mp hj with e | hj
      · subst e; exact ⟨hmk, p3, .inl p2⟩
      · exact hoi'.fin j hj
    · rcases List.mem_append.mp hj with h | h
      · exact hI.finished j h
      · cases List.mem_singleton.mp h
        exact ⟨p3, .inl p2⟩
    · by_cases e : j = k
      · subst e; exact .inl hmk
      · exact (hI.running j hj).imp (hm j) (.imp id (run_upd fun h => by
          rw [h1] at h
          exact (List.mem_cons.mp h).resolve_left e))
  | fail k r h1 h2 =>
    have hm : ∀ j ∈ s.failed, j ∈ s.failed ++ [k] := fun j hj => List.mem_append.mpr (.inl hj)
    have hmk : k ∈ s.failed ++ [k] := List.mem_append.mpr (.inr (.head _))
    have hlat : ∀ (x : Stage) h, x.Ok h s → x.Ok h { s with failed := s.failed ++ [k] } := fun x h hx =>
      hx.later (fun _ => id) hm (fun _ => id) (fun _ _ => id) fun l hl => ⟨rfl, .inl rfl, id⟩
    have hoi' := hlat _ _ hoi
    refine ⟨ok_upd (fun j hj => hlat _ _ (hok j)) ⟨by rw [h2]; trivial, fun j hj => hoi.run j (by rw [h1]; exact .tail _ hj), fun j hj => ?_, hoi'.fin⟩,
      hI.nodup, hI.loading, hI.plain, hI.finished,
      fun j hj => (hI.begun j hj).imp id (phase_upd (by rw [h2]; nofun)), fun j hj => ?_⟩
    · rcases List.mem_cons.mp hj with e | hj
      · subst e; exact .inr hmk
      · exact hoi'.known j hj
    · by_cases e : j = k
      · subst e; exact .inr (.inl hmk)
      · exact (hI.running j hj).imp id (.imp (hm j) (run_upd fun h => by
          rw [h1] at h
          exact (List.mem_cons.mp h).resolve_left e))
  | settle k _ h1 h2 h3 h4 e1 e2 e3 e4 e5 e6 =>
    obtain ⟨p1, p2, p3⟩ := hoi.fin k h2
    have hcl : ∀ j, (s.objs j).cls = .imp ∨ (s.objs j).cls = .plain → (t.objs j).cls = .imp ∨ (t.objs j).cls = .plain := fun j hj => by
      by_cases e : j = k
      · rw [e]; exact .inr e6
      · rw [e5 j e]; exact hj
    have hlat : ∀ (x : Stage) h, x.Ok h s → (∀ j, true ∈ h j → j ≠ k) → x.Ok h t := fun x h hx hn =>
      hx.later (by rw [e2]; exact fun _ => id) (by rw [e3]; exact fun _ => id) (fun j hj => (e4 j).trans hj) (fun j _ hj => hcl j hj)
        fun j hj => ⟨e4 j, .inl (e5 j (hn j hj)), by rw [e1]; exact id⟩
    refine ⟨ok_upd (fun j hj => hlat _ _ (hok j) fun l hl e => hne h4 hj (e ▸ hl)) ⟨by rw [h1]; trivial,
      fun j hj => ?_, by rw [e2, e3]; exact hoi.known, fun j hj => ?_⟩, by rw [e1]; exact hI.nodup, fun j hj => ?_, fun j hj => ?_, fun j hj => ?_,
      fun j hj => ?_, fun j hj => ?_⟩
    · obtain ⟨r1, r2, r3⟩ := hoi.run j hj
      exact ⟨r1, by rw [e5 j fun e => h3 (e ▸ hj)]; exact r2, by rw [e4]; exact r3⟩
    · obtain ⟨r1, r2, r3⟩ := hoi.fin j hj
      exact ⟨by rw [e2]; exact r1, by rw [e4]; exact r2, hcl j r3⟩
    · rw [e1] at hj; rw [e4]; exact hI.loading j hj
    · rw [e2]
      by_cases e : j = k
      · rw [e]; exact p1
      · rw [e5 j e] at hj; exact hI.plain j hj
    · rw [e2] at hj; rw [e4]; exact ⟨(hI.finished j hj).1, hcl j (hI.finished j hj).2⟩
    · rw [e4] at hj; rw [e1]
      exact (hI.begun j hj).imp id (phase_upd (by rw [h1]; nofun))
    · rw [e1] at hj; rw [e2, e3]
      exact (hI.running j hj).imp id (.imp id (run_upd id))
  | learn k h1 h2 h3 =>
    have hp := hoi.phase
    rw [h1] at hp
    have hk : k ∈ s.finished ∨ k ∈ s.failed := by
      have hs : k ∈ s.started := by
        rcases hI.begun k h2 with h | ⟨j, hj⟩
        · exact h
        · have e : j = i := Classical.byContradiction fun e => by
            have hpj := (hok j).phase
            rw [hj] at hpj
            exact hne hp.1 e hpj.1
          rw [e, h1] at hj; cases hj
      rcases hI.running k hs with h | h | ⟨j, hj⟩
      · exact .inl h
      · exact .inr h
      · have e : j = i := Classical.byContradiction fun e => hne hp.1 e ((hok j).run k hj).1
        rw [e] at hj
        exact absurd hj h3
    refine ⟨ok_upd (fun j _ => hok j) ⟨trivial, hoi.run, fun j hj => ?_, hoi.fin⟩, hI.nodup, hI.loading, hI.plain, hI.finished,
      fun k hk => (hI.begun k hk).imp id (phase_upd (by rw [h1]; nofun)),
      fun k hk => (hI.running k hk).imp id (.imp id (run_upd id))⟩
    rcases List.mem_cons.mp hj with e | hj
    · rw [e]; exact hk
    · exact hoi.known j hj
  | plain k h1 =>
    have hf := hI.plain k h1
    refine ⟨ok_upd (fun j _ => hok j) ⟨hoi.phase, hoi.run, fun j hj => ?_, fun j hj => ?_⟩, hI.nodup, hI.loading, hI.plain, hI.finished,
      fun k hk => (hI.begun k hk).imp id (phase_upd' id),
      fun k hk => (hI.running k hk).imp id (.imp id (run_upd id))⟩
    · rcases List.mem_cons.mp hj with e | hj
      · rw [e]; exact .inl hf
      · exact hoi.known j hj
    · rcases List.mem_cons.mp hj with e | hj
      · rw [e]; exact ⟨hf, (hI.finished k hf).1, .inr h1⟩
      · exact hoi.fin j hj

/-- The thread looks at nothing in particular, and holds the locks of the modules whose code it runs. -/
def Fine (x : Stage) (h : Nat → List Bool) : Prop := x.phase = .none ∧ ∀ j ∈ x.run, true ∈ h j

/-- The stage after something has been run to its end. -/
structure Ext (x y : Stage) : Prop where
  phase : y.phase = .none
  run : y.run = x.run
  known : ∀ i ∈ x.known, i ∈ y.known
  fin : ∀ i ∈ x.fin, i ∈ y.fin

theorem Ext.trans {x y z : Stage} (h : Ext x y) (h' : Ext y z) : Ext x z :=
  ⟨h'.phase, h'.run.trans h.run, fun i hi => h'.known i (h.known i hi), fun i hi => h'.fin i (h.fin i hi)⟩

theorem Fine.ext {x y : Stage} {h : Nat → List Bool} (hx : Fine x h) (e : Ext x y) : Fine y h :=
  ⟨e.phase, by rw [e.run]; exact hx.2⟩

theorem Fine.refl {x : Stage} {h : Nat → List Bool} (hx : Fine x h) : Ext x x := ⟨hx.1, rfl, fun _ => id, fun _ => id⟩

/-- The program keeps to the protocol, ends with the locks it has begun with, and with `Q`. -/
def At (x : Stage) (h : Nat → List Bool) (p : LTProg α) (Q : Except Exc α → Stage → Prop) : Prop :=
  p.Minds protocol (fun r y h' => h' = h ∧ Ext x y ∧ Q r y) x h

theorem At.mono {x : Stage} {h : Nat → List Bool} {p : LTProg α} {Q Q' : Except Exc α → Stage → Prop} (hp : At x h p Q)
    (hQ : ∀ r y, Ext x y → Q r y → Q' r y) : At x h p Q' :=
  Minds.mono hp fun r y _ hq => ⟨hq.1, hq.2.1, hQ r y hq.2.1 hq.2.2⟩

theorem At.bind {x : Stage} {h : Nat → List Bool} {p : LTProg α} {g : α → LTProg β} {Q : Except Exc α → Stage → Prop}
    {Q' : Except Exc β → Stage → Prop} (hp : At x h p Q) (hg : ∀ a y, Ext x y → Q (.ok a) y → At y h (g a) Q')
    (he : ∀ e y, Ext x y → Q (.error e) y → Q' (.error e) y) : At x h (p >>= g) Q' := by
  refine Minds.bind (Minds.mono hp fun r y h' hq => ?_)
  obtain ⟨e1, e2, e3⟩ := hq
  subst e1
  cases r with
  | ok a => exact Minds.mono (hg a y e2 e3) fun r z _ hz => ⟨hz.1, e2.trans hz.2.1, hz.2.2⟩
  | error e => exact ⟨rfl, e2, he e y e2 e3⟩

theorem At.ret {x : Stage} {h : Nat → List Bool} (hx : Fine x h) {a : α} {Q : Except Exc α → Stage → Prop} (hq : Q (.ok a) x) :
    At x h (Prog.ret a) Q := ⟨rfl, hx.refl, hq⟩

theorem At.raise {x : Stage} {h : Nat → List Bool} (hx : Fine x h) {e : Exc} {Q : Except Exc α → Stage → Prop} (hq : Q (.error e) x) :
    At x h (Prog.raise e) Q := ⟨rfl, hx.refl, hq⟩

theorem At.outcome {x : Stage} {h : Nat → List Bool} {p : LTProg α} {Q : Except Exc (Except Exc α) → Stage → Prop}
    (hp : At x h p fun r y => Q (.ok r) y) : At x h p.outcome Q := Minds.outcome hp

/-- A look that teaches nothing. -/
theorem At.gets {x : Stage} {h : Nat → List Bool} (hx : Fine x h) {f : LTWorld → α} {Q : Except Exc α → Stage → Prop}
    (hQ : ∀ s, x.Ok h s → Q (.ok (f s)) x) : At x h (gets f) Q :=
  Minds.atom fun s hs => ⟨x, .quiet s rfl rfl rfl (fun _ => rfl) (fun _ => .inl rfl), rfl, hx.refl, hQ s hs⟩

/-- A change of an object that leaves `is_loading`, and the class or sets it to `importlib.util._LazyModule`. -/
theorem At.setObj {x : Stage} {h : Nat → List Bool} (hx : Fine x h) {i : Nat} {f : LTMod → LTMod} {Q : Except Exc Unit → Stage → Prop}
    (hf : ∀ m, (f m).loading = m.loading ∧ ((f m).cls = m.cls ∨ (f m).cls = .imp)) (hQ : Q (.ok ()) x) : At x h (setObj i f) Q :=
  Minds.atom fun s hs => ⟨x, .quiet _ rfl rfl rfl (fun j => by
    show (if j = i then f (s.objs j) else s.objs j).loading = _
    split
    · exact (hf _).1
    · rfl) (fun j => by
    show (if j = i then f (s.objs j) else s.objs j).cls = _ ∨ (if j = i then f (s.objs j) else s.objs j).cls = _
    split
    · exact (hf _).2
    · exact .inl rfl), rfl, hx.refl, hQ⟩

variable {env : LTEnv}

/-- What is known after a job. -/
def JobQ (env : LTEnv) (x : Stage) : Job → Except Exc Unit → Stage → Prop
  | .get i attr, r, y => (r = .ok () → env.bare attr = false → i ∈ y.known ∨ i ∈ y.run) ∧
      (i ∈ x.fin → env.defines i attr = true → r = .ok () ∨ r = .error .recursionError)
  | .force _, _, _ => True
  | .acts l, r, y => (r = .ok () → ∀ i attr, (LUse.get i attr, false) ∈ l → env.bare attr = false → i ∈ y.known ∨ i ∈ y.run) ∧
      (∀ i attr, l = [(.get i attr, false)] → i ∈ x.fin → env.defines i attr = true → r = .ok () ∨ r = .error .recursionError) ∧
      (l = [] → r = .ok () ∨ r = .error .recursionError)

/-- The jobs of `self` keep to the protocol. -/
def Sound (env : LTEnv) (self : Job → LTProg Unit) : Prop := ∀ j x h, Fine x h → At x h (self j) (JobQ env x j)

variable {self : Job → LTProg Unit}

theorem at_lookup {x : Stage} {h : Nat → List Bool} (hx : Fine x h) (i : Nat) (attr : PyStr) :
    At x h (lookup env i attr) fun r _ => i ∈ x.fin → env.defines i attr = true → r = .ok () :=
  Minds.atom fun s hs => ⟨x, by split <;> exact .quiet s rfl rfl rfl (fun _ => rfl) (fun _ => .inl rfl), rfl, hx.refl, fun hf hd => by
    have : has env s i attr = true := by
      simp only [has, hd, Bool.true_and, Bool.or_eq_true]
      exact .inr (List.contains_iff_mem.mpr (hs.fin i hf).1)
    rw [if_pos this]⟩

/-- The code of a module is run by the thread that has set `is_loading`. -/
theorem at_exec (hs : Sound env self) {x : Stage} {h : Nat → List Bool} {i : Nat} (hp : x.phase = .starting i) (hr : ∀ j ∈ x.run, true ∈ h j)
    (hi : true ∈ h i) :
    (exec env self i).Minds protocol (fun r y h' => h' = h ∧ Ext { x with phase := .none } y ∧ (r = .ok () → i ∈ y.fin ∧ i ∈ y.known)) x h := by
  refine Minds.bind (Minds.atom fun s _ => ⟨_, .start i hp, ?_⟩)
  refine Minds.bind (Minds.outcome (Minds.mono (hs (.acts (env.code i)) { x with phase := .none, run := i :: x.run } h
    ⟨rfl, fun j hj => (List.mem_cons.mp hj).elim (fun e => e ▸ hi) (hr j)⟩) fun r y h' hq => ?_))
  obtain ⟨e1, e2, -⟩ := hq
  subst e1
  cases r with
  | ok a =>
    exact Minds.atom fun s _ => ⟨_, .finish i x.run e2.run e2.phase, rfl,
      ⟨e2.phase, rfl, fun j hj => .tail _ (e2.known j hj), fun j hj => .tail _ (e2.fin j hj)⟩, fun _ => ⟨.head _, .head _⟩⟩
  | error e =>
    exact Minds.bind (Minds.atom fun s _ => ⟨_, .fail i x.run e2.run e2.phase, rfl,
      ⟨e2.phase, rfl, fun j hj => .tail _ (e2.known j hj), e2.fin⟩, nofun⟩)

theorem at_loadBlock (hs : Sound env self) {x : Stage} {h : Nat → List Bool} (hx : Fine x h) {i : Nat} (hi : true ∈ h i) (attr : PyStr) :
    At x h (loadBlock env self i attr) fun r y => (r = .ok true → env.bare attr = false → i ∈ y.known ∨ i ∈ y.run) ∧
      (i ∈ x.fin → env.defines i attr = true → (∃ b, r = .ok b) ∨ r = .error .recursionError) := by
  refine Minds.bind (Minds.atom fun s ok => ?_)
  dsimp only
  by_cases hc : (s.objs i).cls = .imp
  · refine ⟨_, .see i hx.1 hi hc, ?_⟩
    rw [if_pos hc]
    refine Minds.bind (Minds.atom fun s ok => ?_)
    dsimp only
    have oph : true ∈ h i ∧ (s.objs i).cls = .imp := ok.phase
    have orun : ∀ j ∈ x.run, true ∈ h j ∧ (s.objs j).cls = .imp ∧ (s.objs j).loading = true := ok.run
    have ofin : ∀ j ∈ x.fin, j ∈ s.finished ∧ (s.objs j).loading = true ∧ ((s.objs j).cls = .imp ∨ (s.objs j).cls = .plain) := ok.fin
    by_cases hl : (s.objs i).loading = true
    · have rest : ∀ y : Stage, Ext x y → i ∈ y.known ∨ i ∈ y.run → Minds protocol (fun r z h' => h' = h ∧ Ext x z ∧
          ((r = .ok true → env.bare attr = false → i ∈ z.known ∨ i ∈ z.run) ∧
          (i ∈ x.fin → env.defines i attr = true → (∃ b, r = .ok b) ∨ r = .error .recursionError)))
          (lookup env i attr >>= fun _ => return true) y h := fun y e hy => by
        have hy' := hx.ext e
        refine Minds.mono (At.bind (Q' := fun r z => (r = .ok true → i ∈ z.known ∨ i ∈ z.run) ∧
          (i ∈ x.fin → env.defines i attr = true → ∃ b, r = .ok b)) (at_lookup hy' i attr) (fun a z ez hz => ?_) fun e' z ez hz => ?_)
          fun r z h' hq => ⟨hq.1, e.trans hq.2.1, fun h1 _ => hq.2.2.1 h1, fun h1 h2 => .inl (hq.2.2.2 h1 h2)⟩
        · refine At.ret (hy'.ext ez) ⟨fun _ => ?_, fun _ _ => ⟨_, rfl⟩⟩
          rw [ez.run]
          exact hy.imp (ez.known i) id
        · exact ⟨nofun, fun h1 h2 => nomatch hz (e.fin i h1) h2⟩
      by_cases hr : i ∈ x.run
      · refine ⟨_, .forget i rfl, ?_⟩
        rw [if_pos hl]
        exact rest { x with phase := .none } ⟨rfl, rfl, fun _ => id, fun _ => id⟩ (.inr hr)
      · refine ⟨_, .learn i rfl hl hr, ?_⟩
        rw [if_pos hl]
        exact rest { x with phase := .none, known := i :: x.known } ⟨rfl, rfl, fun _ h => .tail _ h, fun _ => id⟩ (.inl (.head _))
    · have hl' : (s.objs i).loading = false := by simpa using hl
      have hnr : i ∉ x.run := fun h => hl (orun i h).2.2
      have hnf : i ∉ x.fin := fun h => hl (ofin i h).2.1
      refine ⟨_, .find i rfl hl', ?_⟩
      rw [if_neg hl]
      refine Minds.bind (Minds.atom fun s ok => ⟨_, .mark i _ rfl rfl rfl rfl (fun j => ?_) (fun j hj => ?_) ?_, ?_⟩)
      · show (if j = i then { s.objs j with loading := true } else s.objs j).cls = _
        split <;> rfl
      · show (if j = i then { s.objs j with loading := true } else s.objs j).loading = _
        rw [if_neg hj]
      · show (if i = i then { s.objs i with loading := true } else s.objs i).loading = _
        rw [if_pos rfl]
      · refine Minds.bind (Minds.mono (at_exec hs rfl hx.2 hi) fun r y h' hq => ?_)
        obtain ⟨e1, e2, e3⟩ := hq
        subst e1
        have ex : Ext x y := ⟨e2.phase, e2.run, e2.known, e2.fin⟩
        cases r with
        | error e => exact ⟨rfl, ex, nofun, fun h1 => absurd h1 hnf⟩
        | ok a =>
          refine Minds.bind (Minds.atom fun s ok => ⟨y, .settle i _ e2.phase (e3 rfl).1 (by rw [e2.run]; exact hnr) hi rfl rfl rfl (fun j => ?_) (fun j hj => ?_) ?_, ?_⟩)
          · show (if j = i then { s.objs j with cls := .plain } else s.objs j).loading = _
            split <;> rfl
          · show (if j = i then { s.objs j with cls := .plain } else s.objs j).cls = _
            rw [if_neg hj]
          · show (if i = i then { s.objs i with cls := .plain } else s.objs i).cls = _
            rw [if_pos rfl]
          · exact ⟨rfl, ex, nofun, fun h1 => absurd h1 hnf⟩
  · refine ⟨x, .quiet s rfl rfl rfl (fun _ => rfl) (fun _ => .inl rfl), ?_⟩
    rw [if_neg hc]
    exact ⟨rfl, hx.refl, nofun, fun _ _ => .inl ⟨_, rfl⟩⟩

theorem took_mem {h : Nat → List Bool} {l i : Nat} (hi : true ∈ h i) : true ∈ took h l true i := by
  simp only [took]
  split
  · exact .head _
  · exact hi

theorem at_impGet (he : env.strict = true) (hs : Sound env self) {x : Stage} {h : Nat → List Bool} (hx : Fine x h) (i : Nat) (attr : PyStr) :
    At x h (impGet env self i attr) (JobQ env x (.get i attr)) := by
  unfold impGet
  rw [if_pos he]
  have hx' : Fine x (took h i true) := ⟨hx.1, fun j hj => took_mem (hx.2 j hj)⟩
  have hb : At x h (withLock i true (loadBlock env self i attr)) fun r y => (r = .ok true → env.bare attr = false → i ∈ y.known ∨ i ∈ y.run) ∧
      (i ∈ x.fin → env.defines i attr = true → (∃ b, r = .ok b) ∨ r = .error .recursionError) :=
    Minds.withLock (Minds.mono (at_loadBlock hs hx' (by simp [took]) attr) fun r y h' hq => ⟨hq.1, fun s ok =>
      ⟨by rw [hq.2.1.phase]; trivial, fun j hj => ⟨hx.2 j (hq.2.1.run ▸ hj), (ok.run j hj).2⟩, ok.known, ok.fin⟩, rfl, hq.2⟩)
  refine hb.bind (fun a y e hq => ?_) fun e y ex hq => ⟨nofun, fun h1 h2 => ?_⟩
  · cases a with
    | true => exact .ret (hx.ext e) ⟨fun _ => hq.1 rfl, fun _ _ => .inl rfl⟩
    | false => exact (hs (.get i attr) y h (hx.ext e)).mono fun r z ez hz => ⟨hz.1, fun h1 => hz.2 (e.fin i h1)⟩
  · rcases hq.2 h1 h2 with ⟨b, hb⟩ | hb
    · cases hb
    · exact .inr (by cases hb; rfl)

theorem at_classOf (hs : Sound env self) {x : Stage} {h : Nat → List Bool} (hx : Fine x h) (i : Nat) :
    At x h (classOf self i) fun _ _ => True := by
  refine (At.gets hx (Q := fun _ _ => True) fun _ _ => trivial).bind (fun a y e _ => ?_) fun _ _ _ _ => trivial
  split
  · exact ((hs _ y h (hx.ext e)).mono (Q' := fun _ _ => True) fun _ _ _ _ => trivial).bind
      (fun _ z ez _ => .gets ((hx.ext e).ext ez) fun _ _ => trivial) fun _ _ _ _ => trivial
  · exact .ret (hx.ext e) trivial

theorem at_loadEach (hs : Sound env self) (l : List Nat) {x : Stage} {h : Nat → List Bool} (hx : Fine x h) :
    At x h (loadEach self l) fun _ _ => True := by
  induction l generalizing x with
  | nil => exact .ret hx trivial
  | cons d ds ih =>
    refine (at_classOf hs hx d).bind (fun a y e _ => ?_) fun _ _ _ _ => trivial
    split
    · exact ((hs (.force d) y h (hx.ext e)).mono (Q' := fun _ _ => True) fun _ _ _ _ => trivial).bind
        (fun _ z ez _ => ih ((hx.ext e).ext ez)) fun _ _ _ _ => trivial
    · exact ih (hx.ext e)

theorem at_findLoadDeps {x : Stage} {h : Nat → List Bool} (hx : Fine x h) (i : Nat) :
    At x h (findLoadDeps i) fun _ _ => True :=
  Minds.atom fun s _ => ⟨x, by split <;> exact .quiet s rfl rfl rfl (fun _ => rfl) (fun _ => .inl rfl), rfl, hx.refl, trivial⟩

theorem at_loadDeps (hs : Sound env self) {x : Stage} {h : Nat → List Bool} (hx : Fine x h) (i : Nat) :
    At x h (loadDeps self i) fun _ _ => True :=
  (At.gets hx (Q := fun _ _ => True) fun _ _ => trivial).bind (fun l y e _ => (at_loadEach hs l (hx.ext e)).bind
    (fun _ z ez _ => .setObj ((hx.ext e).ext ez) (fun _ => ⟨rfl, .inl rfl⟩) trivial) fun _ _ _ _ => trivial) fun _ _ _ _ => trivial

theorem at_forceLoad (he : env.strict = true) (hs : Sound env self) {x : Stage} {h : Nat → List Bool} (hx : Fine x h) (i : Nat) :
    At x h (forceLoad env self i) fun _ _ => True :=
  (at_findLoadDeps hx i).bind (fun _ y e _ => (at_loadDeps hs (hx.ext e) i).bind
    (fun _ z ez _ => (at_impGet he hs ((hx.ext e).ext ez) i _).mono fun _ _ _ _ => trivial) fun _ _ _ _ => trivial) fun _ _ _ _ => trivial

theorem at_lazyGet (he : env.strict = true) (hs : Sound env self) {x : Stage} {h : Nat → List Bool} (hx : Fine x h) (i : Nat) (attr : PyStr) :
    At x h (lazyGet env self i attr) fun r y => r = .ok () → env.bare attr = false → i ∈ y.known ∨ i ∈ y.run := by
  unfold lazyGet
  split
  · exact .raise hx nofun
  · split
    · rename_i hb
      exact .ret hx fun _ h1 => by simp [h1] at hb
    · refine (at_findLoadDeps hx i).bind (fun _ y e _ => (at_loadDeps hs (hx.ext e) i).bind (fun _ z ez _ => ?_) fun _ _ _ _ => nofun)
        fun _ _ _ _ => nofun
      have hz := (hx.ext e).ext ez
      refine (at_classOf hs hz i).bind (fun c v ev _ => ?_) fun _ _ _ _ => nofun
      split
      · exact (at_impGet he hs (hz.ext ev) i attr).mono fun _ _ _ hq => hq.1
      · exact At.bind (p := setObj i _) (At.setObj (hz.ext ev) (Q := fun _ _ => True) (fun _ => ⟨rfl, .inr rfl⟩) trivial)
          (fun _ u eu _ => (at_impGet he hs ((hz.ext ev).ext eu) i attr).mono fun _ _ _ hq => hq.1) fun _ _ _ _ => nofun

theorem at_getattr (he : env.strict = true) (hs : Sound env self) {x : Stage} {h : Nat → List Bool} (hx : Fine x h) (i : Nat) (attr : PyStr) :
    At x h (getattr env self i attr) (JobQ env x (.get i attr)) := by
  refine Minds.bind (Minds.atom fun s ok => ?_)
  dsimp only
  cases hc : (s.objs i).cls with
  | placeholder =>
    refine ⟨x, .quiet s rfl rfl rfl (fun _ => rfl) (fun _ => .inl rfl), ?_⟩
    have hn : i ∉ x.fin := fun h => by have := (ok.fin i h).2.2; rw [hc] at this; rcases this with h | h <;> cases h
    show At x h (placeholderGet env attr) _
    unfold placeholderGet
    split
    · exact .raise hx ⟨nofun, fun h => absurd h hn⟩
    · split
      · rename_i hb
        exact .ret hx ⟨fun _ h1 => by simp [h1] at hb, fun h => absurd h hn⟩
      · exact .raise hx ⟨nofun, fun h => absurd h hn⟩
  | lazy =>
    refine ⟨x, .quiet s rfl rfl rfl (fun _ => rfl) (fun _ => .inl rfl), ?_⟩
    have hn : i ∉ x.fin := fun h => by have := (ok.fin i h).2.2; rw [hc] at this; rcases this with h | h <;> cases h
    exact (at_lazyGet he hs hx i attr).mono fun r y _ hq => ⟨hq, fun h => absurd h hn⟩
  | imp =>
    refine ⟨x, .quiet s rfl rfl rfl (fun _ => rfl) (fun _ => .inl rfl), ?_⟩
    exact at_impGet he hs hx i attr
  | plain =>
    refine ⟨_, .plain i hc, ?_⟩
    have ex : Ext x { x with known := i :: x.known, fin := i :: x.fin } := ⟨hx.1, rfl, fun _ h => .tail _ h, fun _ h => .tail _ h⟩
    refine Minds.mono (at_lookup (hx.ext ex) i attr) fun r y h' hq => ⟨hq.1, ex.trans hq.2.1, fun _ _ => .inl (hq.2.1.known i (.head _)), fun _ h2 =>
      .inl (hq.2.2 (.head _) h2)⟩

theorem at_callForce (he : env.strict = true) (hs : Sound env self) {x : Stage} {h : Nat → List Bool} (hx : Fine x h) (i : Nat) :
    At x h (callForce env self i) fun _ _ => True := by
  refine (At.gets hx (Q := fun _ _ => True) fun _ _ => trivial).bind (fun c y e _ => ?_) fun _ _ _ _ => trivial
  cases c with
  | placeholder => exact .ret (hx.ext e) trivial
  | lazy => exact at_forceLoad he hs (hx.ext e) i
  | imp =>
    exact At.bind (p := self (.get i (lit "force_load")))
      ((hs _ y h (hx.ext e)).mono (Q' := fun _ _ => True) fun _ _ _ _ => trivial) (fun _ z ez _ => .raise ((hx.ext e).ext ez) trivial) fun _ _ _ _ => trivial
  | plain => exact .raise (hx.ext e) trivial

theorem at_acts (hs : Sound env self) (l : List (LUse × Bool)) {x : Stage} {h : Nat → List Bool} (hx : Fine x h) :
    At x h (acts self l) (JobQ env x (.acts l)) := by
  have hact : ∀ (a : LUse) {x}, Fine x h → At x h (act self a) fun r y =>
      (∀ i attr, a = .get i attr → (r = .ok () → env.bare attr = false → i ∈ y.known ∨ i ∈ y.run) ∧
        (i ∈ x.fin → env.defines i attr = true → r = .ok () ∨ r = .error .recursionError)) := fun a x hx => by
    cases a with
    | get i attr => exact (hs (.get i attr) x h hx).mono fun r y _ hq j b e => by cases e; exact hq
    | force i => exact (hs (.force i) x h hx).mono fun r y _ hq j b e => by cases e
    | raise e => exact .raise hx (by intro j b e; cases e)
  induction l generalizing x with
  | nil => exact .ret hx ⟨fun _ _ _ h => (nomatch h), fun _ _ h => (nomatch h), fun _ => .inl rfl⟩
  | cons b l ih =>
    obtain ⟨a, t⟩ := b
    cases t with
    | false =>
      refine (hact a hx).bind (fun _ y e hq => (ih (hx.ext e)).mono fun r z ez hz => ⟨fun h1 i attr hm hb => ?_, fun i attr h1 h2 h3 => ?_, nofun⟩)
        fun e' y ex hq => ⟨nofun, fun i attr h1 h2 h3 => ?_, nofun⟩
      · rcases List.mem_cons.mp hm with hm | hm
        · cases hm
          rw [ez.run]
          exact ((hq i attr rfl).1 rfl hb).imp (ez.known i) id
        · exact hz.1 h1 i attr hm hb
      · cases h1; exact hz.2.2 rfl
      · cases h1
        rcases (hq i attr rfl).2 h2 h3 with h | h
        · cases h
        · exact .inr (by cases h; rfl)
    | true =>
      refine (At.outcome ((hact a hx).mono (Q' := fun r y => True) fun _ _ _ _ => trivial)).bind (Q := fun _ _ => True) (fun _ y e _ => (ih (hx.ext e)).mono fun r z ez hz => ⟨fun h1 i attr hm hb => ?_, (fun i attr h1 => nomatch h1), nofun⟩)
        fun e' y ex hq => ⟨nofun, (fun i attr h1 => nomatch h1), nofun⟩
      rcases List.mem_cons.mp hm with hm | hm
      · cases hm
      · exact hz.1 h1 i attr hm hb

theorem sound_go (he : env.strict = true) (n : Nat) : Sound env (go env n) := by
  induction n with
  | zero =>
    intro j x h hx
    refine .raise hx ?_
    cases j with
    | get i attr => exact ⟨nofun, fun _ _ => .inr rfl⟩
    | force i => trivial
    | acts l => exact ⟨nofun, fun _ _ _ _ _ => .inr rfl, fun _ => .inr rfl⟩
  | succ n ih =>
    intro j x h hx
    cases j with
    | get i attr => exact at_getattr he ih hx i attr
    | force i => exact at_callForce he ih hx i
    | acts l => exact at_acts ih l hx

end SyncStream.LazyThreads
