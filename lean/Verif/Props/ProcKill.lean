import Verif.Lemmas.ProcKill
import Verif.Props.ProcSteps
/-!
# Property C72: processes of the process mode are killed

`Process.terminate()` or `Process.kill()` can hit a process between any two steps (`Model/Kill.lean`).
-/

namespace SyncStream
open Spec Conc PThr

/-- The lock of the manager. -/
abbrev OfManager (l : PLock) : Prop := l = .state

/-- Nobody has been killed. -/
abbrev nobody : Nat → Prop := fun _ => False

/-! ## Who is alive goes on, if nobody was killed at the state lock -/

theorem own_outOfTheWay {proc : Nat → Nat} {main : Nat} {κ : Conf PWorld PLock Unit PCall PRet} {dead : Nat → Prop}
    (hS : Within (fun i => Own main (proc i)) κ) (hwhole : ∀ i j, proc i = proc j → dead i → dead j)
    (hm : ∀ d, dead d → proc d ≠ main) (hst : ∀ d, dead d → κ.held d .state = []) :
    OutOfTheWay (fun i => Own main (proc i)) dead κ := fun d i l h1 h2 h3 => by
  apply Classical.byContradiction
  intro hl
  have h4 := hS.held d l hl
  cases l with
  | state => exact hl (hst d h1)
  | config => exact hm d h1 h4
  | line => exact hm d h1 h4
  | buf p k => exact h2 (hwhole d i ((h4 : p = proc d).symm.trans h3) h1)

theorem atState_kexec {proc : Nat → Nat} {sys : Sys PWorld PLock Unit PCall PRet} {x y : Conf PWorld PLock Unit PCall PRet × (Nat → Prop)}
    {tr : List (Ev PCall PRet)} (hx : KExec sys proc OfManager x tr y) (hd : ∀ d, y.2 d → x.2 d)
    (h : ∀ d, x.2 d → x.1.held d .state = [] ∧ ∀ c w k, x.1.cur d ≠ some (c, .acq .state w k)) :
    ∀ d, y.2 d → y.1.held d .state = [] ∧ ∀ c w k, y.1.cur d ≠ some (c, .acq .state w k) := by
  induction hx with
  | nil => exact h
  | snoc x' x'' tr e _ st ih =>
    have ih := ih fun d h' => hd d (kstep_dead st h')
    cases st with
    | step κ κ' dead _ st h' =>
      intro d hd'
      dsimp only
      rw [held_of_cur st (h' d hd'), h' d hd']
      exact ih d hd'
    | served κ dead j c l w k hj hr hc ht =>
      cases hr
      exact absurd hc ((ih j hj).2 c w k)
    | kill κ dead p =>
      intro d hd'
      by_cases hdd : dead d
      · exact ih d hdd
      · have := hd d hd'
        exact absurd (kexec_dead ‹_› this) hdd

theorem alive_process {lk : MProg MLock} {proc : Nat → Nat} {ok : Nat → PCall → Prop} {W : Rules PWorld PLock} {main : Nat}
    (hs : RisingSys (procThreads lk proc ok) W) (hmain : ∀ i c, ok i c → (∃ c', c = .mirror c') ∨ proc i = main) {w : PWorld} (hJ : W.J w)
    {tr tr' : List (Ev PCall PRet)} {κ κ' : Conf PWorld PLock Unit PCall PRet} {dead : Nat → Prop}
    (hx : KExec (procThreads lk proc ok) proc OfManager (init w fun _ => (), nobody) tr (κ, dead)) (hm : ∀ d, dead d → proc d ≠ main)
    (hst : ∀ d, dead d → κ.held d .state = [] ∧ ∀ c w k, κ.cur d ≠ some (c, .acq .state w k))
    (hx' : KExec (procThreads lk proc ok) proc OfManager (κ, dead) tr' (κ', dead)) : AliveGoOn (procThreads lk proc ok) κ' dead := by
  have hS : ∀ i o c, (procThreads lk proc ok).ok i c → ((procThreads lk proc ok).call i o c).Touches (Own main (proc i)) :=
    fun i o c hc => .bind (touches_prog lk main (proc i) c (hmain i c hc)) fun _ => .ret _
  have hy := kexec_append hx hx'
  have hwhole := kexec_whole hy fun _ _ _ h => h.elim
  have hst' := atState_kexec hx' (fun _ h => h) hst
  exact alive_go_on (S := fun i => Own main (proc i)) hs hS hJ (kexec_exec hy)
    (own_outOfTheWay (within_exec hS (within_init w _) (kexec_exec hy)) hwhole hm fun d hd => (hst' d hd).1)

/-- **C72** Any processes but the main one have been killed, none of them while it held or waited for the state lock.  Then, whatever
those who are alive do: everybody in a call can go on or waits for somebody alive who can, and all their calls come to an end.
(`hmain`: only threads of the main process use the main buffer; the others use their mirrors.) -/
theorem C72_alive (proc : Nat → Nat) (ok : Nat → PCall → Prop) (main : Nat)
    (hmain : ∀ i c, ok i c → (∃ c', c = .mirror c') ∨ proc i = main) (w : PWorld)
    (tr tr' : List (Ev PCall PRet)) (κ κ' : Conf PWorld PLock Unit PCall PRet) (dead : Nat → Prop)
    (hx : KExec (procThreads MThr.madeLock proc ok) proc OfManager (init w fun _ => (), nobody) tr (κ, dead))
    (hm : ∀ d, dead d → proc d ≠ main)
    (hst : ∀ d, dead d → κ.held d .state = [] ∧ ∀ c w k, κ.cur d ≠ some (c, .acq .state w k))
    (hx' : KExec (procThreads MThr.madeLock proc ok) proc OfManager (κ, dead) tr' (κ', dead)) :
    AliveGoOn (procThreads MThr.madeLock proc ok) κ' dead :=
  alive_process (PThr.orderly proc ok).rising hmain trivial hx hm hst hx'

/-- **C72** The same with the locks of the mirrors as they are made (see `C53_process_lazy` for `hw` and `hok`). -/
theorem C72_alive_lazy (proc : Nat → Nat) (ok : Nat → PCall → Prop) (main : Nat) (hok : ∀ i p, ¬ok i (.take p))
    (hmain : ∀ i c, ok i c → (∃ c', c = .mirror c') ∨ proc i = main) (w : PWorld)
    (hw : ∀ p k, (w.procs p).lock = some k → k < (w.procs p).made)
    (tr tr' : List (Ev PCall PRet)) (κ κ' : Conf PWorld PLock Unit PCall PRet) (dead : Nat → Prop)
    (hx : KExec (procThreads MThr.lazyLock proc ok) proc OfManager (init w fun _ => (), nobody) tr (κ, dead))
    (hm : ∀ d, dead d → proc d ≠ main)
    (hst : ∀ d, dead d → κ.held d .state = [] ∧ ∀ c w k, κ.cur d ≠ some (c, .acq .state w k))
    (hx' : KExec (procThreads MThr.lazyLock proc ok) proc OfManager (κ, dead) tr' (κ', dead)) :
    AliveGoOn (procThreads MThr.lazyLock proc ok) κ' dead :=
  alive_process (PThr.rising proc ok hok) hmain hw hx hm hst hx'

/-- **C72** In particular processes that are killed between two calls are in nobody's way. -/
theorem C72_between_calls (proc : Nat → Nat) (ok : Nat → PCall → Prop) (main : Nat) (hok : ∀ i p, ¬ok i (.take p))
    (hmain : ∀ i c, ok i c → (∃ c', c = .mirror c') ∨ proc i = main) (w : PWorld)
    (hw : ∀ p k, (w.procs p).lock = some k → k < (w.procs p).made)
    (tr tr' : List (Ev PCall PRet)) (κ κ' : Conf PWorld PLock Unit PCall PRet) (dead : Nat → Prop)
    (hx : KExec (procThreads MThr.lazyLock proc ok) proc OfManager (init w fun _ => (), nobody) tr (κ, dead))
    (hm : ∀ d, dead d → proc d ≠ main) (hd : ∀ d, dead d → κ.cur d = none)
    (hx' : KExec (procThreads MThr.lazyLock proc ok) proc OfManager (κ, dead) tr' (κ', dead)) :
    AliveGoOn (procThreads MThr.lazyLock proc ok) κ' dead := by
  refine C72_alive_lazy proc ok main hok hmain w hw tr tr' κ κ' dead hx hm (fun d h => ⟨?_, fun c w k e => ?_⟩) hx'
  · obtain ⟨H, h1, h2, _⟩ := (tended_exec (PThr.rising proc ok hok) (tended_init hw _) (kexec_exec hx)).stack d
    rw [h1, h2 (hd d h)]
    rfl
  · rw [hd d h] at e
    cases e

/-! ## What a killed process has sent arrives -/

/-- **C72** At every moment of every execution in which processes are killed: what the main process has received and what is in the queue is an
interleaving of what the processes have sent, and every process, killed or not, has sent what its calls send when it is alone: all messages of
the calls that have returned, and of the last one the first part.  (See `C66_streams`.) -/
theorem C72_arrives (maxlen : Int) (N : Nat) (w : PWorld) (hw : Begun maxlen N w) (tr : List (Ev PCall PRet))
    (κ : Conf PWorld PLock Unit PCall PRet) (dead : Nat → Prop)
    (hx : KExec (procThreads MThr.lazyLock id (Works N)) id OfManager (init w fun _ => (), nobody) tr (κ, dead)) :
    ∃ (S : Nat → List QMsg) (got pend : List QMsg) (l : Log) (k : Int),
      Merge (streamsOf N S) (got ++ pend ++ κ.st.net.queues 0) ∧
      (∀ i, i ≠ 0 → Alone (callsBy i tr) (retsBy i tr) (S i) ∧ (κ.cur i = none → (retsBy i tr).length = (callsBy i tr).length)) ∧
      MainSteps ({ cap := maxlen.toNat }, N) (returned 0 tr) got (l, k) ∧ pend.length ≤ 1 ∧
      (κ.cur 0 = none → pend = [] ∧ Holds κ.st.main.base l ∧ κ.st.main.nMirrors = k) :=
  C66_streams maxlen N w hw tr κ (kexec_exec hx)

theorem callsBy_none {i : Nat} {tr : List (Ev PCall PRet)} (h : ∀ c, .inv i c ∉ tr) : callsBy i tr = [] := by
  unfold callsBy
  rw [List.filterMap_eq_nil_iff]
  intro e he
  cases e with
  | inv j c =>
    dsimp only
    rw [if_neg]
    rintro rfl
    exact h c he
  | ret => rfl

/-- **C72** If a process is killed before its last call, the `close` that sends the end signal, then `wait` does not end any more: no `receive`
returns `False`, whatever the others do.  (Nobody calls `force_stop`; `Works`.) -/
theorem C72_waits (maxlen : Int) (N : Nat) (hN : 1 ≤ N) (w : PWorld) (hw : Begun maxlen N w) (progs : Nat → List MCall)
    (hp : ∀ i, 1 ≤ i → i ≤ N → ProperProgram (progs i)) (tr tr' : List (Ev PCall PRet)) (κ κ' : Conf PWorld PLock Unit PCall PRet)
    (dead dead' : Nat → Prop)
    (hx : KExec (procThreads MThr.lazyLock id (Works N)) id OfManager (init w fun _ => (), nobody) tr (κ, dead))
    (hx' : KExec (procThreads MThr.lazyLock id (Works N)) id OfManager (κ, dead) tr' (κ', dead'))
    (hc : ∀ i, 1 ≤ i → i ≤ N → callsBy i (tr ++ tr') <+: (progs i).map .mirror)
    (hd : ∃ i, 1 ≤ i ∧ i ≤ N ∧ dead i ∧ callsBy i tr ≠ (progs i).map .mirror) :
    (.receive, .main (.bool false)) ∉ returned 0 (tr ++ tr') := by
  intro hf
  obtain ⟨i, h1, h2, h3, h4⟩ := hd
  obtain ⟨_, h5, _⟩ := C66_false_is_the_end maxlen N hN w hw progs hp _ _ (kexec_exec (kexec_append hx hx')) hc hf
  have h6 := callsBy_none (kexec_silent hx' h3).1
  have h7 := h5 i h1 h2
  unfold callsBy at h4 h6 h7
  rw [List.filterMap_append, h6, List.append_nil] at h7
  exact h4 h7

/-! ## A process killed at the state lock -/

/-- The calls of `i` that have not returned. -/
def Pending {C R : Type} (i : Nat) (c : C) (tr : List (Ev C R)) : Prop := ∃ tr₁ tr₂, tr = tr₁ ++ .inv i c :: tr₂ ∧ ∀ r, .ret i r ∉ tr₂

theorem pending_snoc {C R : Type} {i : Nat} {c : C} {tr : List (Ev C R)} {e : Ev C R} (h : Pending i c (tr ++ [e])) :
    (∀ r, e ≠ .ret i r) ∧ (e = .inv i c ∨ Pending i c tr) := by
  obtain ⟨tr1, tr2, h1, h2⟩ := h
  rcases List.eq_nil_or_concat tr2 with rfl | ⟨l, x, rfl⟩
  · have := (List.append_inj' (t₁ := [e]) h1 rfl).2
    cases this
    exact ⟨nofun, .inl rfl⟩
  · have h3 : tr ++ [e] = (tr1 ++ .inv i c :: l) ++ [x] := by rw [h1]; simp
    obtain ⟨h4, h5⟩ := List.append_inj' h3 rfl
    cases h5
    exact ⟨fun r hr => h2 r (by simp [hr]), .inr ⟨tr1, l, h4, fun r hr => h2 r (by simp [hr])⟩⟩

theorem answered_snoc {C R : Type} {i : Nat} {c : C} {r : R} {tr : List (Ev C R)} {e : Ev C R} (h : Answered i c r (tr ++ [e])) :
    Answered i c r tr ∨ (e = .ret i r ∧ Pending i c tr) := by
  obtain ⟨tr1, tr2, tr3, h1, h2⟩ := h
  rcases List.eq_nil_or_concat tr3 with rfl | ⟨l, x, rfl⟩
  · obtain ⟨h4, h5⟩ := List.append_inj' (t₁ := [e]) h1 rfl
    cases h5
    exact .inr ⟨rfl, tr1, tr2, h4, h2⟩
  · have h3 : tr ++ [e] = (tr1 ++ .inv i c :: tr2 ++ .ret i r :: l) ++ [x] := by rw [h1]; simp
    exact .inl ⟨tr1, tr2, l, (List.append_inj' h3 rfl).1, h2⟩

theorem kstep_step {σ L O C R : Type} [DecidableEq L] {sys : Sys σ L O C R} {proc : Nat → Nat} {remote : L → Prop}
    {x y : Conf σ L O C R × (Nat → Prop)} {e : Option (Ev C R)} (h : KStep sys proc remote x e y) :
    Step sys x.1 e y.1 ∨ (e = none ∧ y.1 = x.1) := by
  cases h with
  | step κ κ' dead e st h => exact .inl st
  | served κ dead d c l w k hd hr hc ht => exact .inl (.acq κ d c l w k hc ht)
  | kill => exact .inr ⟨rfl, rfl⟩

/-- Calls that need a lock which a dead thread holds return only what they return without it. -/
theorem lost {σ L O C R : Type} [DecidableEq L] {sys : Sys σ L O C R} {proc : Nat → Nat} {remote : L → Prop} {J : σ → Prop} {l : L}
    {Q : C → R → Prop} {X : Exc → Prop} (hK : ∀ i o c, sys.ok i c → (sys.call i o c).Maintains J)
    (hN : ∀ i o c, sys.ok i c → (sys.call i o c).Needs J l (fun a => Q c a.1) X) {x y : Conf σ L O C R × (Nat → Prop)} {tr : List (Ev C R)}
    (hx : KExec sys proc remote x tr y) {d : Nat} (hd : x.2 d) (hl : true ∈ x.1.held d l) (hk : Kept J x.1) :
    Kept J y.1 ∧ (∀ i c, i ≠ d → Pending i c tr → ∃ p, y.1.cur i = some (c, p) ∧ p.Needs J l (fun a => Q c a.1) X) ∧
    ∀ i c r, i ≠ d → Answered i c r tr → Q c r := by
  induction hx with
  | nil =>
    refine ⟨hk, ?_, ?_⟩
    · rintro i c _ ⟨tr1, tr2, h, _⟩; simp at h
    · rintro i c r _ ⟨tr1, tr2, tr3, h, _⟩; simp at h
  | snoc x' x'' tr e hx st ih =>
    obtain ⟨ih1, ih2, ih3⟩ := ih
    have hl' := kexec_holds hx hd hl
    obtain ⟨κ1, d1⟩ := x'
    obtain ⟨κ2, d2⟩ := x''
    dsimp only at *
    rcases kstep_step st with st | ⟨rfl, h⟩
    all_goals dsimp only at *
    · refine ⟨kept_step hK ih1 st, fun i c hi h => ?_, fun i c r hi h => ?_⟩
      · cases e with
        | none =>
          rw [Option.toList_none, List.append_nil] at h
          obtain ⟨p, h1, h2⟩ := ih2 i c hi h
          rcases needs_step ih1.st st (Ne.symm hi) hl' h1 h2 with h3 | ⟨_, _, h3, _⟩
          · exact h3
          · cases h3
        | some e =>
          obtain ⟨h1, h2⟩ := pending_snoc h
          rcases h2 with rfl | h2
          · cases st with
            | inv _ _ hc hok => exact ⟨_, by dsimp only; rw [upd_same], hN i _ c hok⟩
          · obtain ⟨p, h3, h4⟩ := ih2 i c hi h2
            rcases needs_step ih1.st st (Ne.symm hi) hl' h3 h4 with h5 | ⟨r, _, h5, _⟩
            · exact h5
            · cases h5
              exact absurd rfl (h1 r)
      · cases e with
        | none =>
          rw [Option.toList_none, List.append_nil] at h
          exact ih3 i c r hi h
        | some e =>
          rcases answered_snoc h with h | ⟨rfl, h'⟩
          · exact ih3 i c r hi h
          · obtain ⟨p, h3, h4⟩ := ih2 i c hi h'
            rcases needs_step ih1.st st (Ne.symm hi) hl' h3 h4 with ⟨p', h5, _⟩ | ⟨r', o, h5, h6⟩
            · cases st with
              | ret _ c' _ o hc =>
                dsimp only at h5
                rw [upd_same] at h5
                cases h5
            · cases h5
              exact h6
    · rw [Option.toList_none, List.append_nil, h]
      exact ⟨ih1, ih2, ih3⟩

/-- **C72** Once a killed thread holds the state lock, it is lost: whatever happens later, a call of `stop_all_mirrors` does not return, no call of
`write` returns except with an `OSError` (the mirror is closed), and no call of `reset_states` returns except with a `TypeError` (there are
mirrors in use).  (`hw`: the mirrors check the state; those made by `LineProcBuffer` do.) -/
theorem C72_lost (proc : Nat → Nat) (ok : Nat → PCall → Prop) (w : PWorld)
    (hw : w.main.mirror.hasState = true ∧ ∀ p, (w.procs p).mirror.hasState = true) (tr tr' : List (Ev PCall PRet))
    (κ κ' : Conf PWorld PLock Unit PCall PRet) (dead dead' : Nat → Prop)
    (hx : KExec (procThreads MThr.lazyLock proc ok) proc OfManager (init w fun _ => (), nobody) tr (κ, dead))
    (hx' : KExec (procThreads MThr.lazyLock proc ok) proc OfManager (κ, dead) tr' (κ', dead'))
    (hd : ∃ d, dead d ∧ true ∈ κ.held d .state) (i : Nat) (r : PRet) :
    ¬Answered i .stopAll r tr' ∧ (∀ t, Answered i (.mirror (.write t)) r tr' → r = .mirror (.exc .osError)) ∧
    (Answered i .reset r tr' → r = .main (.exc .typeError)) := by
  obtain ⟨d, hd, hl⟩ := hd
  have hK : ∀ i o c, (procThreads MThr.lazyLock proc ok).ok i c → ((procThreads MThr.lazyLock proc ok).call i o c).Maintains Checks :=
    fun i o c _ => .bind (maintains_prog _ _) fun _ => .ret _
  have hN : ∀ i o c, (procThreads MThr.lazyLock proc ok).ok i c →
      ((procThreads MThr.lazyLock proc ok).call i o c).Needs Checks .state (fun a => Without c a.1) fun _ => True :=
    fun i o c _ => (needs_prog _ _).bind fun _ h => h
  have hk : Kept Checks κ := kept_exec hK (κ := init w fun _ => ()) ⟨hw, fun _ _ _ h => nomatch h⟩ (kexec_exec hx)
  have key := (lost hK hN hx' hd hl hk).2.2
  have hs : ∀ c, Answered i c r tr' → Without c r := fun c h => by
    refine key i c r ?_ h
    rintro rfl
    obtain ⟨tr1, tr2, tr3, rfl, _⟩ := h
    exact (kexec_silent hx' hd).1 c (by simp)
  exact ⟨hs _, fun t h => hs _ h, hs _⟩

/-! ## The documented way to stop -/

/-- Three threads, one for each process, may do everything. -/
abbrev anyProcs : Sys PWorld PLock Unit PCall PRet := procThreads MThr.lazyLock id fun _ _ => True

/-- The locks that can be taken again. -/
def again : PLock → Bool
  | .buf _ _ => true
  | _ => false

theorem again_reentrant : ∀ l, again l = true → anyProcs.reentrant l := fun l hl => by
  cases l with
  | buf p k => exact ⟨p, k, rfl⟩
  | _ => cases hl

/-- Who waits for a lock that a dead thread holds stays where it is, and does not return. -/
theorem kexec_stuck {σ L O C R : Type} [DecidableEq L] {sys : Sys σ L O C R} {proc : Nat → Nat} {remote : L → Prop}
    {x y : Conf σ L O C R × (Nat → Prop)} {tr : List (Ev C R)} (hx : KExec sys proc remote x tr y) {d i : Nat} {c : C} {l : L} {w : Bool}
    {k : Prog σ L (R × O)} (hne : d ≠ i) (hd : x.2 d) (hl : true ∈ x.1.held d l) (hc : x.1.cur i = some (c, .acq l w k)) :
    y.1.cur i = x.1.cur i ∧ ∀ r, .ret i r ∉ tr := by
  rw [hc]
  induction hx with
  | nil => exact ⟨hc, nofun⟩
  | snoc x' x'' tr e hx st ih =>
    have h1 := kstep_waits st hne (kexec_holds hx hd hl) ih.1
    refine ⟨h1, fun r hr => ?_⟩
    rcases List.mem_append.mp hr with h | h
    · exact ih.2 r h
    · have he : e = some (.ret i r) := by simpa [eq_comm] using h
      subst he
      rcases kstep_step st with st | ⟨h2, _⟩
      · exact (silent_of_cur st (h1.trans ih.1.symm)).2 r rfl
      · cases h2

theorem movers {C : Type} {ms : List (Move C)} {n : Nat} {dead : Nat → Prop} (h : (ms.all fun m => m.by == n) = true) (hn : ¬dead n) :
    ∀ m ∈ ms, ¬dead m.by := fun m hm => by
  have := List.all_eq_true.mp h m hm
  rw [beq_iff_eq.mp this]
  exact hn

theorem notMain : ¬(nobody 0 ∨ id 0 = 1) := fun h => h.elim (fun h => h) nofun

/-- **C72** fails for the documented way to stop (`force_stop`: "calling this method means that the multi-processing functionalities of this
buffer will be disposed, unless `self.reset_states()` is used.  Recommend that this method should be used when all subprocesses will be stopped
by `Process.terminate()` or `Process.kill()`", `mproc.py:881-885`).  Process 1 is killed in the check at the beginning of a `write`, and process 2
between calls; the main process calls `force_stop`, its `receive` returns `False`, no mirror is in use any more, and it calls
`reset_states`.  This call never returns. -/
theorem C72_reset_violated : ∃ tr κ dead, KExec anyProcs id OfManager (init pair fun _ => (), nobody) tr (κ, dead) ∧
    dead 1 ∧ dead 2 ∧ ¬dead 0 ∧ (∀ c, .inv 2 c ∉ tr) ∧
    returned 0 tr = [(.forceStop, .main .unit), (.receive, .main (.bool false))] ∧ κ.st.main.nMirrors = 0 ∧
    (∃ p, κ.cur 0 = some (.reset, p)) ∧
    ∀ tr' κ' dead', KExec anyProcs id OfManager (κ, dead) tr' (κ', dead') → κ'.cur 0 = κ.cur 0 ∧ ∀ r, .ret 0 r ∉ tr' := by
  obtain ⟨h1, f1⟩ := kexec_moves (proc := id) (remote := OfManager) (dead := nobody) (sys := anyProcs) (n := 3) (re := again)
    (κ := (init pair fun _ => () : Conf PWorld PLock Unit PCall PRet))
    (ms := .start 1 (.mirror (.write (lit "a\n"))) :: List.replicate 11 (.go 1)) rfl (fun _ _ _ _ _ => trivial) (fun _ _ _ => rfl) again_reentrant
    (fun _ _ h => h)
  have h2 := kexec_append h1 (kexec_one (.kill _ _ 1))
  have h3 := kexec_append h2 (kexec_one (.kill _ _ 2))
  obtain ⟨h4, f4⟩ := kexec_moves (proc := id) (remote := OfManager) (sys := anyProcs) (n := 3) (re := again)
    (dead := fun i => (nobody i ∨ id i = 1) ∨ id i = 2)
    (ms := .start 0 .forceStop :: List.replicate 3 (.go 0) ++ .start 0 .receive :: List.replicate 6 (.go 0) ++ [.start 0 .reset, .go 0])
    rfl (fun _ _ _ _ _ => trivial) f1 again_reentrant
    (movers (n := 0) (dead := fun i => (nobody i ∨ id i = 1) ∨ id i = 2) rfl fun h => h.elim notMain nofun)
  refine ⟨_, _, _, kexec_append h3 h4, .inl (.inr rfl), .inr rfl, by simp, ?_, rfl, rfl, ⟨_, rfl⟩, fun tr' κ' dead' hx => ?_⟩
  · intro c hc
    simp at hc
  · exact kexec_stuck hx (d := 1) (i := 0) (l := .state) (by decide) (.inl (.inr rfl)) (List.mem_cons_self ..) rfl

/-- There those who are alive do not go on. -/
example : ∃ tr κ dead, KExec anyProcs id OfManager (init pair fun _ => (), nobody) tr (κ, dead) ∧ ¬dead 0 ∧ κ.cur 0 ≠ none ∧
    ¬AliveGoOn anyProcs κ dead := by
  obtain ⟨tr, κ, dead, h1, h2, h3, h4, _, _, _, ⟨p, h5⟩, h6⟩ := C72_reset_violated
  refine ⟨tr, κ, dead, h1, h4, by rw [h5]; exact nofun, fun h => ?_⟩
  obtain ⟨_, ⟨κ', h7, h8⟩, _⟩ := h
  have h9 : ∀ {κ κ' : Conf PWorld PLock Unit PCall PRet}, LiveRun anyProcs dead κ κ' → ∃ tr, KExec anyProcs id OfManager (κ, dead) tr (κ', dead) := by
    intro κ κ' h
    induction h with
    | stop κ => exact ⟨_, .nil _⟩
    | step κ κ1 κ2 e st hd _ _ ih =>
      obtain ⟨tr, ih⟩ := ih
      exact ⟨_, kexec_append (kexec_one (.step _ _ _ _ st hd)) ih⟩
  obtain ⟨tr', h10⟩ := h9 h7
  have := (h6 tr' κ' dead h10).1
  rw [h8 0 h4, h5] at this
  cases this

/-- **C72** fails, too, if the process is killed while it waits for the lock: the main process is in `stop_all_mirrors`, and process 1, which is about
to write, waits and is killed.  When `stop_all_mirrors` has returned, the manager takes the lock for the dead process, and the next
`stop_all_mirrors` never returns. -/
theorem C72_waiting_violated : ∃ tr κ dead, KExec anyProcs id OfManager (init pair fun _ => (), nobody) tr (κ, dead) ∧
    dead 1 ∧ ¬dead 0 ∧ ¬dead 2 ∧ returned 0 tr = [(.stopAll, .main .unit)] ∧ (∃ p, κ.cur 0 = some (.stopAll, p)) ∧
    ∀ tr' κ' dead', KExec anyProcs id OfManager (κ, dead) tr' (κ', dead') → κ'.cur 0 = κ.cur 0 ∧ ∀ r, .ret 0 r ∉ tr' := by
  obtain ⟨h1, f1⟩ := kexec_moves (proc := id) (remote := OfManager) (dead := nobody) (sys := anyProcs) (n := 3) (re := again)
    (κ := (init pair fun _ => () : Conf PWorld PLock Unit PCall PRet))
    (ms := .start 1 (.mirror (.write (lit "a\n"))) :: List.replicate 10 (.go 1) ++ [.start 0 .stopAll, .go 0]) rfl (fun _ _ _ _ _ => trivial)
    (fun _ _ _ => rfl) again_reentrant (fun _ _ h => h)
  have h2 := kexec_append h1 (kexec_one (.kill _ _ 1))
  obtain ⟨h3, f3⟩ := kexec_moves (proc := id) (remote := OfManager) (sys := anyProcs) (n := 3) (re := again)
    (dead := fun i => nobody i ∨ id i = 1) (ms := List.replicate 3 (.go 0)) rfl (fun _ _ _ _ _ => trivial) f1 again_reentrant
    (movers (n := 0) (dead := fun i => nobody i ∨ id i = 1) rfl notMain)
  obtain ⟨h4, f4⟩ := kexec_served (c := .mirror (.write (lit "a\n"))) (kexec_append h2 h3) f3 (d := 1) (l := .state) (w := true) (by omega) (.inr rfl)
    rfl rfl ⟨.inl rfl, fun j hj => by
      match j with
      | 0 => exact ⟨nofun, fun _ => rfl⟩
      | 1 => exact absurd rfl hj
      | 2 => exact ⟨nofun, fun _ => rfl⟩
      | j + 3 =>
        have := f3 (j + 3) .state (by omega)
        rw [this]
        exact ⟨nofun, fun _ => rfl⟩⟩
  obtain ⟨h5, f5⟩ := kexec_moves (proc := id) (remote := OfManager) (sys := anyProcs) (n := 3) (re := again)
    (dead := fun i => nobody i ∨ id i = 1) (ms := [.start 0 .stopAll]) rfl (fun _ _ _ _ _ => trivial) f4 again_reentrant
    (movers (n := 0) (dead := fun i => nobody i ∨ id i = 1) rfl notMain)
  refine ⟨_, _, _, kexec_append h4 h5, .inr rfl, by simp, by simp, rfl, ⟨_, rfl⟩, fun tr' κ' dead' hx => ?_⟩
  exact kexec_stuck hx (d := 1) (i := 0) (l := .state) (by decide) (.inr rfl) (List.mem_cons_self ..) rfl

/-- The main process stops the buffer, receives and resets it. -/
def movesStop : List (Move PCall) :=
  .start 0 .forceStop :: List.replicate 3 (.go 0) ++ .start 0 .receive :: List.replicate 6 (.go 0) ++ .start 0 .reset :: List.replicate 7 (.go 0)

/-- What is to be seen. -/
def stopEnds : Bool :=
  match moves anyProcs 3 (.start 1 (.mirror (.write (lit "a\n"))) :: List.replicate 16 (.go 1)) (init pair fun _ => ()) again with
  | none => false
  | some (_, κ) =>
    match moves anyProcs 3 movesStop κ again with
    | none => false
    | some (tr', κ') =>
      (match returned 0 tr' with
        | [(.forceStop, .main .unit), (.receive, .main (.bool false)), (.reset, .main .unit)] => true
        | _ => false) &&
      κ'.held 1 (.buf 1 0) == [true] && κ.held 1 .state == [] &&
      (match κ.cur 1 with
        | some (_, .acq .state _ _) => false
        | _ => true)

theorem stop_ends : stopEnds = true := by decide +kernel

/-- If process 1 is killed later in its `write`, when it holds nothing but its own lock, then the documented way works. -/
example : ∃ tr κ dead tr' κ', KExec anyProcs id OfManager (init pair fun _ => (), nobody) tr (κ, dead) ∧ dead 1 ∧
    (∀ d, dead d → κ.held d .state = [] ∧ ∀ c w k, κ.cur d ≠ some (c, .acq .state w k)) ∧
    KExec anyProcs id OfManager (κ, dead) tr' (κ', dead) ∧ κ'.held 1 (.buf 1 0) = [true] ∧
    returned 0 tr' = [(.forceStop, .main .unit), (.receive, .main (.bool false)), (.reset, .main .unit)] := by
  have h := stop_ends
  unfold stopEnds at h
  split at h
  · cases h
  rename_i tr κ e1
  split at h
  · cases h
  rename_i tr' κ' e2
  simp only [Bool.and_eq_true, beq_iff_eq] at h
  obtain ⟨⟨⟨g1, g2⟩, g3⟩, g4⟩ := h
  obtain ⟨h1, f1⟩ := kexec_moves (proc := id) (remote := OfManager) (dead := nobody) e1 (fun _ _ _ _ _ => trivial) (fun _ _ _ => rfl) again_reentrant
    (fun _ _ h => h)
  obtain ⟨h2, _⟩ := kexec_moves (proc := id) (remote := OfManager) (dead := fun i => nobody i ∨ id i = 1) e2 (fun _ _ _ _ _ => trivial) f1
    again_reentrant (movers (n := 0) (dead := fun i => nobody i ∨ id i = 1) rfl notMain)
  refine ⟨_, _, _, _, _, kexec_append h1 (kexec_one (.kill _ _ 1)), .inr rfl, fun d hd => ?_, h2, g2, ?_⟩
  · rcases hd with hd | hd
    · exact hd.elim
    · obtain rfl : d = 1 := hd
      refine ⟨g3, fun c w k e => ?_⟩
      rw [e] at g4
      cases g4
  · split at g1
    · assumption
    · cases g1

/-- The moves of the next example use the mirrors and receive. -/
def worksMove : Move PCall → Bool
  | .go _ => true
  | .start 0 .receive => true
  | .start 1 (.mirror _) => true
  | .start 2 (.mirror _) => true
  | _ => false

theorem worksMove_ok {ms : List (Move PCall)} (h : ms.all worksMove = true) : ∀ m ∈ ms, ∀ i c, m = .start i c → Works 2 i c := fun m hm i c e => by
  have := List.all_eq_true.mp h m hm
  subst e
  unfold worksMove at this
  split at this
  · cases ‹Move.start i c = _›
  · cases ‹Move.start i c = _›
    exact .inl ⟨rfl, .inl rfl⟩
  · cases ‹Move.start i c = _›
    exact .inr ⟨by omega, by omega, _, rfl⟩
  · cases ‹Move.start i c = _›
    exact .inr ⟨by omega, by omega, _, rfl⟩
  · cases this

/-- Process 1 writes a line. -/
def movesBefore : List (Move PCall) := .start 1 (.mirror (.write (lit "a\n"))) :: List.replicate 26 (.go 1)

/-- Process 2 writes and closes its mirror, and the main process receives three messages. -/
def movesAfter : List (Move PCall) :=
  .start 2 (.mirror (.write (lit "b"))) :: List.replicate 17 (.go 2) ++ .start 2 (.mirror (.close none)) :: List.replicate 43 (.go 2) ++
  .start 0 .receive :: List.replicate 15 (.go 0) ++ .start 0 .receive :: List.replicate 15 (.go 0) ++ .start 0 .receive :: List.replicate 8 (.go 0)

/-- What is to be seen. -/
def killedEnds : Bool :=
  match moves (procThreads MThr.lazyLock id (Works 2)) 3 movesBefore (init pair fun _ => ()) again with
  | none => false
  | some (tr, κ) =>
    match moves (procThreads MThr.lazyLock id (Works 2)) 3 movesAfter κ again with
    | none => false
    | some (tr', κ') =>
      (match callsBy 1 tr with
        | [.mirror (.write a)] => a == lit "a\n"
        | _ => false) &&
      (match callsBy 2 (tr ++ tr') with
        | [.mirror (.write a), .mirror (.close none)] => a == lit "b"
        | _ => false) &&
      (match returned 0 (tr ++ tr') with
        | [(.receive, .main (.bool true)), (.receive, .main (.bool true)), (.receive, .main (.bool true))] => true
        | _ => false) &&
      (match κ'.st.main.base.storage.items with
        | [.str a, .str b] => a == lit "a" && b == lit "b"
        | _ => false) &&
      (κ'.st.net.queues 0).isEmpty && κ'.st.main.nMirrors == 1

theorem killed_ends : killedEnds = true := by decide +kernel

/-- Process 1 has written a line and is killed; process 2 writes and closes its mirror.  The main process receives both texts and one end signal, and
the queue is empty: another `receive` would wait. -/
example : ∃ tr tr' κ κ' dead dead', KExec (procThreads MThr.lazyLock id (Works 2)) id OfManager (init pair fun _ => (), nobody) tr (κ, dead) ∧
    KExec (procThreads MThr.lazyLock id (Works 2)) id OfManager (κ, dead) tr' (κ', dead') ∧ dead 1 ∧
    callsBy 1 tr ≠ (pairProgs 1).map .mirror ∧ (∀ i, 1 ≤ i → i ≤ 2 → callsBy i (tr ++ tr') <+: (pairProgs i).map .mirror) ∧
    returned 0 (tr ++ tr') = [(.receive, .main (.bool true)), (.receive, .main (.bool true)), (.receive, .main (.bool true))] ∧
    κ'.st.main.base.storage.items = [.str (lit "a"), .str (lit "b")] ∧ κ'.st.net.queues 0 = [] ∧ κ'.st.main.nMirrors = 1 := by
  have h := killed_ends
  unfold killedEnds at h
  split at h
  · cases h
  rename_i tr κ e1
  split at h
  · cases h
  rename_i tr' κ' e2
  simp only [Bool.and_eq_true, List.isEmpty_iff, beq_iff_eq] at h
  obtain ⟨⟨⟨⟨⟨g1, g2⟩, g3⟩, g4⟩, g5⟩, g6⟩ := h
  obtain ⟨h1, f1⟩ := kexec_moves (proc := id) (remote := OfManager) (dead := nobody) e1 (worksMove_ok rfl) (fun _ _ _ => rfl) again_reentrant
    (fun _ _ h => h)
  obtain ⟨h2, _⟩ := kexec_moves (proc := id) (remote := OfManager) (dead := fun i => nobody i ∨ id i = 1) e2 (worksMove_ok rfl) f1
    again_reentrant fun m hm => by
      have : (movesAfter.all fun m => m.by != 1) = true := rfl
      have := List.all_eq_true.mp this m hm
      exact fun h => h.elim (fun h => h) fun h => by simp [show m.by = 1 from h] at this
  have h3 := kexec_append h1 (kexec_one (.kill _ _ 1))
  rw [Option.toList_none, List.append_nil] at h3
  have c1 : callsBy 1 tr = [.mirror (.write (lit "a\n"))] := by
    split at g1
    · rename_i a hc
      rw [hc, beq_iff_eq.1 g1]
    · cases g1
  refine ⟨tr, tr', κ, κ', _, _, h3, h2, .inr rfl, ?_, fun i hi hi' => ?_, ?_, ?_, g5, g6⟩
  · rw [c1]
    exact fun h => nomatch congrArg List.length h
  · have hi : i = 1 ∨ i = 2 := by omega
    rcases hi with rfl | rfl
    · have := callsBy_none (kexec_silent h2 (d := 1) (.inr rfl)).1
      unfold callsBy at this c1 ⊢
      rw [List.filterMap_append, c1, this]
      exact ⟨[.mirror (.close none)], rfl⟩
    · split at g2
      · rename_i a hc
        rw [hc, beq_iff_eq.1 g2]
        exact ⟨[], rfl⟩
      · cases g2
  · split at g3
    · assumption
    · cases g3
  · split at g4
    · rename_i a b hc
      simp only [Bool.and_eq_true, beq_iff_eq] at g4
      rw [hc, g4.1, g4.2]
    · cases g4

end SyncStream
