import Verif.Lemmas.ProcRaces
import Verif.Lemmas.Sched
/-!
# Races of the process mode: C21
-/

namespace SyncStream
open Conc Prog Spec

/-! ## C21 -/

/-- The lock of a mirror is made when it is first used, or exists. -/
def KnownLock (lk : MProg MLock) : Prop := lk = MThr.lazyLock ∨ lk = MThr.madeLock

theorem KnownLock.harmless {lk : MProg MLock} (h : KnownLock lk) : MThr.Harmless lk := by
  rcases h with rfl | rfl
  · exact MThr.harmless_lazy
  · exact MThr.harmless_made

namespace PThr

theorem call_guar (K : Nat → Prop) {lk : MProg MLock} (hl : MThr.Harmless lk) (proc : Nat → Nat)
    {ok : Nat → PCall → Prop} (hok : ∀ i c, ok i c → Keeps K (proc i) c) :
    ∀ i o c, (procThreads lk proc ok).ok i c → ((procThreads lk proc ok).call i o c).Guar (Flag K) :=
  fun i _ c hc => .bind (guar_prog K hl (proc i) c (hok i c hc)) fun _ => trivial

/-- Once `stop_all_mirrors` has returned, the flag is set. -/
theorem flag_set (K : Nat → Prop) {lk : MProg MLock} (hl : MThr.Harmless lk) (proc : Nat → Nat)
    {ok : Nat → PCall → Prop} (hok : ∀ i c, ok i c → Keeps K (proc i) c) {w : PWorld} {tr : List (Ev PCall PRet)}
    {κ : Conc.Conf PWorld PLock Unit PCall PRet} (h : Exec (procThreads lk proc ok) (init w fun _ => ()) tr κ)
    {i : Nat} {r : PRet} (hr : Returns tr i .stopAll r) : κ.st.net.closed = some true := by
  have ⟨t, h1, h2⟩ := (exec_meets (flag_steady K) (call_guar K hl proc hok) (A := fun _ => True)
    (fun _ _ _ _ => trivial) (Q := fun _ c _ t => c = .stopAll → t.net.closed = some true)
    (fun i o c hc s _ => ?_) h (init_guar _ _) trivial).2 i _ r hr
  · exact h2.1 (h1 rfl)
  · by_cases hs : c = .stopAll
    · subst hs
      refine .bind (flag_steady K) (Q := fun _ t => t.net.closed = some true) ?_
        (fun x t ht u hu y _ _ => hu.1 ht) (fun _ _ _ _ h => nomatch h)
      refine .bind (flag_steady K) (meets_stopAll K s).outcome (fun x t ht u hu => ?_) (fun _ _ ⟨_, h, _⟩ => nomatch h)
      obtain ⟨y, -, -, h3⟩ := ht
      exact hu.1 h3
    · exact .any (fun _ _ _ _ h => absurd h hs) _ _

/-- The result of a `write` that is started when the flag is set. -/
theorem write_raises (K : Nat → Prop) {lk : MProg MLock} (hl : MThr.Harmless lk) (proc : Nat → Nat)
    {ok : Nat → PCall → Prop} (hok : ∀ i c, ok i c → Keeps K (proc i) c) {κ κ' : Conc.Conf PWorld PLock Unit PCall PRet}
    {tr : List (Ev PCall PRet)} (h : Exec (procThreads lk proc ok) κ tr κ') (hk : AllGuar (Flag K) κ)
    (hs : Stopped κ.st) {j : Nat} {d : PyStr} {r : PRet} (hr : Returns tr j (.mirror (.write d)) r) :
    r = .mirror (.exc .stopIteration) ∨ (r = .mirror (.exc .osError) ∧
      ¬ (K (proc j) ∧ (κ.st.procs (proc j)).mirror.buf.closed = false)) := by
  have ⟨t, h1, _⟩ := (exec_meets (flag_steady K) (call_guar K hl proc hok)
    (A := fun w => Stopped w ∧ Flag K κ.st w)
    (fun s t h1 h2 => ⟨⟨h2.2.1 h1.1.1, h2.1 h1.1.2⟩, (flag_steady K).trans h1.2 h2⟩)
    (Q := fun i c r _ => ∀ d, c = .mirror (.write d) → r = .mirror (.exc .stopIteration) ∨ (r = .mirror (.exc .osError) ∧
      ¬ (K (proc i) ∧ (κ.st.procs (proc i)).mirror.buf.closed = false))) (fun i o c hc s hs => ?_) h hk
      ⟨hs, (flag_steady K).refl _⟩).2 j _ r hr
  · exact h1 d rfl
  · by_cases hw : ∃ d, c = .mirror (.write d)
    · obtain ⟨d, rfl⟩ := hw
      have hm := MThr.meets_write (K (proc i)) hl d (s.procs (proc i), s.net) ⟨hs.1.1.2 _, hs.1.2⟩
      have hg := MThr.guar_prog (MThr.flag_steps (K (proc i))) hl (.write d) (fun _ => nofun) trivial
      have hp : (MThr.prog lk (.write d)).Meets (MThr.Flag (K (proc i))) (fun r _ => ∃ x, r = .ok x ∧
          (x = .exc .stopIteration ∨ (x = .exc .osError ∧
            ¬ (K (proc i) ∧ (s.procs (proc i)).mirror.buf.closed = false)))) (s.procs (proc i), s.net) := by
        refine .bind (MThr.flag_steady _) hm.outcome (fun x t ht u hu => ?_) (fun _ _ ⟨_, h, _⟩ => nomatch h)
        obtain ⟨y, e, h⟩ := ht
        cases e
        rcases h with rfl | ⟨rfl, h⟩
        · exact ⟨_, rfl, .inl rfl⟩
        · exact ⟨_, rfl, .inr ⟨rfl, h⟩⟩
      refine .bind (flag_steady K) (.bind (flag_steady K) (meets_mirror K (proc i) hs.1.1 hg hp)
        (Q' := fun r _ => ∃ x, r = .ok (.mirror x) ∧ (x = .exc .stopIteration ∨ (x = .exc .osError ∧
            ¬ (K (proc i) ∧ (s.procs (proc i)).mirror.buf.closed = false))))
        (fun x t ht u hu => ?_) (fun _ _ ⟨_, h, _⟩ => nomatch h)) (fun x t ht u hu y e d _ => ?_)
        (fun _ _ ⟨_, h, _⟩ => nomatch h)
      · obtain ⟨y, e, h⟩ := ht
        cases e
        exact ⟨_, rfl, h⟩
      · obtain ⟨z, e', h⟩ := ht
        cases e
        cases e'
        rcases h with rfl | ⟨rfl, h⟩
        · exact .inl rfl
        · exact .inr ⟨rfl, fun hk => h ⟨hk.1, hs.2.2.2 _ hk.1 hk.2⟩⟩
    · exact .any (fun _ _ _ _ d h => absurd ⟨d, h⟩ hw) _ _

end PThr

variable {lk : MProg MLock} {proc : Nat → Nat} {ok : Nat → PCall → Prop} {w : PWorld}
  {κ κ' : Conc.Conf PWorld PLock Unit PCall PRet} {tr tr' : List (Ev PCall PRet)}

/-- **C21** for any number of processes and threads, step by step: once a `stop_all_mirrors()` has returned, every
`write()` on a mirror that is started then raises `StopIteration` (or `OSError` if its mirror is closed), whatever
all the others are doing and have begun before, as long as nobody resets the states. -/
theorem C21_race (hl : KnownLock lk) (hok : ∀ i, ¬ ok i .reset) (hw : Stateful w)
    (h : Exec (procThreads lk proc ok) (init w fun _ => ()) tr κ) {i : Nat} {r0 : PRet} (hs : Returns tr i .stopAll r0)
    (h' : Exec (procThreads lk proc ok) κ tr' κ') {j : Nat} {d : PyStr} {r : PRet}
    (hr : Returns tr' j (.mirror (.write d)) r) :
    r = .mirror (.exc .stopIteration) ∨ r = .mirror (.exc .osError) := by
  have hkeep : ∀ i c, ok i c → PThr.Keeps (fun _ => False) (proc i) c := by
    intro i c hc
    cases c with
    | reset => exact hok i hc
    | mirror c => cases c <;> first | trivial | exact id
    | take q => exact id
    | _ => trivial
  have hg := exec_guar (PThr.flag_steady _) (PThr.call_guar _ hl.harmless proc hkeep) h (init_guar _ _)
  rcases PThr.write_raises _ hl.harmless proc hkeep h' hg.2
    ⟨hg.1.2.1 hw, PThr.flag_set _ hl.harmless proc hkeep h hs⟩ hr with h | h
  · exact .inl h
  · exact .inr h.1

/-- **C21** If moreover the mirror is open and nobody closes it or takes a new one for this process, the `write()`
raises `StopIteration`. -/
theorem C21_race_open (hl : KnownLock lk) (hok : ∀ i, ¬ ok i .reset) (hw : Stateful w)
    (h : Exec (procThreads lk proc ok) (init w fun _ => ()) tr κ) {i : Nat} {r0 : PRet} (hs : Returns tr i .stopAll r0)
    (h' : Exec (procThreads lk proc ok) κ tr' κ') {j : Nat} {d : PyStr} {r : PRet}
    (hr : Returns tr' j (.mirror (.write d)) r)
    (ho : (κ.st.procs (proc j)).mirror.buf.closed = false)
    (hc : ∀ i e, ok i (.mirror (.close e)) → proc i ≠ proc j) (ht : ∀ i, ¬ ok i (.take (proc j))) :
    r = .mirror (.exc .stopIteration) := by
  have hkeep : ∀ i c, ok i c → PThr.Keeps (· = proc j) (proc i) c := by
    intro i c hc'
    cases c with
    | reset => exact hok i hc'
    | mirror c => cases c with
      | close e => exact hc i e hc'
      | _ => trivial
    | take q => exact fun e => ht i (by rw [← e]; exact hc')
    | _ => trivial
  have hg := exec_guar (PThr.flag_steady _) (PThr.call_guar _ hl.harmless proc hkeep) h (init_guar _ _)
  rcases PThr.write_raises _ hl.harmless proc hkeep h' hg.2
    ⟨hg.1.2.1 hw, PThr.flag_set _ hl.harmless proc hkeep h hs⟩ hr with h | h
  · exact h
  · exact absurd ⟨rfl, ho⟩ h.2

/-- **C21** Nothing is sent and no mirror changes: from a moment at which the mirrors are stopped and nobody is in the
middle of a call, whatever `write()` and `new_line()` calls the threads of all processes make, while the main process
receives and uses its buffer: the queues only lose messages from the front, every mirror stays as it is, and the
`write()` calls raise `StopIteration` (`OSError` on a closed mirror). -/
theorem C21_race_silent (hl : KnownLock lk) (hok : ∀ i c, ok i c → Mild c) (hw : Stateful w)
    (hs : w.net.closed = some true) (h : Exec (procThreads lk proc ok) (init w fun _ => ()) tr κ) :
    (∀ q, κ.st.net.queues q <:+ w.net.queues q) ∧ (∀ p, (κ.st.procs p).mirror = (w.procs p).mirror) ∧
    ∀ j d r, Returns tr j (.mirror (.write d)) r →
      r = .mirror (.exc (if (w.procs (proc j)).mirror.buf.closed then .osError else .stopIteration)) := by
  have ⟨h1, _, h3⟩ := exec_safe PThr.silent_steady (A := fun t => PThr.Stopped t ∧ PThr.Silent w t)
    (fun s t h1 h2 => ⟨h1.1.silent h2, PThr.silent_steady.trans h1.2 h2⟩)
    (Q := fun i c r _ => ∀ d, c = .mirror (.write d) →
      r = .mirror (.exc (if (w.procs (proc i)).mirror.buf.closed then .osError else .stopIteration)))
    (fun i o c hc s hs => ?_) h ⟨⟨hw, hs⟩, PThr.silent_steady.refl _⟩
  · refine ⟨h1.2.2.2, h1.2.2.1, fun j d r hr => ?_⟩
    obtain ⟨t, h4, -⟩ := h3 j _ r hr
    exact h4 d rfl
  · refine .bind PThr.silent_steady (PThr.safe_prog hl.harmless (proc i) c (hok i c hc) s hs.1)
      (fun x t ht u hu y e d hd => ?_) (fun e t ht y h => nomatch h)
    cases e
    cases ht d hd
    rw [hs.2.2.2.1]

/-- Thread 0 is in the middle of a `write()` in its process when the mirrors are stopped: what it writes still
arrives, while the `write()` that thread 1 starts in another process raises `StopIteration`. -/
example : ∃ tr κ tr' κ', (Exec (procThreads MThr.lazyLock id fun _ _ => True)
      (init ⟨{ base := { storage := { maxlen := 9 } } }, fun _ => { mirror := .new 0 }, {}⟩ fun _ => ()) tr κ ∧
    Exec (procThreads MThr.lazyLock id fun _ _ => True) κ tr' κ') ∧
    Returns tr 2 .stopAll (.main .unit) ∧
    Returns tr' 1 (.mirror (.write (lit "b\n"))) (.mirror (.exc .stopIteration)) ∧
    tr'.getLast? = some (.ret 0 (.mirror (.nat 2))) ∧
    κ'.st.net.queues 0 = [.str (lit "a\n")] ∧ (κ'.st.procs 1).mirror = .new 0 := by
  refine ⟨_, _, _, _, moves_sound2 (re := fun | .buf _ _ => true | _ => false)
    (ms := .start 0 (.mirror (.write (lit "a\n"))) :: List.replicate 14 (.go 0) ++ .start 2 .stopAll ::
      List.replicate 4 (.go 2))
    (ms' := .start 1 (.mirror (.write (lit "b\n"))) :: List.replicate 15 (.go 1) ++ List.replicate 12 (.go 0))
    (n := 3) (fun _ _ => trivial) (fun _ _ _ => rfl) rfl rfl ?_, ?_, ?_, rfl, rfl, rfl⟩
  · intro l hl
    cases l with
    | buf p k => exact ⟨p, k, rfl⟩
    | _ => cases hl
  · exact ⟨[_], [], [], rfl, nofun⟩
  · exact ⟨[], [], [_], rfl, nofun⟩

/-- After the stop, two threads write while the main process receives: the message of before is all that arrives. -/
example : ∃ tr κ, Exec (procThreads MThr.lazyLock id fun _ c => Mild c)
      (init ⟨{ base := { storage := { maxlen := 9 } }, nMirrors := 2 }, fun _ => { mirror := .new 0 },
        { queues := fun _ => [.str (lit "a\n")], closed := some true }⟩ fun _ => ()) tr κ ∧
    Returns tr 0 (.mirror (.write (lit "b\n"))) (.mirror (.exc .stopIteration)) ∧
    Returns tr 2 .receive (.main (.bool true)) ∧ κ.st.net.queues 0 = [] := by
  refine ⟨_, _, moves_sound (re := fun | .buf _ _ => true | _ => false)
    (ms := .start 0 (.mirror (.write (lit "b\n"))) :: List.replicate 12 (.go 0) ++ .start 2 .receive ::
      List.replicate 15 (.go 2) ++ List.replicate 3 (.go 0))
    (n := 3) (fun m hm i c e => ?_) (fun _ _ _ => rfl) rfl ?_, ?_, ?_, rfl⟩
  · subst e
    simp at hm
    rcases hm with ⟨-, rfl⟩ | ⟨-, rfl⟩ <;> trivial
  · intro l hl
    cases l with
    | buf p k => exact ⟨p, k, rfl⟩
    | _ => cases hl
  · exact ⟨[], [_, _], [], rfl, by simp [ofThread]⟩
  · exact ⟨[_], [], [_], rfl, nofun⟩

end SyncStream
