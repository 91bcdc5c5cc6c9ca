import Verif.Lemmas.LazyLocks
import Verif.Lemmas.Sched
/-!
# C53: the locks cannot deadlock

`Spec/Waiting.lean` says what freedom from deadlock is.  It is proved for each of the five systems, for
every initial state, any number of threads and processes, and every choice of calls.
-/

namespace SyncStream
open Conc Spec

/-! ## The specification tells deadlocks apart -/

/-- Two locks; a call takes one and then the other one. -/
def crossing (other : Bool → Bool) : Sys Unit Bool Unit Bool Unit where
  call _ _ b := Prog.withLock b true (Prog.withLock (other b) true (.ret ((), ())))
  ok _ _ := True

/-- Threads that take two locks in different orders can deadlock. -/
example : ¬DeadlockFree (crossing not) (init () fun _ => ()) := by
  intro h
  have hk : (moves (crossing not) 2 [.start 0 true, .start 1 false, .go 0, .go 1] (init () fun _ => ())) =
      some (_, _) := rfl
  obtain ⟨j, -, c, p, h2, h3⟩ := (h _ _ (moves_sound (fun _ _ _ _ _ => trivial) (fun _ _ _ => rfl) hk)).1 0 (by nofun)
  match j with
  | 0 =>
    cases h2
    exact (h3.2 1 (by decide)).1 (List.mem_cons_self ..)
  | 1 =>
    cases h2
    exact (h3.2 0 (by decide)).1 (List.mem_cons_self ..)
  | j + 2 => cases h2

/-- So can a single thread that takes a lock again that is not reentrant. -/
example : ¬DeadlockFree (crossing id) (init () fun _ => ()) := by
  intro h
  have hk : (moves (crossing id) 1 [.start 0 true, .go 0] (init () fun _ => ())) = some (_, _) := rfl
  obtain ⟨j, -, c, p, h2, h3⟩ := (h _ _ (moves_sound (fun _ _ _ _ _ => trivial) (fun _ _ _ => rfl) hk)).1 0 (by nofun)
  match j with
  | 0 =>
    cases h2
    rcases h3.1 with h | h
    · cases h
    · exact h
  | j + 1 => cases h2

/-! ## The five systems -/

/-- **C53** Threads that use one line buffer. -/
theorem C53_threads (ok : Nat → TCall → Prop) (b : LineBuf) :
    DeadlockFree (threads ok) (init b fun _ => ()) :=
  deadlockFree (Thr.orderly ok) b _

/-- Thread 1 waits for thread 0, which holds the lock in the middle of a `write`. -/
example (b : LineBuf) (hb : b.lastLine.closed = false) :
    ∃ tr κ, Exec (threads fun _ _ => True) (init b fun _ => ()) tr κ ∧
      WaitsFor (threads fun _ _ => True) κ 1 0 ∧ CanGoOn (threads fun _ _ => True) κ 0 := by
  rcases b with ⟨s, ⟨x, y, cl⟩⟩
  cases hb
  refine ⟨_, _, moves_sound (re := fun _ => false) (ms := [.start 0 (.call (.write (lit "a"))), .start 1 (.call .flush),
    .go 0, .go 0, .go 0, .go 0]) (n := 2) (fun _ _ _ _ _ => trivial) (fun _ _ _ => rfl) rfl, ?_, ?_⟩
  · exact ⟨_, _, _, _, rfl, .inr ⟨by decide, .inl (List.mem_cons_self ..)⟩⟩
  · exact ⟨_, _, rfl, trivial⟩

/-- **C53** Threads and processes that use file buffers, the same ones or different ones in one
directory. -/
theorem C53_files (env : FEnv) (ok : Nat → FCall → Prop) (s : FS) (bufs : Nat → FileBuf) :
    DeadlockFree (fileProcs env ok) (init s bufs) :=
  deadlockFree (FileBuf.orderly env ok) s bufs

/-- **C53** Threads that serve requests to a host buffer or use it themselves. -/
theorem C53_host (env : HEnv) (ok : Nat → HOp → Prop) (h : HostBuf) :
    DeadlockFree (hostThreads env ok) (init h fun _ => ()) :=
  deadlockFree (HThr.orderly env ok) h _

/-- **C53** The process mode: any number of processes with a mirror, with any number of threads each, and
any number of threads of the main process that receive, stop, reset and read.  (A call that would have
to wait for the queue ends with an exception in the model; see `Model/ProcThreads.lean`.) -/
theorem C53_process (proc : Nat → Nat) (ok : Nat → PCall → Prop) (w : PWorld) :
    DeadlockFree (procThreads MThr.madeLock proc ok) (init w fun _ => ()) :=
  deadlockFree (PThr.orderly proc ok) w _

/-- Thread 1 of process 0 waits for the lock of the mirror, which thread 0 of this process holds twice,
in `send_data` inside `write`, while thread 2, in another process, has it to itself. -/
example : ∃ tr κ, Exec (procThreads MThr.madeLock (fun i => i / 2) fun _ _ => True)
      (init ⟨{ base := { storage := { maxlen := 9 } } }, fun _ => { mirror := .new 0 }, {}⟩ fun _ => ())
      tr κ ∧
    WaitsFor (procThreads MThr.madeLock (fun i => i / 2) fun _ _ => True) κ 1 0 ∧
    κ.held 0 (.buf 0 0) = [true, true] ∧ κ.held 2 (.buf 1 0) = [true] := by
  refine ⟨_, _, moves_sound (re := fun | .buf _ _ => true | _ => false) (ms := [.start 0 (.mirror (.write (lit "a\n"))),
    .start 1 (.mirror .flush), .start 2 (.mirror .clear), .go 2] ++ List.replicate 12 (.go 0)) (n := 3)
    (fun _ _ _ _ _ => trivial) (fun _ _ _ => rfl) rfl ?_, ?_, rfl, rfl⟩
  · intro l hl
    cases l with
    | buf p k => exact ⟨p, k, rfl⟩
    | _ => cases hl
  · exact ⟨_, _, _, _, rfl, .inr ⟨by decide, .inl (List.mem_cons_self ..)⟩⟩

/-- **C53** The process mode with the locks of the mirrors as they are made: on the first use, and possibly several of them if
several threads use a mirror for the first time (`C65_lost`).  Nobody waits for ever because of that.  (`hw`: numbers are
given to the locks in the order in which they are made.  `hok`: the mirrors have been sent to the processes before.) -/
theorem C53_process_lazy (proc : Nat → Nat) (ok : Nat → PCall → Prop) (hok : ∀ i p, ¬ok i (.take p)) (w : PWorld)
    (hw : ∀ p k, (w.procs p).lock = some k → k < (w.procs p).made) :
    DeadlockFree (procThreads MThr.lazyLock proc ok) (init w fun _ => ()) :=
  deadlockFree_of_rising (PThr.rising proc ok hok) hw _

/-- Threads of one process, and no mirrors are given out. -/
abbrev oneProcess : Sys PWorld PLock Unit PCall PRet := procThreads MThr.lazyLock (fun _ => 0) fun _ c => ∀ p, c ≠ .take p

/-- A process with a mirror that has not been used. -/
def unusedMirror : PWorld := ⟨{ base := { storage := { maxlen := 9 } } }, fun _ => { mirror := .new 0 }, {}⟩

/-- Carry out moves; thread 0 holds the first lock and is about to take the second, which thread 1 holds twice. -/
def secondLock (ms : List (Move PCall)) : Bool :=
  match moves oneProcess 2 ms (init unusedMirror fun _ => ()) (fun | .buf _ _ => true | _ => false) with
  | none => false
  | some (_, κ) => (match κ.cur 0 with
      | some (_, .acq (.buf 0 1) true _) => true
      | _ => false) && κ.held 0 (.buf 0 0) == [true] && κ.held 1 (.buf 0 1) == [true, true]

/-- Two threads of one process have made two locks.  Thread 0 holds the first one in its `write` and needs the lock again for
`send_data`; it finds the second one and waits for thread 1, which holds that one twice. -/
example : ∃ tr κ, Exec oneProcess (init unusedMirror fun _ => ()) tr κ ∧ WaitsFor oneProcess κ 0 1 ∧
    κ.held 0 (.buf 0 0) = [true] ∧ κ.held 1 (.buf 0 1) = [true, true] := by
  have h : secondLock ([.start 1 (.mirror (.write (lit "b\n"))), .go 1, .start 0 (.mirror (.write (lit "a\n")))] ++
      List.replicate 16 (.go 0) ++ List.replicate 18 (.go 1) ++ List.replicate 2 (.go 0)) = true := by decide +kernel
  unfold secondLock at h
  split at h
  · cases h
  · rename_i tr κ e
    simp only [Bool.and_eq_true, beq_iff_eq] at h
    obtain ⟨⟨h1, h2⟩, h3⟩ := h
    refine ⟨tr, κ, moves_sound (fun m hm i c e p h => ?_) (fun _ _ _ => rfl) e fun l hl => ?_, ?_, h2, h3⟩
    · subst e h
      simp at hm
    · cases l with
      | buf p k => exact ⟨p, k, rfl⟩
      | _ => cases hl
    · split at h1
      · exact ⟨_, _, _, _, ‹_›, .inr ⟨by decide, .inl (h3 ▸ List.mem_cons_self ..)⟩⟩
      · cases h1

/-- **C53** Threads that share a host mirror, with its lock as it is made. -/
theorem C53_host_mirror (env : HEnv) (ok : Nat → HMCall → Prop) (s : HMProc × HNet)
    (hs : ∀ k, s.1.lock = some k → k < s.1.made) :
    DeadlockFree (hostMirrorThreads env ok) (init s fun _ => ()) :=
  deadlockFree_of_rising (HMThr.rising env ok) hs _

end SyncStream
