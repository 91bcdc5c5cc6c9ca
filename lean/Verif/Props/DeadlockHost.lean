import Verif.Lemmas.Deadlock
import Verif.Lemmas.Sched
import Verif.Props.HostRetries
/-!
# C53 for the host mode as a whole

The processes of the host mode wait for the service, and the threads of the service for its locks.  A process holds no lock between two of
its requests, so what is proved for the operations of the service carries over to the calls of the processes.
-/

namespace SyncStream
open Conc Spec LineBuf HostBuf

/-- Clients of a service whose operations take the locks in descending order do so as well: they hold nothing between two operations. -/
theorem orderly_clients {C R C' R' σ L O : Type} [DecidableEq L] {sys : Sys σ L Unit C R} {rank : L → Nat}
    (hs : ∀ i c, Prog.Tidy sys.reentrant rank [] (sys.call i () c) ∧ NoRaise (sys.call i () c))
    (cl : Nat → O → C' → Ask C R (R' × O)) (ok : Nat → C' → Prop) : OrderlySys (clients sys cl ok) rank := by
  have key : ∀ i (p : Ask C R (R' × O)), Prog.Tidy sys.reentrant rank [] (p.prog sys i) ∧ NoRaise (p.prog sys i) := by
    intro i p
    induction p with
    | done a => exact ⟨Prog.Tidy.ret a, trivial⟩
    | ask c k ih => exact ⟨.bind (hs i c).1 fun x => (ih x.1).1, (hs i c).2.bind fun x => (ih x.1).2⟩
  exact fun i o c _ => key i (cl i o c)

/-- The operations of the service, whichever are allowed. -/
theorem service_orderly (env : HEnv) (ok : Nat → HOp → Prop) (i : Nat) (c : HOp) :
    Prog.Tidy (hostThreads env ok).reentrant HThr.rank [] ((hostThreads env ok).call i () c) ∧ NoRaise ((hostThreads env ok).call i () c) :=
  HThr.orderly env (fun _ _ => True) i () c trivial

/-- **C53** The host mode: any number of processes that use mirrors, readers and the buffer itself, while the threads of the service serve
their requests, of which any may get lost. -/
theorem C53_host_system (env : HEnv) (ok : Nat → HSCall → Prop) (h : HostBuf) (obj : Nat → HMirror) :
    DeadlockFree (hostSystem env ok) (init h obj) :=
  deadlockFree (orderly_clients (service_orderly env _) _ ok) h obj

/-- **C53** The same with all attempts that urllib3 makes for the requests, whatever happens to them. -/
theorem C53_host_retries (env : HEnv) (ok : Nat → HTCall → Prop) (h : HostBuf) (obj : Nat → HMirror) :
    DeadlockFree (retrySystem env ok) (init h obj) :=
  deadlockFree (orderly_clients (service_orderly env _) _ ok) h obj

/-- The owner stops the mirrors, a mirror asks for the state, a reader reads. -/
def threeInLine : List (Move HSCall) :=
  [.start 0 .stopAll, .start 1 (.mirror (.write (lit "a\n")) []), .start 2 (.reader (.read none) []), .go 0, .go 1]

/-- The process is about to take the lock. -/
def needs (κ : Conf HostBuf HLock HMirror HSCall HSRet) (i : Nat) (l : HLock) : Bool :=
  match κ.cur i with
  | some (_, .acq l' true _) => l' == l
  | _ => false

/-- The end of `threeInLine`. -/
def threeCheck (p : List (Ev HSCall HSRet) × Conf HostBuf HLock HMirror HSCall HSRet) : Bool :=
  p.2.held 0 .state == [true] && p.2.held 1 .config == [true] && needs p.2 1 .state && needs p.2 2 .config

theorem needs_iff {κ : Conf HostBuf HLock HMirror HSCall HSRet} {i : Nat} {l : HLock} (h : needs κ i l = true) :
    ∃ c k, κ.cur i = some (c, .acq l true k) := by
  unfold needs at h
  split at h
  · cases beq_iff_eq.1 h
    exact ⟨_, _, ‹_›⟩
  · cases h

/-- The reader waits for the request of the mirror, and this one for the owner of the buffer. -/
example : ∃ tr κ, Exec (hostSystem sampleEnv fun _ _ => True)
      (init (hb { cap := 9 } [(lit "closed", .bool false), (lit "maxlen", .int 9)]) fun _ => {}) tr κ ∧
    WaitsFor (hostSystem sampleEnv fun _ _ => True) κ 2 1 ∧ WaitsFor (hostSystem sampleEnv fun _ _ => True) κ 1 0 := by
  have obs : (moves (hostSystem sampleEnv fun _ _ => True) 3 threeInLine
      (init (hb { cap := 9 } [(lit "closed", .bool false), (lit "maxlen", .int 9)]) fun _ => {})).any threeCheck = true := by decide +kernel
  obtain ⟨⟨tr, κ⟩, hm, e⟩ := (Option.any_eq_true _ _).1 obs
  simp only [threeCheck, Bool.and_eq_true, beq_iff_eq] at e
  obtain ⟨⟨⟨e0, e1⟩, e2⟩, e3⟩ := e
  obtain ⟨c1, k1, h1⟩ := needs_iff e2
  obtain ⟨c2, k2, h2⟩ := needs_iff e3
  exact ⟨tr, κ, moves_sound (fun _ _ _ _ _ => trivial) (fun _ _ _ => rfl) hm,
    ⟨c2, .config, true, k2, h2, .inr ⟨by decide, .inl (e1 ▸ List.mem_cons_self ..)⟩⟩,
    ⟨c1, .state, true, k1, h1, .inr ⟨by decide, .inl (e0 ▸ List.mem_cons_self ..)⟩⟩⟩

end SyncStream
