import Verif.Lemmas.Sched
import Verif.Lemmas.WorldLocks
import Verif.Props.DeadlockHost
/-!
# C53 for the host mode as a whole with mirrors that threads share

Here a thread holds the lock of its mirror while it waits for the service, and the lock is made by the first thread that needs it.
-/

namespace SyncStream
open Conc Spec LineBuf HostBuf

/-- **C53** The host mode: the threads of any number of processes share the mirrors of their processes, whose locks may not have been made
yet, while the threads of the service serve their requests, of which any may get lost. -/
theorem C53_host_world (env : HEnv) (proc : Nat → Nat) (ok : Nat → HSCall → Prop) (s : Nat → HMProc) (h : HostBuf)
    (hs : ∀ p k, (s p).lock = some k → k < (s p).made) : DeadlockFree (hostWorld env proc ok) (init (s, h) fun _ => ()) :=
  deadlockFree_of_rising (rising_mixSys (service_orderly env _) proc ok fun c _ hs => rising_worldCall c hs) (s := (s, h)) hs _

/-- The owner stops the mirrors; a thread writes, with the lock of the mirror that it has made, and asks for the state; another thread of
its process wants the lock as well. -/
def mirrorInLine : List (Move HSCall) :=
  [.start 0 .stopAll, .start 1 (.mirror (.write (lit "a\n")) []), .start 2 (.mirror .closed []), .go 0] ++
    (List.replicate 15 (.go 1) ++ List.replicate 2 (.go 2))

/-- The thread is about to take the lock. -/
def wants (κ : Conf ((Nat → HMProc) × HostBuf) (Nat × Nat ⊕ HLock) Unit HSCall HSRet) (i : Nat) (l : Nat × Nat ⊕ HLock) : Bool :=
  match κ.cur i with
  | some (_, .acq l' true _) => decide (l' = l)
  | _ => false

/-- The end of `mirrorInLine`. -/
def mirrorCheck (p : List (Ev HSCall HSRet) × Conf ((Nat → HMProc) × HostBuf) (Nat × Nat ⊕ HLock) Unit HSCall HSRet) : Bool :=
  p.2.held 0 (.inr .state) == [true] && p.2.held 1 (.inl (0, 0)) == [true] && wants p.2 1 (.inr .state) && wants p.2 2 (.inl (0, 0))

theorem wants_iff {κ : Conf ((Nat → HMProc) × HostBuf) (Nat × Nat ⊕ HLock) Unit HSCall HSRet} {i : Nat} {l : Nat × Nat ⊕ HLock}
    (h : wants κ i l = true) : ∃ c k, κ.cur i = some (c, .acq l true k) := by
  unfold wants at h
  split at h
  · cases of_decide_eq_true h
    exact ⟨_, _, ‹_›⟩
  · cases h

/-- One thread waits for the lock of the mirror, the one that holds it for the service, and the service for the owner of the buffer. -/
example : ∃ tr κ, Exec (hostWorld sampleEnv (fun _ => 0) fun _ _ => True)
      (init (fun _ => {}, hb { cap := 9 } [(lit "closed", .bool false), (lit "maxlen", .int 9)]) fun _ => ()) tr κ ∧
    WaitsFor (hostWorld sampleEnv (fun _ => 0) fun _ _ => True) κ 2 1 ∧ WaitsFor (hostWorld sampleEnv (fun _ => 0) fun _ _ => True) κ 1 0 := by
  have obs : (moves (hostWorld sampleEnv (fun _ => 0) fun _ _ => True) 3 mirrorInLine
      (init (fun _ => {}, hb { cap := 9 } [(lit "closed", .bool false), (lit "maxlen", .int 9)]) fun _ => ())
      fun l => l.isLeft).any mirrorCheck = true := by decide +kernel
  obtain ⟨⟨tr, κ⟩, hm, e⟩ := (Option.any_eq_true _ _).1 obs
  simp only [mirrorCheck, Bool.and_eq_true, beq_iff_eq] at e
  obtain ⟨⟨⟨e0, e1⟩, e2⟩, e3⟩ := e
  obtain ⟨c1, k1, h1⟩ := wants_iff e2
  obtain ⟨c2, k2, h2⟩ := wants_iff e3
  refine ⟨tr, κ, moves_sound (fun _ _ _ _ _ => trivial) (fun _ _ _ => rfl) hm fun l hl => ?_,
    ⟨c2, _, true, k2, h2, .inr ⟨by decide, .inl (e1 ▸ List.mem_cons_self ..)⟩⟩,
    ⟨c1, _, true, k1, h1, .inr ⟨by decide, .inl (e0 ▸ List.mem_cons_self ..)⟩⟩⟩
  cases l with
  | inl x => trivial
  | inr m => cases hl

end SyncStream
