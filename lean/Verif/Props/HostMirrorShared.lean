import Verif.Lemmas.HostMirrorThreads
import Verif.Lemmas.Order
import Verif.Lemmas.Sched
import Verif.Props.HostMirror
import Verif.Spec.HostMirrorShared
/-!
# Property C68: threads that share a host mirror
-/

namespace SyncStream

open Spec Conc

/-! ## One moment for each call -/

theorem hostMirror_atOnce {env : HEnv} {ok : Nat → HMCall → Prop} {a a' : (HMProc × HNet) × (Nat → Unit)} {i : Nat} {c : HMCall}
    {r : HMRet} (h : seqSpec (hostMirrorThreads env ok) a i c r a') :
    HostAtOnce env (hostShared a.1) i c r (hostShared a'.1) ∧ ok i c := by
  obtain ⟨x, h1, _, h3⟩ := h
  refine ⟨?_, h3⟩
  obtain ⟨e1, e2⟩ := HMThr.seq_prog env c a.1
  have h4 := (Prog.seq_bind_ok (g := fun y => (Prog.ret (y, ()) : HMProg (HMRet × Unit)))
    (show (HMThr.prog env c).seq a.1 = (_, ((HMThr.prog env c).seq a.1).2) from Prod.ext e1 rfl)).symm.trans h1
  have e3 := congrArg Prod.fst h4
  have e4 : ((HMThr.prog env c).seq a.1).2 = a'.1 := congrArg Prod.snd h4
  injection e3 with e3
  have e3 : (HMirror.exec env c (HMThr.view a.1)).1 = r := congrArg Prod.fst e3
  rw [e4] at e2
  exact Prod.ext e3 e2.symm

/-- The mirror has its lock and is open. -/
structure HostReady (s : HMProc × HNet) : Prop where
  lock : s.1.lock ≠ none
  opened : s.1.mirror.buf.closed = false

theorem HostReady.ready {s : HMProc × HNet} (h : HostReady s) : HMThr.Ready (s.1.lock.getD 0) s := by
  refine ⟨?_, h.opened⟩
  cases hl : s.1.lock with
  | none => exact absurd hl h.lock
  | some k => rfl

/-- **C68** Any number of threads share a host mirror that has its lock.  In every race of calls of `write`, `new_line`,
`read`, `clear`, `flush`, `closed`, `readable` and `writable`, whatever happens to their requests, each call takes effect in
one moment between its start and its return, with all its requests.  Missing (hence `_partial`): the lock exists, and the
calls that send requests without the lock (`send_data`, `check_states`, `send_eof`, `send_error`, `send_warning`, `close`) or
change the mode. -/
theorem C68_linearizable_partial {env : HEnv} {ok : Nat → HMCall → Prop} (hok : ∀ i c, ok i c → HMThr.OneMoment c)
    {s : HMProc × HNet} (hs : HostReady s) {tr : List (Ev HMCall HMRet)} {κ : Conf (HMProc × HNet) Nat Unit HMCall HMRet}
    (hx : Exec (hostMirrorThreads env ok) (init s fun _ => ()) tr κ) :
    ∃ s' stat, AExec (fun s i c r s' => HostAtOnce env s i c r s' ∧ ok i c) ⟨hostShared s, fun _ => .idle⟩ tr ⟨s', stat⟩ ∧
      ((∀ i, κ.cur i = none) → s' = hostShared κ.st ∧ ∀ i, stat i = .idle) := by
  obtain ⟨a, h1, h0, h3⟩ := hostMirror_linear hok hs.ready hx
  refine ⟨hostShared a.st.1, a.stat, ?_, fun hi => ⟨congrArg hostShared (h3 hi).1, (h3 hi).2⟩⟩
  clear h3 h0 hx
  generalize ha : (⟨(s, fun _ => ()), fun _ => .idle⟩ : AConf ((HMProc × HNet) × (Nat → Unit)) HMCall HMRet) = a0 at h1
  induction h1 with
  | nil => subst ha; exact .nil _
  | snoc a' a'' tr e h1 h2 ih =>
    cases h2 with
    | inv i c hi => exact .snoc _ _ _ _ _ ih (.inv _ _ _ hi)
    | ret i r hi => exact .snoc _ _ _ _ _ ih (.ret _ _ _ hi)
    | effect i c r st hi hsp => exact .snoc _ _ _ _ none ih (.effect _ _ _ _ _ hi (hostMirror_atOnce hsp.2))

theorem HMirror.run_snoc (env : HEnv) (cs : List HMCall) (c : HMCall) (s : HMNet) :
    HMirror.run env (cs ++ [c]) s = ((HMirror.run env cs s).1 ++ [(HMirror.exec env c (HMirror.run env cs s).2).1],
      (HMirror.exec env c (HMirror.run env cs s).2).2) := by
  induction cs generalizing s with
  | nil => rfl
  | cons x cs ih => simp only [List.cons_append, HMirror.run, ih]

theorem path_run {env : HEnv} {ok : Nat → HMCall → Prop} {s s' : HMNet} {L : List (Nat × HMCall × HMRet)}
    (h : Path (fun s i c r s' => HostAtOnce env s i c r s' ∧ ok i c) s L s') :
    HMirror.run env (L.map (·.2.1)) s = (L.map (·.2.2), s') ∧ ∀ x ∈ L, ok x.1 x.2.1 := by
  induction h with
  | nil => exact ⟨rfl, nofun⟩
  | snoc L i c r s1 s2 _ h2 ih =>
    obtain ⟨ih, hall⟩ := ih
    have h3 : HMirror.exec env c s1 = (r, s2) := h2.1
    refine ⟨?_, fun x hx => ?_⟩
    · rw [List.map_append, List.map_append]
      show HMirror.run env (_ ++ [c]) s = (_ ++ [r], s2)
      rw [HMirror.run_snoc, ih, h3]
    · rcases List.mem_append.1 hx with hx | hx
      · exact hall x hx
      · rw [List.mem_singleton.1 hx]
        exact h2.2

theorem hostShared_path {env : HEnv} {ok : Nat → HMCall → Prop} (hok : ∀ i c, ok i c → HMThr.OneMoment c)
    {s : HMProc × HNet} (hs : HostReady s) {tr : List (Ev HMCall HMRet)} {κ : Conf (HMProc × HNet) Nat Unit HMCall HMRet}
    (hx : Exec (hostMirrorThreads env ok) (init s fun _ => ()) tr κ) (hi : ∀ i, κ.cur i = none) :
    ∃ L, Path (fun s i c r s' => HostAtOnce env s i c r s' ∧ ok i c) (hostShared s) L (hostShared κ.st) ∧
      ∀ i, callsBy i tr = (partOf i L).map (·.1) ∧ retsBy i tr = (partOf i L).map (·.2) := by
  obtain ⟨s', stat, h1, h2⟩ := C68_linearizable_partial hok hs hx
  obtain ⟨rfl, h3⟩ := h2 hi
  obtain ⟨L, h4, h5⟩ := aexec_path h1
  refine ⟨L, h4, fun i => ?_⟩
  have := h5 i
  rw [show (⟨hostShared κ.st, stat⟩ : AConf HMNet HMCall HMRet).stat i = .idle from h3 i] at this
  exact ⟨by simpa [startedBy] using this.1, by simpa [owedBy] using this.2.symm⟩

/-- **C68** So there is an order of all calls, in which every thread's calls come in its order and with the results it saw,
such that one thread that makes all calls in this order gets the same results and leaves the same mirror, service and
requests behind.  Missing: as above. -/
theorem C68_order_partial {env : HEnv} {ok : Nat → HMCall → Prop} (hok : ∀ i c, ok i c → HMThr.OneMoment c)
    {s : HMProc × HNet} (hs : HostReady s) {tr : List (Ev HMCall HMRet)} {κ : Conf (HMProc × HNet) Nat Unit HMCall HMRet}
    (hx : Exec (hostMirrorThreads env ok) (init s fun _ => ()) tr κ) (hi : ∀ i, κ.cur i = none) :
    ∃ L : List (Nat × HMCall × HMRet),
      (∀ i, callsBy i tr = (L.filter (·.1 = i)).map (·.2.1) ∧ retsBy i tr = (L.filter (·.1 = i)).map (·.2.2)) ∧
      HMirror.run env (L.map (·.2.1)) (hostShared s) = (L.map (·.2.2), hostShared κ.st) := by
  obtain ⟨L, h1, h2⟩ := hostShared_path hok hs hx hi
  refine ⟨L, fun i => ?_, (path_run h1).1⟩
  obtain ⟨e1, e2⟩ := h2 i
  unfold partOf at e1 e2
  rw [List.map_map] at e1 e2
  exact ⟨e1, e2⟩

/-! ## The texts -/

theorem path_texts {env : HEnv} {ok : Nat → HMCall → Prop} (hok : ∀ i c, ok i c → ∃ d, c = .write d) {s s' : HMNet}
    {L : List (Nat × HMCall × HMRet)} (h : Path (fun s i c r s' => HostAtOnce env s i c r s' ∧ ok i c) s L s')
    (hr : HMReach env s.1) (ha : s.1.aggressive = true → s.1.buf.buf = []) (hf : ∀ x ∈ L, ∃ n, x.2.2 = .nat n) :
    HMReach env s'.1 ∧ s'.1.aggressive = s.1.aggressive ∧ (s.1.aggressive = true → s'.1.buf.buf = []) ∧
      (textsOf s'.2.sent).flatten ++ s'.1.buf.buf =
        (textsOf s.2.sent).flatten ++ s.1.buf.buf ++ (L.map fun x => textWritten x.2.1).flatten := by
  induction h with
  | nil => exact ⟨hr, rfl, ha, by simp⟩
  | snoc L i c r s1 s2 _ h2 ih =>
    obtain ⟨g1, g2, g3, g4⟩ := ih fun x hx => hf x (List.mem_append_left _ hx)
    obtain ⟨h3, h4⟩ := h2
    obtain ⟨d, rfl⟩ := hok i c h4
    obtain ⟨k, hk⟩ := hf (i, .write d, r) (by simp)
    cases (hk : r = .nat k)
    have h3 : HMirror.exec env (.write d) s1 = (.nat k, s2) := h3
    have g5 : HMReach env s2.1 := by
      have := HMReach.call (.write d) s1.1 s1.2 g1
      rw [show (s1.1, s1.2) = s1 from rfl, h3] at this
      exact this
    have hw : HMirror.write env d (s1.1, s1.2) = (.ok k, (s2.1, s2.2)) := by
      cases hw : HMirror.write env d s1 with
      | mk x t =>
        have h3 : (HMRet.of .nat (HMirror.write env d s1).1, (HMirror.write env d s1).2) = (HMRet.nat k, s2) := h3
        rw [hw] at h3
        obtain ⟨e1, rfl⟩ := Prod.mk.inj h3
        cases x with
        | error e => cases e1
        | ok n => cases e1; rfl
    rw [List.map_append, List.flatten_append, ← List.append_assoc, ← g4]
    show _ ∧ _ ∧ _ ∧ _ = _ ++ [d].flatten
    rw [List.flatten_singleton]
    cases hag : s.1.aggressive with
    | false =>
      rw [hag] at g2
      obtain ⟨_, e1, e2⟩ := C17_host_write_sends env s1.1 g1 s1.2 d g2 k s2.1 s2.2 hw
      have g6 : s2.1.aggressive = false := by
        have ho := open_of_write g1 hw
        rw [hmreach_open g1 ho, HMirror.write_open, HMirror.writeCore_open] at hw
        revert hw
        cases HMirror.netCheck env true s1.2 with
        | mk x n1 =>
          cases x with
          | error e => intro hw; cases hw
          | ok u =>
            dsimp only
            rw [g2, if_neg (by decide)]
            split
            · intro hw
              rw [← congrArg (fun x => x.2.1) hw]
              exact g2
            · cases HMirror.netText env (s1.1.buf.buf ++ d) n1 with
              | mk y n2 =>
                cases y with
                | error e => intro hw; cases hw
                | ok u =>
                  intro hw
                  rw [← congrArg (fun x => x.2.1) hw]
                  exact g2
      refine ⟨g5, g6, nofun, ?_⟩
      by_cases hb : NoBreak d
      · obtain ⟨a1, a2⟩ := e1 hb
        rw [a1, a2, textsOf_append]
        show (textsOf s1.2.sent ++ []).flatten ++ _ = _
        simp
      · obtain ⟨a1, a2⟩ := e2 hb
        rw [a1, a2, textsOf_append]
        show (textsOf s1.2.sent ++ [s1.1.buf.buf ++ d]).flatten ++ _ = _
        simp
    | true =>
      rw [hag] at g2
      obtain ⟨e1, e2⟩ := C17_host_aggressive_sends env s1.1 g1 s1.2 d g2 k s2.1 s2.2 hw
      refine ⟨g5, by rw [e1]; exact g2, fun _ => by rw [e1]; exact g3 hag, ?_⟩
      rw [e2, e1, g3 hag, textsOf_append]
      show (textsOf s1.2.sent ++ [d]).flatten ++ _ = _
      simp

/-- **C68** Any number of threads write through one host mirror that has its lock.  If no write fails, then in every race no
text is lost, doubled or torn: whenever no call is running, the texts posted to the service and the text held back are the
texts that the threads have written, interleaved in some way (each write as a whole).  Missing: the lock exists. -/
theorem C68_writers_partial {env : HEnv} {ok : Nat → HMCall → Prop} {N : Nat} (hok : ∀ i c, ok i c → i < N ∧ ∃ d, c = .write d)
    {s : HMProc × HNet} (hs : HostReady s) (hr : HMReach env s.1.mirror) (ha : s.1.mirror.aggressive = true → s.1.mirror.buf.buf = [])
    {tr : List (Ev HMCall HMRet)} {κ : Conf (HMProc × HNet) Nat Unit HMCall HMRet}
    (hx : Exec (hostMirrorThreads env ok) (init s fun _ => ()) tr κ) (hi : ∀ i, κ.cur i = none)
    (hf : ∀ i r, Ev.ret i r ∈ tr → ∃ n, r = .nat n) :
    ∃ ws, Merge ((List.range N).map fun i => (callsBy i tr).map textWritten) ws ∧
      (textsOf κ.st.2.sent).flatten ++ κ.st.1.mirror.buf.buf =
        (textsOf s.2.sent).flatten ++ s.1.mirror.buf.buf ++ ws.flatten := by
  have hone : ∀ i c, ok i c → HMThr.OneMoment c := fun i c h => by
    obtain ⟨d, rfl⟩ := (hok i c h).2
    trivial
  obtain ⟨L, h1, h2⟩ := hostShared_path hone hs hx hi
  have hm := merge_map (fun x : HMCall × HMRet => textWritten x.1)
    (path_merge h1 fun _ _ _ _ _ h => (hok _ _ h.2).1)
  have hL : ∀ x ∈ L, ∃ n, x.2.2 = .nat n := by
    intro x hx
    refine hf x.1 x.2.2 ?_
    have : x.2.2 ∈ retsBy x.1 tr := by
      rw [(h2 x.1).2]
      exact List.mem_map.2 ⟨x.2, List.mem_map.2 ⟨x, List.mem_filter.2 ⟨hx, by simp⟩, rfl⟩, rfl⟩
    exact mem_of_retsBy this
  refine ⟨_, ?_, (path_texts (fun i c h => (hok i c h).2) h1 hr ha hL).2.2.2⟩
  rw [List.map_map, List.map_map] at hm
  refine Eq.mp (congrArg (fun S => Merge S _) (List.map_congr_left fun i _ => ?_)) hm
  show (partOf i L).map _ = _
  rw [(h2 i).1, List.map_map]
  rfl

/-- **C68** Writes and new lines by threads, with any failures: the texts that were acknowledged and the text held back are the
text accepted, in the order of the calls, and a text that the service processed without an answer is delivered again or still
held back (as for one thread, `C18_host_no_loss`).  Missing: the lock exists. -/
theorem C68_failures_partial {env : HEnv} {ok : Nat → HMCall → Prop} (hok : ∀ i c, ok i c → c.isText = true) {s : HMProc × HNet}
    (hl : s.1.lock ≠ none) (hm : s.1.mirror = {}) {tr : List (Ev HMCall HMRet)} {κ : Conf (HMProc × HNet) Nat Unit HMCall HMRet}
    (hx : Exec (hostMirrorThreads env ok) (init s fun _ => ()) tr κ) (hi : ∀ i, κ.cur i = none) :
    ∃ (L : List (Nat × HMCall × HMRet)) (ts : List (PyStr × Bool)),
      (∀ i, callsBy i tr = (L.filter (·.1 = i)).map (·.2.1) ∧ retsBy i tr = (L.filter (·.1 = i)).map (·.2.2)) ∧
      textsOf κ.st.2.sent = textsOf s.2.sent ++ ts.map Prod.fst ∧
      acked ts ++ κ.st.1.mirror.buf.buf = haccepted env (L.map (·.2.1)) ({}, s.2) ∧
      ∀ pre t post, ts = pre ++ (t, false) :: post → t <+: acked post ++ κ.st.1.mirror.buf.buf := by
  have hone : ∀ i c, ok i c → HMThr.OneMoment c := fun i c h => by
    have := hok i c h
    cases c <;> first | trivial | cases this
  have hs : HostReady s := ⟨hl, by rw [hm]⟩
  obtain ⟨L, h1, h2⟩ := hostShared_path hone hs hx hi
  obtain ⟨h3, h4⟩ := path_run h1
  have e : hostShared s = ({}, s.2) := Prod.ext hm rfl
  rw [e] at h3
  obtain ⟨ts, h5, h6, h7⟩ := C18_host_no_loss env s.2 (L.map (·.2.1)) fun c hc => by
    obtain ⟨x, hx, rfl⟩ := List.mem_map.1 hc
    exact hok _ _ (h4 x hx)
  rw [h3] at h5 h6 h7
  refine ⟨L, ts, fun i => ?_, h5, h6, h7⟩
  obtain ⟨e1, e2⟩ := h2 i
  unfold partOf at e1 e2
  rw [List.map_map] at e1 e2
  exact ⟨e1, e2⟩

/-! ## The lock exists after one use -/

namespace HMThr
variable {α β : Type}

/-- The lock exists afterwards (if it did before, when `b`). -/
def Locks (b : Bool) (p : HMProg α) : Prop := ∀ s : HMProc × HNet, (b = true → s.1.lock ≠ none) → (p.seq s).2.1.lock ≠ none

theorem Locks.weaken {p : HMProg α} (h : Locks false p) : Locks true p := fun s _ => h s nofun

theorem Locks.bind {b : Bool} {p : HMProg α} {f : α → HMProg β} (h : Locks b p) (hf : ∀ a, Locks true (f a)) : Locks b (p >>= f) := by
  intro s hs
  cases hr : p.seq s with
  | mk r s' =>
    have h1 := h s hs
    rw [hr] at h1
    cases r with
    | ok a => rw [Prog.seq_bind_ok hr]; exact hf a s' fun _ => h1
    | error e =>
      rw [Prog.seq_bind, Py.bind_error hr]
      exact h1

theorem Locks.ret (a : α) : Locks true (Prog.ret a : HMProg α) := fun s h => h rfl
theorem Locks.raise (e : Exc) : Locks true (Prog.raise e : HMProg α) := fun s h => h rfl
theorem locks_gets (f : HMProc × HNet → α) : Locks true (gets f) := fun s h => h rfl

theorem locks_atom (m : Py HMNet α) : Locks true (atom m) := fun s h => by
  unfold HMThr.atom
  rw [Prog.seq_atom]
  exact h rfl

theorem locks_withLock {b : Bool} {l : Nat} {w : Bool} {p : HMProg α} (h : Locks b p) : Locks b (Prog.withLock l w p) := fun s hs => by
  rw [Prog.seq_withLock]
  exact h s hs

theorem locks_lazyLock : Locks false lazyLock := fun s _ => by
  cases h : s.1.lock with
  | none =>
    unfold HMThr.lazyLock
    rw [Prog.seq_bind_ok (a := s.1.lock) (s' := s) rfl, h]
    exact nofun
  | some k =>
    unfold HMThr.lazyLock
    rw [Prog.seq_bind_ok (a := s.1.lock) (s' := s) rfl, h]
    show s.1.lock ≠ none
    rw [h]
    exact nofun

theorem locks_locked {p : HMProg α} (h : Locks true p) : Locks false (locked p) := locks_lazyLock.bind fun _ => locks_withLock h

theorem Locks.outcome {b : Bool} {p : HMProg α} (h : Locks b p) : Locks b p.outcome := fun s hs => by
  rw [Prog.seq_outcome]
  exact h s hs

theorem Locks.ite {c : Prop} [Decidable c] {p q : HMProg α} (hp : Locks true p) (hq : Locks true q) : Locks true (if c then p else q) := by
  split
  · exact hp
  · exact hq

theorem locks_fail (r : Resp) : Locks true (fail r : HMProg α) := by
  unfold fail
  cases r.body <;> exact .raise _

variable (env : HEnv)

theorem locks_expectOk (r : Req) : Locks true (expectOk env r) := (locks_atom _).bind fun _ => .ite (.ret _) (locks_fail _)

theorem locks_closed : Locks false closed := locks_locked (locks_gets _)

theorem locks_sendData (d : PyStr) : Locks false (sendData env d) := locks_closed.bind fun _ => .ite (.ret _) (locks_expectOk env _)

theorem locks_checkStates : Locks false (checkStates env) :=
  locks_closed.bind fun _ => .ite (.ret _) ((locks_atom _).bind fun r => .ite (by
    cases r.body with
    | none => exact .raise _
    | some j =>
      dsimp only
      split
      · exact .raise _
      · exact .ret _) (locks_fail _))

theorem locks_writeCore (d : PyStr) (k : Bool) : Locks true (writeCore env d k) := by
  unfold writeCore
  refine .bind (.ite (locks_checkStates env).weaken (.ret _)) fun _ => (locks_gets _).bind fun _ => ?_
  extract_lets n
  refine .ite ((locks_sendData env d).weaken.bind fun _ => .ret _) (.ite ?_ (.ite (locks_atom _) (.ret _)))
  exact (locks_atom _).bind fun _ => (locks_atom _).bind fun _ => (locks_sendData env _).weaken.bind fun _ => (locks_atom _).bind fun _ =>
    (locks_atom _).bind fun _ => .ret _

theorem locks_newLine (k : Bool) : Locks false (newLine env k) :=
  locks_locked ((locks_atom _).bind fun _ => .ite ((locks_writeCore env _ k).bind fun _ => .ret _) (.ret _))

theorem locks_sendEnd (k : Bool) (m : Json) : Locks false (sendEnd env k m) :=
  locks_closed.bind fun _ => .ite (.ret _) ((locks_newLine env k).weaken.bind fun _ => locks_expectOk env _)

theorem locks_clear : Locks false clear := locks_locked ((locks_atom _).bind fun _ => locks_atom _)

theorem locks_prog (c : HMCall) (hc : ∀ a, c ≠ .setAggressive a) : Locks false (prog env c) := by
  have fin : ∀ {β : Type} {p : HMProg β} {F : Except Exc β → HMRet}, Locks false p →
      Locks false (p.outcome >>= fun r => (Prog.ret (F r) : HMProg HMRet)) := fun h => h.outcome.bind fun _ => .ret _
  cases c with
  | write d => exact fin (p := HMThr.write env d) ((locks_locked (locks_gets _)).bind fun _ => .ite (.raise _) (locks_locked (locks_writeCore env d true)).weaken)
  | newLine k => exact fin (locks_newLine env k)
  | read => exact fin (p := HMThr.read) ((locks_locked (locks_gets _)).bind fun _ => .ite (.raise _) (locks_locked (locks_atom _)).weaken)
  | clear => exact fin locks_clear
  | flush => exact fin (locks_locked (locks_atom _))
  | sendData d => exact fin (locks_sendData env d)
  | sendEof => exact fin (locks_sendEnd env _ _)
  | sendError e => exact fin (locks_sendEnd env _ _)
  | sendWarning e => exact fin (locks_sendEnd env _ _)
  | checkStates => exact fin (locks_checkStates env)
  | close e =>
    refine fin (locks_closed.bind fun _ => .ite (.ret _) ?_)
    cases e <;> exact (locks_sendEnd env _ _).weaken.bind fun _ => locks_clear.weaken.bind fun _ => (locks_locked (locks_atom _)).weaken
  | closed => exact fin locks_closed
  | readable => exact fin (locks_locked (locks_gets _))
  | writable => exact fin (locks_locked (locks_gets _))
  | setAggressive a => exact absurd rfl (hc a)

end HMThr

/-- **C68** A host mirror has its lock once any of its methods has been called (by one thread, to the end); setting the mode
is not enough. -/
theorem C68_first_use (env : HEnv) (c : HMCall) (hc : ∀ a, c ≠ .setAggressive a) (s : HMProc × HNet) :
    ((HMThr.prog env c).seq s).2.1.lock ≠ none := HMThr.locks_prog env c hc s nofun

/-- A new service and a new host mirror. -/
def hostUnused : HMProc × HNet :=
  ({}, { service := { base := { storage := { maxlen := 9 } }, state := [(lit "closed", .bool false), (lit "maxlen", .int 9)] } })

/-- It is a new service, and after `closed` the lock is there, after setting the mode it is not. -/
example : HostBuf.new 9 = .ok hostUnused.2.service ∧ ((HMThr.prog sampleEnv .closed).seq hostUnused).2.1.lock = some 0 ∧
    ((HMThr.prog sampleEnv (.setAggressive true)).seq hostUnused).2.1.lock = none := ⟨rfl, rfl, rfl⟩

/-! ## Without the lock -/

/-- The threads 0 and 1 write. -/
def twoPost (i : Nat) (c : HMCall) : Prop := i < 2 ∧ ∃ d, c = .write d

/-- What the two threads have done, and what has been posted; nothing is held back. -/
def HostShows (tr : List (Ev HMCall HMRet)) (κ : Conf (HMProc × HNet) Nat Unit HMCall HMRet) (a b : PyStr) (sent : List PyStr) : Prop :=
  (∃ r r', tr = [.inv 1 (.write b), .inv 0 (.write a), .ret 1 (.nat r), .ret 0 (.nat r')]) ∧
  textsOf κ.st.2.sent = sent ∧ κ.st.1.mirror.buf.buf = []

/-- Carry out moves of two threads and look at the end. -/
def hostShows (ms : List (Move HMCall)) (a b : PyStr) (sent : List PyStr) : Bool :=
  match moves (hostMirrorThreads sampleEnv twoPost) 2 ms (init hostUnused fun _ => ()) (fun _ => true) with
  | none => false
  | some (tr, κ) => (κ.cur 0).isNone && (κ.cur 1).isNone && κ.st.1.mirror.buf.buf.isEmpty && textsOf κ.st.2.sent == sent &&
    match tr with
    | [.inv 1 (.write b'), .inv 0 (.write a'), .ret 1 (.nat _), .ret 0 (.nat _)] => b' == b && a' == a
    | _ => false

theorem hostShows_sound {ms : List (Move HMCall)} {a b : PyStr} {sent : List PyStr} (h : hostShows ms a b sent = true)
    (hms : ∀ m ∈ ms, ∀ i c, m = .start i c → twoPost i c) :
    ∃ tr κ, Exec (hostMirrorThreads sampleEnv twoPost) (init hostUnused fun _ => ()) tr κ ∧ (∀ i, κ.cur i = none) ∧
      HostShows tr κ a b sent := by
  unfold hostShows at h
  split at h
  · cases h
  · rename_i tr κ e
    simp only [Bool.and_eq_true, Option.isNone_iff_eq_none, List.isEmpty_iff, beq_iff_eq] at h
    obtain ⟨⟨⟨⟨h0, h1⟩, h2⟩, h3⟩, h4⟩ := h
    refine ⟨tr, κ, moves_sound hms (fun _ _ _ => rfl) e fun _ _ => trivial, ?_, ?_, h3, h2⟩
    · intro i
      match i with
      | 0 => exact h0
      | 1 => exact h1
      | i + 2 => exact moves_idle e (Nat.le_add_left 2 i) rfl
    · split at h4
      · simp only [Bool.and_eq_true, beq_iff_eq] at h4
        obtain ⟨rfl, rfl⟩ := h4
        exact ⟨_, _, rfl⟩
      · cases h4

/-- Two threads use a new host mirror for the first time: both find no lock.  Thread 0 makes one, and thread 1 makes another
while thread 0 is writing under the first.  Thread 0 posts `"a\n"`, thread 1 writes `"b"` into the buffer, thread 0 empties
the buffer: `"b"` is lost, though `write("b")` returned. -/
theorem C68_lost : ∃ tr κ, Exec (hostMirrorThreads sampleEnv twoPost) (init hostUnused fun _ => ()) tr κ ∧
    (∀ i, κ.cur i = none) ∧ HostShows tr κ (lit "a\n") (lit "b") [lit "a\n"] :=
  hostShows_sound (ms := .start 1 (.write (lit "b")) :: .go 1 :: .start 0 (.write (lit "a\n")) ::
    List.replicate 24 (.go 0) ++ List.replicate 18 (.go 1) ++ List.replicate 4 (.go 0)) (by decide +kernel) fun m hm i c e => by
      subst e
      simp at hm
      rcases hm with ⟨rfl, rfl⟩ | ⟨rfl, rfl⟩ <;> exact ⟨by omega, _, rfl⟩

/-- The same beginning: thread 0 has put `"a\n"` into the buffer and taken the value, then thread 1 writes `"b\n"` and
posts both lines; thread 0 posts its line again. -/
theorem C68_doubled : ∃ tr κ, Exec (hostMirrorThreads sampleEnv twoPost) (init hostUnused fun _ => ()) tr κ ∧
    (∀ i, κ.cur i = none) ∧ HostShows tr κ (lit "a\n") (lit "b\n") [lit "a\nb\n", lit "a\n"] :=
  hostShows_sound (ms := .start 1 (.write (lit "b\n")) :: .go 1 :: .start 0 (.write (lit "a\n")) ::
    List.replicate 18 (.go 0) ++ List.replicate 27 (.go 1) ++ List.replicate 10 (.go 0)) (by decide +kernel) fun m hm i c e => by
      subst e
      simp at hm
      rcases hm with ⟨rfl, rfl⟩ | ⟨rfl, rfl⟩ <;> exact ⟨by omega, _, rfl⟩

/-- **C68** violated: without the assumption that the lock exists `C68_writers_partial` is false. -/
theorem C68_violated : ¬ ∀ (env : HEnv) (ok : Nat → HMCall → Prop) (N : Nat) (s : HMProc × HNet) (tr : List (Ev HMCall HMRet))
    (κ : Conf (HMProc × HNet) Nat Unit HMCall HMRet),
    (∀ i c, ok i c → i < N ∧ ∃ d, c = .write d) → s.1.mirror.buf.closed = false → HMReach env s.1.mirror →
    (s.1.mirror.aggressive = true → s.1.mirror.buf.buf = []) →
    Exec (hostMirrorThreads env ok) (init s fun _ => ()) tr κ → (∀ i, κ.cur i = none) →
    (∀ i r, Ev.ret i r ∈ tr → ∃ n, r = .nat n) →
    ∃ ws, Merge ((List.range N).map fun i => (callsBy i tr).map textWritten) ws ∧
      (textsOf κ.st.2.sent).flatten ++ κ.st.1.mirror.buf.buf =
        (textsOf s.2.sent).flatten ++ s.1.mirror.buf.buf ++ ws.flatten := by
  intro h
  obtain ⟨tr, κ, hx, hi, ⟨r, r', htr⟩, hq, hb⟩ := C68_lost
  obtain ⟨ws, h1, h2⟩ := h sampleEnv twoPost 2 hostUnused tr κ (fun _ _ h => h) rfl (.new false) nofun hx hi (by
    rw [htr]
    intro i x hx
    simp only [List.mem_cons, reduceCtorEq, Ev.ret.injEq, List.not_mem_nil, or_false, false_or] at hx
    rcases hx with ⟨_, rfl⟩ | ⟨_, rfl⟩ <;> exact ⟨_, rfl⟩)
  have h6 : lit "b" ∈ ws := by
    refine (merge_sublist h1 _ (List.mem_map.2 ⟨1, List.mem_range.2 (by omega), rfl⟩)).subset ?_
    rw [htr]
    exact List.mem_singleton.2 rfl
  have h7 : (98 : Nat) ∈ ws.flatten := List.mem_flatten.2 ⟨_, h6, by decide⟩
  rw [hq, hb] at h2
  have h2 : lit "a\n" = ws.flatten := h2
  rw [← h2] at h7
  revert h7
  decide

/-! ## An example -/

/-- The same, but the mirror has been used. -/
def hostUsed : HMProc × HNet := ({ lock := some 0, made := 1 }, hostUnused.2)

/-- The assumptions of the theorems hold of it. -/
example : HostReady hostUsed ∧ HMReach sampleEnv hostUsed.1.mirror ∧ hostUsed.1.mirror = {} :=
  ⟨⟨nofun, rfl⟩, .new false, rfl⟩

/-- Carry out moves of two threads and look at the end. -/
def hostEnds (ms : List (Move HMCall)) (n : Nat) (posted : List PyStr) (held : PyStr) (stored : List PyStr) : Bool :=
  match moves (hostMirrorThreads sampleEnv twoPost) 2 ms (init hostUsed fun _ => ()) (fun _ => true) with
  | none => false
  | some (tr, κ) => (κ.cur 0).isNone && (κ.cur 1).isNone && tr.length == n && textsOf κ.st.2.sent == posted &&
    κ.st.1.mirror.buf.buf == held &&
    (κ.st.2.service.base.storage.items.map fun | .str d => some d | _ => none) == stored.map some

/-- Thread 0 is in the section of `write("a\n")`; thread 1 starts `write("b")` and gets to the section, where it has to wait
until thread 0 has left it. -/
example : hostEnds (.start 0 (.write (lit "a\n")) :: .start 1 (.write (lit "b")) ::
    List.replicate 5 (.go 1) ++ List.replicate 15 (.go 0) ++ List.replicate 2 (.go 1) ++ List.replicate 12 (.go 0) ++
    List.replicate 11 (.go 1)) 4 [lit "a\n"] (lit "b") [lit "a"] = true := by decide +kernel

end SyncStream
