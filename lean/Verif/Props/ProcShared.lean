import Verif.Lemmas.ProcShared
import Verif.Lemmas.Sched
import Verif.Spec.ProcShared
import Verif.Props.ProcSys
/-!
# Property C65: threads of one process that share its mirror
-/

namespace SyncStream

open Spec LineBuf Conc

/-! ## One moment for each call -/

theorem proc_atOnce {proc : Nat → Nat} {ok : Nat → PCall → Prop} (hok : ∀ i c, ok i c → PThr.OneMoment c)
    {a a' : PWorld × (Nat → Unit)} {i : Nat} {c : PCall} {r : PRet}
    (h : seqSpec (procThreads MThr.lazyLock proc ok) a i c r a') :
    PShared.Step proc (.of a.1) i c r (.of a'.1) ∧ ok i c := by
  obtain ⟨x, h1, _, h3⟩ := h
  refine ⟨?_, h3⟩
  have h3 := hok i c h3
  have key : ∀ {v : PRet} {w : PWorld}, (PThr.prog MThr.lazyLock (proc i) c).seq a.1 = (.ok v, w) → v = r ∧ w = a'.1 := by
    intro v w e
    have h4 := (Prog.seq_bind_ok (g := fun y => (Prog.ret (y, ()) : PProg (PRet × Unit))) e).symm.trans h1
    have e1 := congrArg Prod.fst h4
    have e2 : w = a'.1 := congrArg Prod.snd h4
    injection e1 with e1
    exact ⟨congrArg Prod.fst e1, e2⟩
  cases c with
  | mirror c =>
    have e := MThr.seq_prog MThr.finds_lazy c (a.1.procs (proc i), a.1.net)
    have e1 : (PThr.mirror (proc i) (MThr.prog MThr.lazyLock c)).seq a.1 = (.ok (Mirror.exec c ((a.1.procs (proc i)).mirror, a.1.net)).1, _) :=
      (PThr.seq_mirror (proc i) _ a.1).trans (Prod.ext e.1 rfl)
    obtain ⟨rfl, e2⟩ := key (Prog.seq_bind_ok e1)
    rw [← e2]
    have e3 : ((MThr.prog MThr.lazyLock c).seq (a.1.procs (proc i), a.1.net)).2.1.mirror =
      (Mirror.exec c ((a.1.procs (proc i)).mirror, a.1.net)).2.1 := congrArg Prod.fst e.2
    have e4 : ((MThr.prog MThr.lazyLock c).seq (a.1.procs (proc i), a.1.net)).2.2 =
      (Mirror.exec c ((a.1.procs (proc i)).mirror, a.1.net)).2.2 := congrArg Prod.snd e.2
    have := PShared.Step.mirror (proc := proc) (.of a.1) i c _ _ _ rfl
    refine Eq.mp (congrArg _ ?_) this
    show PShared.mk _ _ _ = PShared.mk _ _ _
    refine congr (congrArg (PShared.mk a.1.main) (funext fun p => ?_)) e4.symm
    show upd (fun p => (a.1.procs p).mirror) (proc i) _ p = (upd a.1.procs (proc i) _ p).mirror
    by_cases hp : p = proc i
    · subst hp
      rw [upd_same, upd_same]
      exact e3.symm
    · rw [upd_other _ _ hp, upd_other _ _ hp]
  | receive =>
    have e1 : PThr.receive.outcome.seq a.1 = (.ok (ProcBuf.receive (a.1.main, a.1.net)).1, (PThr.onMain ProcBuf.receive a.1).2) := by
      rw [Prog.seq_outcome, PThr.seq_receive]; rfl
    obtain ⟨rfl, e2⟩ := key (Prog.seq_bind_ok e1)
    rw [← e2]
    exact .receive _ _ _ _ _ rfl
  | forceStop =>
    have e1 : PThr.forceStop.outcome.seq a.1 = (.ok (ProcBuf.forceStop (a.1.main, a.1.net)).1,
        (PThr.onMain ProcBuf.forceStop a.1).2) := by
      rw [Prog.seq_outcome, PThr.seq_forceStop]; rfl
    obtain ⟨rfl, e2⟩ := key (Prog.seq_bind_ok e1)
    rw [← e2]
    exact .forceStop _ _ _ _ _ rfl
  | _ => exact h3.elim

/-- Every mirror has its lock and is open, and the mirrors have not been stopped. -/
structure MirrorsReady (w : PWorld) : Prop where
  locks : ∀ p, (w.procs p).lock ≠ none
  opened : ∀ p, (w.procs p).mirror.buf.closed = false
  running : w.net.closed ≠ some true

theorem MirrorsReady.regions {w : PWorld} (h : MirrorsReady w) :
    (PThr.preg (fun p => ⟨(w.procs p).lock.getD 0, (w.procs p).mirror.queue, (w.procs p).mirror.block, (w.procs p).mirror.timeout⟩)
      w.main.mirror.queue).I w := by
  refine PThr.I_iff.2 ⟨rfl, fun p => ⟨?_, rfl, rfl, rfl, h.opened p⟩, h.running⟩
  have := h.locks p
  cases hl : (w.procs p).lock with
  | none => exact absurd hl this
  | some k => rfl

/-- **C65** Threads of many processes use the mirrors of their processes, others receive in the main process or call
`force_stop`.  If every mirror has its lock, then in every race each call takes effect in one moment between its start and
its return.  Missing (hence `_partial`): the lock exists, and the calls `send_eof`, `send_error`, `send_warning`, `close`
and the changes of mode and timeout, which have several moments or change what the others rely on. -/
theorem C65_linearizable_partial {proc : Nat → Nat} {ok : Nat → PCall → Prop} (hok : ∀ i c, ok i c → PThr.OneMoment c)
    {w : PWorld} (hw : MirrorsReady w) {tr : List (Ev PCall PRet)} {κ : Conf PWorld PLock Unit PCall PRet}
    (hx : Exec (procThreads MThr.lazyLock proc ok) (init w fun _ => ()) tr κ) :
    ∃ s stat, AExec (fun s i c r s' => PShared.Step proc s i c r s' ∧ ok i c) ⟨.of w, fun _ => .idle⟩ tr ⟨s, stat⟩ ∧
      ((∀ i, κ.cur i = none) → s = .of κ.st ∧ ∀ i, stat i = .idle) := by
  obtain ⟨a, h1, h0, h3⟩ := procThreads_linear hok hw.regions hx
  refine ⟨.of a.st.1, a.stat, ?_, fun hi => ⟨congrArg PShared.of (h3 hi).1, (h3 hi).2⟩⟩
  clear h3 h0 hx
  generalize ha : (⟨(w, fun _ => ()), fun _ => .idle⟩ : AConf (PWorld × (Nat → Unit)) PCall PRet) = a0 at h1
  induction h1 with
  | nil => subst ha; exact .nil _
  | snoc a' a'' tr e h1 h2 ih =>
    cases h2 with
    | inv i c hi => exact .snoc _ _ _ _ _ ih (.inv _ _ _ hi)
    | ret i r hi => exact .snoc _ _ _ _ _ ih (.ret _ _ _ hi)
    | effect i c r st hi hsp => exact .snoc _ _ _ _ none ih (.effect _ _ _ _ _ hi (proc_atOnce hok hsp.2))

/-! ## The lock exists after one use -/

namespace MThr
variable {α β : Type}

/-- The lock exists afterwards (if it did before, when `b`). -/
def Locks (b : Bool) (p : MProg α) : Prop := ∀ s : MProc × Net, (b = true → s.1.lock ≠ none) → (p.seq s).2.1.lock ≠ none

theorem Locks.weaken {p : MProg α} (h : Locks false p) : Locks true p := fun s _ => h s nofun

theorem Locks.bind {b : Bool} {p : MProg α} {f : α → MProg β} (h : Locks b p) (hf : ∀ a, Locks true (f a)) : Locks b (p >>= f) := by
  intro s hs
  cases hr : p.seq s with
  | mk r s' =>
    have h1 := h s hs
    rw [hr] at h1
    cases r with
    | ok a => rw [Prog.seq_bind_ok hr]; exact hf a s' fun _ => h1
    | error e =>
      rw [Prog.seq_bind, Py.bind_error hr]
      exact h1

theorem Locks.ret (a : α) : Locks true (Prog.ret a : MProg α) := fun s h => h rfl
theorem Locks.raise (e : Exc) : Locks true (Prog.raise e : MProg α) := fun s h => h rfl
theorem locks_gets (f : MProc × Net → α) : Locks true (gets f) := fun s h => h rfl

theorem locks_atom (m : Py MNet α) : Locks true (atom m) := fun s h => by
  unfold MThr.atom
  rw [Prog.seq_atom]
  exact h rfl

theorem locks_withLock {b : Bool} {l : MLock} {w : Bool} {p : MProg α} (h : Locks b p) : Locks b (Prog.withLock l w p) := fun s hs => by
  rw [Prog.seq_withLock]
  exact h s hs

theorem locks_lazyLock : Locks false lazyLock := fun s _ => by
  cases h : s.1.lock with
  | none =>
    unfold MThr.lazyLock
    rw [Prog.seq_bind_ok (a := s.1.lock) (s' := s) rfl, h]
    exact nofun
  | some k =>
    unfold MThr.lazyLock
    rw [Prog.seq_bind_ok (a := s.1.lock) (s' := s) rfl, h]
    show s.1.lock ≠ none
    rw [h]
    exact nofun

theorem locks_locked {p : MProg α} (h : Locks true p) : Locks false (locked lazyLock p) := locks_lazyLock.bind fun _ => locks_withLock h

theorem Locks.outcome {b : Bool} {p : MProg α} (h : Locks b p) : Locks b p.outcome := fun s hs => by
  rw [Prog.seq_outcome]
  exact h s hs

theorem Locks.ite {c : Prop} [Decidable c] {p q : MProg α} (hp : Locks true p) (hq : Locks true q) : Locks true (if c then p else q) := by
  split
  · exact hp
  · exact hq

theorem locks_sendData (d : PyStr) : Locks false (sendData lazyLock d) :=
  (locks_locked (locks_gets _)).bind fun _ => .ite (.ret _) (locks_atom _)

theorem locks_checkState : Locks true checkState :=
  (locks_gets _).bind fun _ => .ite (locks_withLock ((locks_gets _).bind fun _ => .ite (.raise _) (.ret _))) (.ret _)

theorem locks_writeCore (d : PyStr) : Locks true (writeCore lazyLock d) :=
  locks_checkState.bind fun _ => (locks_gets _).bind fun _ => .ite ((locks_sendData d).weaken.bind fun _ => .ret _)
    (.ite ((locks_atom _).bind fun _ => (locks_atom _).bind fun _ => (locks_sendData _).weaken.bind fun _ => (locks_atom _).bind fun _ =>
      (locks_atom _).bind fun _ => .ret _) (.ite (locks_atom _) (.ret _)))

theorem locks_newLine : Locks false (newLine lazyLock) :=
  locks_locked ((locks_atom _).bind fun _ => .ite ((locks_writeCore _).bind fun _ => .ret _) (.ret _))

theorem locks_sendEnd (m : QMsg) : Locks false (sendEnd lazyLock m) :=
  (locks_locked (locks_gets _)).bind fun _ => .ite (.ret _) (locks_newLine.weaken.bind fun _ => locks_atom _)

theorem locks_clear : Locks false (clear lazyLock) := locks_locked ((locks_atom _).bind fun _ => locks_atom _)

theorem locks_prog (c : MCall) (h1 : ∀ t, c ≠ .setTimeout t) (h2 : ∀ a, c ≠ .setAggressive a) : Locks false (prog lazyLock c) := by
  have fin : ∀ {β : Type} {p : MProg β} {F : Except Exc β → MRet}, Locks false p →
      Locks false (p.outcome >>= fun r => (Prog.ret (F r) : MProg MRet)) := fun h => h.outcome.bind fun _ => .ret _
  cases c with
  | write d => exact fin ((locks_locked (locks_gets _)).bind fun _ => .ite (.raise _) (locks_locked (locks_writeCore d)).weaken)
  | newLine => exact fin locks_newLine
  | read n =>
    refine fin ((locks_locked (locks_gets _)).bind fun _ => .ite (.raise _) (locks_locked ?_).weaken)
    cases n <;> exact locks_atom _
  | clear => exact fin locks_clear
  | flush => exact fin (locks_locked (locks_atom _))
  | sendData d => exact fin (locks_sendData d)
  | sendEof => exact fin (locks_sendEnd _)
  | sendError e => exact fin (locks_sendEnd _)
  | sendWarning e => exact fin (locks_sendEnd _)
  | close e =>
    refine fin ((locks_locked (locks_gets _)).bind fun _ => .ite (.ret _) ?_)
    cases e <;> exact (locks_sendEnd _).weaken.bind fun _ => locks_clear.weaken.bind fun _ => (locks_locked (locks_atom _)).weaken
  | closed => exact fin (locks_locked (locks_gets _))
  | readable => exact fin (locks_locked (locks_gets _))
  | writable => exact fin (locks_locked (locks_gets _))
  | setTimeout t => exact absurd rfl (h1 t)
  | setAggressive a => exact absurd rfl (h2 a)

end MThr

/-- **C65** A mirror has its lock once any of its methods has been called (by one thread, to the end); changing the timeout
or the mode is not enough. -/
theorem C65_first_use (c : MCall) (h1 : ∀ t, c ≠ .setTimeout t) (h2 : ∀ a, c ≠ .setAggressive a) (p : Nat) (w : PWorld) :
    (((PThr.prog MThr.lazyLock p (.mirror c)).seq w).2.procs p).lock ≠ none := by
  have h := MThr.locks_prog c h1 h2 (w.procs p, w.net) nofun
  have e := MThr.seq_prog MThr.finds_lazy c (w.procs p, w.net)
  have e1 : (PThr.mirror p (MThr.prog MThr.lazyLock c)).seq w = (.ok (Mirror.exec c ((w.procs p).mirror, w.net)).1, _) :=
    (PThr.seq_mirror p _ w).trans (Prod.ext e.1 rfl)
  have e2 : (PThr.prog MThr.lazyLock p (.mirror c)).seq w = _ := Prog.seq_bind_ok e1
  rw [e2]
  show (upd w.procs p _ p).lock ≠ none
  rw [upd_same]
  exact h

/-- After `write("a")` the lock is there, after `timeout = 3` it is not. -/
example : (((PThr.prog MThr.lazyLock 0 (.mirror (.write (lit "a")))).seq
      ⟨{ base := { storage := { maxlen := 9 } } }, fun _ => { mirror := .new 0 }, {}⟩).2.procs 0).lock = some 0 ∧
    (((PThr.prog MThr.lazyLock 0 (.mirror (.setTimeout (some 3)))).seq
      ⟨{ base := { storage := { maxlen := 9 } } }, fun _ => { mirror := .new 0 }, {}⟩).2.procs 0).lock = none := ⟨rfl, rfl⟩

/-! ## The texts -/

/-- The threads write, and some receive. -/
def Writes : PCall → Prop
  | .mirror (.write _) => True
  | .receive => True
  | _ => False

/-- The texts a thread of process `p` has written, and the others nothing. -/
def writtenIn (proc : Nat → Nat) (p N : Nat) (eff : Nat → List PyStr) : List (List PyStr) :=
  (List.range N).map fun i => if proc i = p then eff i else []

/-- Where the atomic object is: `eff i` is what thread `i` has written, `sent` are the messages sent with the processes
they come from, `got` the messages received. -/
structure TextInv (proc : Nat → Nat) (N q : Nat) (s0 : PShared) (l0 : Log) (eff : Nat → List PyStr) (sent : List (Nat × QMsg))
    (got : List QMsg) (s : PShared) : Prop where
  mirror : ∀ p, ∃ t, s.mirror p = (s0.mirror p).withBuf t ∧ ((s0.mirror p).aggressive = true → t = [])
  running : s.net.closed = s0.net.closed
  main : s.main.mirror.queue = q
  queue : got ++ s.net.queues q = s0.net.queues q ++ sent.map (·.2)
  log : s.main.base = rep (got.foldl arrive l0)
  texts : ∀ m ∈ sent, ∃ d, m.2 = .str d
  merge : ∀ p, ∃ ws, Merge (writtenIn proc p N eff) ws ∧
    textOf ((sent.filter (·.1 = p)).map (·.2)) ++ (s.mirror p).buf.buf = (s0.mirror p).buf.buf ++ ws.flatten

theorem textOf_append (a b : List QMsg) : textOf (a ++ b) = textOf a ++ textOf b := by
  simp [textOf]

theorem textOf_strs (ts : List PyStr) : textOf (ts.map .str) = ts.flatten := by
  unfold textOf
  rw [List.filterMap_map]
  congr 1
  induction ts with
  | nil => rfl
  | cons t ts ih => exact congrArg (t :: ·) ih

theorem writtenIn_get {proc : Nat → Nat} {p N : Nat} {eff : Nat → List PyStr} {i : Nat} (h : i < N) (hp : proc i = p) :
    (writtenIn proc p N eff)[i]? = some (eff i) := by
  simp [writtenIn, h, hp]

theorem writtenIn_upd {proc : Nat → Nat} {p N : Nat} {eff : Nat → List PyStr} {i : Nat} {x : List PyStr} (hp : proc i = p) :
    writtenIn proc p N (upd eff i x) = (writtenIn proc p N eff).set i x := by
  refine List.ext_getElem? fun j => ?_
  simp only [writtenIn, List.getElem?_map, List.getElem?_set, List.length_map, List.length_range]
  by_cases hij : i = j
  · subst hij
    by_cases hN : i < N <;> simp [hN, hp]
  · by_cases hN : j < N <;> simp [hN, hij, upd_other _ _ (Ne.symm hij)]

theorem writtenIn_other {proc : Nat → Nat} {p N : Nat} {eff : Nat → List PyStr} {i : Nat} {x : List PyStr} (hp : proc i ≠ p) :
    writtenIn proc p N (upd eff i x) = writtenIn proc p N eff := by
  refine List.map_congr_left fun j _ => ?_
  by_cases hij : j = i
  · subst hij; simp [hp]
  · rw [upd_other _ _ hij]

theorem textInv_write {proc : Nat → Nat} {N q : Nat} {s0 : PShared} {l0 : Log} {eff : Nat → List PyStr} {sent : List (Nat × QMsg)}
    {got : List QMsg} {s s' : PShared} (h : TextInv proc N q s0 l0 eff sent got s) (hq : ∀ p, (s0.mirror p).queue = q)
    (hr : s0.net.closed ≠ some true) {i : Nat} (hi : i < N) {d : PyStr} {r : PRet}
    (hs : PShared.Step proc s i (.mirror (.write d)) r s')
    (hf : (s0.mirror (proc i)).aggressive = true → ∀ x, r = .mirror x → x.failed = false) :
    ∃ sent', TextInv proc N q s0 l0 (upd eff i (eff i ++ [d])) sent' got s' := by
  cases hs with
  | mirror _ r m n he =>
    obtain ⟨t, ht, hta⟩ := h.mirror (proc i)
    obtain ⟨t', n', texts, e1, e2, e3, e4, e5, e6, _⟩ :=
      text_step (.write d) rfl (s0.mirror (proc i)) t s.net hta
    rw [← ht, he] at e1
    rw [← ht, he] at e6
    obtain ⟨rfl, rfl⟩ := Prod.mk.inj e1
    rw [hq] at e4 e5
    have hst : (s0.mirror (proc i)).stopped s.net = false := by
      unfold Mirror.stopped
      rw [h.running]
      cases hc : s0.net.closed with
      | none => simp
      | some b =>
        cases b with
        | false => simp
        | true => exact absurd hc hr
    have e6 : texts.flatten ++ t' = t ++ d := by
      refine e6 ?_
      cases hag : (s0.mirror (proc i)).aggressive with
      | false => exact .inl ⟨rfl, hst⟩
      | true => exact .inr (hf hag _ rfl)
    refine ⟨sent ++ texts.map fun x => (proc i, .str x), ?_, e3.trans h.running, h.main, ?_, h.log, ?_, ?_⟩
    · intro p
      by_cases hp : p = proc i
      · subst hp
        exact ⟨t', upd_same _ _ _, e2⟩
      · obtain ⟨u, hu⟩ := h.mirror p
        exact ⟨u, (upd_other _ _ hp).trans hu.1, hu.2⟩
    · show got ++ n.queues q = _
      rw [e5, ← List.append_assoc, h.queue, List.map_append, List.map_map, List.append_assoc]
      rfl
    · intro m hm
      rcases List.mem_append.1 hm with hm | hm
      · exact h.texts m hm
      · obtain ⟨x, _, rfl⟩ := List.mem_map.1 hm
        exact ⟨x, rfl⟩
    · intro p
      obtain ⟨ws, h1, h2⟩ := h.merge p
      rw [List.filter_append, List.map_append, textOf_append]
      by_cases hp : proc i = p
      · subst hp
        refine ⟨ws ++ [d], ?_, ?_⟩
        · rw [writtenIn_upd rfl]
          exact merge_append h1 i _ _ (writtenIn_get hi rfl)
        · have hfil : ((texts.map fun x => (proc i, QMsg.str x)).filter (·.1 = proc i)).map (·.2) = texts.map .str := by
            rw [List.filter_eq_self.2 (by simp), List.map_map]
            rfl
          rw [hfil, textOf_strs]
          show _ ++ (upd s.mirror (proc i) _ (proc i)).buf.buf = _
          rw [upd_same, Mirror.withBuf_buf, List.append_assoc, e6, List.flatten_append, ← List.append_assoc, ← List.append_assoc, ← h2, ht]
          simp
      · refine ⟨ws, ?_, ?_⟩
        · rw [writtenIn_other hp]
          exact h1
        · have hfil : ((texts.map fun x => (proc i, QMsg.str x)).filter (·.1 = p)).map (·.2) = [] := by
            rw [List.filter_eq_nil_iff.2 (by simp [hp])]
            rfl
          rw [hfil]
          show _ ++ (upd s.mirror (proc i) _ p).buf.buf = _
          rw [upd_other _ _ (Ne.symm hp)]
          simpa [textOf] using h2

theorem textInv_receive {proc : Nat → Nat} {N q : Nat} {s0 : PShared} {l0 : Log} {eff : Nat → List PyStr} {sent : List (Nat × QMsg)}
    {got : List QMsg} {s s' : PShared} (h : TextInv proc N q s0 l0 eff sent got s) (hl : Ok l0) (ho : l0.closed = false)
    {i : Nat} {r : PRet} (hs : PShared.Step proc s i .receive r s') :
    ∃ got', TextInv proc N q s0 l0 eff sent got' s' := by
  cases hs with
  | receive r b n he =>
    cases hqs : s.net.queues s.main.mirror.queue with
    | nil =>
      rw [receive_empty _ _ hqs] at he
      obtain ⟨_, e⟩ := Prod.mk.inj he
      obtain ⟨rfl, rfl⟩ := Prod.mk.inj e
      exact ⟨got, h⟩
    | cons m ms =>
      rw [ProcBuf.receive_rep m ms _ (foldl_arrive_ok got l0 hl ho) (by rw [foldl_arrive_closed]; exact ho)
        _ _ h.log hqs] at he
      obtain ⟨_, e⟩ := Prod.mk.inj he
      obtain ⟨rfl, rfl⟩ := Prod.mk.inj e
      refine ⟨got ++ [m], h.mirror, h.running, h.main, ?_, ?_, h.texts, h.merge⟩
      · have := h.queue
        rw [h.main] at hqs
        show got ++ [m] ++ (ProcBuf.qset s.net s.main.mirror.queue ms).queues q = _
        rw [h.main, ProcBuf.qset_queues, ← this, hqs]
        simp
      · rw [List.foldl_append]
        rfl

/-- The calls a thread has started but that have not taken effect. -/
def notYet : Stat PCall PRet → List PCall
  | .called c => [c]
  | _ => []

theorem callsBy_inv (i j : Nat) (c : PCall) (tr : List (Ev PCall PRet)) :
    callsBy i (tr ++ [.inv j c]) = callsBy i tr ++ if j = i then [c] else [] := by
  unfold callsBy
  rw [List.filterMap_append]
  congr 1
  by_cases h : j = i <;> simp [h]

theorem callsBy_ret (i j : Nat) (r : PRet) (tr : List (Ev PCall PRet)) : callsBy i (tr ++ [.ret j r]) = callsBy i tr := by
  unfold callsBy
  rw [List.filterMap_append]
  simp

theorem pcallTexts_append (a b : List PCall) : textsOf (a ++ b) = textsOf a ++ textsOf b := List.filterMap_append

/-- A failed result of an aggressive mirror. -/
def Failed (proc : Nat → Nat) (s0 : PShared) (i : Nat) (r : PRet) : Prop :=
  (s0.mirror (proc i)).aggressive = true ∧ ∃ x, r = .mirror x ∧ x.failed = true

theorem text_exec {proc : Nat → Nat} {ok : Nat → PCall → Prop} {N q : Nat} (hok : ∀ i c, ok i c → i < N ∧ Writes c)
    {s0 : PShared} {l0 : Log} (hl : Ok l0) (ho : l0.closed = false) (hb : s0.main.base = rep l0) (hmq : s0.main.mirror.queue = q)
    (hq : ∀ p, (s0.mirror p).queue = q) (hr : s0.net.closed ≠ some true)
    (hm : ∀ p, s0.mirror p = (s0.mirror p).withBuf (s0.mirror p).buf.buf)
    (ha : ∀ p, (s0.mirror p).aggressive = true → (s0.mirror p).buf.buf = [])
    {tr : List (Ev PCall PRet)} {a : AConf PShared PCall PRet}
    (hx : AExec (fun s i c r s' => PShared.Step proc s i c r s' ∧ ok i c) ⟨s0, fun _ => .idle⟩ tr a) :
    (∃ i r, Ev.ret i r ∈ tr ∧ Failed proc s0 i r) ∨ (∃ i r, a.stat i = .done r ∧ Failed proc s0 i r) ∨
    ∃ eff sent got, (∀ i, textsOf (callsBy i tr) = eff i ++ textsOf (notYet (a.stat i))) ∧
      TextInv proc N q s0 l0 eff sent got a.st ∧ ((∀ i, ¬ ok i .receive) → got = []) := by
  generalize h0 : (⟨s0, fun _ => .idle⟩ : AConf PShared PCall PRet) = a0 at hx
  induction hx with
  | nil =>
    subst h0
    refine .inr (.inr ⟨fun _ => [], [], [], fun _ => rfl, ⟨fun p => ⟨_, hm p, ha p⟩, rfl, hmq, by simp, hb, nofun, fun p => ?_⟩,
      fun _ => rfl⟩)
    refine ⟨[], .done _ fun x hx => ?_, by simp [textOf]⟩
    obtain ⟨i, _, rfl⟩ := List.mem_map.1 hx
    exact ite_self _
  | snoc a' a'' tr e h1 h2 ih =>
    rcases ih with ⟨i, r, h3, h4⟩ | ⟨i, r, h3, h4⟩ | ⟨eff, sent, got, h3, h4, h5⟩
    · exact .inl ⟨i, r, List.mem_append_left _ h3, h4⟩
    · cases h2 with
      | inv j c hj =>
        refine .inr (.inl ⟨i, r, ?_, h4⟩)
        show upd a'.stat j _ i = _
        rw [upd_other _ _ (fun e => by subst e; rw [hj] at h3; cases h3)]
        exact h3
      | ret j r' hj =>
        by_cases hij : i = j
        · subst hij
          rw [hj] at h3
          cases h3
          exact .inl ⟨i, r, by simp, h4⟩
        · exact .inr (.inl ⟨i, r, (upd_other _ _ hij).trans h3, h4⟩)
      | effect j c r' st hj hsp =>
        refine .inr (.inl ⟨i, r, ?_, h4⟩)
        show upd a'.stat j _ i = _
        rw [upd_other _ _ (fun e => by subst e; rw [hj] at h3; cases h3)]
        exact h3
    · cases h2 with
      | inv j c hj =>
        refine .inr (.inr ⟨eff, sent, got, fun i => ?_, h4, h5⟩)
        show textsOf (callsBy i (tr ++ [.inv j c])) = _ ++ textsOf (notYet (upd a'.stat j _ i))
        rw [callsBy_inv, pcallTexts_append, h3 i]
        by_cases hij : j = i
        · subst hij
          rw [if_pos rfl, upd_same, hj]
          simp [notYet, textsOf]
        · rw [if_neg hij, upd_other _ _ (Ne.symm hij)]
          simp [textsOf]
      | ret j r hj =>
        refine .inr (.inr ⟨eff, sent, got, fun i => ?_, h4, h5⟩)
        show textsOf (callsBy i (tr ++ [.ret j r])) = _ ++ textsOf (notYet (upd a'.stat j _ i))
        rw [callsBy_ret, h3 i]
        by_cases hij : j = i
        · subst hij
          rw [upd_same, hj]
          rfl
        · rw [upd_other _ _ (Ne.symm hij)]
      | effect j c r st hj hsp =>
        obtain ⟨hN, hc⟩ := hok j c hsp.2
        by_cases hf : Failed proc s0 j r
        · exact .inr (.inl ⟨j, r, upd_same _ _ _, hf⟩)
        rw [Option.toList_none, List.append_nil]
        cases c with
        | mirror c =>
          cases c with
          | write d =>
            obtain ⟨sent', h6⟩ := textInv_write h4 hq hr hN hsp.1 fun hag x hx => by
              cases hxf : x.failed with
              | false => rfl
              | true => exact absurd ⟨hag, x, hx, hxf⟩ hf
            refine .inr (.inr ⟨_, sent', got, fun i => ?_, h6, h5⟩)
            show _ = _ ++ textsOf (notYet (upd a'.stat j _ i))
            rw [h3 i]
            by_cases hij : i = j
            · subst hij
              rw [upd_same, upd_same, hj]
              simp [notYet, textsOf]
            · rw [upd_other _ _ hij, upd_other _ _ hij]
          | _ => exact hc.elim
        | receive =>
          obtain ⟨got', h6⟩ := textInv_receive h4 hl ho hsp.1
          refine .inr (.inr ⟨eff, sent, got', fun i => ?_, h6, fun h => absurd hsp.2 (h j)⟩)
          show _ = _ ++ textsOf (notYet (upd a'.stat j _ i))
          rw [h3 i]
          by_cases hij : i = j
          · subst hij
            rw [upd_same, hj]
            rfl
          · rw [upd_other _ _ hij]
        | _ => exact hc.elim

/-- The mirrors of the processes are mirrors of the main buffer, in any state that calls can bring them into, and an
aggressive mirror holds no text back. -/
structure MirrorsOf (w : PWorld) : Prop where
  reach : ∀ p, MReach w.main.mirror.queue (w.procs p).mirror
  empty : ∀ p, (w.procs p).mirror.aggressive = true → (w.procs p).mirror.buf.buf = []

/-- `sent` are messages with the processes that sent them: they are texts, and for every process the texts it has sent and
the text its mirror holds back are the text it held back at the beginning and the texts its threads have written, interleaved in some way. -/
structure Kept (proc : Nat → Nat) (N : Nat) (w : PWorld) (tr : List (Ev PCall PRet)) (w' : PWorld) (sent : List (Nat × QMsg)) : Prop where
  texts : ∀ m ∈ sent, ∃ d, m.2 = .str d
  merge : ∀ p, ∃ ws, Merge (writtenIn proc p N fun i => textsOf (callsBy i tr)) ws ∧
    textOf ((sent.filter (·.1 = p)).map (·.2)) ++ (w'.procs p).mirror.buf.buf = (w.procs p).mirror.buf.buf ++ ws.flatten

theorem shared_texts {proc : Nat → Nat} {ok : Nat → PCall → Prop} {N k : Nat} {maxlen : Int}
    (hok : ∀ i c, ok i c → i < N ∧ Writes c) {w : PWorld} (hs : Started maxlen k w.main) (hw : MirrorsReady w) (hm : MirrorsOf w)
    {tr : List (Ev PCall PRet)} {κ : Conf PWorld PLock Unit PCall PRet}
    (hx : Exec (procThreads MThr.lazyLock proc ok) (init w fun _ => ()) tr κ) (hi : ∀ i, κ.cur i = none)
    (hf : ∀ i r, Ev.ret i (.mirror r) ∈ tr → (w.procs (proc i)).mirror.aggressive = true → r.failed = false) :
    ∃ sent got l, Kept proc N w tr κ.st sent ∧
      got ++ κ.st.net.queues w.main.mirror.queue = w.net.queues w.main.mirror.queue ++ sent.map (·.2) ∧
      Replays { cap := maxlen.toNat } got l ∧ Holds κ.st.main.base l ∧ ((∀ i, ¬ ok i .receive) → got = []) := by
  have hone : ∀ i c, ok i c → PThr.OneMoment c := fun i c h => by
    have := (hok i c h).2
    cases c with
    | mirror c => cases c <;> first | trivial | exact this.elim
    | receive => trivial
    | _ => exact this.elim
  obtain ⟨s, stat, h1, h2⟩ := C65_linearizable_partial hone hw hx
  obtain ⟨rfl, h3⟩ := h2 hi
  obtain ⟨e1, e2, _⟩ := started_rep hs
  rcases text_exec hok e2 rfl e1 rfl (fun p => (mreach_norm (hm.reach p)).2.1) hw.running
    (fun p => mreach_open (hm.reach p) (hw.opened p)) hm.empty h1 with ⟨i, r, h4, h5, x, rfl, h6⟩ | ⟨i, r, h4, _⟩ |
    ⟨eff, sent, got, h4, h5, h6⟩
  · rw [hf i x h4 h5] at h6
    cases h6
  · have := (h3 i).symm.trans h4
    cases this
  · have he : eff = fun i => textsOf (callsBy i tr) := funext fun i => by
      have := h4 i
      rw [show (AConf.mk (PShared.of κ.st) stat).stat i = .idle from h3 i] at this
      simpa [notYet, textsOf] using this.symm
    subst he
    exact ⟨sent, got, _, ⟨h5.texts, h5.merge⟩, h5.queue, replays_foldl _ _ noBreak_nil,
      h5.log ▸ holds_rep (foldl_arrive_ok _ _ e2 rfl), h6⟩

/-! ## C65 -/

/-- **C65** Any number of threads of any number of processes write through the mirrors of their processes.  If every
mirror has its lock, then in every race no text is lost, doubled or torn: whenever no call is running, for every process
the texts in the queue and the text held back are the texts its threads have written, interleaved in some way (each write
as a whole).  (Of an aggressive mirror no call has failed.)  Missing: the lock exists. -/
theorem C65_writers_partial {proc : Nat → Nat} {ok : Nat → PCall → Prop} {N k : Nat} {maxlen : Int}
    (hok : ∀ i c, ok i c → i < N ∧ ∃ d, c = .mirror (.write d)) {w : PWorld} (hs : Started maxlen k w.main) (hw : MirrorsReady w)
    (hm : MirrorsOf w) {tr : List (Ev PCall PRet)} {κ : Conf PWorld PLock Unit PCall PRet}
    (hx : Exec (procThreads MThr.lazyLock proc ok) (init w fun _ => ()) tr κ) (hi : ∀ i, κ.cur i = none)
    (hf : ∀ i r, Ev.ret i (.mirror r) ∈ tr → (w.procs (proc i)).mirror.aggressive = true → r.failed = false) :
    ∃ sent, Kept proc N w tr κ.st sent ∧
      κ.st.net.queues w.main.mirror.queue = w.net.queues w.main.mirror.queue ++ sent.map (·.2) := by
  obtain ⟨sent, got, l, h1, h2, _, _, h5⟩ := shared_texts (fun i c h => ⟨(hok i c h).1, by obtain ⟨d, rfl⟩ := (hok i c h).2; trivial⟩)
    hs hw hm hx hi hf
  rw [h5 fun i h => by obtain ⟨d, e⟩ := (hok i _ h).2; cases e] at h2
  exact ⟨sent, h1, h2⟩

/-- **C65** The same while threads of the main process receive: what was in the queue and what has been sent is what has
been received, in this order, and what is still in the queue; and the main buffer is the log to which the received messages have
arrived.  Missing: the lock exists. -/
theorem C65_receive_partial {proc : Nat → Nat} {ok : Nat → PCall → Prop} {N k : Nat} {maxlen : Int}
    (hok : ∀ i c, ok i c → i < N ∧ Writes c) {w : PWorld} (hs : Started maxlen k w.main) (hw : MirrorsReady w) (hm : MirrorsOf w)
    {tr : List (Ev PCall PRet)} {κ : Conf PWorld PLock Unit PCall PRet}
    (hx : Exec (procThreads MThr.lazyLock proc ok) (init w fun _ => ()) tr κ) (hi : ∀ i, κ.cur i = none)
    (hf : ∀ i r, Ev.ret i (.mirror r) ∈ tr → (w.procs (proc i)).mirror.aggressive = true → r.failed = false) :
    ∃ sent got l, Kept proc N w tr κ.st sent ∧
      got ++ κ.st.net.queues w.main.mirror.queue = w.net.queues w.main.mirror.queue ++ sent.map (·.2) ∧
      Replays { cap := maxlen.toNat } got l ∧ Holds κ.st.main.base l := by
  obtain ⟨sent, got, l, h1, h2, h3, h4, _⟩ := shared_texts hok hs hw hm hx hi hf
  exact ⟨sent, got, l, h1, h2, h3, h4⟩

/-- A new main buffer and a process whose mirror has not been used. -/
def unused : PWorld :=
  ⟨{ base := { storage := { maxlen := 9 } }, nMirrors := 1 }, fun _ => { mirror := .new 0 }, { queues := fun _ => [] }⟩

/-- The threads 0 and 1 write. -/
def twoWrite (i : Nat) (c : PCall) : Prop := i < 2 ∧ ∃ d, c = .mirror (.write d)

/-- What the two threads have done and left. -/
def Shows (tr : List (Ev PCall PRet)) (κ : Conf PWorld PLock Unit PCall PRet) (a b : PyStr) (sent : List PyStr) : Prop :=
  (∃ r r', tr = [.inv 1 (.mirror (.write b)), .inv 0 (.mirror (.write a)), .ret 1 (.mirror (.nat r)), .ret 0 (.mirror (.nat r'))]) ∧
  κ.st.net.queues 0 = sent.map .str ∧ (κ.st.procs 0).mirror.buf.buf = []

/-- Carry out moves of two threads and look at the end. -/
def shows (ms : List (Move PCall)) (a b : PyStr) (sent : List PyStr) : Bool :=
  match moves (procThreads MThr.lazyLock (fun _ => 0) twoWrite) 2 ms (init unused fun _ => ())
      (fun | .buf _ _ => true | _ => false) with
  | none => false
  | some (tr, κ) => (κ.cur 0).isNone && (κ.cur 1).isNone && (κ.st.procs 0).mirror.buf.buf.isEmpty &&
    ((κ.st.net.queues 0).map fun | .str d => some d | _ => none) == sent.map some &&
    match tr with
    | [.inv 1 (.mirror (.write b')), .inv 0 (.mirror (.write a')), .ret 1 (.mirror (.nat _)), .ret 0 (.mirror (.nat _))] =>
      b' == b && a' == a
    | _ => false

theorem shows_sound {ms : List (Move PCall)} {a b : PyStr} {sent : List PyStr} (h : shows ms a b sent = true)
    (hms : ∀ m ∈ ms, ∀ i c, m = .start i c → twoWrite i c) :
    ∃ tr κ, Exec (procThreads MThr.lazyLock (fun _ => 0) twoWrite) (init unused fun _ => ()) tr κ ∧ (∀ i, κ.cur i = none) ∧
      Shows tr κ a b sent := by
  unfold shows at h
  split at h
  · cases h
  · rename_i tr κ e
    simp only [Bool.and_eq_true, Option.isNone_iff_eq_none, List.isEmpty_iff, beq_iff_eq] at h
    obtain ⟨⟨⟨⟨h0, h1⟩, h2⟩, h3⟩, h4⟩ := h
    refine ⟨tr, κ, moves_sound hms (fun _ _ _ => rfl) e ?_, ?_, ?_, ?_, h2⟩
    · intro l hl
      cases l with
      | buf p k => exact ⟨p, k, rfl⟩
      | _ => cases hl
    · intro i
      match i with
      | 0 => exact h0
      | 1 => exact h1
      | i + 2 => exact moves_idle e (Nat.le_add_left 2 i) rfl
    · split at h4
      · simp only [Bool.and_eq_true, beq_iff_eq] at h4
        obtain ⟨rfl, rfl⟩ := h4
        exact ⟨_, _, rfl⟩
      · cases h4
    · generalize κ.st.net.queues 0 = ms at h3
      clear h4
      induction ms generalizing sent with
      | nil =>
        cases sent with
        | nil => rfl
        | cons x xs => cases h3
      | cons m ms ih =>
        cases sent with
        | nil => cases h3
        | cons x xs =>
          rw [List.map_cons, List.map_cons, List.cons.injEq] at h3
          rw [ih h3.2, List.map_cons, List.cons.injEq]
          refine ⟨?_, rfl⟩
          cases m with
          | str d => rw [Option.some.inj h3.1]
          | _ => cases h3.1

/-- Two threads use a new mirror for the first time: both find no lock.  Thread 0 makes one, and thread 1 makes another
while thread 0 is writing under the first.  Thread 0 sends `"a\n"`, thread 1 writes `"b"` into the buffer, thread 0 empties
the buffer: `"b"` is lost, though `write("b")` returned. -/
theorem C65_lost : ∃ tr κ, Exec (procThreads MThr.lazyLock (fun _ => 0) twoWrite) (init unused fun _ => ()) tr κ ∧
    (∀ i, κ.cur i = none) ∧ Shows tr κ (lit "a\n") (lit "b") [lit "a\n"] :=
  shows_sound (ms := .start 1 (.mirror (.write (lit "b"))) :: .go 1 :: .start 0 (.mirror (.write (lit "a\n"))) ::
    List.replicate 22 (.go 0) ++ List.replicate 16 (.go 1) ++ List.replicate 4 (.go 0)) (by decide +kernel) fun m hm i c e => by
      subst e
      simp at hm
      rcases hm with ⟨rfl, rfl⟩ | ⟨rfl, rfl⟩ <;> exact ⟨by omega, _, rfl⟩

/-- The same beginning: thread 0 has put `"a\n"` into the buffer and taken the value, then thread 1 writes `"b\n"` and
sends both lines; thread 0 sends its line again. -/
theorem C65_doubled : ∃ tr κ, Exec (procThreads MThr.lazyLock (fun _ => 0) twoWrite) (init unused fun _ => ()) tr κ ∧
    (∀ i, κ.cur i = none) ∧ Shows tr κ (lit "a\n") (lit "b\n") [lit "a\nb\n", lit "a\n"] :=
  shows_sound (ms := .start 1 (.mirror (.write (lit "b\n"))) :: .go 1 :: .start 0 (.mirror (.write (lit "a\n"))) ::
    List.replicate 16 (.go 0) ++ List.replicate 25 (.go 1) ++ List.replicate 10 (.go 0)) (by decide +kernel) fun m hm i c e => by
      subst e
      simp at hm
      rcases hm with ⟨rfl, rfl⟩ | ⟨rfl, rfl⟩ <;> exact ⟨by omega, _, rfl⟩

/-- **C65** violated: without the assumption that the locks exist `C65_writers_partial` is false. -/
theorem C65_violated : ¬ ∀ (proc : Nat → Nat) (ok : Nat → PCall → Prop) (N k : Nat) (maxlen : Int) (w : PWorld)
    (tr : List (Ev PCall PRet)) (κ : Conf PWorld PLock Unit PCall PRet),
    (∀ i c, ok i c → i < N ∧ ∃ d, c = .mirror (.write d)) → Started maxlen k w.main →
    (∀ p, (w.procs p).mirror.buf.closed = false) → w.net.closed ≠ some true → MirrorsOf w →
    Exec (procThreads MThr.lazyLock proc ok) (init w fun _ => ()) tr κ → (∀ i, κ.cur i = none) →
    (∀ i r, Ev.ret i (.mirror r) ∈ tr → (w.procs (proc i)).mirror.aggressive = true → r.failed = false) →
    ∃ sent, Kept proc N w tr κ.st sent ∧
      κ.st.net.queues w.main.mirror.queue = w.net.queues w.main.mirror.queue ++ sent.map (·.2) := by
  intro h
  obtain ⟨tr, κ, hx, hi, ⟨r, r', htr⟩, hq, hb⟩ := C65_lost
  obtain ⟨sent, ⟨h1, h2⟩, h3⟩ := h (fun _ => 0) twoWrite 2 1 9 unused tr κ (fun _ _ h => h) ⟨_, rfl, rfl⟩ (fun _ => rfl) nofun
    ⟨fun _ => .new false none, fun _ _ => rfl⟩ hx hi (fun _ _ _ h => nomatch h)
  obtain ⟨ws, h4, h5⟩ := h2 0
  have h6 : lit "b" ∈ ws := by
    refine (merge_sublist h4 _ (List.mem_of_getElem? (writtenIn_get (i := 1) (by omega) rfl))).subset ?_
    rw [htr]
    exact List.mem_singleton.2 rfl
  have h7 : (98 : Nat) ∈ textOf ((sent.filter (·.1 = 0)).map (·.2)) := by
    rw [hb, List.append_nil] at h5
    rw [h5]
    exact List.mem_flatten.2 ⟨_, h6, by decide⟩
  have h8 : ∀ m ∈ sent.map (·.2), m = .str (lit "a\n") := by
    have h3 : κ.st.net.queues 0 = sent.map (·.2) := h3
    rw [← h3, hq]
    simp
  unfold textOf at h7
  obtain ⟨d, h9, h10⟩ := List.mem_flatten.1 h7
  obtain ⟨m, h11, h12⟩ := List.mem_filterMap.1 h9
  obtain ⟨x, h13, rfl⟩ := List.mem_map.1 h11
  rw [h8 x.2 (List.mem_map.2 ⟨x, (List.mem_filter.1 h13).1, rfl⟩)] at h12
  cases h12
  revert h10
  decide

/-- The same world, but the mirror has been used. -/
def used : PWorld :=
  ⟨{ base := { storage := { maxlen := 9 } }, nMirrors := 1 }, fun _ => { mirror := .new 0, lock := some 0, made := 1 },
    { queues := fun _ => [] }⟩

/-- The assumptions of the theorems hold of it. -/
example : Started 9 1 used.main ∧ MirrorsReady used ∧ MirrorsOf used :=
  ⟨⟨_, rfl, rfl⟩, ⟨fun _ => nofun, fun _ => rfl, nofun⟩, ⟨fun _ => .new false none, fun _ _ => rfl⟩⟩

/-- Carry out moves of three threads, of which the first two belong to process 0, and look at the end. -/
def ends (ms : List (Move PCall)) (n : Nat) (queue : List PyStr) (held : PyStr) (stored : List PyStr) : Bool :=
  match moves (procThreads MThr.lazyLock (fun _ => 0) fun _ _ => True) 3 ms (init used fun _ => ())
      (fun | .buf _ _ => true | _ => false) with
  | none => false
  | some (tr, κ) => (κ.cur 0).isNone && (κ.cur 1).isNone && (κ.cur 2).isNone && tr.length == n &&
    ((κ.st.net.queues 0).map fun | .str d => some d | _ => none) == queue.map some && (κ.st.procs 0).mirror.buf.buf == held &&
    (κ.st.main.base.storage.items.map fun | .str d => some d | _ => none) == stored.map some

/-- Thread 0 is in the section of `write("a\n")`; thread 1 starts `write("b")` and finds the section taken until thread 0 has
left it; meanwhile thread 2 tries to receive, and succeeds when `"a\n"` has been sent. -/
example : ends (.start 0 (.mirror (.write (lit "a\n"))) :: .start 1 (.mirror (.write (lit "b"))) ::
    List.replicate 15 (.go 0) ++ List.replicate 2 (.go 1) ++ List.replicate 6 (.go 0) ++ .start 2 .receive ::
    List.replicate 4 (.go 0) ++ List.replicate 14 (.go 1) ++ List.replicate 15 (.go 2)) 6 [] (lit "b") [lit "a"] = true := by
  decide +kernel

end SyncStream
