import Verif.Model.HostMirrorThreads
import Verif.Lemmas.Blocks
import Verif.Lemmas.ProcShared
/-!
# A host mirror shared by threads: the programs without interruption, and the sections of the calls
-/

namespace SyncStream
open Conc

namespace HMThr
variable {α β : Type}

/-! ## Without interruption -/

/-- The mirror and the network, without the lock attribute. -/
def view (s : HMProc × HNet) : HMNet := (s.1.mirror, s.2)

/-- Without interruption `p` does to the mirror and the network what `m` does. -/
def Sim (p : HMProg α) (m : Py HMNet α) : Prop :=
  ∀ s, (p.seq s).1 = (m (view s)).1 ∧ view (p.seq s).2 = (m (view s)).2

theorem finds_lazy (s : HMProc × HNet) : (∃ l, (lazyLock.seq s).1 = .ok l) ∧ view (lazyLock.seq s).2 = view s := by
  rcases s with ⟨⟨m, l, n⟩, w⟩
  cases l <;> exact ⟨⟨_, rfl⟩, rfl⟩

theorem Sim.pure (a : α) : Sim (pure a) (pure a) := fun _ => ⟨rfl, rfl⟩
theorem Sim.raise (e : Exc) : Sim (Prog.raise e : HMProg α) (Py.raise e) := fun _ => ⟨rfl, rfl⟩

theorem Sim.bind {p : HMProg α} {m : Py HMNet α} {g : α → HMProg β} {h : α → Py HMNet β} (hp : Sim p m)
    (hg : ∀ a, Sim (g a) (h a)) : Sim (p >>= g) (m >>= h) := by
  intro s
  obtain ⟨h1, h2⟩ := hp s
  rw [Prog.seq_bind]
  rcases hr : p.seq s with ⟨r, s'⟩
  rcases hm : m (view s) with ⟨r', t'⟩
  rw [hr, hm] at h1 h2
  cases h1
  cases h2
  cases r with
  | ok a => rw [Py.bind_ok hr, Py.bind_ok hm]; exact hg a s'
  | error e => rw [Py.bind_error hr, Py.bind_error hm]; exact ⟨rfl, rfl⟩

theorem Sim.atom (m : Py HMNet α) : Sim (atom m) m := fun s => by
  unfold HMThr.atom
  rw [Prog.seq_atom]
  exact ⟨rfl, rfl⟩

theorem Sim.gets (f : HMNet → α) : Sim (gets fun s => f (view s)) (Py.gets f) := fun s => by
  unfold HMThr.gets
  rw [Prog.seq_atom]
  exact ⟨rfl, rfl⟩

theorem Sim.locked {p : HMProg α} {m : Py HMNet α} (hp : Sim p m) : Sim (locked p) m := by
  intro s
  unfold HMThr.locked
  obtain ⟨⟨l, h1⟩, h2⟩ := finds_lazy s
  rw [Prog.seq_bind_ok (a := l) (s' := (lazyLock.seq s).2) (Prod.ext h1 rfl), Prog.seq_withLock]
  have := hp (lazyLock.seq s).2
  rwa [h2] at this

theorem Sim.ite {c : Prop} [Decidable c] {p q : HMProg α} {m n : Py HMNet α} (h1 : Sim p m) (h2 : Sim q n) :
    Sim (if c then p else q) (if c then m else n) := by
  split
  · exact h1
  · exact h2

theorem Sim.onBuf (m : Py StringIO α) : Sim (onBuf m) (HMirror.onBuf m) := Sim.atom _

theorem sim_closed : Sim closed HMirror.closed := Sim.locked (Sim.gets fun s => s.1.buf.closed)
theorem sim_readable : Sim readable HMirror.readable := Sim.locked (Sim.gets fun s => !s.1.buf.closed)
theorem sim_writable : Sim writable HMirror.writable := Sim.locked (Sim.gets fun s => !s.1.buf.closed)
theorem sim_clear : Sim clear HMirror.clear := Sim.locked (.bind (.onBuf _) fun _ => .onBuf _)
theorem sim_flush : Sim flush HMirror.flush := Sim.locked (.onBuf _)

theorem sim_fail (r : Resp) : Sim (fail r : HMProg α) r.fail := by
  unfold fail Resp.fail
  cases r.body <;> exact Sim.raise _

variable (env : HEnv)

theorem sim_expectOk (r : Req) : Sim (expectOk env r) (HMirror.expectOk env r) :=
  .bind (Sim.atom _) fun _ => .ite (Sim.pure ()) (sim_fail _)

theorem sim_sendData (d : PyStr) : Sim (sendData env d) (HMirror.sendData env d) :=
  .bind sim_closed fun x => by
    cases x
    · exact sim_expectOk env _
    · exact Sim.pure ()

theorem sim_checkStates : Sim (checkStates env) (HMirror.checkStates env) :=
  .bind sim_closed fun x => by
    cases x
    · refine .bind (Sim.atom _) fun resp => .ite ?_ (sim_fail _)
      cases resp.body with
      | none => exact Sim.raise _
      | some j =>
        dsimp only
        generalize j.get (lit "data") .null = v
        cases v with
        | bool b => cases b <;> first | exact Sim.raise _ | exact Sim.pure _
        | _ => exact Sim.pure _
    · exact Sim.pure ()

theorem sim_writeCore (d : PyStr) (k : Bool) : Sim (writeCore env d k) (HMirror.writeCore env d k) := by
  unfold writeCore HMirror.writeCore
  refine .bind (.ite (sim_checkStates env) (.pure ())) fun _ => .bind (.gets fun s => s.1.aggressive) fun x => ?_
  extract_lets n
  refine .ite (.bind (sim_sendData env d) fun _ => .pure _) (.ite ?_ (.ite (.onBuf _) (.pure _)))
  exact .bind (.onBuf _) fun _ => .bind (.onBuf _) fun _ => .bind (sim_sendData env _) fun _ =>
    .bind (.onBuf _) fun _ => .bind (.onBuf _) fun _ => .pure _

theorem sim_write (d : PyStr) : Sim (write env d) (HMirror.write env d) :=
  .bind sim_writable fun _ => .ite (.raise _) (.locked (sim_writeCore env d true))

theorem sim_newLine (k : Bool) : Sim (newLine env k) (HMirror.newLine env k) :=
  .locked (.bind (.onBuf _) fun _ => .ite (.bind (sim_writeCore env _ k) fun _ => .pure _) (.pure _))

theorem sim_sendEof : Sim (sendEof env) (HMirror.sendEof env) :=
  .bind sim_closed fun x => by
    cases x
    · exact .bind (sim_newLine env _) fun _ => sim_expectOk env _
    · exact Sim.pure ()

theorem sim_sendError (e : ExcObj) : Sim (sendError env e) (HMirror.sendError env e) :=
  .bind sim_closed fun x => by
    cases x
    · exact .bind (sim_newLine env _) fun _ => sim_expectOk env _
    · exact Sim.pure ()

theorem sim_sendWarning (e : ExcObj) : Sim (sendWarning env e) (HMirror.sendWarning env e) :=
  .bind sim_closed fun x => by
    cases x
    · exact .bind (sim_newLine env _) fun _ => sim_expectOk env _
    · exact Sim.pure ()

theorem sim_close (e : Option ExcObj) : Sim (close env e) (HMirror.close env e) :=
  .bind sim_closed fun x => by
    cases x
    · cases e with
      | none => exact .bind (sim_sendEof env) fun _ => .bind sim_clear fun _ => .locked (.onBuf _)
      | some e => exact .bind (sim_sendError env e) fun _ => .bind sim_clear fun _ => .locked (.onBuf _)
    · exact Sim.pure ()

theorem sim_read : Sim HMThr.read HMirror.read := .bind sim_readable fun _ => .ite (.raise _) (.locked (.onBuf _))

/-- Without interruption the program of a call does what `HMirror.exec` says. -/
theorem seq_prog (c : HMCall) (s : HMProc × HNet) :
    ((prog env c).seq s).1 = .ok (HMirror.exec env c (view s)).1 ∧
      view ((prog env c).seq s).2 = (HMirror.exec env c (view s)).2 := by
  have fin : ∀ {α : Type} {p : HMProg α} {m : Py HMNet α} (F : Except Exc α → HMRet), Sim p m →
      ((do return F (← p.outcome) : HMProg HMRet).seq s).1 = .ok (F (m (view s)).1) ∧
      view ((do return F (← p.outcome) : HMProg HMRet).seq s).2 = (m (view s)).2 := by
    intro α p m F h
    rw [Prog.seq_bind_ok (a := (p.seq s).1) (s' := (p.seq s).2) (Prog.seq_outcome p s)]
    exact ⟨congrArg (fun x => Except.ok (F x)) (h s).1, (h s).2⟩
  cases c with
  | write d => exact fin (m := HMirror.write env d) _ (sim_write env d)
  | newLine k => exact fin (m := HMirror.newLine env k) _ (sim_newLine env k)
  | read => exact fin (m := HMirror.read) _ sim_read
  | clear => exact fin (m := HMirror.clear) _ sim_clear
  | flush => exact fin (m := HMirror.flush) _ sim_flush
  | sendData d => exact fin (m := HMirror.sendData env d) _ (sim_sendData env d)
  | sendEof => exact fin (m := HMirror.sendEof env) _ (sim_sendEof env)
  | sendError e => exact fin (m := HMirror.sendError env e) _ (sim_sendError env e)
  | sendWarning e => exact fin (m := HMirror.sendWarning env e) _ (sim_sendWarning env e)
  | checkStates => exact fin (m := HMirror.checkStates env) _ (sim_checkStates env)
  | close e => exact fin (m := HMirror.close env e) _ (sim_close env e)
  | closed => exact fin (m := HMirror.closed) _ sim_closed
  | readable => exact fin (m := HMirror.readable) _ sim_readable
  | writable => exact fin (m := HMirror.writable) _ sim_writable
  | setAggressive a => exact fin (m := HMirror.setAggressive a) _ (Sim.atom _)

/-! ## Sections

The lock has been made and the mirror is open.  All requests of the calls considered here are made under the lock: the
region that the lock protects is the mirror with the network. -/

/-- The lock exists, the mirror is open. -/
structure Ready (k : Nat) (s : HMProc × HNet) : Prop where
  lock : s.1.lock = some k
  opened : s.1.mirror.buf.closed = false

/-- The region is all there is. -/
def hmreg (k : Nat) : Regions (HMProc × HNet) Nat Unit where
  A _ := HMProc × HNet
  G := Unit
  get _ s := s
  set _ a _ := a
  glob _ := ()
  lock _ := k
  inv _ := Ready k
  ginv _ := True
  get_same _ _ _ := rfl
  get_other _ _ _ _ h := absurd rfl h
  glob_set _ _ _ := rfl
  ext _ _ h _ := h ()
  lock_inj _ _ _ := rfl

variable {k : Nat}

theorem I_iff {s : HMProc × HNet} : (hmreg k).I s ↔ Ready k s := ⟨fun h => h.1 (), fun h => ⟨fun _ => h, trivial⟩⟩

theorem own_atom {m : Py (HMProc × HNet) α} {Q : Except Exc α → Prop} (h : ∀ s, Ready k s → Ready k (m s).2 ∧ Q (m s).1) :
    Priv (hmreg k) () (Prog.atom m) Q := by
  intro d com
  rw [Prog.atom_eq]
  refine .inl ⟨⟨fun s hs => (h s (I_iff.1 hs)).1, fun _ _ => rfl, fun _ _ _ h => absurd rfl h, fun s t _ _ e => ?_, fun s t _ _ e => ?_⟩,
    fun s hs => ?_⟩
  · cases (e : s = t); rfl
  · cases (e : s = t); rfl
  · have := (h s (I_iff.1 hs)).2
    dsimp only
    cases hr : (m s).1 with
    | ok a => rw [hr] at this; exact ⟨rfl, rfl, this⟩
    | error e => rw [hr] at this; exact ⟨rfl, rfl, this⟩

theorem own_onBuf {m : Py StringIO α} (h : ∀ b : StringIO, b.closed = false → (m b).2.closed = false) :
    Priv (hmreg k) () (onBuf m) fun _ => True := own_atom fun _ h1 => ⟨⟨h1.lock, h _ h1.opened⟩, trivial⟩

theorem own_gets {f : HMProc × HNet → α} {Q : Except Exc α → Prop} (h : ∀ s, Ready k s → Q (.ok (f s))) :
    Priv (hmreg k) () (gets f) Q := own_atom fun s h1 => ⟨h1, h s h1⟩

/-- The lock is found. -/
theorem own_lazyLock : Priv (hmreg k) () lazyLock fun r => r = .ok k := by
  unfold lazyLock
  refine Priv.bind (Q := fun r => r = .ok (some k)) (own_gets fun s h => congrArg _ h.lock) (fun a ha => ?_) fun e he => nomatch he
  cases ha
  refine Priv.bind (Q := fun r => r = .ok (some k)) (own_gets fun s h => congrArg _ h.lock) (fun a ha => ?_) fun e he => nomatch he
  cases ha
  exact .ret rfl

theorem own_locked {p : HMProg α} {Q : Except Exc α → Prop} (h : Priv (hmreg k) () p Q) : Priv (hmreg k) () (locked p) Q :=
  own_lazyLock.bind (fun _ hl => by cases hl; exact h.withOwn) fun _ he => nomatch he

theorem ref_locked {p : HMProg α} (hp : Priv (hmreg k) () p fun _ => True) : Ref (hmreg k) none (locked p) (blk p) := by
  have e1 : ∀ s : HMProc × HNet, (hmreg k).I s → s.1.lock = some k := fun s hs => (I_iff.1 hs).lock
  refine .still none _ _ ((gets (·.1.lock) >>= fun l => Prog.ret (l.getD 0)) >>= fun l => Prog.withLock l true p) _ (fun s hs => ⟨rfl, ?_⟩)
    (.still none _ _ (Prog.withLock k true p) _ (fun s hs => ⟨rfl, ?_⟩) ?_)
  · dsimp only [Py.gets]
    rw [e1 s hs]
    rfl
  · dsimp only [Py.gets]
    rw [e1 s hs]
    rfl
  · exact Ref.withLock (P := hmreg k) (k := ()) (.last (hp.uses 0))

theorem own_fail (r : Resp) : Priv (hmreg k) () (fail r : HMProg α) fun _ => True := by
  unfold fail
  cases r.body <;> exact .raise trivial

theorem own_request (r : Req) : Priv (hmreg k) () (request env r) fun _ => True :=
  own_atom fun _ h => ⟨⟨h.lock, h.opened⟩, trivial⟩

theorem own_expectOk (r : Req) : Priv (hmreg k) () (expectOk env r) fun _ => True :=
  (own_request env r).bind (fun _ _ => by
    split
    · exact .ret trivial
    · exact own_fail _) fun _ _ => trivial

theorem own_closed : Priv (hmreg k) () closed fun r => r = .ok false := own_locked (own_gets fun _ h => congrArg _ h.opened)

theorem own_sendData (d : PyStr) : Priv (hmreg k) () (sendData env d) fun _ => True :=
  own_closed.bind (fun _ ha => by cases ha; exact own_expectOk env _) fun _ _ => trivial

theorem own_checkStates : Priv (hmreg k) () (checkStates env) fun _ => True :=
  own_closed.bind (fun _ ha => by
    cases ha
    refine (own_request env _).bind (fun r _ => ?_) fun _ _ => trivial
    unfold checkAnswer
    split
    · cases r.body with
      | none => exact .raise trivial
      | some j =>
        dsimp only
        split
        · exact .raise trivial
        · exact .ret trivial
    · exact own_fail _) fun _ _ => trivial

theorem own_writeCore (d : PyStr) (c : Bool) : Priv (hmreg k) () (writeCore env d c) fun _ => True := by
  unfold writeCore
  refine Priv.bind (Q := fun _ => True) ?_ (fun _ _ => ?_) fun _ _ => trivial
  · cases c
    · exact .ret trivial
    · exact own_checkStates env
  refine (own_gets (Q := fun _ => True) fun _ _ => trivial).bind (fun a _ => ?_) fun _ _ => trivial
  extract_lets n
  split
  · exact (own_sendData env d).bind (fun _ _ => .ret trivial) fun _ _ => trivial
  · split
    · exact (own_onBuf (MThr.open_write d)).bind (fun _ _ => (own_onBuf MThr.open_getvalue).bind (fun _ _ => (own_sendData env _).bind
        (fun _ _ => (own_onBuf MThr.open_seek0).bind (fun _ _ => (own_onBuf MThr.open_truncate0).bind (fun _ _ => .ret trivial) fun _ _ => trivial) fun _ _ => trivial) fun _ _ => trivial) fun _ _ => trivial) fun _ _ => trivial
    · split
      · exact own_onBuf (MThr.open_write d)
      · exact .ret trivial

/-- `new_line` without its lock. -/
def newLineCore (c : Bool) : HMProg Unit := do
  let pos ← onBuf StringIO.tell
  if pos > 0 then
    let _ ← writeCore env (lit "\n") c
    return ()
  else return ()

theorem own_newLineCore (c : Bool) : Priv (hmreg k) () (newLineCore env c) fun _ => True :=
  (own_onBuf MThr.open_tell).bind (fun _ _ => by
    split
    · exact (own_writeCore env _ c).bind (fun _ _ => .ret trivial) fun _ _ => trivial
    · exact .ret trivial) fun _ _ => trivial

/-! ## The calls -/

/-- The calls with one moment of effect. -/
def OneMoment : HMCall → Prop
  | .write _ | .newLine _ | .read | .clear | .flush | .closed | .readable | .writable => True
  | _ => False

/-- The calls, every section as one step. -/
def coarse : HMCall → HMProg HMRet
  | .write d => do return HMRet.of .nat (← (do
      if !(← blk (gets fun s => !s.1.mirror.buf.closed)) then .raise .osError else blk (writeCore env d true) : HMProg Nat).outcome)
  | .newLine c => do return HMRet.of (fun _ => .unit) (← (blk (newLineCore env c)).outcome)
  | .read => do return HMRet.of .text (← (do
      if !(← blk (gets fun s => !s.1.mirror.buf.closed)) then .raise .osError else blk (onBuf StringIO.getvalue) : HMProg PyStr).outcome)
  | .clear => do return HMRet.of (fun _ => .unit) (← (blk (do
      onBuf StringIO.seek0
      onBuf StringIO.truncate0)).outcome)
  | .flush => do return HMRet.of (fun _ => .unit) (← (blk (onBuf StringIO.flush)).outcome)
  | .closed => do return HMRet.of .bool (← (blk (gets (·.1.mirror.buf.closed))).outcome)
  | .readable => do return HMRet.of .bool (← (blk (gets fun s => !s.1.mirror.buf.closed)).outcome)
  | .writable => do return HMRet.of .bool (← (blk (gets fun s => !s.1.mirror.buf.closed)).outcome)
  | _ => return .unit

theorem own_clearCore : Priv (hmreg k) () (do
    onBuf StringIO.seek0
    onBuf StringIO.truncate0 : HMProg Unit) fun _ => True :=
  (own_onBuf MThr.open_seek0).bind (fun _ _ => own_onBuf MThr.open_truncate0) fun _ _ => trivial

theorem ref_prog {c : HMCall} (hc : OneMoment c) : Ref (hmreg k) none (prog env c) (coarse env c) := by
  have fin : ∀ {β : Type} {p q : HMProg β} {F : Except Exc β → HMRet}, Ref (hmreg k) none p q →
      Ref (hmreg k) none (p.outcome >>= fun r => (Prog.ret (F r) : HMProg HMRet)) (q.outcome >>= fun r => Prog.ret (F r)) :=
    fun h => h.outcome.bind fun _ => .ret _
  have hg : ∀ {β : Type} (f : HMProc × HNet → β), Ref (hmreg k) none (locked (gets f)) (blk (gets f)) :=
    fun f => ref_locked (own_gets fun _ _ => trivial)
  cases c with
  | write d =>
    refine fin ((hg _).bind fun b => ?_)
    split
    · exact .raise _
    · exact ref_locked (own_writeCore env d true)
  | newLine c => exact fin (ref_locked (own_newLineCore env c))
  | read =>
    refine fin ((hg _).bind fun b => ?_)
    split
    · exact .raise _
    · exact ref_locked (own_onBuf MThr.open_getvalue)
  | clear => exact fin (ref_locked own_clearCore)
  | flush => exact fin (ref_locked (own_onBuf MThr.open_flush))
  | closed => exact fin (hg _)
  | readable => exact fin (hg _)
  | writable => exact fin (hg _)
  | _ => exact hc.elim

theorem shot_coarse {c : HMCall} (hc : OneMoment c) : Shot (hmreg k).I false (coarse env c) fun r _ => ∃ x, r = .ok x := by
  have fin : ∀ {β : Type} {p : HMProg β} {F : Except Exc β → HMRet}, Shot (hmreg k).I false p (fun _ _ => True) →
      Shot (hmreg k).I false (p.outcome >>= fun r => (Prog.ret (F r) : HMProg HMRet)) fun r _ => ∃ x, r = .ok x :=
    fun h => .bind (.outcome (h.mono fun r c _ => ⟨_, rfl⟩))
  have ho : ∀ s : HMProc × HNet, (hmreg k).I s → s.1.mirror.buf.closed = false := fun s hs => (I_iff.1 hs).opened
  have hn : ∀ s : HMProc × HNet, (hmreg k).I s → (!s.1.mirror.buf.closed) = true := fun s hs => by rw [ho s hs]; rfl
  cases c with
  | write d => exact fin (.bind (.const hn (.blk (own_writeCore env d true).uses fun _ => trivial)))
  | newLine c => exact fin (.blk (own_newLineCore env c).uses fun _ => trivial)
  | read => exact fin (.bind (.const hn (.blk (own_onBuf MThr.open_getvalue).uses fun _ => trivial)))
  | clear => exact fin (.blk own_clearCore.uses fun _ => trivial)
  | flush => exact fin (.blk (own_onBuf MThr.open_flush).uses fun _ => trivial)
  | closed => exact fin (.const ho trivial)
  | readable => exact fin (.const hn trivial)
  | writable => exact fin (.const hn trivial)
  | _ => exact hc.elim

end HMThr

/-- In every race of such calls each call takes effect in one moment. -/
theorem hostMirror_linear {env : HEnv} {ok : Nat → HMCall → Prop} (hok : ∀ i c, ok i c → HMThr.OneMoment c) {k : Nat}
    {s : HMProc × HNet} (hI : HMThr.Ready k s) {tr : List (Ev HMCall HMRet)} {κ : Conf (HMProc × HNet) Nat Unit HMCall HMRet}
    (hx : Exec (hostMirrorThreads env ok) (init s fun _ => ()) tr κ) :
    ∃ a, Spec.AExec (fun a i c r a' => (HMThr.hmreg k).I a.1 ∧ seqSpec (hostMirrorThreads env ok) a i c r a')
        ⟨(s, fun _ => ()), fun _ => .idle⟩ tr a ∧ (HMThr.hmreg k).I a.st.1 ∧
      ((∀ i, κ.cur i = none) → a.st.1 = κ.st ∧ ∀ i, a.stat i = .idle) := by
  refine linear_exec (HMThr.hmreg k) (coarse := fun i _ c => do return (← HMThr.coarse env c, ())) (fun _ h => h) ?_ ?_
    (HMThr.I_iff.2 hI) hx
  · exact fun i o c hc => (HMThr.ref_prog env (hok i c hc)).bind fun _ => .ret _
  · refine fun i o c hc => .bind ((HMThr.shot_coarse env (hok i c hc)).mono fun r c h => ?_)
    obtain ⟨x, rfl⟩ := h
    exact ⟨_, rfl⟩

end SyncStream
