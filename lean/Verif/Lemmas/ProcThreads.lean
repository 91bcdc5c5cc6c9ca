import Verif.Model.ProcThreads
import Verif.Lemmas.HostThreads
/-!
# The programs of the process mode: what they do without interruption, and the order of the locks
-/

namespace SyncStream
open Conc

namespace MThr
variable {α β : Type}

/-- The mirror and the shared things, without the lock attribute. -/
def view (s : MProc × Net) : MNet := (s.1.mirror, s.2)

/-- Without interruption `p` does to the mirror and the shared things what `m` does. -/
def Sim (p : MProg α) (m : Py MNet α) : Prop :=
  ∀ s, (p.seq s).1 = (m (view s)).1 ∧ view (p.seq s).2 = (m (view s)).2

/-- Finding the lock changes nothing but the lock attribute. -/
def Finds (lk : MProg MLock) : Prop :=
  ∀ s, (∃ l, (lk.seq s).1 = .ok l) ∧ view (lk.seq s).2 = view s

theorem finds_made : Finds madeLock := fun _ => ⟨⟨_, rfl⟩, rfl⟩

theorem finds_lazy : Finds lazyLock := by
  intro s
  rcases s with ⟨⟨m, l, n⟩, w⟩
  cases l <;> exact ⟨⟨_, rfl⟩, rfl⟩

theorem Sim.pure (a : α) : Sim (pure a) (pure a) := fun _ => ⟨rfl, rfl⟩
theorem Sim.raise (e : Exc) : Sim (Prog.raise e : MProg α) (Py.raise e) := fun _ => ⟨rfl, rfl⟩

theorem Sim.bind {p : MProg α} {m : Py MNet α} {g : α → MProg β} {h : α → Py MNet β} (hp : Sim p m)
    (hg : ∀ a, Sim (g a) (h a)) : Sim (p >>= g) (m >>= h) := by
  intro s
  obtain ⟨h1, h2⟩ := hp s
  rw [Prog.seq_bind]
  rcases hr : p.seq s with ⟨r, s'⟩
  rcases hm : m (view s) with ⟨r', t'⟩
  rw [hr, hm] at h1 h2
  cases h1
  cases h2
  cases r with
  | ok a => rw [Py.bind_ok hr, Py.bind_ok hm]; exact hg a s'
  | error e => rw [Py.bind_error hr, Py.bind_error hm]; exact ⟨rfl, rfl⟩

theorem Sim.atom (m : Py MNet α) : Sim (atom m) m := fun s => by
  unfold MThr.atom
  rw [Prog.seq_atom]
  exact ⟨rfl, rfl⟩

theorem Sim.gets (f : MNet → α) : Sim (gets fun s => f (view s)) (Py.gets f) := fun s => by
  unfold MThr.gets
  rw [Prog.seq_atom]
  exact ⟨rfl, rfl⟩

theorem Sim.locked {lk : MProg MLock} (hl : Finds lk) {p : MProg α} {m : Py MNet α} (hp : Sim p m) :
    Sim (locked lk p) m := by
  intro s
  unfold MThr.locked
  obtain ⟨⟨l, h1⟩, h2⟩ := hl s
  rw [Prog.seq_bind_ok (a := l) (s' := (lk.seq s).2) (Prod.ext h1 rfl), Prog.seq_withLock]
  have := hp (lk.seq s).2
  rwa [h2] at this

theorem Sim.ite {c : Prop} [Decidable c] {p q : MProg α} {m n : Py MNet α} (h1 : Sim p m) (h2 : Sim q n) :
    Sim (if c then p else q) (if c then m else n) := by
  split
  · exact h1
  · exact h2

theorem Sim.onBuf (m : Py StringIO α) : Sim (onBuf m) (Mirror.onBuf m) := Sim.atom _

variable {lk : MProg MLock} (hl : Finds lk)
include hl

theorem sim_closed : Sim (closed lk) Mirror.closed := Sim.locked hl (Sim.gets fun s => s.1.buf.closed)
theorem sim_readable : Sim (readable lk) Mirror.readable := Sim.locked hl (Sim.gets fun s => !s.1.buf.closed)
theorem sim_writable : Sim (writable lk) Mirror.writable := Sim.locked hl (Sim.gets fun s => !s.1.buf.closed)
theorem sim_clear : Sim (clear lk) Mirror.clear := Sim.locked hl (.bind (.onBuf _) fun _ => .onBuf _)
theorem sim_flush : Sim (flush lk) Mirror.flush := Sim.locked hl (.onBuf _)

theorem sim_sendData (d : PyStr) : Sim (sendData lk d) (Mirror.sendData d) :=
  .bind (sim_closed hl) fun x => by
    cases x
    · exact Sim.atom _
    · exact Sim.pure ()

omit hl in
theorem seq_checkState (s : MProc × Net) : checkState.seq s =
    (if s.1.mirror.hasState && s.2.closed.getD false then .error .stopIteration else .ok (), s) := by
  rcases s with ⟨⟨⟨b, a, t, bl, q, hs⟩, l, n⟩, ⟨qs, cl, r, w⟩⟩
  cases hs with
  | false => rfl
  | true =>
    cases cl with
    | none => rfl
    | some c => cases c <;> rfl

theorem sim_writeCore (d : PyStr) : Sim (writeCore lk d) (Mirror.writeCore d) := by
  intro s
  unfold writeCore Mirror.writeCore
  have hc := seq_checkState s
  by_cases h : (s.1.mirror.hasState && s.2.closed.getD false) = true
  · rw [if_pos h] at hc
    rw [Prog.seq_bind_error hc, Py.bind_ok (a := true) (s' := view s) (by exact congrArg (fun x => (Except.ok x, view s)) h)]
    exact ⟨rfl, rfl⟩
  · rw [if_neg h] at hc
    rw [Prog.seq_bind_ok hc, Py.bind_ok (a := false) (s' := view s)
      (by exact congrArg (fun x => (Except.ok x, view s)) (Bool.not_eq_true _ ▸ h))]
    revert s
    intro s _ _
    refine (Sim.bind (.gets fun s => s.1.aggressive) fun x => ?_ : Sim _ _) s
    extract_lets n
    refine .ite (.bind (sim_sendData hl d) fun _ => .pure _) (.ite ?_ (.ite (.onBuf _) (.pure _)))
    exact .bind (.onBuf _) fun _ => .bind (.onBuf _) fun _ => .bind (sim_sendData hl _) fun _ =>
      .bind (.onBuf _) fun _ => .bind (.onBuf _) fun _ => .pure _

theorem sim_write (d : PyStr) : Sim (write lk d) (Mirror.write d) :=
  .bind (sim_writable hl) fun _ => .ite (.raise _) (.locked hl (sim_writeCore hl d))

theorem sim_newLine : Sim (newLine lk) Mirror.newLine :=
  .locked hl (.bind (.onBuf _) fun _ => .ite (.bind (sim_writeCore hl _) fun _ => .pure _) (.pure _))

theorem sim_sendEof : Sim (sendEof lk) Mirror.sendEof :=
  .bind (sim_closed hl) fun x => by
    cases x
    · exact .bind (sim_newLine hl) fun _ => Sim.atom _
    · exact Sim.pure ()

theorem sim_sendError (e : ExcObj) : Sim (sendError lk e) (Mirror.sendError e) :=
  .bind (sim_closed hl) fun x => by
    cases x
    · exact .bind (sim_newLine hl) fun _ => Sim.atom _
    · exact Sim.pure ()

theorem sim_sendWarning (e : ExcObj) : Sim (sendWarning lk e) (Mirror.sendWarning e) :=
  .bind (sim_closed hl) fun x => by
    cases x
    · exact .bind (sim_newLine hl) fun _ => Sim.atom _
    · exact Sim.pure ()

theorem sim_close (e : Option ExcObj) : Sim (close lk e) (Mirror.close e) :=
  .bind (sim_closed hl) fun x => by
    cases x
    · cases e with
      | none => exact .bind (sim_sendEof hl) fun _ => .bind (sim_clear hl) fun _ => .locked hl (.onBuf _)
      | some e => exact .bind (sim_sendError hl e) fun _ => .bind (sim_clear hl) fun _ => .locked hl (.onBuf _)
    · exact Sim.pure ()

theorem sim_read (n : Option Int) : Sim (MThr.read lk n) (Mirror.read n) :=
  .bind (sim_readable hl) fun _ => .ite (.raise _) (by
    cases n with
    | none => exact .locked hl (.onBuf _)
    | some n => exact .locked hl (.onBuf _))

/-- Without interruption the program of a call does what `Mirror.exec` says. -/
theorem seq_prog (c : MCall) (s : MProc × Net) :
    ((prog lk c).seq s).1 = .ok (Mirror.exec c (view s)).1 ∧
      view ((prog lk c).seq s).2 = (Mirror.exec c (view s)).2 := by
  have fin : ∀ {α : Type} {p : MProg α} {m : Py MNet α} (F : Except Exc α → MRet), Sim p m →
      ((do return F (← p.outcome) : MProg MRet).seq s).1 = .ok (F (m (view s)).1) ∧
      view ((do return F (← p.outcome) : MProg MRet).seq s).2 = (m (view s)).2 := by
    intro α p m F h
    rw [Prog.seq_bind_ok (a := (p.seq s).1) (s' := (p.seq s).2) (Prog.seq_outcome p s)]
    exact ⟨congrArg (fun x => Except.ok (F x)) (h s).1, (h s).2⟩
  cases c with
  | write d => exact fin (m := Mirror.write d) _ (sim_write hl d)
  | newLine => exact fin (m := Mirror.newLine) _ (sim_newLine hl)
  | read n => exact fin (m := Mirror.read n) _ (sim_read hl n)
  | clear => exact fin (m := Mirror.clear) _ (sim_clear hl)
  | flush => exact fin (m := Mirror.flush) _ (sim_flush hl)
  | sendData d => exact fin (m := Mirror.sendData d) _ (sim_sendData hl d)
  | sendEof => exact fin (m := Mirror.sendEof) _ (sim_sendEof hl)
  | sendError e => exact fin (m := Mirror.sendError e) _ (sim_sendError hl e)
  | sendWarning e => exact fin (m := Mirror.sendWarning e) _ (sim_sendWarning hl e)
  | close e => exact fin (m := Mirror.close e) _ (sim_close hl e)
  | closed => exact fin (m := Mirror.closed) _ (sim_closed hl)
  | readable => exact fin (m := Mirror.readable) _ (sim_readable hl)
  | writable => exact fin (m := Mirror.writable) _ (sim_writable hl)
  | setTimeout t => exact ⟨rfl, rfl⟩
  | setAggressive a => exact fin (m := Mirror.setAggressive a) _ (Sim.atom _)

end MThr

namespace PThr
variable {α β : Type}

/-- A method of the main buffer in the whole. -/
def onMain (m : Py PNet α) : Py PWorld α :=
  Py.onPart (fun w => (w.main, w.net)) (fun t w => { w with main := t.1, net := t.2 }) m

theorem seq_bind' (p : PProg α) (g : α → PProg β) :
    (p >>= g).seq = (p.seq >>= fun a => (g a).seq : Py PWorld β) := by
  funext s; exact Prog.seq_bind p g s

theorem seq_atom (m : Py PNet α) : (atom m).seq = onMain m := by
  funext s; exact Prog.seq_atom _ s

theorem seq_pure' (a : α) : (pure a : PProg α).seq = onMain (pure a) := rfl

theorem seq_raise' (e : Exc) : (Prog.raise e : PProg α).seq = onMain (Py.raise e) := rfl

theorem onMain_bind (m : Py PNet α) (g : α → Py PNet β) :
    (onMain m >>= fun a => onMain (g a) : Py PWorld β) = onMain (m >>= g) := by
  funext w
  rcases h : m (w.main, w.net) with ⟨r, t⟩
  have h0 : onMain m w = (r, { w with main := t.1, net := t.2 }) := by
    show ((m (w.main, w.net)).1, _) = _
    rw [h]
  have h1 : ∀ x : Except Exc β × PNet, (m >>= g) (w.main, w.net) = x →
      onMain (m >>= g) w = (x.1, { w with main := x.2.1, net := x.2.2 }) := by
    rintro x rfl; rfl
  cases r with
  | ok a => rw [Py.bind_ok h0, h1 _ (Py.bind_ok h)]; rfl
  | error e => rw [Py.bind_error h0, h1 _ (Py.bind_error h)]

theorem seq_withLock (l : PLock) (p : PProg α) : (Prog.withLock l true p).seq = p.seq := by
  funext s; exact Prog.seq_withLock _ _ p s

theorem seq_line (p : TProg α) : (line p).seq = onMain (ProcBuf.onBase p.seq) := by
  funext w
  exact Prog.seq_onPart (get := fun w : PWorld => w.main.base)
    (set := fun t w => { w with main := { w.main with base := t } })
    (fun _ _ => rfl) (fun _ _ _ => rfl) (fun _ => rfl) p w

theorem seq_mirror (p : Nat) (q : MProg α) (w : PWorld) :
    (mirror p q).seq w = ((q.seq (w.procs p, w.net)).1,
      { w with procs := upd w.procs p (q.seq (w.procs p, w.net)).2.1, net := (q.seq (w.procs p, w.net)).2.2 }) := by
  refine Prog.seq_onPart (get := fun w : PWorld => (w.procs p, w.net))
    (set := fun t w => { w with procs := upd w.procs p t.1, net := t.2 }) ?_ ?_ ?_ q w
  · intro x t; simp
  · intro x y t
    have : upd (upd t.procs p y.1) p x.1 = upd t.procs p x.1 := by
      funext j; by_cases h : j = p <;> simp [upd, h]
    simp [this]
  · intro t
    have : upd t.procs p (t.procs p) = t.procs := by
      funext j; by_cases h : j = p <;> simp [upd, h]
    simp [this]

/-- Without interruption the programs of the main buffer do what `Model/Proc.lean` says. -/
theorem seq_stopAll : stopAll.seq = onMain ProcBuf.stopAll := by
  unfold stopAll
  rw [seq_withLock, seq_atom]
  rfl

theorem seq_checkClose : checkClose.seq = onMain ProcBuf.checkClose := by
  funext w
  simp only [checkClose, seq_bind', seq_atom]
  rfl

theorem seq_forceStop : forceStop.seq = onMain ProcBuf.forceStop := by
  funext w
  unfold forceStop
  rw [seq_bind', seq_atom]
  exact congrFun (seq_atom (fun s : PNet =>
    let (r, n) := Net.put w.main.mirror.queue .stop true none s.2; (r, (s.1, n)))) w

theorem seq_resetStates : resetStates.seq = onMain ProcBuf.resetStates := by
  unfold resetStates ProcBuf.resetStates
  rw [seq_bind', seq_atom, ← onMain_bind]
  refine congrArg _ (funext fun n => ?_)
  split
  · rfl
  · simp only [seq_bind', seq_atom, seq_withLock, ← onMain_bind]
    funext w
    rfl

theorem seq_process (d : QMsg) (w : PWorld) : (process d).seq w = onMain (match d with
    | .str d => do
      let _ ← ProcBuf.onBase (LineBuf.write d)
      return true
    | .error m => do
      ProcBuf.store (.msg m)
      ProcBuf.checkClose
    | .warning m => do
      ProcBuf.store (.msg m)
      return true
    | .close => ProcBuf.checkClose
    | .stop => do
      Py.modify fun s => ({ s.1 with nMirrors := 0 }, s.2)
      return false
    | .other => return false : Py PNet Bool) w := by
  have hs : ∀ i, (Thr.deliver i).seq = LineBuf.onStorage (Py.modify (Deque.append i)) :=
    fun i => Thr.seq_onStorage _
  cases d with
  | str d => simp only [process, seq_bind', seq_line, Thr.seq_write, seq_pure', onMain_bind]
  | error m => simp only [process, seq_bind', seq_line, hs, seq_checkClose, onMain_bind]; rfl
  | warning m => simp only [process, seq_bind', seq_line, hs, seq_pure', onMain_bind]; rfl
  | close => simp only [process, seq_checkClose]
  | stop => simp only [process, seq_bind', seq_atom, seq_pure', onMain_bind]
  | other => rfl

theorem seq_receive : receive.seq = onMain ProcBuf.receive := by
  unfold receive ProcBuf.receive
  rw [seq_withLock, seq_bind', seq_atom]
  funext w
  show ((get w.main.mirror.queue >>= process).seq) w = _
  rw [seq_bind', ← onMain_bind]
  have : (get w.main.mirror.queue).seq w = onMain ProcBuf.get w := congrFun (seq_atom _) w
  rcases h : onMain ProcBuf.get w with ⟨r, w'⟩
  rw [h] at this
  cases r with
  | ok d => rw [Py.bind_ok this, Py.bind_ok h, seq_process]; rfl
  | error e => rw [Py.bind_error this, Py.bind_error h]

theorem seq_take (p : Nat) (w : PWorld) : (take p).seq w =
    (.ok (), { w with main := (ProcBuf.takeMirror (w.main, w.net)).2.1,
                      procs := upd w.procs p { mirror := w.main.mirror } }) := by
  simp only [take, seq_bind', seq_atom]
  rfl

end PThr

/-! ## The order of the locks -/

namespace MThr
open Prog
variable {α : Type}

/-- `__buffer_lock` before `__state_lock`. -/
def rank : MLock → Nat
  | .buf _ => 1
  | .state => 0

/-- `__buffer_lock` is reentrant. -/
def re (l : MLock) : Prop := ∃ k, l = .buf k

/-- Only the lock of the mirror is held, if any. -/
def Own (H : List (MLock × Bool)) : Prop := ∀ x ∈ H, x = (.buf 0, true)

variable {H : List (MLock × Bool)}

theorem own_nil : Own [] := fun _ h => nomatch h

theorem tidy_locked {p : MProg α} (hH : Own H) (hp : Tidy re rank ((.buf 0, true) :: H) p) :
    Tidy re rank H (locked madeLock p) := by
  show Tidy re rank H (Prog.withLock (.buf 0) true p)
  cases H with
  | nil => exact Tidy.withLock (.inl fun _ h => nomatch h) hp
  | cons x H =>
    refine Tidy.withLock (.inr ⟨⟨0, rfl⟩, ?_⟩) hp
    rw [hH x (List.mem_cons_self ..)]
    exact List.mem_cons_self ..

theorem Own.cons (hH : Own H) : Own ((.buf 0, true) :: H) := fun x h => by
  rcases List.mem_cons.mp h with h | h
  · exact h
  · exact hH x h

theorem tidy_gets (f : MProc × Net → α) : Tidy re rank H (gets f) := Tidy.atom _
theorem tidy_atom (m : Py MNet α) : Tidy re rank H (atom m) := Tidy.atom _
theorem tidy_onBuf (m : Py StringIO α) : Tidy re rank H (onBuf m) := Tidy.atom _

theorem tidy_closed (hH : Own H) : Tidy re rank H (closed madeLock) := tidy_locked hH (tidy_gets _)

theorem tidy_sendData (d : PyStr) (hH : Own H) : Tidy re rank H (sendData madeLock d) :=
  .bind (tidy_closed hH) fun x => by
    cases x
    · exact tidy_atom _
    · exact Tidy.ret _

theorem tidy_checkState (hH : Own H) : Tidy re rank H checkState :=
  .bind (tidy_gets _) fun x => by
    cases x
    · exact Tidy.ret _
    · refine Tidy.withLock (.inl fun x hx => ?_) (.bind (tidy_gets _) fun x => ?_)
      · rw [hH x hx]; decide
      · cases x
        · exact Tidy.ret _
        · exact Tidy.raise _

theorem tidy_writeCore (d : PyStr) (hH : Own H) : Tidy re rank H (writeCore madeLock d) := by
  unfold writeCore
  refine .bind (tidy_checkState hH) fun _ => ?_
  extract_lets
  refine .bind (tidy_gets _) fun x => ?_
  extract_lets
  split
  · exact .bind (tidy_sendData d hH) fun _ => Tidy.ret _
  · split
    · exact .bind (tidy_onBuf _) fun _ => .bind (tidy_onBuf _) fun _ => .bind (tidy_sendData _ hH) fun _ =>
        .bind (tidy_onBuf _) fun _ => .bind (tidy_onBuf _) fun _ => Tidy.ret _
    · split
      · exact tidy_onBuf _
      · exact Tidy.ret _

theorem tidy_newLine : Tidy re rank [] (newLine madeLock) := by
  refine tidy_locked own_nil (.bind (tidy_onBuf _) fun x => ?_)
  split
  · exact .bind (tidy_writeCore _ own_nil.cons) fun _ => Tidy.ret _
  · exact Tidy.ret _

theorem tidy_sendEnd (m : QMsg) : Tidy re rank [] (sendEnd madeLock m) :=
  .bind (tidy_closed own_nil) fun x => by
    cases x
    · exact .bind tidy_newLine fun _ => tidy_atom _
    · exact Tidy.ret _

theorem tidy_clear : Tidy re rank [] (clear madeLock) :=
  tidy_locked own_nil (.bind (tidy_onBuf _) fun _ => tidy_onBuf _)

theorem tidy_prog (c : MCall) : Tidy re rank [] (prog madeLock c) := by
  have fin : ∀ {α : Type} {p : MProg α} (F : Except Exc α → MRet), Tidy re rank [] p →
      Tidy re rank [] (do return F (← p.outcome) : MProg MRet) := fun F hp => .bind hp.outcome fun _ => Tidy.ret _
  cases c with
  | write d =>
    refine fin _ (.bind (tidy_locked own_nil (tidy_gets _)) fun x => ?_)
    split
    · exact Tidy.raise _
    · exact tidy_locked own_nil (tidy_writeCore d own_nil.cons)
  | newLine => exact fin _ tidy_newLine
  | read n =>
    refine fin _ (.bind (tidy_locked own_nil (tidy_gets _)) fun x => ?_)
    split
    · exact Tidy.raise _
    · refine tidy_locked own_nil ?_
      cases n <;> exact tidy_onBuf _
  | clear => exact fin _ tidy_clear
  | flush => exact fin _ (tidy_locked own_nil (tidy_onBuf _))
  | sendData d => exact fin _ (tidy_sendData d own_nil)
  | sendEof => exact fin _ (tidy_sendEnd _)
  | sendError e => exact fin _ (tidy_sendEnd _)
  | sendWarning e => exact fin _ (tidy_sendEnd _)
  | close e =>
    refine fin _ (.bind (tidy_closed own_nil) fun x => ?_)
    cases x
    · cases e <;>
      exact .bind (tidy_sendEnd _) fun _ => .bind tidy_clear fun _ => tidy_locked own_nil (tidy_onBuf _)
    · exact Tidy.ret _
  | closed => exact fin _ (tidy_closed own_nil)
  | readable => exact fin _ (tidy_locked own_nil (tidy_gets _))
  | writable => exact fin _ (tidy_locked own_nil (tidy_gets _))
  | setTimeout t => exact fin _ (.bind (tidy_atom _) fun _ => tidy_atom _)
  | setAggressive a => exact fin _ (tidy_atom _)

theorem noRaise_prog (lk : MProg MLock) (c : MCall) : NoRaise (prog lk c) := by
  have fin : ∀ {α : Type} (p : MProg α) (F : Except Exc α → MRet),
      NoRaise (do return F (← p.outcome) : MProg MRet) := fun p F => (noRaise_outcome p).bind fun _ => trivial
  cases c <;> exact fin _ _

end MThr

namespace PThr
open Prog
variable {α : Type}

/-- `__config_lock` and the locks of the mirrors first. -/
def rank : PLock → Nat
  | .config => 1
  | .line => 0
  | .state => 0
  | .buf _ _ => 1

/-- The locks of the mirrors are reentrant. -/
def re (l : PLock) : Prop := ∃ p k, l = .buf p k

variable {H : List (PLock × Bool)}

/-- Only `__config_lock` is held, if any. -/
def Conf (H : List (PLock × Bool)) : Prop := ∀ x ∈ H, x = (.config, true)

theorem conf_nil : Conf [] := fun _ h => nomatch h
theorem conf_one : Conf [(.config, true)] := fun _ h => List.mem_singleton.mp h

theorem tidy_mirror (p : Nat) {q : MProg α} (hq : Tidy MThr.re MThr.rank [] q) :
    Tidy re rank [] (mirror p q) :=
  Orderly.onPart (H' := []) hq
    (fun a b h => by cases a <;> cases b <;> first | exact h | exact absurd h (by decide))
    (fun l h => by obtain ⟨k, rfl⟩ := h; exact ⟨p, k, rfl⟩) fun _ _ h => nomatch h

theorem tidy_line {q : TProg α} (hq : Tidy (fun _ => False) (fun _ => 0) [] q) (hH : Conf H) :
    Tidy re rank H (line q) :=
  Orderly.onPart (H' := H) hq (fun _ _ h => absurd h (by simp)) (fun _ h => h.elim) fun _ x hx => by
    rw [hH x hx]; show (0 : Nat) < 1; decide

theorem tidy_atom (m : Py PNet α) : Tidy re rank H (atom m) := Tidy.atom _

theorem tidy_checkClose : Tidy re rank H checkClose :=
  .bind (tidy_atom _) fun _ => .bind (tidy_atom _) fun _ => .bind (tidy_atom _) fun _ => Tidy.ret _

theorem tidy_process (d : QMsg) (hH : Conf H) : Tidy re rank H (process d) := by
  cases d with
  | str d => exact .bind (tidy_line (HThr.tidy_write d) hH) fun _ => Tidy.ret _
  | error m => exact .bind (tidy_line (Thr.tidy_onStorage _) hH) fun _ => tidy_checkClose
  | warning m => exact .bind (tidy_line (Thr.tidy_onStorage _) hH) fun _ => Tidy.ret _
  | close => exact tidy_checkClose
  | stop => exact .bind (tidy_atom _) fun _ => Tidy.ret _
  | other => exact Tidy.ret _

theorem tidy_receive : Tidy re rank [] receive :=
  Tidy.withLock (.inl fun _ h => nomatch h)
    (.bind (tidy_atom _) fun _ => .bind (tidy_atom _) fun d => tidy_process d conf_one)

theorem tidy_resetStates : Tidy re rank [] resetStates :=
  .bind (tidy_atom _) fun x => by
    split
    · exact Tidy.raise _
    · exact .bind (Tidy.withLock (.inl fun _ h => nomatch h) (.bind (tidy_atom _) fun _ => tidy_atom _))
        fun _ => tidy_atom _

theorem orderly (proc : Nat → Nat) (ok : Nat → PCall → Prop) :
    OrderlySys (procThreads MThr.madeLock proc ok) rank := by
  intro i o c _
  have fin : ∀ {α : Type} {p : PProg α} (F : Except Exc α → PRet), Tidy re rank [] p →
      Tidy re rank [] (do return F (← p.outcome) : PProg PRet) ∧
      NoRaise (do return F (← p.outcome) : PProg PRet) :=
    fun F hp => ⟨.bind hp.outcome fun _ => Tidy.ret _, (noRaise_outcome _).bind fun _ => trivial⟩
  have buf : ∀ c, Tidy re rank [] (do return .main (← line (Thr.prog (.call c))) : PProg PRet) ∧
      NoRaise (do return .main (← line (Thr.prog (.call c))) : PProg PRet) := fun c =>
    ⟨.bind (tidy_line (Thr.tidy_prog _) conf_nil) fun _ => Tidy.ret _,
      (HThr.noRaise_onPart (Thr.noRaise_prog _)).bind fun _ => trivial⟩
  have key : Tidy re rank [] (prog MThr.madeLock (proc i) c) ∧ NoRaise (prog MThr.madeLock (proc i) c) := by
    cases c with
    | mirror c =>
      exact ⟨.bind (tidy_mirror _ (MThr.tidy_prog c)) fun _ => Tidy.ret _,
        (HThr.noRaise_onPart (MThr.noRaise_prog _ c)).bind fun _ => trivial⟩
    | take p => exact fin _ (.bind (tidy_atom _) fun _ => .bind (tidy_atom _) fun _ => Tidy.atom _)
    | receive => exact fin _ tidy_receive
    | stopAll => exact fin _ (Tidy.withLock (.inl fun _ h => nomatch h) (tidy_atom _))
    | forceStop => exact fin _ (.bind (tidy_atom _) fun _ => tidy_atom _)
    | reset => exact fin _ tidy_resetStates
    | buffer c =>
      cases c with
      | write d => exact fin _ (tidy_atom _)
      | _ => exact buf _
  exact ⟨.bind key.1 fun _ => Tidy.ret _, key.2.bind fun _ => trivial⟩

end PThr
end SyncStream
