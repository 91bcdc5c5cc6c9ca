import Verif.Lemmas.Observe
import Verif.Lemmas.ProcThreads
import Verif.Props.ProcSys
import Verif.Spec.ProcSteps
/-!
# Processes at work step by step, while the main process receives

Every process has one thread.  A step of a process changes its own mirror and adds messages to the queue, and what it
does does not depend on the others.  So what remains of a call, run alone on the messages the process itself has sent,
leads to the end of the call in the sequential model, whatever the others do.
-/

namespace SyncStream
open Spec Conc

namespace MThr
variable {α β : Type}

/-- The messages of mirrors. -/
def Plain (m : QMsg) : Prop := IsBody m ∨ IsEnd m

/-- With room in the queue a step sends some messages, and the rest does not depend on the queue. -/
def LocStep (f : MProc × Net → MProc × Net) (k : MProc × Net → β) : Prop :=
  ∀ (m : MProc) (cl : Option Bool), ∃ m' sent r, m'.mirror.queue = m.mirror.queue ∧ (∀ x ∈ sent, Plain x) ∧
    ∀ n : Net, n.closed = cl → n.room = [] → f (m, n) = (m', n.sendAll m.mirror.queue sent) ∧ k (m, n) = r

/-- A program of such steps. -/
def LocP : MProg α → Prop
  | .ret _ => True
  | .raise _ => True
  | .act f k => LocStep f k ∧ ∀ s, LocP (k s)
  | .acq _ _ k => LocP k
  | .rel _ _ k => LocP k

theorem LocP.bind {p : MProg α} {g : α → MProg β} (hp : LocP p) (hg : ∀ a, LocP (g a)) : LocP (p >>= g) := by
  show LocP (p.bind g)
  induction p with
  | ret a => exact hg a
  | raise e => exact trivial
  | act f k ih =>
    refine ⟨fun m cl => ?_, fun s => ih s (hp.2 s)⟩
    obtain ⟨m', sent, r, h1, h2, h3⟩ := hp.1 m cl
    exact ⟨m', sent, r.bind g, h1, h2, fun n hn hr => ⟨(h3 n hn hr).1, by dsimp only; rw [(h3 n hn hr).2]⟩⟩
  | acq l w k ih => exact ih hp
  | rel l w k ih => exact ih hp

theorem LocP.andRelease {p : MProg α} (hp : LocP p) (l : MLock) (w : Bool) : LocP (p.andRelease l w) := by
  induction p with
  | ret a => exact trivial
  | raise e => exact trivial
  | act f k ih =>
    refine ⟨fun m cl => ?_, fun s => ih s (hp.2 s)⟩
    obtain ⟨m', sent, r, h1, h2, h3⟩ := hp.1 m cl
    exact ⟨m', sent, r.andRelease l w, h1, h2, fun n hn hr => ⟨(h3 n hn hr).1, by dsimp only; rw [(h3 n hn hr).2]⟩⟩
  | acq l w k ih => exact ih hp
  | rel l w k ih => exact ih hp

theorem LocP.withLock {p : MProg α} (hp : LocP p) (l : MLock) (w : Bool) : LocP (Prog.withLock l w p) := hp.andRelease l w

theorem LocP.outcome {p : MProg α} (hp : LocP p) : LocP p.outcome := by
  induction p with
  | ret a => exact trivial
  | raise e => exact trivial
  | act f k ih =>
    refine ⟨fun m cl => ?_, fun s => ih s (hp.2 s)⟩
    obtain ⟨m', sent, r, h1, h2, h3⟩ := hp.1 m cl
    exact ⟨m', sent, r.outcome, h1, h2, fun n hn hr => ⟨(h3 n hn hr).1, by dsimp only; rw [(h3 n hn hr).2]⟩⟩
  | acq l w k ih => exact ih hp
  | rel l w k ih => exact ih hp

theorem LocP.atomic {x : Py (MProc × Net) α}
    (h : ∀ (m : MProc) (cl : Option Bool), ∃ r m' sent, m'.mirror.queue = m.mirror.queue ∧ (∀ y ∈ sent, Plain y) ∧
      ∀ n : Net, n.closed = cl → n.room = [] → x (m, n) = (r, (m', n.sendAll m.mirror.queue sent))) :
    LocP (Prog.atom x : MProg α) := by
  unfold Prog.atom
  refine ⟨fun m cl => ?_, fun s => ?_⟩
  · obtain ⟨r, m', sent, h1, h2, h3⟩ := h m cl
    cases r with
    | ok a => exact ⟨m', sent, .ret a, h1, h2, fun n hn hr => ⟨by dsimp only; rw [h3 n hn hr], by dsimp only; rw [h3 n hn hr]⟩⟩
    | error e => exact ⟨m', sent, .raise e, h1, h2, fun n hn hr => ⟨by dsimp only; rw [h3 n hn hr], by dsimp only; rw [h3 n hn hr]⟩⟩
  · dsimp only
    split <;> exact trivial

theorem LocP.ofLoc {x : Py MNet α} (h : Mirror.Loc Plain x) : LocP (atom x) := by
  refine .atomic fun m cl => ?_
  obtain ⟨r, m', sent, h1, h2, h3⟩ := h m.mirror cl
  refine ⟨r, { m with mirror := m' }, sent, h1, h2, fun n hn hr => ?_⟩
  show ((x (m.mirror, n)).1, _) = _
  rw [h3 n hn hr]

theorem LocP.gets {f : MProc × Net → α} (h : ∀ m n n', n.closed = n'.closed → f (m, n) = f (m, n')) : LocP (gets f) := by
  refine .atomic fun m cl => ⟨.ok (f (m, { closed := cl })), m, [], rfl, nofun, fun n hn hr => ?_⟩
  rw [Net.sendAll_nil]
  show (Except.ok (f (m, n)), _) = _
  rw [h m n { closed := cl } hn]

theorem LocP.ite {c : Prop} [Decidable c] {p q : MProg α} (hp : LocP p) (hq : LocP q) : LocP (if c then p else q) := by
  split
  · exact hp
  · exact hq

theorem LocP.onBuf (x : Py StringIO α) : LocP (onBuf x) := .ofLoc (.onBuf x)
theorem LocP.put {m : QMsg} (h : Plain m) : LocP (put m) := .ofLoc (.put m h)

theorem LocP.ret (a : α) : LocP (pure a : MProg α) := trivial

theorem locP_lazyLock : LocP lazyLock := by
  unfold lazyLock
  have h : LocP (do return .buf ((← MThr.gets (·.1.lock)).getD 0) : MProg MLock) := .bind (.gets fun _ _ _ _ => rfl) fun _ => .ret _
  refine .bind (.gets fun _ _ _ _ => rfl) fun b => .ite (.bind ?_ fun _ => h) h
  refine .atomic fun m cl => ⟨.ok (), { m with lock := some m.made, made := m.made + 1 }, [], rfl, nofun, fun n _ _ => ?_⟩
  rw [Net.sendAll_nil]
  rfl

variable {lk : MProg MLock} (hl : LocP lk)
include hl

theorem LocP.locked {p : MProg α} (hp : LocP p) : LocP (locked lk p) := .bind hl fun l => hp.withLock l true

theorem locP_closed : LocP (closed lk) := .locked hl (.gets fun _ _ _ _ => rfl)
theorem locP_clear : LocP (clear lk) := .locked hl (.bind (.onBuf _) fun _ => .onBuf _)

theorem locP_sendData (d : PyStr) : LocP (sendData lk d) := by
  unfold sendData
  exact .bind (locP_closed hl) fun _ => .ite (.ret _) (.put (.inl trivial))

omit hl in
theorem locP_checkState : LocP checkState :=
  .bind (.gets fun _ _ _ _ => rfl) fun _ => .ite
    (.withLock (.bind (.gets fun _ _ _ h => by dsimp only; rw [h]) fun _ => .ite (show LocP (Prog.raise _) from trivial) (.ret _)) _ _) (.ret _)

theorem locP_writeCore (d : PyStr) : LocP (writeCore lk d) := by
  refine .bind locP_checkState fun _ => .bind (.gets fun _ _ _ _ => rfl) fun _ => .ite ?_ (.ite ?_ (.ite (.onBuf _) trivial))
  · exact .bind (locP_sendData hl _) fun _ => trivial
  · exact .bind (.onBuf _) fun _ => .bind (.onBuf _) fun _ => .bind (locP_sendData hl _) fun _ =>
      .bind (.onBuf _) fun _ => .bind (.onBuf _) fun _ => trivial

theorem locP_write (d : PyStr) : LocP (write lk d) :=
  .bind (.locked hl (.gets fun _ _ _ _ => rfl)) fun _ => .ite trivial (.locked hl (locP_writeCore hl d))

theorem locP_newLine : LocP (newLine lk) :=
  .locked hl (.bind (.onBuf _) fun _ => .ite (.bind (locP_writeCore hl _) fun _ => trivial) trivial)

theorem locP_sendEnd {m : QMsg} (h : Plain m) : LocP (sendEnd lk m) :=
  .bind (locP_closed hl) fun _ => .ite trivial (.bind (locP_newLine hl) fun _ => .put h)

theorem locP_close (e : Option ExcObj) : LocP (close lk e) := by
  have h : LocP (do clear lk; locked lk (MThr.onBuf StringIO.close) : MProg Unit) :=
    .bind (locP_clear hl) fun _ => .locked hl (.onBuf _)
  refine .bind (locP_closed hl) fun _ => .ite trivial ?_
  cases e with
  | none => exact .bind (locP_sendEnd hl (.inr trivial)) fun _ => h
  | some e => exact .bind (locP_sendEnd hl (.inr trivial)) fun _ => h

theorem locP_read (size : Option Int) : LocP (MThr.read lk size) := by
  refine .bind (.locked hl (.gets fun _ _ _ _ => rfl)) fun _ => .ite trivial (.locked hl ?_)
  cases size <;> exact .onBuf _

theorem locP_prog (c : MCall) : LocP (prog lk c) := by
  have fin : ∀ {α : Type} {p : MProg α} (F : Except Exc α → MRet), LocP p → LocP (do return F (← p.outcome) : MProg MRet) :=
    fun F h => .bind h.outcome fun _ => trivial
  cases c with
  | write d => exact fin _ (locP_write hl d)
  | newLine => exact fin _ (locP_newLine hl)
  | read n => exact fin _ (locP_read hl n)
  | clear => exact fin _ (locP_clear hl)
  | flush => exact fin _ (.locked hl (.onBuf _))
  | sendData d => exact fin _ (locP_sendData hl d)
  | sendEof => exact fin _ (locP_sendEnd hl (.inr trivial))
  | sendError e => exact fin _ (locP_sendEnd hl (.inr trivial))
  | sendWarning e => exact fin _ (locP_sendEnd hl (.inl trivial))
  | close e => exact fin _ (locP_close hl e)
  | closed => exact fin _ (locP_closed hl)
  | readable => exact fin _ (.locked hl (.gets fun _ _ _ _ => rfl))
  | writable => exact fin _ (.locked hl (.gets fun _ _ _ _ => rfl))
  | setTimeout t =>
    refine fin _ (.bind (.ofLoc fun m cl => ?_) fun _ => .ofLoc fun m cl => ?_)
    · exact ⟨.ok (), { m with timeout := t }, [], rfl, nofun, fun n _ _ => by rw [Net.sendAll_nil]; rfl⟩
    · exact ⟨.ok (), { m with block := t.isNone }, [], rfl, nofun, fun n _ _ => by rw [Net.sendAll_nil]; rfl⟩
  | setAggressive a =>
    refine fin _ (.ofLoc fun m cl => ?_)
    exact ⟨.ok (), { m with aggressive := a }, [], rfl, nofun, fun n _ _ => by rw [Net.sendAll_nil]; rfl⟩

omit hl in
/-- Such a program only adds messages. -/
theorem LocP.prefix {p : MProg α} (hp : LocP p) (m : MProc) (n : Net) (hr : n.room = []) :
    ∃ sent, (∀ x ∈ sent, Plain x) ∧ (p.seq (m, n)).2.2 = n.sendAll m.mirror.queue sent := by
  induction p generalizing m n with
  | ret a => exact ⟨[], nofun, (Net.sendAll_nil _ _).symm⟩
  | raise e => exact ⟨[], nofun, (Net.sendAll_nil _ _).symm⟩
  | act f k ih =>
    obtain ⟨m', sent, r, h1, h2, h3⟩ := hp.1 m n.closed
    obtain ⟨h4, h5⟩ := h3 n rfl hr
    obtain ⟨s2, h6, h7⟩ := ih (m, n) (hp.2 _) m' (n.sendAll m.mirror.queue sent) hr
    refine ⟨sent ++ s2, fun x hx => (List.mem_append.1 hx).elim (h2 x) (h6 x), ?_⟩
    show ((k (m, n)).seq (f (m, n))).2.2 = _
    rw [h4, h7, h1, Net.sendAll_sendAll]
  | acq l w k ih => exact ih hp m n hr
  | rel l w k ih => exact ih hp m n hr

end MThr

namespace PThr
variable {α β : Type}

/-! ## A process -/

/-- What remains of a call by a thread of process `i`. -/
def wrap (i : Nat) (q : MProg MRet) : PProg (PRet × Unit) := (mirror i q).bind fun r => .ret (.mirror r, ())

theorem call_mirror (lk : MProg MLock) (i : Nat) (c : MCall) (ok : Nat → PCall → Prop) :
    (procThreads lk id ok).call i () (.mirror c) = wrap i (MThr.prog lk c) := by
  show ((mirror i (MThr.prog lk c)).bind fun r => Prog.ret (PRet.mirror r)).bind (fun x => Prog.ret (x, ())) = _
  unfold wrap
  generalize mirror i (MThr.prog lk c) = p
  induction p with
  | ret a => rfl
  | raise e => rfl
  | act f k ih => exact congrArg (Prog.act f) (funext fun s => ih s)
  | acq l w k ih => exact congrArg (Prog.acq l w) ih
  | rel l w k ih => exact congrArg (Prog.rel l w) ih

/-- Where the thread of process `i` is: its finished calls are those of the sequential model, and what remains of the current one,
run on what the process itself has sent, leads to the end of the call in the sequential model. -/
def ProcAt (N i : Nat) (cur : Option (PCall × PProg (PRet × Unit))) (m : MProc) (sent : List QMsg) (calls : List PCall)
    (rets : List PRet) : Prop :=
  (∀ x ∈ sent, MThr.Plain x) ∧ m.mirror.queue = 0 ∧ ∃ cs : List MCall,
    rets = (Mirror.run cs (Mirror.new 0, {})).1.map .mirror ∧
    match cur with
    | none => calls = cs.map .mirror ∧ (Mirror.run cs (Mirror.new 0, {})).2 = (m.mirror, ({} : Net).sendAll 0 sent)
    | some (_, p) => 1 ≤ i ∧ i ≤ N ∧ ∃ c q, calls = (cs ++ [c]).map .mirror ∧ p = wrap i q ∧ MThr.LocP q ∧
        (q.seq (m, ({} : Net).sendAll 0 sent)).1 = .ok (Mirror.exec c (Mirror.run cs (Mirror.new 0, {})).2).1 ∧
        MThr.view (q.seq (m, ({} : Net).sendAll 0 sent)).2 = (Mirror.exec c (Mirror.run cs (Mirror.new 0, {})).2).2 ∧
        (Mirror.run cs (Mirror.new 0, {})).2.2.queues 0 <+: sent

variable {N i : Nat} {m : MProc} {sent : List QMsg} {calls : List PCall} {rets : List PRet}

theorem procAt_inv (h : ProcAt N i none m sent calls rets) (hi : 1 ≤ i ∧ i ≤ N) (c : MCall) (ok : Nat → PCall → Prop) :
    ProcAt N i (some (.mirror c, (procThreads MThr.lazyLock id ok).call i () (.mirror c))) m sent (calls ++ [.mirror c]) rets := by
  obtain ⟨h1, h2, cs, h3, h4, h5⟩ := h
  have e := MThr.seq_prog MThr.finds_lazy c (m, ({} : Net).sendAll 0 sent)
  refine ⟨h1, h2, cs, h3, hi.1, hi.2, c, MThr.prog MThr.lazyLock c, by rw [h4]; simp, call_mirror _ _ _ _,
    MThr.locP_prog MThr.locP_lazyLock c, ?_, ?_, ?_⟩
  · rw [h5]; exact e.1
  · rw [h5]; exact e.2
  · rw [h5]
    show (({} : Net).sendAll 0 sent).queues 0 <+: sent
    rw [Net.sendAll_queues]
    exact List.prefix_rfl

theorem procAt_act {c : PCall} {f : PWorld → PWorld} {k : PWorld → PProg (PRet × Unit)}
    (h : ProcAt N i (some (c, .act f k)) m sent calls rets) {w : PWorld} (hm : w.procs i = m) (hc : w.net.closed = some false)
    (hr : w.net.room = []) :
    1 ≤ i ∧ i ≤ N ∧ ∃ m' new, f w = { w with procs := upd w.procs i m', net := w.net.sendAll 0 new } ∧
      ProcAt N i (some (c, k w)) m' (sent ++ new) calls rets := by
  obtain ⟨h1, h2, cs, h3, hi, hN, c', q, h4, h5, h6, h7, h8, h9⟩ := h
  refine ⟨hi, hN, ?_⟩
  cases q with
  | act g κ =>
    have h5 : Prog.act f k = Prog.act (fun w => { w with procs := upd w.procs i (g (w.procs i, w.net)).1, net := (g (w.procs i, w.net)).2 })
      (fun w => wrap i (κ (w.procs i, w.net))) := h5
    injection h5 with e1 e2
    subst e1 e2
    obtain ⟨m', new, r, g1, g2, g3⟩ := h6.1 m (some false)
    obtain ⟨a1, a2⟩ := g3 w.net hc hr
    obtain ⟨b1, b2⟩ := g3 (({} : Net).sendAll 0 sent) rfl rfl
    rw [h2] at a1 b1 g1
    refine ⟨m', new, ?_, ?_⟩
    · dsimp only
      rw [hm, a1]
    · have e : ((Prog.act g κ).seq (m, ({} : Net).sendAll 0 sent)) = r.seq (m', ({} : Net).sendAll 0 (sent ++ new)) := by
        show (κ _).seq (g _) = _
        rw [b1, b2, Net.sendAll_sendAll]
      rw [e] at h7 h8
      refine ⟨fun x hx => (List.mem_append.1 hx).elim (h1 x) (g2 x), g1, cs, h3, hi, hN, c', r, h4, ?_, ?_, h7, h8, ?_⟩
      · dsimp only
        rw [hm, a2]
      · rw [← b2]; exact h6.2 _
      · exact h9.trans (List.prefix_append _ _)
  | _ => cases h5

theorem procAt_acq {c : PCall} {l : PLock} {w : Bool} {k : PProg (PRet × Unit)}
    (h : ProcAt N i (some (c, .acq l w k)) m sent calls rets) : ProcAt N i (some (c, k)) m sent calls rets := by
  obtain ⟨h1, h2, cs, h3, hi, hN, c', q, h4, h5, h6, h7, h8, h9⟩ := h
  cases q with
  | acq l' w' κ =>
    injection h5 with e1 e2 e3
    exact ⟨h1, h2, cs, h3, hi, hN, c', κ, h4, e3, h6, h7, h8, h9⟩
  | _ => cases h5

theorem procAt_rel {c : PCall} {l : PLock} {w : Bool} {k : PProg (PRet × Unit)}
    (h : ProcAt N i (some (c, .rel l w k)) m sent calls rets) : ProcAt N i (some (c, k)) m sent calls rets := by
  obtain ⟨h1, h2, cs, h3, hi, hN, c', q, h4, h5, h6, h7, h8, h9⟩ := h
  cases q with
  | rel l' w' κ =>
    injection h5 with e1 e2 e3
    exact ⟨h1, h2, cs, h3, hi, hN, c', κ, h4, e3, h6, h7, h8, h9⟩
  | _ => cases h5

theorem procAt_ret {c : PCall} {r : PRet} {o : Unit} (h : ProcAt N i (some (c, .ret (r, o))) m sent calls rets) :
    ProcAt N i none m sent calls (rets ++ [r]) := by
  obtain ⟨h1, h2, cs, h3, hi, hN, c', q, h4, h5, h6, h7, h8, h9⟩ := h
  cases q with
  | ret x =>
    have h5 : Prog.ret (r, o) = Prog.ret (PRet.mirror x, ()) := h5
    injection h5 with e1
    cases e1
    have h7 : Except.ok x = Except.ok (Mirror.exec c' (Mirror.run cs (Mirror.new 0, {})).2).1 := h7
    have h8 : (m.mirror, ({} : Net).sendAll 0 sent) = (Mirror.exec c' (Mirror.run cs (Mirror.new 0, {})).2).2 := h8
    refine ⟨h1, h2, cs ++ [c'], ?_, h4, ?_⟩
    · rw [mrun_append_fst, h3, List.map_append]
      simp only [Mirror.run, List.map_cons, List.map_nil]
      rw [← Except.ok.inj h7]
    · rw [mrun_append]
      simp only [Mirror.run]
      exact h8.symm
  | _ => cases h5

open LineBuf (rep Ok exec_refines)

/-! ## The main process -/

/-- A step that changes the main buffer only, not its mirror, and the rest depends on nothing else. -/
def LocMStep (f : PWorld → PWorld) (k : PWorld → β) : Prop :=
  ∀ b : ProcBuf, ∃ b' r, b'.mirror = b.mirror ∧ ∀ w, w.main = b → f w = { w with main := b' } ∧ k w = r

/-- A program of such steps. -/
def LocM : PProg α → Prop
  | .ret _ => True
  | .raise _ => True
  | .act f k => LocMStep f k ∧ ∀ s, LocM (k s)
  | .acq _ _ k => LocM k
  | .rel _ _ k => LocM k

theorem LocM.bind {p : PProg α} {g : α → PProg β} (hp : LocM p) (hg : ∀ a, LocM (g a)) : LocM (p >>= g) := by
  show LocM (p.bind g)
  induction p with
  | ret a => exact hg a
  | raise e => exact trivial
  | act f k ih =>
    refine ⟨fun b => ?_, fun s => ih s (hp.2 s)⟩
    obtain ⟨b', r, h1, h2⟩ := hp.1 b
    exact ⟨b', r.bind g, h1, fun w hw => ⟨(h2 w hw).1, by dsimp only; rw [(h2 w hw).2]⟩⟩
  | acq l w k ih => exact ih hp
  | rel l w k ih => exact ih hp

theorem LocM.andRelease {p : PProg α} (hp : LocM p) (l : PLock) (w : Bool) : LocM (p.andRelease l w) := by
  induction p with
  | ret a => exact trivial
  | raise e => exact trivial
  | act f k ih =>
    refine ⟨fun b => ?_, fun s => ih s (hp.2 s)⟩
    obtain ⟨b', r, h1, h2⟩ := hp.1 b
    exact ⟨b', r.andRelease l w, h1, fun w hw => ⟨(h2 w hw).1, by dsimp only; rw [(h2 w hw).2]⟩⟩
  | acq l w k ih => exact ih hp
  | rel l w k ih => exact ih hp

theorem LocM.outcome {p : PProg α} (hp : LocM p) : LocM p.outcome := by
  induction p with
  | ret a => exact trivial
  | raise e => exact trivial
  | act f k ih =>
    refine ⟨fun b => ?_, fun s => ih s (hp.2 s)⟩
    obtain ⟨b', r, h1, h2⟩ := hp.1 b
    exact ⟨b', r.outcome, h1, fun w hw => ⟨(h2 w hw).1, by dsimp only; rw [(h2 w hw).2]⟩⟩
  | acq l w k ih => exact ih hp
  | rel l w k ih => exact ih hp

theorem LocM.ret (a : α) : LocM (pure a : PProg α) := trivial

theorem LocM.line (q : TProg α) : LocM (line q) := by
  unfold PThr.line
  induction q with
  | ret a => exact trivial
  | raise e => exact trivial
  | act f k ih =>
    refine ⟨fun b => ⟨{ b with base := f b.base }, (k b.base).onPart (fun w : PWorld => w.main.base)
      (fun t w => { w with main := { w.main with base := t } }) fun _ => .line, rfl, fun w hw => ?_⟩, fun s => ih _⟩
    subst hw
    exact ⟨rfl, rfl⟩
  | acq l w k ih => exact ih
  | rel l w k ih => exact ih

theorem LocM.atom {x : Py PNet α} (h : ∀ b, ∃ r b', b'.mirror = b.mirror ∧ ∀ n, x (b, n) = (r, (b', n))) : LocM (atom x) := by
  unfold PThr.atom Prog.atom
  refine ⟨fun b => ?_, fun s => ?_⟩
  · obtain ⟨r, b', h1, h2⟩ := h b
    have e : ∀ w : PWorld, w.main = b → Py.onPart (fun w : PWorld => (w.main, w.net)) (fun t w => { w with main := t.1, net := t.2 }) x w =
        (r, { w with main := b' }) := by
      rintro w rfl
      show ((x (w.main, w.net)).1, _) = _
      rw [h2]
    cases r with
    | ok a => exact ⟨b', .ret a, h1, fun w hw => ⟨by dsimp only; rw [e w hw], by dsimp only; rw [e w hw]⟩⟩
    | error a => exact ⟨b', .raise a, h1, fun w hw => ⟨by dsimp only; rw [e w hw], by dsimp only; rw [e w hw]⟩⟩
  · dsimp only
    split <;> exact trivial

theorem locM_checkClose : LocM checkClose :=
  .bind (.atom fun b => ⟨.ok b.nMirrors, b, rfl, fun _ => rfl⟩) fun n => .bind (.atom fun b => ⟨.ok (), { b with nMirrors := n - 1 }, rfl, fun _ => rfl⟩) fun _ =>
    .bind (.atom fun b => ⟨.ok b.nMirrors, b, rfl, fun _ => rfl⟩) fun _ => .ret _

theorem locM_process (d : QMsg) : LocM (process d) := by
  cases d with
  | str d => exact .bind (.line _) fun _ => .ret _
  | error m => exact .bind (.line _) fun _ => locM_checkClose
  | warning m => exact .bind (.line _) fun _ => .ret _
  | close => exact locM_checkClose
  | stop => exact .bind (.atom fun b => ⟨.ok (), { b with nMirrors := 0 }, rfl, fun _ => rfl⟩) fun _ => .ret _
  | other => exact .ret _

theorem locM_buffer (c : Call) (lk : MProg MLock) (i : Nat) (ok : Nat → PCall → Prop) :
    LocM ((procThreads lk id ok).call i () (.buffer c)) := by
  refine .bind ?_ fun _ => .ret _
  cases c with
  | write d => exact .bind (LocM.outcome (.atom fun b => ⟨_, _, rfl, fun _ => rfl⟩)) fun _ => .ret _
  | _ => exact .bind (.line _) fun _ => .ret _

/-- What remains of `receive`, with what is returned. -/
def fin (p : PProg Bool) : PProg (PRet × Unit) :=
  (p.outcome.bind fun r => .ret (.main (Ret.of .bool r))).bind fun x => .ret (x, ())

/-- `receive` before it has taken a message: it has still to wait for the lock, to look up the queue, or to take the message. -/
def pre1 : PProg (PRet × Unit) := fin (Prog.andRelease .config true (atom (Py.gets (·.1.mirror.queue)) >>= fun q => get q >>= process))
def pre2 : PProg (PRet × Unit) := fin (Prog.andRelease .config true (get 0 >>= process))
def post (m : QMsg) : PProg (PRet × Unit) := fin (Prog.andRelease .config true (process m))
def failed : PProg (PRet × Unit) := fin (Prog.andRelease .config true (.raise .blocked))

theorem locM_post (m : QMsg) : LocM (post m) :=
  .bind (.bind (LocM.outcome ((locM_process m).andRelease _ _)) fun _ => .ret _) fun _ => .ret _

theorem call_receive (lk : MProg MLock) (i : Nat) (ok : Nat → PCall → Prop) :
    (procThreads lk id ok).call i () .receive = .acq .config true pre1 := rfl

theorem pre1_eq : pre1 = .act (fun w => w) (fun w =>
    fin (Prog.andRelease .config true (get w.main.mirror.queue >>= process))) := rfl

theorem pre2_eq : pre2 = .act (fun w => match w.net.queues 0 with
      | [] => w
      | _ :: ms => { w with net := ProcBuf.qset w.net 0 ms })
    (fun w => match w.net.queues 0 with
      | [] => failed
      | m :: _ => post m) := by
  unfold pre2 get atom Prog.atom
  refine congr (congrArg Prog.act (funext fun w => ?_)) (funext fun w => ?_)
  · show (Py.onPart _ _ _ w).2 = _
    simp only [Py.onPart]
    split <;> rename_i h <;> rw [h] <;> rfl
  · cases h : w.net.queues 0 with
    | nil => dsimp only [Py.onPart]; rw [h]; rfl
    | cons m ms => dsimp only [Py.onPart]; rw [h]; rfl

theorem fin_seq {p : PProg Bool} {w w' : PWorld} {r : Except Exc Bool} (h : p.seq w = (r, w')) :
    (fin p).seq w = (.ok (.main (Ret.of .bool r), ()), w') := by
  have h1 : p.outcome.seq w = (.ok r, w') := by rw [Prog.seq_outcome, h]
  have h2 : (p.outcome.bind fun r => .ret (.main (Ret.of .bool r))).seq w = (.ok (PRet.main (Ret.of .bool r)), w') := Prog.seq_bind_ok h1
  exact Prog.seq_bind_ok h2

/-- Where everything but the main buffer is irrelevant. -/
def alone (b : ProcBuf) : PWorld := { main := b, procs := fun _ => { mirror := Mirror.new 0 } }

theorem seq_pre1 {w w' : PWorld} {r : Except Exc Bool} (h : receive.seq w = (r, w')) :
    pre1.seq w = (.ok (.main (Ret.of .bool r), ()), w') := fin_seq h

theorem seq_post (m : QMsg) {l : Log} (ok : Ok l) (ho : l.closed = false) {b : ProcBuf} (hb : b.base = rep l)
    (hq : b.mirror.queue = 0) :
    (post m).seq (alone b) = (.ok (.main (.bool (goes b.nMirrors m).1), ()),
      alone { b with base := rep (arrive l m), nMirrors := (goes b.nMirrors m).2 }) := by
  let w : PWorld := { alone b with net := ProcBuf.qset {} 0 [m] }
  have e0 : ProcBuf.qset ({} : Net) 0 [] = {} := ProcBuf.qset_self _ _ _ rfl
  have h1 : receive.seq w = (.ok (goes b.nMirrors m).1,
      alone { b with base := rep (arrive l m), nMirrors := (goes b.nMirrors m).2 }) := by
    rw [seq_receive]
    have := ProcBuf.receive_rep m [] l ok ho b (ProcBuf.qset {} 0 [m]) hb (by rw [hq]; simp)
    rw [hq, ProcBuf.qset_qset, e0] at this
    show ((ProcBuf.receive (b, ProcBuf.qset {} 0 [m])).1, { w with
      main := (ProcBuf.receive (b, ProcBuf.qset {} 0 [m])).2.1, net := (ProcBuf.receive (b, ProcBuf.qset {} 0 [m])).2.2 }) = _
    rw [this]
    rfl
  have h2 := seq_pre1 h1
  rw [pre1_eq] at h2
  have h3 : pre2.seq w = (.ok (.main (.bool (goes b.nMirrors m).1), ()),
      alone { b with base := rep (arrive l m), nMirrors := (goes b.nMirrors m).2 }) := by
    have e : (fin (Prog.andRelease .config true (get w.main.mirror.queue >>= process))) = pre2 := by
      show (fin (Prog.andRelease .config true (get b.mirror.queue >>= process))) = pre2
      rw [hq]; rfl
    rw [← e]; exact h2
  rw [pre2_eq] at h3
  have h4 : (post m).seq { w with net := ProcBuf.qset w.net 0 [] } = (.ok (.main (.bool (goes b.nMirrors m).1), ()),
      alone { b with base := rep (arrive l m), nMirrors := (goes b.nMirrors m).2 }) := h3
  have e1 : ({ w with net := ProcBuf.qset w.net 0 [] } : PWorld) = alone b := by
    show ({ alone b with net := ProcBuf.qset (ProcBuf.qset {} 0 [m]) 0 [] } : PWorld) = _
    rw [ProcBuf.qset_qset, e0]
    rfl
  rw [e1] at h4
  exact h4

theorem step_open {l l' : Log} {c : Call} {r : Ret} (h : Log.Step l c r l') (hc : c ≠ .close) (ho : l.closed = false) :
    l'.closed = false := by
  cases h <;> simp_all

/-- Where the main process is: the finished calls are steps of the specification, and what remains of the current call leads to
the end of such a step. -/
def MainAt (s0 : Log × Int) (cur : Option (PCall × PProg (PRet × Unit))) (b : ProcBuf) (got : List QMsg) (calls : List PCall)
    (rets : List PRet) : Prop :=
  b.mirror = Mirror.new 0 ∧ ∃ l k done pend cs, got = done ++ pend ∧ rets = cs.map Prod.snd ∧ MainSteps s0 cs done (l, k) ∧
    Ok l ∧ l.closed = false ∧
    match cur with
    | none => calls = cs.map Prod.fst ∧ pend = [] ∧ b.base = rep l ∧ b.nMirrors = k
    | some (c, p) => calls = cs.map Prod.fst ++ [c] ∧
      ((c = .receive ∧ pend = [] ∧ b.base = rep l ∧ b.nMirrors = k ∧ (p = .acq .config true pre1 ∨ p = pre1 ∨ p = pre2)) ∨
       (LocM p ∧ ∃ r b' l' k', p.seq (alone b) = (.ok (r, ()), alone b') ∧ b'.base = rep l' ∧ b'.nMirrors = k' ∧
          MainStep (l, k) c r pend (l', k') ∧ Ok l' ∧ l'.closed = false))

variable {s0 : Log × Int} {b : ProcBuf} {got : List QMsg}

theorem mainAt_inv (h : MainAt s0 none b got calls rets) {c : PCall} (hc : c = .receive ∨ ∃ d, c = .buffer d ∧ d ≠ .close)
    (ok : Nat → PCall → Prop) :
    MainAt s0 (some (c, (procThreads MThr.lazyLock id ok).call 0 () c)) b got (calls ++ [c]) rets := by
  obtain ⟨h0, l, k, done, pend, cs, h1, h2, h3, h4, h5, h6, h7, h8, h9⟩ := h
  refine ⟨h0, l, k, done, pend, cs, h1, h2, h3, h4, h5, by rw [h6], ?_⟩
  rcases hc with rfl | ⟨d, rfl, hd⟩
  · exact .inl ⟨rfl, h7, h8, h9, .inl (call_receive _ _ _)⟩
  · refine .inr ⟨locM_buffer _ _ _ _, ?_⟩
    by_cases hw : ∃ x, d = .write x
    · obtain ⟨x, rfl⟩ := hw
      exact ⟨.main (.exc .notImplemented), b, l, k, rfl, h8, h9, by rw [h7]; exact .write _ _ _, h4, h5⟩
    · obtain ⟨l', e1, e2, e3, _⟩ := exec_refines d l h4
      have hl : (line (Thr.prog (.call d))).seq (alone b) =
          (.ok (LineBuf.exec d b.base).1, alone { b with base := (LineBuf.exec d b.base).2 }) := by
        rw [seq_line]
        have e : (Thr.prog (.call d)).seq = fun b => (.ok (LineBuf.exec d b).1, (LineBuf.exec d b).2) := funext fun b => Thr.prog_seq d b
        rw [e]
        rfl
      refine ⟨.main (LineBuf.exec d b.base).1, { b with base := (LineBuf.exec d b.base).2 }, l', k, ?_, ?_, h9, ?_, e3, step_open e1 hd h5⟩
      · have : (procThreads MThr.lazyLock id ok).call 0 () (.buffer d) =
            ((line (Thr.prog (.call d))).bind fun r => .ret (.main r)).bind fun x => .ret (x, ()) := by
          cases d with
          | write x => exact absurd ⟨x, rfl⟩ hw
          | _ => rfl
        rw [this]
        have h2 : ((line (Thr.prog (.call d))).bind fun r => .ret (.main r)).seq (alone b) = (.ok (PRet.main (LineBuf.exec d b.base).1), _) := Prog.seq_bind_ok hl
        exact Prog.seq_bind_ok h2
      · rw [h8]; exact e2
      · rw [h7, h8]; exact .call _ _ _ _ _ (fun x hx => hw ⟨x, hx⟩) e1

theorem arrive_step {m : QMsg} (hm : MThr.Plain m) {l : Log} (ok : Ok l) (k : Int) :
    MainStep (l, k) .receive (.main (.bool (goes k m).1)) [m] (arrive l m, (goes k m).2) := by
  have ha := arrives_arrive l m ok.part
  have e : decide (k - 1 > 0) = decide (1 < k) := by
    refine decide_eq_decide.2 ⟨fun h => ?_, fun h => ?_⟩ <;> omega
  cases m with
  | str d => exact .body _ _ _ _ ha trivial
  | warning d => exact .body _ _ _ _ ha trivial
  | error d => simp only [goes]; rw [e]; exact .ends _ _ _ _ ha trivial
  | close => simp only [goes]; rw [e]; exact .ends _ _ _ _ ha trivial
  | stop => rcases hm with h | h <;> exact h.elim
  | other => rcases hm with h | h <;> exact h.elim

theorem mainAt_act {c : PCall} {f : PWorld → PWorld} {k : PWorld → PProg (PRet × Unit)}
    (h : MainAt s0 (some (c, .act f k)) b got calls rets) {w : PWorld} (hb : w.main = b) (hp : ∀ m ∈ w.net.queues 0, MThr.Plain m) :
    ∃ b' new rest, f w = { w with main := b', net := ProcBuf.qset w.net 0 rest } ∧ w.net.queues 0 = new ++ rest ∧
      MainAt s0 (some (c, k w)) b' (got ++ new) calls rets := by
  obtain ⟨h0, l, k0, done, pend, cs, h1, h2, h3, h4, h5, h6, h7⟩ := h
  rcases h7 with ⟨rfl, h7, h8, h9, hp' | hp' | hp'⟩ | ⟨hl, r, b', l', k', h7, h8, h9, h10, h11, h12⟩
  · cases hp'
  · rw [pre1_eq] at hp'
    cases hp'
    refine ⟨b, [], w.net.queues 0, by rw [ProcBuf.qset_self _ _ _ rfl, ← hb], by simp, h0, l, k0, done, pend, cs, by simpa using h1, h2, h3, h4, h5,
      h6, .inl ⟨rfl, h7, h8, h9, .inr (.inr ?_)⟩⟩
    dsimp only
    rw [hb, h0]
    rfl
  · rw [pre2_eq] at hp'
    cases hp'
    cases hq : w.net.queues 0 with
    | nil =>
      refine ⟨b, [], [], by dsimp only; rw [hq, ProcBuf.qset_self _ _ _ hq, ← hb], by simp, h0, l, k0, done, pend, cs,
        by simpa using h1, h2, h3, h4, h5, h6, .inr ?_⟩
      dsimp only
      rw [hq]
      exact ⟨trivial, .main (.exc .blocked), b, l, k0, rfl, h8, h9, by rw [h7]; exact .waits _ _, h4, h5⟩
    | cons m ms =>
      refine ⟨b, [m], ms, by dsimp only; rw [hq, ← hb], rfl, h0, l, k0, done, [m], cs, by rw [h1, h7]; simp, h2, h3, h4, h5, h6, .inr ?_⟩
      dsimp only
      rw [hq]
      refine ⟨locM_post m, _, _, _, _, seq_post m h4 h5 h8 (by rw [h0]; rfl), rfl, rfl, ?_, arrive_ok m h4 h5, by rw [arrive_closed]; exact h5⟩
      rw [h9]
      exact arrive_step (hp m (by rw [hq]; exact List.mem_cons_self)) h4 k0
  · obtain ⟨b1, p1, g1, g2⟩ := hl.1 b
    obtain ⟨g3, g4⟩ := g2 w hb
    obtain ⟨g5, g6⟩ := g2 (alone b) rfl
    refine ⟨b1, [], w.net.queues 0, by rw [g3, ProcBuf.qset_self _ _ _ rfl], by simp, g1.trans h0, l, k0, done, pend, cs, by simpa using h1, h2, h3, h4, h5,
      h6, .inr ⟨hl.2 _, r, b', l', k', ?_, h8, h9, h10, h11, h12⟩⟩
    rw [g4, ← g6]
    have : (k (alone b)).seq (f (alone b)) = (.ok (r, ()), alone b') := h7
    rw [g5] at this
    exact this

theorem mainAt_acq {c : PCall} {l : PLock} {w : Bool} {k : PProg (PRet × Unit)}
    (h : MainAt s0 (some (c, .acq l w k)) b got calls rets) : MainAt s0 (some (c, k)) b got calls rets := by
  obtain ⟨h0, l, k0, done, pend, cs, h1, h2, h3, h4, h5, h6, h7⟩ := h
  refine ⟨h0, l, k0, done, pend, cs, h1, h2, h3, h4, h5, h6, ?_⟩
  rcases h7 with ⟨rfl, h7, h8, h9, hp' | hp' | hp'⟩ | h7
  · cases hp'
    exact .inl ⟨rfl, h7, h8, h9, .inr (.inl rfl)⟩
  · rw [pre1_eq] at hp'; cases hp'
  · rw [pre2_eq] at hp'; cases hp'
  · exact .inr h7

theorem mainAt_rel {c : PCall} {l : PLock} {w : Bool} {k : PProg (PRet × Unit)}
    (h : MainAt s0 (some (c, .rel l w k)) b got calls rets) : MainAt s0 (some (c, k)) b got calls rets := by
  obtain ⟨h0, l, k0, done, pend, cs, h1, h2, h3, h4, h5, h6, h7⟩ := h
  refine ⟨h0, l, k0, done, pend, cs, h1, h2, h3, h4, h5, h6, ?_⟩
  rcases h7 with ⟨rfl, h7, h8, h9, hp' | hp' | hp'⟩ | h7
  · cases hp'
  · rw [pre1_eq] at hp'; cases hp'
  · rw [pre2_eq] at hp'; cases hp'
  · exact .inr h7

theorem mainAt_ret {c : PCall} {r : PRet} {o : Unit} (h : MainAt s0 (some (c, .ret (r, o))) b got calls rets) :
    MainAt s0 none b got calls (rets ++ [r]) := by
  obtain ⟨h0, l, k0, done, pend, cs, h1, h2, h3, h4, h5, h6, h7⟩ := h
  rcases h7 with ⟨rfl, h7, h8, h9, hp' | hp' | hp'⟩ | ⟨hl, r', b', l', k', h7, h8, h9, h10, h11, h12⟩
  · cases hp'
  · rw [pre1_eq] at hp'; cases hp'
  · rw [pre2_eq] at hp'; cases hp'
  · have h7 : ((Except.ok (r, o) : Except Exc (PRet × Unit)), alone b) = (.ok (r', ()), alone b') := h7
    injection h7 with e1 e2
    injection e1 with e1
    cases e1
    have e3 : b = b' := congrArg PWorld.main e2
    subst e3
    exact ⟨h0, l', k', done ++ pend, [], cs ++ [(c, r)], by simpa using h1, by simp [h2], .snoc _ _ _ _ _ _ _ _ h3 h10, h11, h12,
      by simp [h6], rfl, h8, h9⟩

/-! ## Everything together -/

/-- What the theorems are about: thread 0 is the main process, which receives and uses the buffer but does not close it; thread `i`, `1 ≤ i ≤ N`,
is the `i`-th process, which uses its mirror. -/
def Works (N : Nat) (i : Nat) (c : PCall) : Prop :=
  (i = 0 ∧ (c = .receive ∨ ∃ d, c = .buffer d ∧ d ≠ .close)) ∨ (1 ≤ i ∧ i ≤ N ∧ ∃ m, c = .mirror m)

/-- The streams of the processes. -/
def streamsOf (N : Nat) (S : Nat → List QMsg) : List (List QMsg) := (List.range N).map fun i => S (i + 1)

theorem merge_streams {N i : Nat} {S : Nat → List QMsg} {out : List QMsg} (h : Merge (streamsOf N S) out) (h1 : 1 ≤ i) (hN : i ≤ N)
    (xs : List QMsg) : Merge (streamsOf N (upd S i (S i ++ xs))) (out ++ xs) := by
  have := merge_append h (i - 1) (S i) xs (by unfold streamsOf; simp only [List.getElem?_map]; rw [List.getElem?_range (by omega)]; simp; congr; omega)
  refine Eq.mp (congrArg (fun l => Merge l (out ++ xs)) ?_) this
  apply List.ext_getElem
  · simp [streamsOf]
  · intro j hj1 hj2
    simp only [streamsOf, List.getElem_map, List.getElem_range, List.getElem_set]
    split
    · rename_i h
      have : j + 1 = i := by omega
      rw [this, upd_same]
    · rename_i h
      rw [upd_other _ _ (by omega)]

/-- What holds after every step. -/
def StepsInv (s0 : Log × Int) (N : Nat) (κ : Conc.Conf PWorld PLock Unit PCall PRet) (tr : List (Ev PCall PRet)) : Prop :=
  κ.st.net.closed = some false ∧ κ.st.net.room = [] ∧ ∃ (S : Nat → List QMsg) (got : List QMsg),
    Merge (streamsOf N S) (got ++ κ.st.net.queues 0) ∧
    (∀ i, i ≠ 0 → ProcAt N i (κ.cur i) (κ.st.procs i) (S i) (callsBy i tr) (retsBy i tr)) ∧
    MainAt s0 (κ.cur 0) κ.st.main got (callsBy 0 tr) (retsBy 0 tr)

theorem stepsInv_step {κ κ' : Conc.Conf PWorld PLock Unit PCall PRet} {tr : List (Ev PCall PRet)} {e : Option (Ev PCall PRet)}
    (h : StepsInv s0 N κ tr) (hs : Step (procThreads MThr.lazyLock id (Works N)) κ e κ') : StepsInv s0 N κ' (tr ++ e.toList) := by
  obtain ⟨h1, h2, S, got, h3, h4, h5⟩ := h
  have plain : ∀ m ∈ κ.st.net.queues 0, MThr.Plain m := fun m hm => by
    obtain ⟨s, hs, hms⟩ := merge_mem h3 (List.mem_append_right got hm)
    obtain ⟨i, _, rfl⟩ := List.mem_map.1 hs
    exact (h4 (i + 1) (by omega)).1 m hms
  cases hs with
  | inv i c hi ho =>
    refine ⟨h1, h2, S, got, h3, fun j hj => ?_, ?_⟩
    · have := h4 j hj
      rw [Option.toList_some, callsBy_snoc_inv, retsBy_snoc_inv]
      dsimp only
      by_cases hij : i = j
      · subst hij
        rw [upd_same, if_pos rfl]
        rw [hi] at this
        rcases ho with ⟨h0, _⟩ | ⟨ha, hb, m, rfl⟩
        · exact absurd h0 hj
        · exact procAt_inv this ⟨ha, hb⟩ m _
      · rw [upd_other _ _ (Ne.symm hij), if_neg hij, List.append_nil]
        exact this
    · rw [Option.toList_some, callsBy_snoc_inv, retsBy_snoc_inv]
      dsimp only
      by_cases h0 : i = 0
      · subst h0
        rw [upd_same, if_pos rfl]
        rw [hi] at h5
        rcases ho with ⟨_, hc⟩ | ⟨ha, _⟩
        · exact mainAt_inv h5 hc _
        · omega
      · rw [upd_other _ _ (Ne.symm h0), if_neg h0, List.append_nil]
        exact h5
  | act i c f k hi =>
    rw [Option.toList_none, List.append_nil]
    by_cases h0 : i = 0
    · subst h0
      rw [hi] at h5
      obtain ⟨b', new, rest, e1, e2, e3⟩ := mainAt_act h5 rfl plain
      refine ⟨by rw [e1]; exact h1, by rw [e1]; exact h2, S, got ++ new, ?_, fun j hj => ?_, ?_⟩
      · dsimp only
        rw [e1]
        dsimp only
        rw [ProcBuf.qset_queues, List.append_assoc, ← e2]
        exact h3
      · dsimp only
        rw [e1, upd_other _ _ hj]
        exact h4 j hj
      · dsimp only
        rw [upd_same]
        rw [e1]
        exact e3
    · have := h4 i h0
      rw [hi] at this
      obtain ⟨ha, hb, m', new, e1, e2⟩ := procAt_act this rfl h1 h2
      refine ⟨by rw [e1]; exact h1, by rw [e1]; exact h2, upd S i (S i ++ new), got, ?_, fun j hj => ?_, ?_⟩
      · dsimp only
        rw [e1]
        dsimp only
        rw [Net.sendAll_queues, ← List.append_assoc]
        exact merge_streams h3 ha hb new
      · dsimp only
        rw [e1]
        dsimp only
        by_cases hij : j = i
        · subst hij
          rw [upd_same, upd_same, upd_same]
          exact e2
        · rw [upd_other _ _ hij, upd_other _ _ hij, upd_other _ _ hij]
          exact h4 j hj
      · dsimp only
        rw [e1, upd_other _ _ (Ne.symm h0)]
        exact h5
  | acq i c l w k hi =>
    rw [Option.toList_none, List.append_nil]
    refine ⟨h1, h2, S, got, h3, fun j hj => ?_, ?_⟩ <;> dsimp only
    · by_cases hij : j = i
      · subst hij
        have := h4 j hj
        rw [hi] at this
        rw [upd_same]
        exact procAt_acq this
      · rw [upd_other _ _ hij]; exact h4 j hj
    · by_cases h0 : i = 0
      · subst h0
        rw [hi] at h5
        rw [upd_same]
        exact mainAt_acq h5
      · rw [upd_other _ _ (Ne.symm h0)]; exact h5
  | rel i c l w k hi =>
    rw [Option.toList_none, List.append_nil]
    refine ⟨h1, h2, S, got, h3, fun j hj => ?_, ?_⟩ <;> dsimp only
    · by_cases hij : j = i
      · subst hij
        have := h4 j hj
        rw [hi] at this
        rw [upd_same]
        exact procAt_rel this
      · rw [upd_other _ _ hij]; exact h4 j hj
    · by_cases h0 : i = 0
      · subst h0
        rw [hi] at h5
        rw [upd_same]
        exact mainAt_rel h5
      · rw [upd_other _ _ (Ne.symm h0)]; exact h5
  | ret i c r o hi =>
    refine ⟨h1, h2, S, got, h3, fun j hj => ?_, ?_⟩
    · rw [Option.toList_some, callsBy_snoc_ret, retsBy_snoc_ret]
      dsimp only
      by_cases hij : i = j
      · subst hij
        have := h4 i hj
        rw [hi] at this
        rw [upd_same, if_pos rfl]
        exact procAt_ret this
      · rw [upd_other _ _ (Ne.symm hij), if_neg hij, List.append_nil]; exact h4 j hj
    · rw [Option.toList_some, callsBy_snoc_ret, retsBy_snoc_ret]
      dsimp only
      by_cases h0 : i = 0
      · subst h0
        rw [hi] at h5
        rw [upd_same, if_pos rfl]
        exact mainAt_ret h5
      · rw [upd_other _ _ (Ne.symm h0), if_neg h0, List.append_nil]; exact h5

/-- A new buffer from which `N` mirrors have been taken, and a copy for every process. -/
def Begun (maxlen : Int) (N : Nat) (w : PWorld) : Prop :=
  Started maxlen N w.main ∧ w.procs = (fun _ => { mirror := w.main.mirror }) ∧ w.net = {}

theorem started_mirror {maxlen : Int} {k : Nat} {p : ProcBuf} (h : Started maxlen k p) : p.mirror = Mirror.new 0 := by
  obtain ⟨p0, h1, rfl⟩ := h
  simp only [ProcBuf.new, LineBuf.new] at h1
  split at h1
  · cases h1
  · cases h1; rfl

theorem stepsInv {maxlen : Int} {w : PWorld} (hw : Begun maxlen N w) {tr : List (Ev PCall PRet)} {κ : Conc.Conf PWorld PLock Unit PCall PRet}
    (he : Exec (procThreads MThr.lazyLock id (Works N)) (init w fun _ => ()) tr κ) : StepsInv ({ cap := maxlen.toNat }, N) N κ tr := by
  generalize h0 : init w (fun _ => ()) = κ0 at he
  induction he with
  | nil =>
    subst h0
    obtain ⟨hs, hp, hn⟩ := hw
    obtain ⟨g1, g2, g3⟩ := started_rep hs
    have g4 := started_mirror hs
    refine ⟨by rw [show (init w (fun _ => ())).st = w from rfl, hn], by rw [show (init w (fun _ => ())).st = w from rfl, hn], fun _ => [], [], ?_, fun i hi => ?_, ?_⟩
    · show Merge _ ([] ++ w.net.queues 0)
      rw [hn]
      exact .done _ fun s hs => by obtain ⟨i, _, rfl⟩ := List.mem_map.1 hs; rfl
    · show ProcAt N i none (w.procs i) [] [] []
      rw [hp]
      refine ⟨nofun, by rw [g4]; rfl, [], rfl, rfl, ?_⟩
      rw [Net.sendAll_nil, g4]
      rfl
    · exact ⟨g4, { cap := maxlen.toNat }, N, [], [], [], rfl, rfl, .nil _, g2, rfl, rfl, rfl, g1, g3⟩
  | snoc κ1 κ2 tr e h1 h2 ih => exact stepsInv_step ih h2

end PThr

end SyncStream
