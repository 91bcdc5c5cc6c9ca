import Verif.Lemmas.ProcSys
import Verif.Props.LineBuffer
import Verif.Props.Proc
/-!
# Properties of the whole process mode: C06, C21, C22, C24, C25, C28, C56
-/

namespace SyncStream
open Spec LineBuf

/-- The system at the start: a new `LineProcBuffer(maxlen)`, no mirror, and any future of the queue's
capacity. -/
def SysStart (maxlen : Int) (s : ProcSys) : Prop :=
  ∃ p0 room, ProcBuf.new maxlen = .ok p0 ∧ s = { main := p0, net := { room := room } }

/-- The states of the system that can occur. -/
def SysReach (maxlen : Int) (s : ProcSys) : Prop :=
  ∃ s0 ops, SysStart maxlen s0 ∧ s = ProcSys.run ops s0

theorem SysReach.run {maxlen : Int} {s : ProcSys} (h : SysReach maxlen s) (ops : List ProcOp) :
    SysReach maxlen (ProcSys.run ops s) := by
  obtain ⟨s0, ops0, h0, rfl⟩ := h
  exact ⟨s0, ops0 ++ ops, h0, by simp [ProcSys.run, List.foldl_append]⟩

theorem sysRun_append (a b : List ProcOp) (s : ProcSys) :
    ProcSys.run (a ++ b) s = ProcSys.run b (ProcSys.run a s) := by
  simp [ProcSys.run, List.foldl_append]

/-- Induction on a list from its end. -/
theorem snoc_induction {α : Type} {P : List α → Prop} (h0 : P [])
    (h1 : ∀ l x, P l → P (l ++ [x])) (l : List α) : P l := by
  rw [← List.reverse_reverse l]
  induction l.reverse with
  | nil => exact h0
  | cons x xs ih => rw [List.reverse_cons]; exact h1 _ _ ih

/-! ## `receive` in any state -/

/-- `receive` takes one message, and what it then does concerns the main buffer only. -/
theorem receive_local (m : QMsg) : ∃ f : ProcBuf → Except Exc Bool × ProcBuf,
    (∀ p, (f p).2.mirror = p.mirror ∧ (f p).2.nextQueue = p.nextQueue) ∧
    ∀ p n ms, n.queues p.mirror.queue = m :: ms →
      ProcBuf.receive (p, n) = ((f p).1, ((f p).2, ProcBuf.qset n p.mirror.queue ms)) := by
  have hg : ∀ (p : ProcBuf) (n : Net) (ms : List QMsg), n.queues p.mirror.queue = m :: ms →
      ProcBuf.get (p, n) = (.ok m, (p, ProcBuf.qset n p.mirror.queue ms)) := by
    intro p n ms hq
    simp only [ProcBuf.get]
    rw [hq]
    rfl
  cases m with
  | str d =>
    refine ⟨fun p => ((LineBuf.write d p.base).1.map fun _ => true,
      { p with base := (LineBuf.write d p.base).2 }), fun p => ⟨rfl, rfl⟩, fun p n ms hq => ?_⟩
    unfold ProcBuf.receive
    rw [Py.bind_ok (hg p n ms hq)]
    simp only [Py.bind_apply, ProcBuf.onBase, Py.onPart_apply]
    cases LineBuf.write d p.base with
    | mk r b => cases r <;> rfl
  | error g =>
    refine ⟨fun p => (.ok (decide (p.nMirrors - 1 > 0)),
      { p with base := { p.base with storage := p.base.storage.append (.msg g) },
               nMirrors := p.nMirrors - 1 }), fun p => ⟨rfl, rfl⟩, fun p n ms hq => ?_⟩
    unfold ProcBuf.receive
    rw [Py.bind_ok (hg p n ms hq)]
    rfl
  | warning g =>
    refine ⟨fun p => (.ok true,
      { p with base := { p.base with storage := p.base.storage.append (.msg g) } }),
      fun p => ⟨rfl, rfl⟩, fun p n ms hq => ?_⟩
    unfold ProcBuf.receive
    rw [Py.bind_ok (hg p n ms hq)]
    rfl
  | close =>
    refine ⟨fun p => (.ok (decide (p.nMirrors - 1 > 0)), { p with nMirrors := p.nMirrors - 1 }),
      fun p => ⟨rfl, rfl⟩, fun p n ms hq => ?_⟩
    unfold ProcBuf.receive
    rw [Py.bind_ok (hg p n ms hq)]
    rfl
  | stop =>
    refine ⟨fun p => (.ok false, { p with nMirrors := 0 }),
      fun p => ⟨rfl, rfl⟩, fun p n ms hq => ?_⟩
    unfold ProcBuf.receive
    rw [Py.bind_ok (hg p n ms hq)]
    rfl
  | other =>
    refine ⟨fun p => (.ok false, p), fun p => ⟨rfl, rfl⟩, fun p n ms hq => ?_⟩
    unfold ProcBuf.receive
    rw [Py.bind_ok (hg p n ms hq)]
    rfl

theorem receive_empty (p : ProcBuf) (n : Net) (hq : n.queues p.mirror.queue = []) :
    ProcBuf.receive (p, n) = (.error .blocked, (p, n)) := by
  have hg : ProcBuf.get (p, n) = (.error .blocked, (p, n)) := by
    simp only [ProcBuf.get]; rw [hq]
  unfold ProcBuf.receive
  rw [Py.bind_error hg]

/-! ## Invariants of the mirrors -/

/-- What holds of the mirrors and the queue numbers in every state that can occur. -/
structure SysInv (s : ProcSys) : Prop where
  main : s.main.mirror = Mirror.new s.main.mirror.queue
  mirrors : ∀ m ∈ s.mirrors, MReach m.queue m ∧ m.queue ≤ s.main.mirror.queue
  next : s.main.mirror.queue < s.main.nextQueue
  fresh : ∀ i, s.main.nextQueue ≤ i → s.net.queues i = []

theorem sysInv_start {maxlen : Int} {s : ProcSys} (h : SysStart maxlen s) : SysInv s := by
  obtain ⟨p0, room, hp, rfl⟩ := h
  simp only [ProcBuf.new, LineBuf.new] at hp
  split at hp
  · cases hp
  · cases hp
    exact ⟨rfl, (by intro m hm; cases hm), Nat.zero_lt_one, (fun _ _ => rfl)⟩

/-- A step that changes neither the mirrors nor the queue numbers, and at most the current queue. -/
theorem SysInv.frame {s s' : ProcSys} (h : SysInv s) (h1 : s'.mirrors = s.mirrors)
    (h2 : s'.main.mirror = s.main.mirror) (h3 : s'.main.nextQueue = s.main.nextQueue)
    (h4 : ∀ i, i ≠ s.main.mirror.queue → s'.net.queues i = s.net.queues i) : SysInv s' := by
  refine ⟨by rw [h2]; exact h.main, by rw [h1, h2]; exact h.mirrors, by rw [h2, h3]; exact h.next, ?_⟩
  intro i hi
  rw [h3] at hi
  have := h.next
  rw [h4 i (by omega)]
  exact h.fresh i hi

theorem sysInv_step (o : ProcOp) (s : ProcSys) (h : SysInv s) :
    SysInv (ProcSys.step o s) ∧ s.main.mirror.queue ≤ (ProcSys.step o s).main.mirror.queue ∧
    (∀ r, o ≠ r → r = .reset → (ProcSys.step o s).main.mirror = s.main.mirror) := by
  cases o with
  | take =>
    refine ⟨?_, Nat.le_refl _, fun _ _ _ => rfl⟩
    refine ⟨h.main, ?_, h.next, h.fresh⟩
    intro m hm
    simp only [ProcSys.step, ProcSys.onMain, ProcBuf.takeMirror, List.mem_append,
      List.mem_singleton] at hm
    rcases hm with hm | rfl
    · exact h.mirrors m hm
    · refine ⟨?_, Nat.le_refl _⟩
      rw [h.main]; exact .new false none
  | mirror i c =>
    simp only [ProcSys.step]
    cases hm : s.mirrors[i]? with
    | none => exact ⟨h, Nat.le_refl _, fun _ _ _ => rfl⟩
    | some m =>
      dsimp only
      refine ⟨?_, Nat.le_refl _, fun _ _ _ => rfl⟩
      obtain ⟨q, _, _, o⟩ := Mirror.exec_ownQueue c (m, s.net)
      have hmem := List.mem_of_getElem? hm
      refine ⟨h.main, ?_, h.next, ?_⟩
      · intro m' hm'
        rcases List.mem_or_eq_of_mem_set hm' with h' | rfl
        · exact h.mirrors m' h'
        · rw [q]
          exact ⟨.call c m s.net (h.mirrors m hmem).1, (h.mirrors m hmem).2⟩
      · intro j hj
        have h1 := (h.mirrors m hmem).2
        have h2 := h.next
        dsimp only at hj ⊢
        rw [o j (by dsimp only; omega)]
        exact h.fresh j hj
  | receive =>
    simp only [ProcSys.step, ProcSys.onMain]
    cases hq : s.net.queues s.main.mirror.queue with
    | nil => rw [receive_empty _ _ hq]; exact ⟨h, Nat.le_refl _, fun _ _ _ => rfl⟩
    | cons m ms =>
      obtain ⟨f, hf, he⟩ := receive_local m
      rw [he _ _ _ hq]
      obtain ⟨f1, f2⟩ := hf s.main
      refine ⟨h.frame rfl f1 f2 ?_, by rw [f1]; exact Nat.le_refl _, fun _ _ _ => f1⟩
      intro i hi; simp [ProcBuf.qset, hi]
  | stopAll => exact ⟨h.frame rfl rfl rfl fun _ _ => rfl, Nat.le_refl _, fun _ _ _ => rfl⟩
  | forceStop =>
    refine ⟨h.frame rfl rfl rfl ?_, Nat.le_refl _, fun _ _ _ => rfl⟩
    intro i hi
    have hp := Net.put_spec s.main.mirror.queue .stop true none s.net
    rcases hp.2 with ⟨_, h2⟩ | ⟨e, _, h2⟩
    · simp only [ProcSys.step, ProcSys.onMain, ProcBuf.forceStop]; rw [h2]; simp [Net.appended, hi]
    · simp only [ProcSys.step, ProcSys.onMain, ProcBuf.forceStop]; rw [h2]
  | reset =>
    simp only [ProcSys.step, ProcSys.onMain, ProcBuf.resetStates, Py.bind_apply, Py.gets_apply]
    by_cases hn : s.main.nMirrors > 0
    · simp only [hn, if_true, Py.raise_apply]
      exact ⟨h, Nat.le_refl _, fun _ _ _ => by trivial⟩
    · simp only [hn, if_false, Py.bind_apply, Py.modify_apply]
      have := h.next
      refine ⟨⟨rfl, ?_, ?_, ?_⟩, ?_, fun r hr hr' => absurd hr'.symm hr⟩
      · intro m hm
        obtain ⟨h1, h2⟩ := h.mirrors m hm
        refine ⟨h1, ?_⟩
        dsimp only [Mirror.new]; omega
      · dsimp only [Mirror.new]; omega
      · intro i hi
        dsimp only at hi ⊢
        exact h.fresh i (by omega)
      · dsimp only [Mirror.new]; omega
  | buffer c =>
    cases c <;> exact ⟨h.frame rfl rfl rfl fun _ _ => rfl, Nat.le_refl _, fun _ _ _ => rfl⟩

theorem sysInv_run (ops : List ProcOp) (s : ProcSys) (h : SysInv s) :
    SysInv (ProcSys.run ops s) ∧ s.main.mirror.queue ≤ (ProcSys.run ops s).main.mirror.queue := by
  induction ops generalizing s with
  | nil => exact ⟨h, Nat.le_refl _⟩
  | cons o ops ih =>
    obtain ⟨h1, h2, _⟩ := sysInv_step o s h
    obtain ⟨h3, h4⟩ := ih _ h1
    exact ⟨h3, Nat.le_trans h2 h4⟩

theorem SysReach.inv {maxlen : Int} {s : ProcSys} (h : SysReach maxlen s) : SysInv s := by
  obtain ⟨s0, ops, h0, rfl⟩ := h
  exact (sysInv_run ops s0 (sysInv_start h0)).1

/-! ## C21 -/

/-- Only `stop_all_mirrors` and `reset_states` change the shared flag. -/
theorem step_closed (o : ProcOp) (s : ProcSys) (h1 : o ≠ .stopAll) (h2 : o ≠ .reset) :
    (ProcSys.step o s).net.closed = s.net.closed := by
  cases o with
  | take => rfl
  | mirror i c =>
    simp only [ProcSys.step]
    cases s.mirrors[i]? with
    | none => rfl
    | some m => exact (Mirror.exec_ownQueue c (m, s.net)).2.1
  | receive =>
    simp only [ProcSys.step, ProcSys.onMain]
    cases hq : s.net.queues s.main.mirror.queue with
    | nil => rw [receive_empty _ _ hq]
    | cons m ms =>
      obtain ⟨f, hf, he⟩ := receive_local m
      rw [he _ _ _ hq]; rfl
  | stopAll => exact absurd rfl h1
  | forceStop => exact (Net.put_spec s.main.mirror.queue .stop true none s.net).1
  | reset => exact absurd rfl h2
  | buffer c => cases c <;> rfl

theorem run_closed_true (ops : List ProcOp) (s : ProcSys) (hc : s.net.closed = some true)
    (h : .reset ∉ ops) : (ProcSys.run ops s).net.closed = some true := by
  induction ops generalizing s with
  | nil => exact hc
  | cons o ops ih =>
    refine ih _ ?_ (fun hm => h (List.mem_cons_of_mem _ hm))
    by_cases h1 : o = .stopAll
    · subst h1; rfl
    · rw [step_closed o s h1 (fun e => h (by simp [e]))]; exact hc

/-- **C21** From `stop_all_mirrors()` on, whatever happens except `reset_states()`, every `write()` on
every open mirror raises `StopIteration` and changes neither the mirror nor anything shared. -/
theorem C21_stopped (maxlen : Int) (s : ProcSys) (h : SysReach maxlen s) (ops : List ProcOp)
    (hr : .reset ∉ ops) (m : Mirror)
    (hm : m ∈ (ProcSys.run (.stopAll :: ops) s).mirrors) (ho : m.buf.closed = false) (d : PyStr) :
    Mirror.exec (.write d) (m, (ProcSys.run (.stopAll :: ops) s).net) =
      (.exc .stopIteration, (m, (ProcSys.run (.stopAll :: ops) s).net)) := by
  have hi := (h.run (.stopAll :: ops)).inv
  have hc : (ProcSys.run (.stopAll :: ops) s).net.closed = some true :=
    run_closed_true ops _ rfl hr
  generalize ProcSys.run (.stopAll :: ops) s = s' at *
  obtain ⟨hm1, _⟩ := hi.mirrors m hm
  rw [mreach_open hm1 ho]
  have hs : m.stopped s'.net = true := by
    simp [Mirror.stopped, (mreach_norm hm1).2.2, hc]
  simp [Mirror.exec, Mirror.write_open, Mirror.writeCore_open, hs, MRet.of]

/-- Two mirrors; the second one is taken after the stop. -/
example : ∃ s, SysReach 3 s ∧
    (ProcSys.run [.stopAll, .mirror 0 (.write (lit "a\n")), .take, .receive] s).mirrors.length = 2 :=
  ⟨ProcSys.run [.take] _, ⟨_, [.take], ⟨_, [], rfl, rfl⟩, rfl⟩, rfl⟩

/-! ## C22 -/

/-- **C22** is violated: a mirror with a partial line is stopped; leaving its context (`close`
without or with an exception, the `StopIteration`) raises and puts no end signal on the queue, and
`wait()` blocks. -/
theorem C22_violated : ¬ ∀ (maxlen : Int) (s : ProcSys) (i : Nat) (m : Mirror)
    (exc : Option ExcObj), SysReach maxlen s → s.net.room = [] → s.mirrors[i]? = some m →
    m.buf.closed = false →
    ∃ e ∈ (ProcSys.step (.mirror i (.close exc)) s).net.queues m.queue, IsEnd e := by
  intro h
  obtain ⟨e, he, _⟩ := h 5 _ 0 _ none
    ⟨_, [.take, .mirror 0 (.write (lit "abc")), .stopAll], ⟨_, [], rfl, rfl⟩, rfl⟩ rfl rfl rfl
  revert he
  show e ∈ [] → False
  simp

/-- **C22** ... and then `wait()` blocks although every mirror has left its context. -/
theorem C22_wait_blocks : ∃ s, SysReach 5 s ∧ s.mirrors.length = 1 ∧
    (∃ m, s.mirrors[0]? = some m ∧ Mirror.exec (.close none) (m, s.net) =
      (.exc .stopIteration, (m, s.net))) ∧
    (ProcBuf.wait ((ProcSys.step (.mirror 0 (.close none)) s).main,
      (ProcSys.step (.mirror 0 (.close none)) s).net)).1 = .error .blocked :=
  ⟨_, ⟨_, [.take, .mirror 0 (.write (lit "abc")), .stopAll], ⟨_, [], rfl, rfl⟩, rfl⟩, rfl,
    ⟨_, rfl, rfl⟩, rfl⟩

/-- `close` of an open mirror with room in the queue. -/
theorem close_open_sends (q : Nat) (m : Mirror) (hm1 : MReach q m) (ho : m.buf.closed = false)
    (n : Net) (hroom : n.room = []) (hs : n.closed ≠ some true ∨ m.buf.buf = [])
    (exc : Option ExcObj) :
    ∃ texts : List PyStr, ∃ s', Mirror.exec (.close exc) (m, n) = (.unit, s') ∧
      s'.1.buf.closed = true ∧
      s'.2.queues m.queue = n.queues m.queue ++ texts.map .str ++ [endSignal exc] := by
  have hst := (mreach_norm hm1).2.2
  have hput : ∀ (msg : QMsg) (n : Net), n.room = [] → m.netPut msg n =
      (.ok (), n.sendAll m.queue [msg]) := by
    intro msg n hn
    cases n
    simp only at hn
    subst hn
    simp only [Mirror.netPut, Net.put, Net.sendAll, List.headD_nil, List.tail_nil]
    cases m.block <;> cases m.timeout <;> simp
  have hend : Mirror.endMsg exc = endSignal exc := by cases exc <;> rfl
  rw [mreach_open hm1 ho]
  generalize hp : m.buf.buf = p at hs
  have key : ∀ (p' : PyStr) (texts : List PyStr),
      Mirror.newLine (m.withBuf p, n) =
        (.ok (), (m.withBuf p', n.sendAll m.queue (texts.map .str))) →
      ∃ s', Mirror.exec (.close exc) (m.withBuf p, n) = (.unit, s') ∧
        s'.1.buf.closed = true ∧
        s'.2.queues m.queue = n.queues m.queue ++ texts.map .str ++ [endSignal exc] := by
    intro p' texts hn
    refine ⟨(m.closedM, (n.sendAll m.queue (texts.map .str)).sendAll m.queue [endSignal exc]),
      ?_, rfl, ?_⟩
    · simp only [Mirror.exec, Mirror.close_open, hn, Mirror.put_apply, Mirror.withBuf_netPut]
      rw [hput _ _ (by exact hroom)]
      simp only [Mirror.clear_close, hend, MRet.of]
    · simp
  by_cases hpe : p = []
  · refine ⟨[], key p [] ?_⟩
    rw [Mirror.newLine_open, if_pos hpe]
    simp [Net.sendAll_nil]
  · have hns : m.stopped n = false := by
      rcases hs with hs | hs
      · simp only [Mirror.stopped, hst, Bool.true_and]
        cases hc : n.closed with
        | none => rfl
        | some b => cases b <;> simp_all
      · exact absurd hs hpe
    by_cases ha : m.aggressive = true
    · refine ⟨[lit "\n"], key p [lit "\n"] ?_⟩
      rw [Mirror.newLine_open, if_neg hpe, Mirror.writeCore_open]
      simp only [hns, Bool.false_eq_true, if_false, ha, if_true, hput _ _ hroom, Except.map]
      rfl
    · refine ⟨[p ++ lit "\n"], key [] [p ++ lit "\n"] ?_⟩
      rw [Mirror.newLine_open, if_neg hpe, Mirror.writeCore_open]
      have ha' : m.aggressive = false := by simpa using ha
      simp only [hns, Bool.false_eq_true, if_false, ha', Mirror.not_noBreak_newline,
        hput _ _ hroom, Except.map]
      rfl

/-- **C22** What does hold, in every state that can occur: with room in the queue, if the mirror is not
stopped or has no partial line, leaving its context returns normally, puts exactly one end signal on
the queue, behind everything else, and closes the mirror.  (Missing: a stopped mirror with a partial
line, where the claim fails.) -/
theorem C22_leave_sends_end_partial (maxlen : Int) (s : ProcSys) (h : SysReach maxlen s)
    (hroom : s.net.room = []) (m : Mirror) (hm : m ∈ s.mirrors) (ho : m.buf.closed = false)
    (hs : s.net.closed ≠ some true ∨ m.buf.buf = []) (exc : Option ExcObj) :
    ∃ texts : List PyStr, ∃ s', Mirror.exec (.close exc) (m, s.net) = (.unit, s') ∧
      s'.1.buf.closed = true ∧
      s'.2.queues m.queue = s.net.queues m.queue ++ texts.map .str ++ [endSignal exc] :=
  let ⟨hm1, _⟩ := h.inv.mirrors m hm
  close_open_sends _ m hm1 ho s.net hroom hs exc

/-- The conditions hold e.g. for a mirror that was stopped after a whole line. -/
example : ∃ s m, SysReach 5 s ∧ s.net.room = [] ∧ m ∈ s.mirrors ∧ m.buf.closed = false ∧
    s.net.closed = some true ∧ m.buf.buf = [] :=
  ⟨_, _, ⟨_, [.take, .mirror 0 (.write (lit "abc\n")), .stopAll], ⟨_, [], rfl, rfl⟩, rfl⟩, rfl,
    List.mem_cons_self, rfl, rfl, rfl⟩

/-! ## The records of the main buffer: C06, C25 -/

/-- The main buffer in every state that can occur: open and representing some log, or closed with
some items (errors and warnings received after the close). -/
def BaseInv (cap : Nat) (b : LineBuf) : Prop :=
  (∃ l : Log, Ok l ∧ l.closed = false ∧ l.cap = cap ∧ TextClean l.done ∧ b = rep l) ∨
  (b.lastLine = { buf := [], pos := 0, closed := true } ∧ b.storage.maxlen = cap ∧
    b.storage.items.length ≤ cap)

theorem arrive_clean (l : Log) (m : QMsg) (h : TextClean l.done) (hp : NoBreak l.part) :
    TextClean (arrive l m).done := by
  cases m with
  | str d =>
    intro i hi s hs
    simp only [arrive] at hi
    rcases List.mem_append.1 hi with hi | hi
    · exact h i hi s hs
    · obtain ⟨x, hx, rfl⟩ := List.mem_map.1 hi
      cases hs
      exact (lines_noBreak (lines_segFrom _ _ hp)).1 _ hx
  | error g =>
    intro i hi s hs
    simp only [arrive] at hi
    rcases List.mem_append.1 hi with hi | hi
    · exact h i hi s hs
    · rw [List.mem_singleton] at hi; rw [hi] at hs; cases hs
  | warning g =>
    intro i hi s hs
    simp only [arrive] at hi
    rcases List.mem_append.1 hi with hi | hi
    · exact h i hi s hs
    · rw [List.mem_singleton] at hi; rw [hi] at hs; cases hs
  | close => exact h
  | stop => exact h
  | other => exact h

/-- What a call does to a closed buffer (possibly with items). -/
theorem exec_closed_frame (c : Call) (b : LineBuf)
    (hb : b.lastLine = { buf := [], pos := 0, closed := true }) : (LineBuf.exec c b).2 = b := by
  obtain ⟨st, ll⟩ := b
  simp only at hb
  subst hb
  cases c <;> rfl

theorem append_length_le (d : Deque Item) (i : Item) (h : d.items.length ≤ d.maxlen) :
    (d.append i).items.length ≤ d.maxlen := by
  rw [Deque.append_eq d i h]; exact length_lastN_le _ _

theorem receive_closed (p : ProcBuf) (n : Net)
    (hb : p.base.lastLine = { buf := [], pos := 0, closed := true })
    (hl : p.base.storage.items.length ≤ p.base.storage.maxlen) :
    (ProcBuf.receive (p, n)).2.1.base.lastLine = { buf := [], pos := 0, closed := true } ∧
    (ProcBuf.receive (p, n)).2.1.base.storage.maxlen = p.base.storage.maxlen ∧
    (ProcBuf.receive (p, n)).2.1.base.storage.items.length ≤ p.base.storage.maxlen := by
  cases hq : n.queues p.mirror.queue with
  | nil => rw [receive_empty p n hq]; exact ⟨hb, rfl, hl⟩
  | cons m ms =>
    have hg : ProcBuf.get (p, n) = (.ok m, (p, ProcBuf.qset n p.mirror.queue ms)) := by
      simp only [ProcBuf.get]
      rw [hq]
      rfl
    unfold ProcBuf.receive
    rw [Py.bind_ok hg]
    cases m with
    | str d =>
      have : ∃ e, LineBuf.write d p.base = (.error e, p.base) := by
        generalize p.base = b at hb
        obtain ⟨st, ll⟩ := b
        simp only at hb
        subst hb
        exact ⟨_, rfl⟩
      obtain ⟨e, he⟩ := this
      dsimp only
      have hw : ProcBuf.onBase (LineBuf.write d) (p, ProcBuf.qset n p.mirror.queue ms) =
          (.error e, (p, ProcBuf.qset n p.mirror.queue ms)) := by
        simp only [ProcBuf.onBase, Py.onPart_apply, he]
      rw [Py.bind_error hw]
      exact ⟨hb, rfl, hl⟩
    | error g => exact ⟨hb, rfl, append_length_le _ _ hl⟩
    | warning g => exact ⟨hb, rfl, append_length_le _ _ hl⟩
    | close => exact ⟨hb, rfl, hl⟩
    | stop => exact ⟨hb, rfl, hl⟩
    | other => exact ⟨hb, rfl, hl⟩

/-- What reaches the records of the main buffer. -/
inductive Event where
  /-- a message is taken from the queue -/
  | msg (m : QMsg)
  /-- a method of the buffer is called -/
  | call (c : Call)

/-- What an operation of the system means for the records. -/
def eventOf (o : ProcOp) (s : ProcSys) : List Event :=
  match o with
  | .receive => (s.net.queues s.main.mirror.queue).head?.toList.map .msg
  | .buffer (.write _) => []
  | .buffer c => [.call c]
  | _ => []

/-- All events of a history. -/
def eventsOf : List ProcOp → ProcSys → List Event
  | [], _ => []
  | o :: os, s => eventOf o s ++ eventsOf os (ProcSys.step o s)

/-- The log after the events. -/
inductive Evolves : Log → List Event → Log → Prop
  | nil (l : Log) : Evolves l [] l
  | msg (l l' l'' : Log) (m : QMsg) (es : List Event) :
      Arrives l m l' → Evolves l' es l'' → Evolves l (.msg m :: es) l''
  | call (l l' l'' : Log) (c : Call) (r : Ret) (es : List Event) :
      Log.Step l c r l' → Evolves l' es l'' → Evolves l (.call c :: es) l''

theorem evolves_append {l l' l'' : Log} {a b : List Event} (h1 : Evolves l a l')
    (h2 : Evolves l' b l'') : Evolves l (a ++ b) l'' := by
  induction h1 with
  | nil => exact h2
  | msg l l1 l2 m es ha _ ih => exact .msg _ _ _ _ _ ha (ih h2)
  | call l l1 l2 c r es ha _ ih => exact .call _ _ _ _ _ _ ha (ih h2)

theorem base_step (o : ProcOp) (s : ProcSys) (l : Log) (ok : Ok l) (ho : l.closed = false)
    (hc : TextClean l.done) (hb : s.main.base = rep l) :
    (∃ l', Evolves l (eventOf o s) l' ∧ Ok l' ∧ l'.closed = false ∧ l'.cap = l.cap ∧
      TextClean l'.done ∧ (ProcSys.step o s).main.base = rep l') ∨
    (ProcSys.step o s).main.base = shut l.cap := by
  have hcall : ∀ c : Call, eventOf o s = [.call c] →
      (ProcSys.step o s).main.base = (LineBuf.exec c s.main.base).2 →
      (∃ l', Evolves l (eventOf o s) l' ∧ Ok l' ∧ l'.closed = false ∧ l'.cap = l.cap ∧
        TextClean l'.done ∧ (ProcSys.step o s).main.base = rep l') ∨
      (ProcSys.step o s).main.base = shut l.cap := by
    intro c he hs
    obtain ⟨l1, h1, hr, ok1, hcap⟩ := exec_refines c l ok
    rw [he, hs, hb, hr]
    cases hcl : l1.closed with
    | true => right; rw [rep_closed hcl, hcap]
    | false => exact .inl ⟨l1, .call _ _ _ _ _ _ h1 (.nil _), ok1, hcl, hcap, step_clean h1 ok hc, rfl⟩
  cases o with
  | take => exact .inl ⟨l, .nil _, ok, ho, rfl, hc, hb⟩
  | mirror i c =>
    refine .inl ⟨l, .nil _, ok, ho, rfl, hc, ?_⟩
    simp only [ProcSys.step]
    cases s.mirrors[i]? <;> exact hb
  | receive =>
    left
    cases hq : s.net.queues s.main.mirror.queue with
    | nil =>
      refine ⟨l, by simp only [eventOf, hq]; exact .nil _, ok, ho, rfl, hc, ?_⟩
      simp only [ProcSys.step, ProcSys.onMain]
      rw [receive_empty _ _ hq]; exact hb
    | cons m ms =>
      refine ⟨arrive l m, by simp only [eventOf, hq]; exact .msg _ _ _ _ _ (arrives_arrive l m ok.part) (.nil _),
        arrive_ok m ok ho, by rw [arrive_closed]; exact ho, arrive_cap l m, arrive_clean l m hc ok.part, ?_⟩
      simp only [ProcSys.step, ProcSys.onMain]
      rw [ProcBuf.receive_rep m ms l ok ho _ _ hb hq]
  | stopAll => exact .inl ⟨l, .nil _, ok, ho, rfl, hc, hb⟩
  | forceStop => exact .inl ⟨l, .nil _, ok, ho, rfl, hc, hb⟩
  | reset =>
    refine .inl ⟨l, .nil _, ok, ho, rfl, hc, ?_⟩
    simp only [ProcSys.step, ProcSys.onMain, ProcBuf.resetStates, Py.bind_apply, Py.gets_apply]
    by_cases hn : s.main.nMirrors > 0
    · simp only [hn, if_true, Py.raise_apply]; exact hb
    · simp only [hn, if_false, Py.bind_apply, Py.modify_apply]; exact hb
  | buffer c =>
    cases c with
    | write d => exact .inl ⟨l, .nil _, ok, ho, rfl, hc, hb⟩
    | newLine => exact hcall .newLine rfl rfl
    | read n => exact hcall (.read n) rfl rfl
    | len => exact hcall .len rfl rfl
    | maxlen => exact hcall .maxlen rfl rfl
    | clear => exact hcall .clear rfl rfl
    | flush => exact hcall .flush rfl rfl
    | close => exact hcall .close rfl rfl
    | closed => exact hcall .closed rfl rfl
    | readable => exact hcall .readable rfl rfl
    | writable => exact hcall .writable rfl rfl

theorem base_step_closed (o : ProcOp) (s : ProcSys) (cap : Nat)
    (h1 : s.main.base.lastLine = { buf := [], pos := 0, closed := true })
    (h2 : s.main.base.storage.maxlen = cap) (h3 : s.main.base.storage.items.length ≤ cap) :
    (ProcSys.step o s).main.base.lastLine = { buf := [], pos := 0, closed := true } ∧
    (ProcSys.step o s).main.base.storage.maxlen = cap ∧
    (ProcSys.step o s).main.base.storage.items.length ≤ cap := by
  cases o with
  | take => exact ⟨h1, h2, h3⟩
  | mirror i c =>
    simp only [ProcSys.step]
    cases s.mirrors[i]? <;> exact ⟨h1, h2, h3⟩
  | receive =>
    subst h2
    exact receive_closed s.main s.net h1 h3
  | stopAll => exact ⟨h1, h2, h3⟩
  | forceStop => exact ⟨h1, h2, h3⟩
  | reset =>
    simp only [ProcSys.step, ProcSys.onMain, ProcBuf.resetStates, Py.bind_apply, Py.gets_apply]
    by_cases hn : s.main.nMirrors > 0
    · simp only [hn, if_true, Py.raise_apply]; exact ⟨h1, h2, h3⟩
    · simp only [hn, if_false, Py.bind_apply, Py.modify_apply]; exact ⟨h1, h2, h3⟩
  | buffer c =>
    cases c with
    | write d => exact ⟨h1, h2, h3⟩
    | _ => simp only [ProcSys.step]; rw [exec_closed_frame _ _ h1]; exact ⟨h1, h2, h3⟩

theorem sys_base (ops : List ProcOp) (s : ProcSys) (cap : Nat) (l : Log) (ok : Ok l)
    (ho : l.closed = false) (hcap : l.cap = cap) (hc : TextClean l.done) (hb : s.main.base = rep l) :
    BaseInv cap (ProcSys.run ops s).main.base ∧
    ((ProcSys.run ops s).main.base.lastLine.closed = false →
      ∃ l', Evolves l (eventsOf ops s) l' ∧ Ok l' ∧ l'.closed = false ∧ l'.cap = cap ∧
        (ProcSys.run ops s).main.base = rep l') := by
  induction ops generalizing s l with
  | nil => exact ⟨.inl ⟨l, ok, ho, hcap, hc, hb⟩, fun _ => ⟨l, .nil _, ok, ho, hcap, hb⟩⟩
  | cons o ops ih =>
    rcases base_step o s l ok ho hc hb with ⟨l', he, ok', ho', hcap', hc', hb'⟩ | hsh
    · obtain ⟨h1, h2⟩ := ih _ l' ok' ho' (hcap'.trans hcap) hc' hb'
      refine ⟨h1, fun hopen => ?_⟩
      obtain ⟨l2, h3, h4⟩ := h2 hopen
      exact ⟨l2, evolves_append he h3, h4⟩
    · have H : ∀ (ops : List ProcOp) (s : ProcSys),
          s.main.base.lastLine = { buf := [], pos := 0, closed := true } →
          s.main.base.storage.maxlen = cap → s.main.base.storage.items.length ≤ cap →
          (ProcSys.run ops s).main.base.lastLine = { buf := [], pos := 0, closed := true } ∧
          (ProcSys.run ops s).main.base.storage.maxlen = cap ∧
          (ProcSys.run ops s).main.base.storage.items.length ≤ cap := by
        intro ops
        induction ops with
        | nil => intro s h1 h2 h3; exact ⟨h1, h2, h3⟩
        | cons o ops ih =>
          intro s h1 h2 h3
          obtain ⟨g1, g2, g3⟩ := base_step_closed o s cap h1 h2 h3
          exact ih _ g1 g2 g3
      obtain ⟨g1, g2, g3⟩ := H ops (ProcSys.step o s) (by rw [hsh]; rfl) (by rw [hsh]; exact hcap)
        (by rw [hsh]; exact Nat.zero_le _)
      refine ⟨.inr ⟨g1, g2, g3⟩, fun hopen => ?_⟩
      exfalso
      have : (ProcSys.run (o :: ops) s).main.base.lastLine.closed = true := congrArg StringIO.closed g1
      rw [this] at hopen; cases hopen

theorem sysStart_base {maxlen : Int} {s : ProcSys} (h : SysStart maxlen s) :
    s.main.base = rep { cap := maxlen.toNat } ∧ Ok { cap := maxlen.toNat } ∧ s.main.nMirrors = 0 ∧
      s.mirrors = [] ∧ s.main.mirror = Mirror.new 0 ∧ s.net.closed = some false ∧
      s.net.queues = fun _ => [] := by
  obtain ⟨p0, room, hp, rfl⟩ := h
  simp only [ProcBuf.new, LineBuf.new] at hp
  split at hp
  · cases hp
  · cases hp
    exact ⟨by simp [rep, opened], ⟨by simp; omega, noBreak_nil, by simp⟩, rfl, rfl, rfl, rfl, rfl⟩

theorem SysReach.base {maxlen : Int} {s : ProcSys} (h : SysReach maxlen s) :
    BaseInv maxlen.toNat s.main.base := by
  obtain ⟨s0, ops, h0, rfl⟩ := h
  obtain ⟨h1, h2, _⟩ := sysStart_base h0
  exact (sys_base ops s0 _ _ h2 rfl rfl (by intro i hi; cases hi) h1).1

/-- **C25** In every state of the system that can occur with an open main buffer, after any history of
everything: the buffer behaves like the log that evolved by the messages taken from the queue, in the
order in which they were taken, and by the calls of the buffer's own methods. -/
theorem C25_system (maxlen : Int) (s0 : ProcSys) (h : SysStart maxlen s0) (ops : List ProcOp)
    (ho : (ProcSys.run ops s0).main.base.lastLine.closed = false) :
    ∃ l, Evolves { cap := maxlen.toNat } (eventsOf ops s0) l ∧
      Holds (ProcSys.run ops s0).main.base l := by
  obtain ⟨h1, h2, _⟩ := sysStart_base h
  obtain ⟨l, he, ok, _, _, hb⟩ :=
    (sys_base ops s0 _ _ h2 rfl rfl (by intro i hi; cases hi) h1).2 ho
  exact ⟨l, he, by rw [hb]; exact holds_rep ok⟩

/-- Two mirrors, a warning, and a `read` in between. -/
example : ∃ s0, SysStart 3 s0 ∧
    (ProcSys.run [.take, .take, .mirror 0 (.write (lit "a\n")), .mirror 1 (.write (lit "b\nc")),
      .receive, .buffer (.read none), .receive] s0).main.base.lastLine.closed = false ∧
    (LineBuf.exec (.read none) (ProcSys.run [.take, .take, .mirror 0 (.write (lit "a\n")),
      .mirror 1 (.write (lit "b\nc")), .receive, .buffer (.read none), .receive] s0).main.base).1 =
      .items [.str (lit "a"), .str (lit "b"), .str (lit "c")] :=
  ⟨_, ⟨_, [], rfl, rfl⟩, rfl, rfl⟩

/-- **C06** (process mode) In every state that can occur, every text item that `read` returns is free of
line terminators. -/
theorem C06_process (maxlen : Int) (s : ProcSys) (h : SysReach maxlen s) (size : Option Int)
    (r : List Item) (hr : (LineBuf.exec (.read size) s.main.base).1 = .items r) :
    ∀ t, .str t ∈ r → NoBreak t := by
  rcases h.base with ⟨l, ok, ho, hcap, hc, hb⟩ | ⟨h1, _⟩
  · rw [hb] at hr
    have hview : TextClean l.view := by
      intro i hi s hs
      have := mem_of_mem_lastN hi
      unfold Log.all at this
      rcases List.mem_append.1 this with h | h
      · exact hc i h s hs
      · split at h
        · cases h
        · rw [List.mem_singleton] at h
          rw [h] at hs; cases hs; exact ok.part
    obtain ⟨l', hs, _⟩ := exec_refines (.read size) l ok
    rw [hr] at hs
    intro t ht
    cases hs with
    | readAll => exact hview _ ht _ rfl
    | readSize n => exact hview _ (mem_of_mem_lastN ht) _ rfl
    | readNonPos => cases ht
  · exfalso
    generalize s.main.base = b at h1 hr
    obtain ⟨st, ll⟩ := b
    simp only at h1
    subst h1
    cases hr

/-- **C02** (process mode) never more than `maxlen` items. -/
theorem C02_process (maxlen : Int) (s : ProcSys) (h : SysReach maxlen s) :
    s.main.base.storage.items.length ≤ maxlen.toNat ∧
    (∀ size r, (LineBuf.exec (.read size) s.main.base).1 = .items r → r.length ≤ maxlen.toNat) ∧
    (∀ n, (LineBuf.exec .len s.main.base).1 = .nat n → n ≤ maxlen.toNat) := by
  have hpos : 1 ≤ maxlen.toNat := by
    obtain ⟨s0, _, h0, _⟩ := h
    exact (sysStart_base h0).2.1.cap
  rcases h.base with ⟨l, ok, ho, hcap, hc, hb⟩ | ⟨h1, h2, h3⟩
  · refine ⟨?_, ?_, ?_⟩
    · rw [hb, rep_open ho, ← hcap]; exact length_lastN_le _ _
    · intro size r hr
      rw [hb] at hr
      obtain ⟨l', hs, _⟩ := exec_refines (.read size) l ok
      rw [hr] at hs
      rw [← hcap]
      cases hs with
      | readAll => exact length_lastN_le _ _
      | readSize n =>
        rw [length_lastN]
        have : l.view.length ≤ l.cap := length_lastN_le _ _
        omega
      | readNonPos => exact Nat.zero_le _
    · intro n hn
      rw [hb] at hn
      obtain ⟨l', hs, _⟩ := exec_refines .len l ok
      rw [hn] at hs
      rw [← hcap]
      cases hs
      omega
  · refine ⟨h3, ?_, ?_⟩
    · intro size r hr
      clear h2 h3
      generalize s.main.base = b at h1 hr
      obtain ⟨st, ll⟩ := b
      simp only at h1
      subst h1
      cases hr
    · intro n hn
      simp only [LineBuf.exec, LineBuf.len, LineBuf.maxlen, h2, Ret.of, Ret.nat.injEq] at hn
      split at hn <;> omega

/-! ## C28 -/

/-- The first message at which `wait` returns, if there is one. -/
theorem cont_split (k : Int) (ms : List QMsg) :
    (∃ k', cont k ms = some k') ∨
    ∃ a m b k', ms = a ++ m :: b ∧ cont k a = some k' ∧ (goes k' m).1 = false := by
  induction ms generalizing k with
  | nil => exact .inl ⟨k, rfl⟩
  | cons m ms ih =>
    by_cases hg : (goes k m).1 = true
    · rcases ih (goes k m).2 with ⟨k', h⟩ | ⟨a, m', b, k', h1, h2, h3⟩
      · exact .inl ⟨k', by simp only [cont, hg, if_true]; exact h⟩
      · exact .inr ⟨m :: a, m', b, k', by rw [h1]; rfl, by simp only [cont, hg, if_true]; exact h2, h3⟩
    · exact .inr ⟨[], m, ms, k, rfl, rfl, by simpa using hg⟩

/-- **C28** After `force_stop()` (with room in the queue) `wait()` returns in every state of the system
that can occur with an open main buffer, whatever the number of live mirrors and whatever later
messages follow: it consumes at most the messages sent before and the stop message. -/
theorem C28_force_stop_returns (maxlen : Int) (s : ProcSys) (h : SysReach maxlen s)
    (ho : s.main.base.lastLine.closed = false) (hroom : s.net.room = []) (later : List QMsg)
    (n : Net) (hn : n.queues s.main.mirror.queue =
      (ProcSys.step .forceStop s).net.queues s.main.mirror.queue ++ later) :
    ∃ p' n' left, ProcBuf.wait (s.main, n) = (.ok (), (p', n')) ∧
      n'.queues s.main.mirror.queue = left ++ later := by
  have hq : (ProcSys.step .forceStop s).net.queues s.main.mirror.queue =
      s.net.queues s.main.mirror.queue ++ [.stop] := by
    simp only [ProcSys.step, ProcSys.onMain, ProcBuf.forceStop, Net.put, hroom, List.headD_nil]
    simp
  rw [hq] at hn
  generalize s.net.queues s.main.mirror.queue = ms at hn
  rcases h.base with ⟨l, ok, hol, hcap, hc, hb⟩ | ⟨h1, _⟩
  · rcases cont_split s.main.nMirrors ms with ⟨k', hk⟩ | ⟨a, m, b, k', rfl, hk, hg⟩
    · refine ⟨_, _, [], ProcBuf.wait_returns ms .stop later l ok hol s.main n hb ?_ k' hk rfl, ?_⟩
      · rw [hn]; simp
      · simp
    · refine ⟨_, _, b ++ [.stop], ProcBuf.wait_returns a m (b ++ [.stop] ++ later) l ok hol s.main n hb ?_ k' hk hg, ?_⟩
      · rw [hn]; simp
      · simp
  · rw [h1] at ho; cases ho

/-- **C28** If fewer end signals than mirrors were sent before it, exactly the messages before it are
received, and no mirror is counted any more. -/
theorem C28_force_stop_consumes (maxlen : Int) (s : ProcSys) (h : SysReach maxlen s)
    (ho : s.main.base.lastLine.closed = false) (ms later : List QMsg) (n : Net)
    (hn : n.queues s.main.mirror.queue = ms ++ .stop :: later)
    (hms : ∀ m ∈ ms, IsBody m ∨ IsEnd m) (hk : (ms.countP isEnd : Int) < s.main.nMirrors) :
    ∃ p' n' l l', ProcBuf.wait (s.main, n) = (.ok (), (p', n')) ∧
      n'.queues s.main.mirror.queue = later ∧ p'.nMirrors = 0 ∧
      Holds s.main.base l ∧ Replays l ms l' ∧ Holds p'.base l' := by
  rcases h.base with ⟨l, ok, hol, hcap, hc, hb⟩ | ⟨h1, _⟩
  · refine ⟨_, _, l, ms.foldl arrive l, ProcBuf.wait_returns ms .stop later l ok hol s.main n hb hn _
      (cont_ends ms _ hms hk) rfl, by simp, rfl, by rw [hb]; exact holds_rep ok,
      replays_foldl ms l ok.part, ?_⟩
    simp only [List.foldl_append, List.foldl_cons, List.foldl_nil, arrive]
    exact holds_rep (foldl_arrive_ok ms l ok hol)
  · rw [h1] at ho; cases ho

/-- **C28** `reset_states()` raises `TypeError` exactly when mirrors are still counted, and then changes
nothing; otherwise the mirrors are not stopped any more, the records are unchanged, and the new queue is
empty. -/
theorem C28_reset (maxlen : Int) (s : ProcSys) (h : SysReach maxlen s) :
    (s.main.nMirrors > 0 → ProcBuf.resetStates (s.main, s.net) = (.error .typeError, (s.main, s.net))) ∧
    (¬ s.main.nMirrors > 0 → ∃ p' n', ProcBuf.resetStates (s.main, s.net) = (.ok (), (p', n')) ∧
      n'.closed = some false ∧ p'.base = s.main.base ∧ p'.nMirrors = s.main.nMirrors ∧
      n'.queues p'.mirror.queue = [] ∧ ∀ m ∈ s.mirrors, m.queue ≠ p'.mirror.queue) := by
  constructor
  · intro hn
    simp only [ProcBuf.resetStates, Py.bind_apply, Py.gets_apply, hn, if_true, Py.raise_apply]
  · intro hn
    refine ⟨{ s.main with
      mirror := Mirror.new s.main.nextQueue, nextQueue := s.main.nextQueue + 1 },
      { s.net with closed := some false }, ?_, ?_⟩
    · simp only [ProcBuf.resetStates, Py.bind_apply, Py.gets_apply, hn, if_false, Py.modify_apply]
    · refine ⟨rfl, rfl, rfl, h.inv.fresh _ (Nat.le_refl _), ?_⟩
      intro m hm
      have h1 := (h.inv.mirrors m hm).2
      have h2 := h.inv.next
      show m.queue ≠ s.main.nextQueue
      omega

/-- The two runs look the same to the main buffer and to the mirrors from index `k` on; mirrors below
`k` use queues below `q`. -/
structure SameFrom (k q : Nat) (s t : ProcSys) : Prop where
  main : s.main = t.main
  closed : s.net.closed = t.net.closed
  roomS : s.net.room = []
  roomT : t.net.room = []
  len : s.mirrors.length = t.mirrors.length
  new : ∀ i, k ≤ i → s.mirrors[i]? = t.mirrors[i]?
  old : ∀ i m, i < k → s.mirrors[i]? = some m → m.queue < q
  cur : q ≤ s.main.mirror.queue
  queues : ∀ i, q ≤ i → s.net.queues i = t.net.queues i
  bound : k ≤ s.mirrors.length
  next : s.main.mirror.queue ≤ s.main.nextQueue

/-- The operation is a call of a mirror with a number below `k`. -/
def ofOld (k : Nat) : ProcOp → Bool
  | .mirror i _ => decide (i < k)
  | _ => false

theorem sameFrom_mirror {k q : Nat} {s t : ProcSys} (h : SameFrom k q s t) (i : Nat) (c : MCall)
    (hi : k ≤ i) : SameFrom k q (ProcSys.step (.mirror i c) s) (ProcSys.step (.mirror i c) t) := by
  have hn := h.new i hi
  simp only [ProcSys.step]
  cases hm : s.mirrors[i]? with
  | none => rw [hm] at hn; rw [← hn]; exact h
  | some m =>
    rw [hm] at hn
    rw [← hn]
    obtain ⟨r, m', sent, hq, _, he⟩ := Mirror.exec_loc (fun _ => True) (fun _ => trivial)
      (fun _ => trivial) c (.inr ⟨trivial, fun _ => trivial⟩) m s.net.closed
    dsimp only
    rw [he s.net rfl h.roomS, he t.net h.closed.symm h.roomT]
    refine ⟨h.main, h.closed, h.roomS, h.roomT, by simp [h.len], ?_, ?_, h.cur, ?_, by simp [h.bound],
      h.next⟩
    · intro j hj
      simp only [List.getElem?_set, h.len]
      split
      · rfl
      · exact h.new j hj
    · intro j x hj hx
      rw [List.getElem?_set_ne (by omega)] at hx
      exact h.old j x hj hx
    · intro j hj
      simp only [Net.sendAll]
      split
      · rename_i hjm
        rw [← hjm, h.queues j hj]
      · exact h.queues j hj

theorem sameFrom_old {k q : Nat} {s t : ProcSys} (h : SameFrom k q s t) (i : Nat) (c : MCall)
    (hi : i < k) : SameFrom k q (ProcSys.step (.mirror i c) s) t := by
  simp only [ProcSys.step]
  cases hm : s.mirrors[i]? with
  | none => exact h
  | some m =>
    obtain ⟨r, m', sent, hq, _, he⟩ := Mirror.exec_loc (fun _ => True) (fun _ => trivial)
      (fun _ => trivial) c (.inr ⟨trivial, fun _ => trivial⟩) m s.net.closed
    dsimp only
    rw [he s.net rfl h.roomS]
    have hmq := h.old i m hi hm
    refine ⟨h.main, h.closed, h.roomS, h.roomT, by simp [h.len], ?_, ?_, h.cur, ?_, by simp [h.bound],
      h.next⟩
    · intro j hj
      rw [List.getElem?_set_ne (by omega)]
      exact h.new j hj
    · intro j x hj hx
      rw [List.getElem?_set] at hx
      split at hx
      · split at hx
        · cases hx; rw [hq]; exact hmq
        · cases hx
      · exact h.old j x hj hx
    · intro j hj
      simp only [Net.sendAll]
      rw [if_neg (by omega)]
      exact h.queues j hj

theorem sameFrom_step {k q : Nat} {s t : ProcSys} (h : SameFrom k q s t) (o : ProcOp)
    (ho : ofOld k o = false) : SameFrom k q (ProcSys.step o s) (ProcSys.step o t) := by
  cases o with
  | take =>
    simp only [ProcSys.step, ProcSys.onMain, ProcBuf.takeMirror]
    refine ⟨by rw [h.main], h.closed, h.roomS, h.roomT, by simp [h.len], ?_, ?_, h.cur, h.queues,
      by have := h.bound; simp; omega, h.next⟩
    · intro i hi
      rw [List.getElem?_append, List.getElem?_append, h.len, h.main]
      split
      · exact h.new i hi
      · rfl
    · intro i m hi hm
      rw [List.getElem?_append_left (by have := h.bound; omega)] at hm
      exact h.old i m hi hm
  | mirror i c => exact sameFrom_mirror h i c (by simpa [ofOld] using ho)
  | receive =>
    simp only [ProcSys.step, ProcSys.onMain]
    have hqq := h.queues _ h.cur
    cases hq : s.net.queues s.main.mirror.queue with
    | nil =>
      rw [receive_empty _ _ hq]
      rw [hq] at hqq
      rw [receive_empty _ _ (by rw [← h.main]; exact hqq.symm)]
      exact h
    | cons m ms =>
      obtain ⟨f, hf, he⟩ := receive_local m
      rw [hq] at hqq
      rw [he _ _ _ hq, he t.main t.net ms (by rw [← h.main]; exact hqq.symm), ← h.main]
      obtain ⟨f1, f2⟩ := hf s.main
      refine ⟨rfl, h.closed, h.roomS, h.roomT, h.len, h.new, h.old, by rw [f1]; exact h.cur, ?_,
        h.bound, by rw [f1, f2]; exact h.next⟩
      intro i hi
      simp only [ProcBuf.qset]
      split
      · rfl
      · exact h.queues i hi
  | stopAll =>
    exact ⟨h.main, rfl, h.roomS, h.roomT, h.len, h.new, h.old, h.cur, h.queues, h.bound, h.next⟩
  | forceStop =>
    simp only [ProcSys.step, ProcSys.onMain, ProcBuf.forceStop, Net.put, h.roomS, h.roomT,
      List.headD_nil, if_true, List.tail_nil]
    refine ⟨h.main, h.closed, rfl, rfl, h.len, h.new, h.old, h.cur, ?_, h.bound, h.next⟩
    intro i hi
    dsimp only
    rw [← h.main, h.queues _ h.cur, h.queues i hi]
  | reset =>
    simp only [ProcSys.step, ProcSys.onMain, ProcBuf.resetStates, Py.bind_apply, Py.gets_apply,
      ← h.main]
    by_cases hn : s.main.nMirrors > 0
    · simp only [hn, if_true, Py.raise_apply]
      exact ⟨rfl, h.closed, h.roomS, h.roomT, h.len, h.new, h.old, h.cur, h.queues, h.bound, h.next⟩
    · simp only [hn, if_false, Py.bind_apply, Py.modify_apply]
      exact ⟨rfl, rfl, h.roomS, h.roomT, h.len, h.new, h.old,
        Nat.le_trans h.cur h.next, h.queues, h.bound, Nat.le_succ _⟩
  | buffer c =>
    cases c with
    | write d => exact h
    | _ =>
      exact ⟨by simp only [ProcSys.step]; rw [h.main], h.closed, h.roomS, h.roomT, h.len, h.new, h.old,
        h.cur, h.queues, h.bound, h.next⟩

/-- **C28** After `reset_states()`, earlier mirrors have no influence on the buffer: for every later
history, leaving out every use of an earlier mirror (number below `s.mirrors.length`) gives the same
main buffer, in every respect. -/
theorem C28_old_mirrors_detached (maxlen : Int) (s : ProcSys) (h : SysReach maxlen s)
    (hroom : s.net.room = []) (hn : ¬ s.main.nMirrors > 0) (ops : List ProcOp) :
    (ProcSys.run ops (ProcSys.step .reset s)).main =
      (ProcSys.run (ops.filter (fun o => !ofOld s.mirrors.length o)) (ProcSys.step .reset s)).main := by
  have h0 : SameFrom s.mirrors.length s.main.nextQueue (ProcSys.step .reset s)
      (ProcSys.step .reset s) := by
    have hi := h.inv
    have : ProcSys.step .reset s = { s with
      main := { s.main with
        mirror := Mirror.new s.main.nextQueue, nextQueue := s.main.nextQueue + 1 }
      net := { s.net with closed := some false } } := by
      simp only [ProcSys.step, ProcSys.onMain, ProcBuf.resetStates, Py.bind_apply, Py.gets_apply, hn,
        if_false, Py.modify_apply]
    rw [this]
    refine ⟨rfl, rfl, hroom, hroom, rfl, fun _ _ => rfl, ?_, Nat.le_refl _, fun _ _ => rfl,
      Nat.le_refl _, Nat.le_succ _⟩
    intro i m _ hm
    have h1 := (hi.mirrors m (List.mem_of_getElem? hm)).2
    have h2 := hi.next
    omega
  generalize ProcSys.step .reset s = s1 at h0
  suffices H : ∀ a b, SameFrom s.mirrors.length s.main.nextQueue a b →
      SameFrom s.mirrors.length s.main.nextQueue (ProcSys.run ops a)
        (ProcSys.run (ops.filter (fun o => !ofOld s.mirrors.length o)) b) from (H _ _ h0).main
  clear h0
  induction ops with
  | nil => intro a b h; exact h
  | cons o ops ih =>
    intro a b hab
    cases ho : ofOld s.mirrors.length o with
    | true =>
      rw [List.filter_cons_of_neg (by simp [ho])]
      refine ih _ _ ?_
      cases o with
      | mirror i c => exact sameFrom_old hab i c (by simpa [ofOld] using ho)
      | _ => cases ho
    | false =>
      rw [List.filter_cons_of_pos (by simp [ho])]
      exact ih _ _ (sameFrom_step hab o ho)

/-- An old mirror writes after the reset; the new mirror's text is all that is received. -/
example : ∃ s, SysReach 3 s ∧ s.net.room = [] ∧ ¬ s.main.nMirrors > 0 ∧ s.mirrors.length = 1 ∧
    (LineBuf.exec (.read none) (ProcSys.run [.take, .mirror 0 (.write (lit "old\n")),
      .mirror 1 (.write (lit "new\n")), .receive, .receive] (ProcSys.step .reset s)).main.base).1 =
      .items [.str (lit "new")] :=
  ⟨_, ⟨_, [.take, .forceStop, .receive], ⟨_, [], rfl, rfl⟩, rfl⟩, rfl, by decide, rfl, rfl⟩

/-! ## C24 for programs of the processes -/

namespace Mirror

/-- Calls other than `close` leave the mirror open. -/
theorem exec_body_open (c : MCall) (hc : ∀ e, c ≠ .close e) (q : Nat) (m : Mirror) (h : MReach q m) (n : Net)
    (ho : m.buf.closed = false) : (exec c (m, n)).2.1.buf.closed = false := by
  rw [mreach_open h ho]
  generalize m.buf.buf = p
  have hwc : ∀ d, (writeCore d (m.withBuf p, n)).2.1.buf.closed = false := by
    intro d
    rw [writeCore_open]
    split
    · rfl
    · split
      · rfl
      · split
        · rfl
        · cases m.netPut (.str (p ++ d)) n with
          | mk r n' => cases r <;> rfl
  have hnl : (newLine (m.withBuf p, n)).2.1.buf.closed = false := by
    rw [newLine_open]
    split
    · rfl
    · exact hwc _
  have hsend : ∀ msg, ((do if ← closed then return ()
                           newLine
                           put msg : Py MNet Unit) (m.withBuf p, n)).2.1.buf.closed = false := by
    intro msg
    rw [send_open]
    cases hx : newLine (m.withBuf p, n) with
    | mk r s' =>
      rw [hx] at hnl
      cases r <;> exact hnl
  cases c with
  | write d => simp only [exec, write_open]; exact hwc d
  | newLine => exact hnl
  | read size => simp only [exec, read_open]; rfl
  | clear => simp only [exec, clear_open]; rfl
  | flush => rfl
  | sendData d => simp only [exec, sendData_open]; rfl
  | sendEof => exact hsend _
  | sendError e => exact hsend _
  | sendWarning e => exact hsend _
  | close e => exact absurd rfl (hc e)
  | closed => rfl
  | readable => rfl
  | writable => rfl
  | setTimeout t => rfl
  | setAggressive a => rfl

/-- A whole program of a mirror, with room in the queue. -/
theorem run_loc (P : QMsg → Prop) (cs : List MCall) (hP : ∀ c ∈ cs, LocCall P c) (m : Mirror)
    (cl : Option Bool) : ∃ rs m' sent, m'.queue = m.queue ∧ (∀ x ∈ sent, P x) ∧
      ∀ n : Net, n.closed = cl → n.room = [] → run cs (m, n) = (rs, (m', n.sendAll m.queue sent)) := by
  induction cs generalizing m with
  | nil => exact ⟨[], m, [], rfl, by simp, fun n _ _ => by rw [Net.sendAll_nil]; rfl⟩
  | cons c cs ih =>
    obtain ⟨r, m1, s1, q1, p1, h1⟩ := hP c List.mem_cons_self m cl
    obtain ⟨rs, m2, s2, q2, p2, h2⟩ := ih (fun c hc => hP c (List.mem_cons_of_mem _ hc)) m1
    refine ⟨r :: rs, m2, s1 ++ s2, q2.trans q1, ?_, fun n hn hr => ?_⟩
    · intro x hx
      rcases List.mem_append.1 hx with h | h
      · exact p1 x h
      · exact p2 x h
    · simp only [run]
      rw [h1 n hn hr]
      dsimp only
      rw [h2 _ (by exact hn) (by exact hr), q1, Net.sendAll_sendAll]

theorem run_reach (q : Nat) (cs : List MCall) (m : Mirror) (n : Net) (h : MReach q m) :
    MReach q (run cs (m, n)).2.1 := by
  induction cs generalizing m n with
  | nil => exact h
  | cons c cs ih => exact ih _ _ (.call c m n h)

theorem run_body_open (q : Nat) (cs : List MCall) (hc : ∀ c ∈ cs, ∀ e, c ≠ .close e) (m : Mirror)
    (n : Net) (h : MReach q m) (ho : m.buf.closed = false) :
    (run cs (m, n)).2.1.buf.closed = false := by
  induction cs generalizing m n with
  | nil => exact ho
  | cons c cs ih =>
    exact ih (fun c h => hc c (List.mem_cons_of_mem _ h)) _ _ (.call c m n h)
      (exec_body_open c (hc c List.mem_cons_self) q m h n ho)

end Mirror

/-- A program of a process: any calls of its mirror except the ones that send an end signal, and at
last `close` (as leaving the context does). -/
def ProperProgram (cs : List MCall) : Prop :=
  ∃ body exc, cs = body ++ [.close exc] ∧ ∀ c ∈ body, Mirror.isBodyCall c = true

/-- The messages that a program puts on the queue when nobody else uses it. -/
def sentBy (cs : List MCall) : List QMsg := (Mirror.run cs (Mirror.new 0, {})).2.2.queues 0

theorem program_proper {cs : List MCall} (h : ProperProgram cs) : ProperStream (sentBy cs) := by
  obtain ⟨body, exc, rfl, hb⟩ := h
  have hl : ∀ c ∈ body, Mirror.LocCall IsBody c := fun c hc =>
    Mirror.exec_loc IsBody (fun _ => trivial) (fun _ => trivial) c (.inl (hb c hc))
  obtain ⟨rs, m', sent, hq, hs, hr⟩ := Mirror.run_loc IsBody body hl (Mirror.new 0) (some false)
  have hr0 := hr {} rfl rfl
  have hmr : MReach 0 m' := by
    have := Mirror.run_reach 0 body (Mirror.new 0) {} (.new false none)
    rw [hr0] at this; exact this
  have hmo : m'.buf.closed = false := by
    have := Mirror.run_body_open 0 body (by
      intro c hc e he
      have := hb c hc
      rw [he] at this; cases this) (Mirror.new 0) {} (.new false none) rfl
    rw [hr0] at this; exact this
  obtain ⟨texts, s', h1, _, h2⟩ := close_open_sends 0 m' hmr hmo
    (({} : Net).sendAll (Mirror.new 0).queue sent) rfl (.inl (fun h => by cases h)) exc
  refine ⟨sent ++ texts.map .str, endSignal exc, ?_, ?_, ?_⟩
  · unfold sentBy
    rw [mrun_append, hr0]
    dsimp only [Mirror.run]
    rw [h1]
    dsimp only
    have : m'.queue = 0 := hq
    rw [this] at h2
    rw [h2]
    simp [Net.sendAll, Mirror.new]
  · intro m hm
    rcases List.mem_append.1 hm with h | h
    · exact hs m h
    · obtain ⟨t, _, rfl⟩ := List.mem_map.1 h; trivial
  · cases exc <;> trivial

/-- **C24, C25** Any number `N ≥ 1` of processes run any programs on their mirrors, each ending with
`close`; with room in the queue and under every interleaving of the messages, `wait()` returns having
consumed all of them, and the buffer holds what they amount to in queue order. -/
theorem C24_programs (maxlen : Int) (p : ProcBuf) (n : Net) (progs : List (List MCall))
    (hN : progs ≠ []) (hp : Started maxlen progs.length p) (hprog : ∀ cs ∈ progs, ProperProgram cs)
    (msgs later : List QMsg) (hm : Merge (progs.map sentBy) msgs)
    (hq : n.queues p.mirror.queue = msgs ++ later) :
    ∃ p' n' l, ProcBuf.wait (p, n) = (.ok (), (p', n')) ∧
      n'.queues p.mirror.queue = later ∧ p'.nMirrors = 0 ∧
      Replays { cap := maxlen.toNat } msgs l ∧ Holds p'.base l := by
  refine C24_wait_returns maxlen p n (progs.map sentBy) msgs later (by simpa using hN)
    (by simpa using hp) ?_ hm hq
  intro s hs
  obtain ⟨cs, hcs, rfl⟩ := List.mem_map.1 hs
  exact program_proper (hprog cs hcs)

/-- The calls of mirror `i` in a history. -/
def callsOf (i : Nat) (ops : List (Nat × MCall)) : List MCall :=
  (ops.filter (fun o => o.1 == i)).map (·.2)

/-- The system after taking `N` mirrors from a new buffer, with room in the queue for ever. -/
def withMirrors (p0 : ProcBuf) (N : Nat) : ProcSys :=
  ProcSys.run (List.replicate N .take) { main := p0 }

theorem withMirrors_eq (p0 : ProcBuf) (N : Nat) : withMirrors p0 N =
    { main := { p0 with nMirrors := p0.nMirrors + N }, mirrors := List.replicate N p0.mirror,
      net := {} } := by
  unfold withMirrors
  induction N with
  | zero => simp [ProcSys.run]
  | succ N ih =>
    rw [List.replicate_succ', sysRun_append, ih]
    simp only [ProcSys.run, List.foldl_cons, List.foldl_nil, ProcSys.step, ProcSys.onMain, ProcBuf.takeMirror,
      ← List.replicate_succ', ProcSys.mk.injEq, and_true, ProcBuf.mk.injEq, true_and]
    push_cast; omega

theorem callsOf_snoc (i : Nat) (ops : List (Nat × MCall)) (o : Nat × MCall) :
    callsOf i (ops ++ [o]) = callsOf i ops ++ if o.1 = i then [o.2] else [] := by
  simp only [callsOf, List.filter_append, List.map_append]
  congr 1
  by_cases h : o.1 = i <;> simp [h]

/-- **C24** In the system, whatever the processes call on their mirrors and in which order: the queue is
an interleaving of what each of them would have sent alone, and each mirror is in the state in which
its own calls have put it. -/
theorem C24_queue_interleaves (maxlen : Int) (p0 : ProcBuf) (h : ProcBuf.new maxlen = .ok p0) (N : Nat)
    (ops : List (Nat × MCall)) :
    Merge ((List.range N).map fun i => sentBy (callsOf i ops))
      ((ProcSys.run (ops.map fun o => .mirror o.1 o.2) (withMirrors p0 N)).net.queues 0) ∧
    (ProcSys.run (ops.map fun o => .mirror o.1 o.2) (withMirrors p0 N)).main =
      { p0 with nMirrors := N } := by
  have hp0 : p0.mirror = Mirror.new 0 ∧ p0.nMirrors = 0 := by
    simp only [ProcBuf.new, LineBuf.new] at h
    split at h
    · cases h
    · cases h; exact ⟨rfl, rfl⟩
  suffices H : ∃ s : ProcSys, ProcSys.run (ops.map fun o => .mirror o.1 o.2) (withMirrors p0 N) = s ∧
      s.main = { p0 with nMirrors := N } ∧ s.net.closed = some false ∧ s.net.room = [] ∧
      s.mirrors.length = N ∧
      (∀ i, i < N → ∃ m q, s.mirrors[i]? = some m ∧
        (Mirror.run (callsOf i ops) (Mirror.new 0, {})).2 = (m, ({} : Net).sendAll 0 q) ∧ m.queue = 0) ∧
      Merge ((List.range N).map fun i => sentBy (callsOf i ops)) (s.net.queues 0) by
    obtain ⟨s, hs, h1, _, _, _, _, h2⟩ := H
    rw [hs]; exact ⟨h2, h1⟩
  have hmerge0 : Merge ((List.range N).map fun i => sentBy (callsOf i [])) [] :=
    .done _ (by intro s hs; obtain ⟨i, _, rfl⟩ := List.mem_map.1 hs; rfl)
  induction ops using snoc_induction with
  | h0 =>
    refine ⟨_, rfl, ?_⟩
    simp only [List.map_nil, ProcSys.run, List.foldl_nil]
    rw [withMirrors_eq]
    refine ⟨by simp [hp0.2], rfl, rfl, by simp, ?_, hmerge0⟩
    intro i hi
    refine ⟨Mirror.new 0, [], by simp [hi, hp0.1], ?_, rfl⟩
    rw [Net.sendAll_nil]; rfl
  | h1 ops o ih =>
    obtain ⟨s, hs, h1, h2, h3, h4, h5, h6⟩ := ih
    obtain ⟨i, c⟩ := o
    refine ⟨ProcSys.step (.mirror i c) s, ?_, ?_⟩
    · rw [List.map_append, sysRun_append, hs]; rfl
    by_cases hi : i < N
    · obtain ⟨m, q, hm, hrun, hmq⟩ := h5 i hi
      obtain ⟨r, m', sent, hq, _, he⟩ := Mirror.exec_loc (fun _ => True) (fun _ => trivial)
        (fun _ => trivial) c (.inr ⟨trivial, fun _ => trivial⟩) m (some false)
      have hstep : ProcSys.step (.mirror i c) s =
          { s with mirrors := s.mirrors.set i m', net := s.net.sendAll 0 sent } := by
        simp only [ProcSys.step, hm]
        rw [he s.net h2 h3, hmq]
      have hnew : (Mirror.run (callsOf i (ops ++ [(i, c)])) (Mirror.new 0, {})).2 =
          (m', ({} : Net).sendAll 0 (q ++ sent)) := by
        rw [callsOf_snoc, if_pos rfl, mrun_append, hrun]
        simp only [Mirror.run]
        rw [he _ (by rfl) (by rfl), hmq, Net.sendAll_sendAll]
      rw [hstep]
      refine ⟨h1, h2, h3, by simpa using h4, ?_, ?_⟩
      · intro j hj
        by_cases hji : j = i
        · subst hji
          refine ⟨m', _, ?_, hnew, hq.trans hmq⟩
          simp [h4, hj]
        · obtain ⟨mj, qj, hmj, hrunj, hqj⟩ := h5 j hj
          refine ⟨mj, qj, ?_, ?_, hqj⟩
          · simp only [List.getElem?_set_ne (Ne.symm hji)]; exact hmj
          · rw [callsOf_snoc, if_neg (by exact Ne.symm hji), List.append_nil]; exact hrunj
      · have hq1 : (s.net.sendAll 0 sent).queues 0 = s.net.queues 0 ++ sent := by simp
        show Merge _ ((s.net.sendAll 0 sent).queues 0)
        rw [hq1]
        have := merge_append h6 i (sentBy (callsOf i ops)) sent (by simp [hi])
        refine Eq.mp (congrArg (fun l => Merge l (s.net.queues 0 ++ sent)) ?_) this
        symm
        apply List.ext_getElem
        · simp
        · intro j hj1 hj2
          simp only [List.getElem_map, List.getElem_range, List.getElem_set]
          split
          · rename_i hij
            subst hij
            unfold sentBy
            rw [hnew, hrun]
            simp [Net.sendAll]
          · rename_i hij
            rw [callsOf_snoc, if_neg (by exact hij), List.append_nil]
    · have hstep : ProcSys.step (.mirror i c) s = s := by
        simp only [ProcSys.step]
        rw [List.getElem?_eq_none (by omega)]
      rw [hstep]
      have hc : ∀ j, j < N → callsOf j (ops ++ [(i, c)]) = callsOf j ops := by
        intro j hj
        rw [callsOf_snoc, if_neg (by show i ≠ j; omega), List.append_nil]
      refine ⟨h1, h2, h3, h4, ?_, ?_⟩
      · intro j hj; rw [hc j hj]; exact h5 j hj
      · have : (List.range N).map (fun i => sentBy (callsOf i ops)) =
            (List.range N).map (fun j => sentBy (callsOf j (ops ++ [(i, c)]))) :=
          List.map_congr_left (fun j hj => by rw [hc j (List.mem_range.1 hj)])
        rw [← this]; exact h6

/-- **C24** The whole system: `N ≥ 1` mirrors are taken, the processes use them in any order, each
process at last closing its mirror; then `wait()` returns with everything received. -/
theorem C24_system (maxlen : Int) (p0 : ProcBuf) (h : ProcBuf.new maxlen = .ok p0) (N : Nat)
    (hN : 1 ≤ N) (ops : List (Nat × MCall)) (hp : ∀ i, i < N → ProperProgram (callsOf i ops))
    (s : ProcSys)
    (hs : s = ProcSys.run (ops.map fun o => .mirror o.1 o.2) (withMirrors p0 N)) :
    ∃ p' n' l, ProcBuf.wait (s.main, s.net) = (.ok (), (p', n')) ∧ n'.queues 0 = [] ∧
      p'.nMirrors = 0 ∧ Replays { cap := maxlen.toNat } (s.net.queues 0) l ∧ Holds p'.base l := by
  obtain ⟨hm, hmain⟩ := C24_queue_interleaves maxlen p0 h N ops
  rw [← hs] at hm hmain
  have hq0 : p0.mirror.queue = 0 := by
    simp only [ProcBuf.new, LineBuf.new] at h
    split at h
    · cases h
    · cases h; rfl
  have hst : Started maxlen ((List.range N).map fun i => callsOf i ops).length s.main :=
    ⟨p0, h, by rw [hmain]; simp⟩
  have := C24_programs maxlen s.main s.net ((List.range N).map fun i => callsOf i ops)
    (by
      intro he
      have := congrArg List.length he
      simp at this; omega) hst
    (by
      intro cs hcs
      obtain ⟨i, hi, rfl⟩ := List.mem_map.1 hcs
      exact hp i (List.mem_range.1 hi))
    (s.net.queues 0) [] (by rw [List.map_map]; exact hm)
    (by rw [hmain]; simp [hq0])
  obtain ⟨p', n', l, h1, h2, h3⟩ := this
  refine ⟨p', n', l, h1, ?_, h3⟩
  rw [hmain] at h2
  simpa [hq0] using h2

/-- Two processes, interleaved; one of them ends by an exception. -/
example : ∀ i, i < 2 → ProperProgram (callsOf i [(0, .write (lit "a")), (1, .write (lit "b\n")),
    (0, .write (lit "c\n")), (1, .close none), (0, .newLine), (0, .close none)]) := by
  intro i hi
  match i, hi with
  | 0, _ =>
    refine ⟨[.write (lit "a"), .write (lit "c\n"), .newLine], none, rfl, ?_⟩
    simp [Mirror.isBodyCall]
  | 1, _ =>
    refine ⟨[.write (lit "b\n")], none, rfl, ?_⟩
    simp [Mirror.isBodyCall]

/-! ## C56: changing the mode of a mirror in use -/

/-- **C56** is violated: after `write("a")`, `aggressive = True`, `write("b\\n")` the text `b` has been
sent before the buffered `a`; and after `close()` the text `a` has not been sent at all. -/
theorem C56_violated : ¬ ∀ (cs : List MCall), (∀ c ∈ cs, c.isText = true ∨ ∃ a, c = .setAggressive a) →
    ∃ texts : List PyStr, (Mirror.run cs (Mirror.new 0, {})).2.2.queues 0 = texts.map .str ∧
      texts.flatten ++ (Mirror.run cs (Mirror.new 0, {})).2.1.buf.buf = written cs (Mirror.new 0, {}) := by
  intro h
  obtain ⟨texts, h1, h2⟩ := h [.write (lit "a"), .setAggressive true, .write (lit "b\n")]
    (by simp [MCall.isText])
  have e1 : (Mirror.run [.write (lit "a"), .setAggressive true, .write (lit "b\n")]
    (Mirror.new 0, {})).2.2.queues 0 = [.str (lit "b\n")] := rfl
  rw [e1] at h1
  have ht : texts = [lit "b\n"] := by
    match texts, h1 with
    | [t], h1 =>
      have : QMsg.str (lit "b\n") = .str t := by simpa using h1
      cases this; rfl
    | t :: u :: r, h1 => simp at h1
  subst ht
  revert h2
  decide +kernel

/-- **C56** ... and closing loses the buffered text: only the line break of `new_line()` is sent. -/
theorem C56_close_loses : (Mirror.run [.write (lit "a"), .setAggressive true, .close none]
    (Mirror.new 0, {})).2.2.queues 0 = [.str (lit "\n"), .close] ∧
    (Mirror.run [.write (lit "a"), .setAggressive true, .close none] (Mirror.new 0, {})).2.1.buf.closed =
      true := ⟨rfl, rfl⟩

/-- **C56** What does hold: changes of the mode while nothing is buffered do no harm.  Every history of
writes, `new_line()` calls that do not fail, and changes of the mode, each at a moment when nothing is
buffered, transmits exactly the written text, in order. (Missing: a change of the mode while text is
buffered, where the claim fails.) -/
theorem C56_mode_change_partial (q : Nat) (aggressive : Bool) (timeout : Option Nat) (n : Net)
    (cs : List MCall) (hc : ∀ c ∈ cs, c.isText = true ∨ ∃ a, c = .setAggressive a)
    (hok : ∀ r ∈ (Mirror.run cs (Mirror.new q aggressive timeout, n)).1, r.failed = false)
    (hempty : ∀ pre a post, cs = pre ++ .setAggressive a :: post →
      (Mirror.run pre (Mirror.new q aggressive timeout, n)).2.1.buf.buf = []) :
    ∃ texts : List PyStr,
      (Mirror.run cs (Mirror.new q aggressive timeout, n)).2.2.queues q = n.queues q ++ texts.map .str ∧
      texts.flatten ++ (Mirror.run cs (Mirror.new q aggressive timeout, n)).2.1.buf.buf =
        written cs (Mirror.new q aggressive timeout, n) := by
  suffices H : ∀ (m : Mirror) (p : PyStr) (n : Net), (m.aggressive = true → p = []) → m.queue = q →
      (∀ r ∈ (Mirror.run cs (m.withBuf p, n)).1, r.failed = false) →
      (∀ pre a post, cs = pre ++ .setAggressive a :: post →
        (Mirror.run pre (m.withBuf p, n)).2.1.buf.buf = []) →
      ∃ texts : List PyStr, (Mirror.run cs (m.withBuf p, n)).2.2.queues q = n.queues q ++ texts.map .str ∧
        texts.flatten ++ (Mirror.run cs (m.withBuf p, n)).2.1.buf.buf =
          p ++ written cs (m.withBuf p, n) by
    have := H (Mirror.new q aggressive timeout) [] n (fun _ => rfl) rfl hok hempty
    exact this
  clear hok hempty
  induction cs with
  | nil =>
    intro m p n ha hq _ _
    exact ⟨[], by simp [Mirror.run], by simp [Mirror.run, written]⟩
  | cons c cs ih =>
    intro m p n ha hq hok hempty
    have ih' := ih (fun c h => hc c (List.mem_cons_of_mem _ h))
    rcases hc c List.mem_cons_self with ht | ⟨a, rfl⟩
    · obtain ⟨p', n', texts, h1, h2, h3, h4, h5, h6, h7⟩ := text_step c ht m p n ha
      have hc1 : (Mirror.exec c (m.withBuf p, n)).1.failed = false :=
        hok _ (by simp [Mirror.run])
      obtain ⟨texts2, g1, g2⟩ := ih' m p' n' h2 hq
        (by
          intro r hr
          refine hok r ?_
          simp only [Mirror.run]
          rw [h1]
          exact List.mem_cons_of_mem _ hr)
        (by
          intro pre a post he
          have := hempty (c :: pre) a post (by rw [he]; rfl)
          simp only [Mirror.run] at this
          rw [h1] at this
          exact this)
      refine ⟨texts ++ texts2, ?_, ?_⟩
      · simp only [Mirror.run]; rw [h1, g1, ← hq, h5]; simp
      · simp only [Mirror.run, written]
        rw [h1]
        simp only [Mirror.withBuf_buf, List.flatten_append, List.append_assoc]
        rw [g2, ← List.append_assoc, h6 (.inr hc1), List.append_assoc]
    · have hp : p = [] := hempty [] a cs rfl
      subst hp
      obtain ⟨texts2, g1, g2⟩ := ih' { m with aggressive := a } [] n (fun _ => rfl) hq
        (by intro r hr; exact hok r (List.mem_cons_of_mem _ hr))
        (by
          intro pre a' post he
          exact hempty (.setAggressive a :: pre) a' post (by rw [he]; rfl))
      exact ⟨texts2, g1, g2⟩

/-- The mode is changed between two lines. -/
example : ∀ pre a post, [MCall.write (lit "a\n"), .setAggressive true, .write (lit "b")] =
    pre ++ .setAggressive a :: post →
    (Mirror.run pre (Mirror.new 0, {})).2.1.buf.buf = [] := by
  intro pre a post h
  match pre, h with
  | [c], h => simp at h; obtain ⟨rfl, _⟩ := h; rfl
  | [c, d, e], h => simp at h
  | c :: d :: e :: f :: r, h => simp at h

end SyncStream
