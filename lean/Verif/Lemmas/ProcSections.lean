import Verif.Lemmas.AtomClients
import Verif.Lemmas.ProcShared
import Verif.Spec.ProcSections
/-!
# Threads that share a mirror: the moments of all calls

The `__buffer_lock` has been made and the queue and timeout of the mirror stay as they are.  Then every call on the mirror (but the
setters) is the sequence of moments of `Spec/ProcSections.lean`.
-/

namespace SyncStream
open Conc Spec

/-- The lock exists, no other has been made since, and the mirror is configured so. -/
structure Made (g : MCfg) (n : Nat) (m : MProc) : Prop where
  lock : m.lock = some g.lock
  made : m.made = n
  queue : m.mirror.queue = g.queue
  block : m.mirror.block = g.block
  timeout : m.mirror.timeout = g.timeout

namespace MThr
namespace Sec
variable {α β : Type} {g : MCfg} {n0 : Nat}

/-- The region of a process. -/
abbrev reg (g : MCfg) (n0 : Nat) : Regions (MProc × Net) MLock Unit := mregOf g.lock (Made g n0) fun _ => True

theorem I_iff {s : MProc × Net} : (reg g n0).I s ↔ Made g n0 s.1 := IOf_iff.trans (and_iff_left trivial)

/-! ## Steps -/

theorem own_atom {m : Py (MProc × Net) α} {Q : Except Exc α → Prop}
    (h : ∀ s, Made g n0 s.1 → Made g n0 (m s).2.1 ∧ (m s).2.2 = s.2 ∧ Q (m s).1)
    (hc : ∀ a n n', Made g n0 a → (m (a, n)).1 = (m (a, n')).1 ∧ (m (a, n)).2.1 = (m (a, n')).2.1) :
    Priv (reg g n0) () (Prog.atom m) Q := by
  intro d com
  rw [Prog.atom_eq]
  refine .inl ⟨⟨fun s hs => ?_, fun s hs => ?_, fun _ _ _ h => absurd rfl h, fun s t hs ht e => ?_, fun s t hs ht e => ?_⟩,
    fun s hs => ?_⟩
  · rw [I_iff] at hs; exact (h s hs).1
  · rw [I_iff] at hs; exact (h s hs).2.1
  · rw [I_iff] at hs ht
    obtain ⟨a, n⟩ := s
    obtain ⟨a', n'⟩ := t
    cases (e : a = a')
    exact (hc a n n' hs).2
  · rw [I_iff] at hs ht
    obtain ⟨a, n⟩ := s
    obtain ⟨a', n'⟩ := t
    cases (e : a = a')
    exact congrArg Prog.ofExcept (hc a n n' hs).1
  · rw [I_iff] at hs
    have := (h s hs).2.2
    dsimp only
    cases hr : (m s).1 with
    | ok a => rw [hr] at this; exact ⟨rfl, rfl, this⟩
    | error e => rw [hr] at this; exact ⟨rfl, rfl, this⟩

theorem use_atom {m : Py (MProc × Net) α} (h : ∀ s, Made g n0 s.1 → Made g n0 (m s).2.1) : Uses (reg g n0) () (Prog.atom m) := by
  intro d
  rw [Prog.atom_eq]
  have e : ∀ s t : MProc × Net, (reg g n0).get () s = (reg g n0).get () t → (reg g n0).glob s = (reg g n0).glob t → s = t :=
    fun s t h h' => Prod.ext h h'
  refine .inr ⟨rfl, ⟨fun s hs => ?_, fun s hs => trivial, fun _ _ _ h => absurd rfl h, fun s t hs ht h1 h2 => ?_,
    fun s t hs ht h1 h2 => ?_⟩, fun s hs => ?_⟩
  · rw [I_iff] at hs; exact h s hs
  · rw [e s t h1 h2]; exact ⟨rfl, rfl⟩
  · rw [e s t h1 h2]
  · dsimp only
    cases (m s).1 <;> exact rfl

theorem own_onBuf (m : Py StringIO α) : Priv (reg g n0) () (onBuf m) fun _ => True :=
  own_atom (fun _ h1 => ⟨⟨h1.lock, h1.made, h1.queue, h1.block, h1.timeout⟩, rfl, trivial⟩) fun _ _ _ _ => ⟨rfl, rfl⟩

theorem own_gets {f : MProc × Net → α} {Q : Except Exc α → Prop} (hf : ∀ a n n', f (a, n) = f (a, n'))
    (h : ∀ s, Made g n0 s.1 → Q (.ok (f s))) : Priv (reg g n0) () (gets f) Q :=
  own_atom (fun s h1 => ⟨h1, rfl, h s h1⟩) fun a n n' _ => ⟨congrArg Except.ok (hf a n n'), rfl⟩

theorem use_put (msg : QMsg) : Uses (reg g n0) () (put msg) := use_atom fun _ h1 => h1

theorem own_lazyLock : Priv (reg g n0) () lazyLock fun r => r = .ok (.buf g.lock) := by
  unfold lazyLock
  refine Priv.bind (Q := fun r => r = .ok (some g.lock)) (own_gets (fun _ _ _ => rfl) fun s h => congrArg _ h.lock)
    (fun a ha => ?_) fun e he => nomatch he
  cases ha
  refine Priv.bind (Q := fun r => r = .ok (some g.lock)) (own_gets (fun _ _ _ => rfl) fun s h => congrArg _ h.lock)
    (fun a ha => ?_) fun e he => nomatch he
  cases ha
  exact .ret rfl

theorem own_locked {p : MProg α} {Q : Except Exc α → Prop} (h : Priv (reg g n0) () p Q) : Priv (reg g n0) () (locked lazyLock p) Q :=
  own_lazyLock.bind (fun _ hl => by cases hl; exact h.withOwn) fun _ he => nomatch he

theorem own_closed : Priv (reg g n0) () (closed lazyLock) fun _ => True := own_locked (own_gets (fun _ _ _ => rfl) fun _ _ => trivial)

theorem use_sendData (d : PyStr) : Uses (reg g n0) () (sendData lazyLock d) :=
  own_closed.then fun b _ => by
    cases b with
    | false => exact use_put _
    | true => exact (Priv.ret (Q := fun _ => True) trivial).uses

/-- Has the stop signal been given? -/
def stopped : MProg Bool := do
  if ← gets (·.1.mirror.hasState) then Prog.withLock .state true (gets (·.2.closed.getD false))
  else return false

theorem checkState_eq : checkState = stopped >>= fun b => if b then .raise .stopIteration else return () := by
  refine congrArg (Prog.act _) (funext fun s => ?_)
  show Prog.bind (Prog.ret s.1.mirror.hasState) _ = Prog.bind (Prog.bind (Prog.ret s.1.mirror.hasState) _) _
  cases s.1.mirror.hasState with
  | false => rfl
  | true =>
    refine congrArg (Prog.acq MLock.state true) (congrArg (Prog.act _) (funext fun t => ?_))
    show Prog.andRelease _ _ (Prog.bind (Prog.ret (t.2.closed.getD false)) _) = Prog.rel _ _ (Prog.bind (Prog.ret (t.2.closed.getD false)) _)
    cases t.2.closed.getD false <;> rfl

theorem use_stopped : Uses (reg g n0) () stopped :=
  (own_gets (Q := fun _ => True) (fun _ _ _ => rfl) fun _ _ => trivial).then fun b _ => by
    cases b with
    | false => exact (Priv.ret (Q := fun _ => True) trivial).uses
    | true => exact Uses.withOther (use_atom fun _ h => h) fun _ h => nomatch h

theorem seq_stopped (s : MProc × Net) : stopped.seq s = (.ok (stopGiven (view s)), s) := by
  rcases s with ⟨⟨⟨b, a, t, bl, q, hs⟩, l, n⟩, ⟨qs, cl, r, w⟩⟩
  cases hs <;> rfl

/-- `__write` after the check. -/
def writeRest (data : PyStr) : MProg Nat := do
  let messageLines := splitlines data
  if ← gets (·.1.mirror.aggressive) then
    sendData lazyLock data
    return data.length
  else
    let nLines := messageLines.length
    if nLines > 1 ∨ (nLines = 1 ∧ messageLines.head? = some []) ∨ isEndLineBreak data then
      let res ← onBuf (StringIO.write data)
      let text ← onBuf StringIO.getvalue
      sendData lazyLock text
      onBuf StringIO.seek0
      onBuf StringIO.truncate0
      return res
    else if nLines = 1 then
      onBuf (StringIO.write data)
    else
      return 0

theorem writeCore_eq (d : PyStr) : writeCore lazyLock d = stopped >>= fun b => if b then .raise .stopIteration else writeRest d := by
  show checkState >>= (fun _ => writeRest d) = _
  rw [checkState_eq]
  refine (Prog.bind_assoc' _ _ _).trans (congrArg _ (funext fun b => ?_))
  cases b <;> rfl

theorem use_writeRest (d : PyStr) : Uses (reg g n0) () (writeRest d) := by
  unfold writeRest
  refine Priv.then (own_gets (Q := fun _ => True) (fun _ _ _ => rfl) fun _ _ => trivial) fun a _ => ?_
  extract_lets n
  split
  · exact (use_sendData d).bind fun _ => .ret trivial
  · split
    · refine (own_onBuf _).then fun _ _ => (own_onBuf _).then fun _ _ => (use_sendData _).bind fun _ => ?_
      exact (own_onBuf _).bind (fun _ _ => (own_onBuf _).bind (fun _ _ => .ret trivial) fun _ _ => trivial) fun _ _ => trivial
    · split
      · exact (own_onBuf _).uses
      · exact (Priv.ret (Q := fun _ => True) trivial).uses

theorem sim_writeRest (d : PyStr) : Sim (writeRest d) (Spec.writeRest d) := by
  refine .bind (.gets fun s => s.1.aggressive) fun x => ?_
  extract_lets n
  refine .ite (.bind (sim_sendData finds_lazy d) fun _ => .pure _) (.ite ?_ (.ite (.onBuf _) (.pure _)))
  exact .bind (.onBuf _) fun _ => .bind (.onBuf _) fun _ => .bind (sim_sendData finds_lazy _) fun _ =>
    .bind (.onBuf _) fun _ => .bind (.onBuf _) fun _ => .pure _

/-- `new_line` up to the check. -/
def due : MProg (Option Bool) := do
  let pos ← onBuf StringIO.tell
  if pos > 0 then return some (← stopped)
  else return none

/-- What `new_line` does after it. -/
def dueRest : Option Bool → MProg Unit
  | none => return ()
  | some true => .raise .stopIteration
  | some false => do
    let _ ← writeRest (lit "\n")
    return ()

theorem newLine_eq : newLineCore = due >>= dueRest := by
  refine Eq.trans ?_ (Prog.bind_assoc' _ _ _).symm
  refine congrArg (Prog.bind _) (funext fun pos => ?_)
  show (if pos > 0 then writeCore lazyLock (lit "\n") >>= _ else _) = (if pos > 0 then _ else _ : MProg _).bind dueRest
  by_cases h : pos > 0
  · rw [if_pos h, if_pos h, writeCore_eq]
    refine (Prog.bind_assoc' _ _ _).trans (Eq.trans ?_ (Prog.bind_assoc' _ _ _).symm)
    refine congrArg (Prog.bind _) (funext fun b => ?_)
    cases b <;> rfl
  · rw [if_neg h, if_neg h]; rfl

theorem use_due : Uses (reg g n0) () due :=
  (own_onBuf _).then fun _ _ => by
    split
    · exact use_stopped.bind fun _ => .ret trivial
    · exact (Priv.ret (Q := fun _ => True) trivial).uses

/-- What `due` answers. -/
def dueAns : Option Bool → MRet
  | none => .unit
  | some b => .bool b

theorem does_due (s : MProc × Net) : MSec.exec .due (view s) = (MRet.of dueAns (due.seq s).1, view (due.seq s).2) := by
  have ht : (onBuf StringIO.tell).seq s = (if s.1.mirror.buf.closed then .error .valueError else .ok s.1.mirror.buf.pos, s) := by
    refine (Prog.seq_atom _ s).trans ?_
    rcases s with ⟨⟨⟨⟨v, pos, cl⟩, a, t, bl, q, hs⟩, l, n⟩, w⟩
    cases cl <;> rfl
  unfold due
  by_cases h : s.1.mirror.buf.closed = true
  · rw [if_pos h] at ht
    rw [Prog.seq_bind_error ht]
    exact if_pos h
  · rw [if_neg h] at ht
    rw [Prog.seq_bind_ok ht]
    refine (if_neg h).trans ?_
    by_cases h' : s.1.mirror.buf.pos > 0
    · rw [if_pos h', Prog.seq_bind_ok (seq_stopped s)]
      exact if_pos h'
    · rw [if_neg h']
      exact if_neg h'

/-! ## The moments -/

/-- What happens to the process in a moment. -/
def step (x : MSec) (s : MProc × Net) : MProc × Net := ({ s.1 with mirror := (x.exec (view s)).2.1 }, (x.exec (view s)).2.2)

/-- Moments as steps. -/
def run : Ask MSec MRet MRet → MProg MRet
  | .done r => .ret r
  | .ask x k => .act (step x) fun s => run (k (x.exec (view s)).1)

/-- The program does what happens in the moment `x`; its result is turned into the answer by `F`. -/
def Does (p : MProg β) (F : β → MRet) (x : MSec) : Prop := ∀ s, x.exec (view s) = (MRet.of F (p.seq s).1, view (p.seq s).2)

theorem Sim.does {p : MProg β} {m : Py MNet β} (h : Sim p m) {F : β → MRet} {x : MSec}
    (hx : ∀ s, x.exec s = (MRet.of F (m s).1, (m s).2)) : Does p F x := fun s => by
  rw [hx, ← (h s).1, ← (h s).2]

theorem does_state {p : MProg β} {F : β → MRet} {x : MSec} (hd : Does p F x) (hu : Uses (reg g n0) () p) {s : MProc × Net}
    (hs : (reg g n0).I s) : step x s = (p.seq s).2 := by
  have h2 := I_iff.1 (hu.keeps hs)
  rw [I_iff] at hs
  unfold step
  rw [hd s]
  rcases h : (p.seq s).2 with ⟨⟨m, l, n⟩, w⟩
  rw [h] at h2
  rcases s with ⟨⟨m', l', n'⟩, w'⟩
  have e1 : l' = some g.lock := hs.lock
  have e2 : n' = n0 := hs.made
  have e3 : l = some g.lock := h2.lock
  have e4 : n = n0 := h2.made
  subst e1 e2 e3 e4
  rfl

theorem ref_more {p : MProg β} {p' : β → MProg α} {F : β → MRet} {x : MSec} {K : MRet → Ask MSec MRet MRet} {k : Except Exc α → MProg MRet}
    (hu : Uses (reg g n0) () p) (hd : Does p F x) (hE : ∀ e, Ref (reg g n0) none (k (.error e)) (run (K (.exc e))))
    (hA : ∀ b, Ref (reg g n0) (some ()) (((p' b).andRelease (.buf g.lock) true).outcome.bind k) (run (K (F b)))) :
    Ref (reg g n0) (some ()) (((p >>= p').andRelease (.buf g.lock) true).outcome.bind k) (run (.ask x K)) := by
  have e : ((p >>= p').andRelease (.buf g.lock) true).outcome.bind k = p.outcome >>= fun
      | .ok b => ((p' b).andRelease (.buf g.lock) true).outcome.bind k
      | .error e => .rel (.buf g.lock) true (k (.error e)) := by
    refine (congrArg (fun q => Prog.bind (Prog.outcome q) k) (Prog.andRelease_bind _ _ p p')).trans ?_
    rw [Prog.Total.outcome_bind p.outcome_total]
    refine (Prog.bind_assoc' _ _ _).trans (congrArg (Prog.bind _) (funext fun r => ?_))
    cases r <;> rfl
  rw [e]
  refine .block () _ p.outcome _ (fun r => run (K (MRet.of F r))) _ _ (hu 0).block (fun r => ?_) ?_ p.outcome_total
  · cases r with
    | ok b => exact hA b
    | error e => exact .rel () true _ _ (hE e)
  · intro s hs b t h
    rw [Prog.seq_outcome] at h
    cases h
    exact ⟨does_state hd hu hs, congrArg (fun x : MRet × MNet => run (K x.1)) (hd s)⟩

theorem ref_last {p : MProg α} {F : α → MRet} {x : MSec} {K : MRet → Ask MSec MRet MRet} {k : Except Exc α → MProg MRet}
    (hu : Uses (reg g n0) () p) (hd : Does p F x) (hE : ∀ e, Ref (reg g n0) none (k (.error e)) (run (K (.exc e))))
    (hA : ∀ a, Ref (reg g n0) none (k (.ok a)) (run (K (F a)))) :
    Ref (reg g n0) (some ()) ((p.andRelease (.buf g.lock) true).outcome.bind k) (run (.ask x K)) := by
  have e : p = p >>= Prog.ret := by
    have : ∀ p : MProg α, p.bind Prog.ret = p := fun p => by
      induction p with
      | ret a => rfl
      | raise e => rfl
      | act f κ ih => exact congrArg (Prog.act f) (funext ih)
      | acq l w κ ih => exact congrArg (Prog.acq l w) ih
      | rel l w κ ih => exact congrArg (Prog.rel l w) ih
    exact (this p).symm
  rw [e]
  exact ref_more hu hd hE fun a => .rel () true _ _ (hA a)

theorem ref_lazyLock {h : Option Unit} {k : MLock → MProg α} {c : MProg α} (hr : Ref (reg g n0) h (k (.buf g.lock)) c) :
    Ref (reg g n0) h (lazyLock >>= k) c := by
  have e1 : ∀ s : MProc × Net, (reg g n0).I s → s.1.lock = some g.lock := fun s hs => (I_iff.1 hs).lock
  refine .still h _ _ ((gets (·.1.lock) >>= fun l => Prog.ret (.buf (l.getD 0))) >>= k) c (fun s hs => ⟨rfl, ?_⟩)
    (.still h _ _ (k (.buf g.lock)) c (fun s hs => ⟨rfl, ?_⟩) hr)
  · dsimp only [Py.gets]
    rw [e1 s hs]
    rfl
  · dsimp only [Py.gets]
    rw [e1 s hs]
    rfl

theorem total_lazyLock : lazyLock.Total := by
  intro s
  show Prog.Total (if _ then _ else _)
  split
  · exact fun _ _ => trivial
  · exact fun _ => trivial

theorem ref_locked {p : MProg α} {k : Except Exc α → MProg MRet} {c : MProg MRet}
    (h : Ref (reg g n0) (some ()) ((p.andRelease (.buf g.lock) true).outcome.bind k) c) :
    Ref (reg g n0) none ((locked lazyLock p).outcome.bind k) c := by
  have e : (locked lazyLock p).outcome.bind k = lazyLock >>= fun l => (Prog.withLock l true p).outcome.bind k := by
    refine (congrArg (fun q => Prog.bind q k) (total_lazyLock.outcome_bind _)).trans ?_
    exact Prog.bind_assoc' _ _ _
  rw [e]
  exact ref_lazyLock (.acq () _ _ h)

/-- A method of one section and one moment. -/
theorem ref_sec {p : MProg α} {F : α → MRet} {x : MSec} {K : MRet → Ask MSec MRet MRet} {k : Except Exc α → MProg MRet}
    (hu : Uses (reg g n0) () p) (hd : Does p F x) (hE : ∀ e, Ref (reg g n0) none (k (.error e)) (run (K (.exc e))))
    (hA : ∀ a, Ref (reg g n0) none (k (.ok a)) (run (K (F a)))) :
    Ref (reg g n0) none ((locked lazyLock p).outcome.bind k) (run (.ask x K)) := ref_locked (ref_last hu hd hE hA)

theorem outcome_bind (p : MProg α) (q : α → MProg β) (k : Except Exc β → MProg MRet) :
    (p >>= q).outcome.bind k = p.outcome.bind fun
      | .ok a => (q a).outcome.bind k
      | .error e => k (.error e) := by
  show (p.bind q).outcome.bind k = _
  induction p with
  | ret a => rfl
  | raise e => rfl
  | act f κ ih => exact congrArg (Prog.act f) (funext ih)
  | acq l w κ ih => exact congrArg (Prog.acq l w) ih
  | rel l w κ ih => exact congrArg (Prog.rel l w) ih

/-! ## The parts of the calls -/

section Parts
variable {k : Except Exc Unit → MProg MRet} {q : Ask MSec MRet MRet}

theorem ref_closed {k : Except Exc Bool → MProg MRet} {K : MRet → Ask MSec MRet MRet}
    (hE : ∀ e, Ref (reg g n0) none (k (.error e)) (.ret (.exc e))) (hA : ∀ b, Ref (reg g n0) none (k (.ok b)) (run (K (.bool b)))) :
    Ref (reg g n0) none ((closed lazyLock).outcome.bind k) (run (MSec.andThen .isClosed K)) :=
  ref_sec (F := .bool) (own_gets (Q := fun _ => True) (fun _ _ _ => rfl) fun _ _ => trivial).uses
    (Sim.does (m := Py.gets fun s : MNet => s.1.buf.closed) (Sim.gets fun s => s.1.buf.closed) fun _ => rfl) hE hA

theorem not_gets (f : MProc × Net → Bool) (k : Except Exc Bool → MProg MRet) :
    (locked lazyLock (gets fun s => !f s)).outcome.bind k = (locked lazyLock (gets f)).outcome.bind fun
      | .ok b => k (.ok !b)
      | .error e => k (.error e) := by
  have h : ∀ l : MLock, (Prog.withLock l true (gets fun s => !f s)).outcome.bind k = (Prog.withLock l true (gets f)).outcome.bind fun
      | .ok b => k (.ok !b)
      | .error e => k (.error e) := fun _ => rfl
  have e : ∀ (p : MProg Bool) (k : Except Exc Bool → MProg MRet), (locked lazyLock p).outcome.bind k =
      lazyLock >>= fun l => (Prog.withLock l true p).outcome.bind k := fun p k =>
    (congrArg (fun q => Prog.bind q k) (total_lazyLock.outcome_bind _)).trans (Prog.bind_assoc' _ _ _)
  rw [e, e]
  exact congrArg (Prog.bind _) (funext h)

/-- `readable` and `writable`. -/
theorem ref_notClosed {k : Except Exc Bool → MProg MRet} {K : MRet → Ask MSec MRet MRet}
    (hE : ∀ e, Ref (reg g n0) none (k (.error e)) (.ret (.exc e))) (hA : ∀ b, Ref (reg g n0) none (k (.ok !b)) (run (K (.bool b)))) :
    Ref (reg g n0) none ((writable lazyLock).outcome.bind k) (run (MSec.andThen .isClosed K)) := by
  show Ref _ _ ((locked lazyLock (gets fun s => !s.1.mirror.buf.closed)).outcome.bind k) _
  rw [not_gets]
  exact ref_closed hE hA

theorem ref_clear (hE : ∀ e, Ref (reg g n0) none (k (.error e)) (.ret (.exc e))) {K : MRet → Ask MSec MRet MRet}
    (hA : Ref (reg g n0) none (k (.ok ())) (run (K .unit))) :
    Ref (reg g n0) none ((clear lazyLock).outcome.bind k) (run (MSec.andThen .clear K)) :=
  ref_sec (F := fun _ => .unit) ((own_onBuf _).bind (fun _ _ => own_onBuf _) fun _ _ => trivial : Priv _ _ _ fun _ => True).uses
    (Sim.does (m := Mirror.clear) (.bind (.onBuf _) fun _ => .onBuf _) fun _ => rfl) hE fun _ => hA

theorem ref_shut (hE : ∀ e, Ref (reg g n0) none (k (.error e)) (.ret (.exc e))) {K : MRet → Ask MSec MRet MRet}
    (hA : Ref (reg g n0) none (k (.ok ())) (run (K .unit))) :
    Ref (reg g n0) none ((locked lazyLock (onBuf StringIO.close)).outcome.bind k) (run (MSec.andThen .shut K)) :=
  ref_sec (F := fun _ => .unit) (own_onBuf _).uses (Sim.does (m := Mirror.onBuf StringIO.close) (.onBuf _) fun _ => rfl) hE fun _ => hA

theorem ref_flush (hE : ∀ e, Ref (reg g n0) none (k (.error e)) (.ret (.exc e))) {K : MRet → Ask MSec MRet MRet}
    (hA : Ref (reg g n0) none (k (.ok ())) (run (K .unit))) :
    Ref (reg g n0) none ((flush lazyLock).outcome.bind k) (run (MSec.andThen .flush K)) :=
  ref_sec (F := fun _ => .unit) (own_onBuf _).uses (Sim.does (m := Mirror.flush) (.onBuf _) fun _ => rfl) hE fun _ => hA

theorem ref_put (msg : QMsg) (hE : ∀ e, Ref (reg g n0) none (k (.error e)) (.ret (.exc e))) {K : MRet → Ask MSec MRet MRet}
    (hA : Ref (reg g n0) none (k (.ok ())) (run (K .unit))) :
    Ref (reg g n0) none ((put msg).outcome.bind k) (run (MSec.andThen (.put msg) K)) := by
  have hd : ∀ s t : MProc × Net, (reg g n0).I s → (reg g n0).I t → (reg g n0).glob s = (reg g n0).glob t →
      Net.put s.1.mirror.queue msg s.1.mirror.block s.1.mirror.timeout s.2 =
        Net.put t.1.mirror.queue msg t.1.mirror.block t.1.mirror.timeout t.2 := fun s t hs ht e => by
    rw [I_iff] at hs ht
    rw [hs.queue, hs.block, hs.timeout, ht.queue, ht.block, ht.timeout, show s.2 = t.2 from e]
  unfold put atom
  rw [Prog.atom_eq]
  refine .glob _ _ _ ⟨fun s hs => trivial, fun s hs _ => rfl, fun s t hs ht e => ?_⟩ (fun s t hs ht e => ?_) fun s hs => ?_
  · have := congrArg Prod.snd (hd s t hs ht e)
    exact this
  · have := congrArg (fun x : Except Exc Unit × Net => run ((match MRet.of (fun _ => .unit) x.1 with
      | .exc e => Ask.done (.exc e)
      | r => K r) : Ask MSec MRet MRet)) (hd s t hs ht e)
    exact this
  · show Ref _ _ (Prog.bind (Prog.outcome (Prog.ofExcept (Net.put s.1.mirror.queue msg s.1.mirror.block s.1.mirror.timeout s.2).1)) k)
      (run ((match MRet.of (fun _ => .unit) (Net.put s.1.mirror.queue msg s.1.mirror.block s.1.mirror.timeout s.2).1 with
      | .exc e => Ask.done (.exc e)
      | r => K r) : Ask MSec MRet MRet))
    cases (Net.put s.1.mirror.queue msg s.1.mirror.block s.1.mirror.timeout s.2).1 with
    | ok a => exact hA
    | error e => exact hE e

theorem ref_newLine (hE : ∀ e, Ref (reg g n0) none (k (.error e)) (.ret (.exc e))) (hA : Ref (reg g n0) none (k (.ok ())) (run q)) :
    Ref (reg g n0) none ((newLine lazyLock).outcome.bind k) (run (MSec.newLine q)) := by
  refine ref_locked (p := newLineCore) ?_
  rw [newLine_eq]
  refine ref_more (F := dueAns) use_due does_due hE fun b => ?_
  match b with
  | none => exact .rel () true _ _ hA
  | some true => exact .rel () true _ _ (hE _)
  | some false =>
    exact ref_more (F := .nat) (use_writeRest _) (Sim.does (sim_writeRest _) fun _ => rfl) hE fun _ => .rel () true _ _ hA

theorem ref_sendEnd (m : QMsg) (hE : ∀ e, Ref (reg g n0) none (k (.error e)) (.ret (.exc e))) (hA : Ref (reg g n0) none (k (.ok ())) (run q)) :
    Ref (reg g n0) none ((sendEnd lazyLock m).outcome.bind k) (run (MSec.sendEnd m q)) := by
  unfold sendEnd
  rw [outcome_bind]
  refine ref_closed hE fun b => ?_
  cases b with
  | true => exact hA
  | false =>
    show Ref _ _ ((newLine lazyLock >>= fun _ => put m).outcome.bind k) _
    rw [outcome_bind]
    exact ref_newLine hE (ref_put m hE hA)

end Parts

/-- Every call is the sequence of its moments. -/
theorem ref_prog {c : MCall} (hc : HasMoments (.mirror c)) : Ref (reg g n0) none (prog lazyLock c) (run (momentsOf c)) := by
  have hE : ∀ {α : Type} (F : α → MRet) (e : Exc), Ref (reg g n0) none ((fun r => Prog.ret (MRet.of F r) : Except Exc α → MProg MRet) (.error e))
    (.ret (.exc e)) := fun F e => .ret _
  cases c with
  | write d =>
    show Ref _ _ ((write lazyLock d).outcome.bind fun r => Prog.ret (MRet.of .nat r)) _
    unfold MThr.write
    rw [outcome_bind]
    refine ref_notClosed (hE _) fun b => ?_
    cases b with
    | true => exact .ret _
    | false =>
      refine ref_locked (p := writeCore lazyLock d) ?_
      rw [writeCore_eq]
      refine ref_more (F := .bool) use_stopped (fun s => ?_) (hE _) fun b => ?_
      · rw [seq_stopped]; rfl
      · cases b with
        | true => exact .rel () true _ _ (.ret _)
        | false => exact ref_last (F := .nat) (use_writeRest _) (Sim.does (sim_writeRest _) fun _ => rfl) (hE _) fun a => .ret _
  | newLine => exact ref_newLine (hE _) (.ret _)
  | read size =>
    show Ref _ _ ((MThr.read lazyLock size).outcome.bind fun r => Prog.ret (MRet.of .text r)) _
    unfold MThr.read
    rw [outcome_bind]
    refine ref_notClosed (hE _) fun b => ?_
    cases b with
    | true => exact .ret _
    | false =>
      cases size with
      | none => exact ref_sec (F := .text) (own_onBuf _).uses (Sim.does (m := Mirror.onBuf StringIO.getvalue) (.onBuf _) fun _ => rfl) (hE _) fun _ => .ret _
      | some n => exact ref_sec (F := .text) (own_onBuf _).uses (Sim.does (m := Mirror.onBuf (StringIO.read n)) (.onBuf _) fun _ => rfl) (hE _) fun _ => .ret _
  | clear => exact ref_clear (hE _) (.ret _)
  | flush => exact ref_flush (hE _) (.ret _)
  | sendData d =>
    show Ref _ _ ((sendData lazyLock d).outcome.bind fun r => Prog.ret (MRet.of (fun _ => .unit) r)) _
    unfold sendData
    rw [outcome_bind]
    refine ref_closed (hE _) fun b => ?_
    cases b with
    | true => exact .ret _
    | false => exact ref_put _ (hE _) (.ret _)
  | sendEof => exact ref_sendEnd _ (hE _) (.ret _)
  | sendError e => exact ref_sendEnd _ (hE _) (.ret _)
  | sendWarning e => exact ref_sendEnd _ (hE _) (.ret _)
  | close e =>
    show Ref _ _ ((close lazyLock e).outcome.bind fun r => Prog.ret (MRet.of (fun _ => .unit) r)) _
    unfold close
    rw [outcome_bind]
    refine ref_closed (hE _) fun b => ?_
    cases b with
    | true => exact .ret _
    | false =>
      have hend : Ref (reg g n0) none ((do clear lazyLock; locked lazyLock (onBuf StringIO.close) : MProg Unit).outcome.bind
          fun r => Prog.ret (MRet.of (fun _ => .unit) r)) (run (MSec.andThen .clear fun _ => MSec.andThen .shut .done)) := by
        rw [outcome_bind]
        exact ref_clear (hE _) (ref_shut (hE _) (.ret _))
      cases e with
      | none =>
        show Ref _ _ ((sendEof lazyLock >>= fun _ => do clear lazyLock; locked lazyLock (onBuf StringIO.close)).outcome.bind _) _
        rw [outcome_bind]
        exact ref_sendEnd _ (hE _) hend
      | some e =>
        show Ref _ _ ((sendError lazyLock e >>= fun _ => do clear lazyLock; locked lazyLock (onBuf StringIO.close)).outcome.bind _) _
        rw [outcome_bind]
        exact ref_sendEnd _ (hE _) hend
  | closed => exact ref_closed (hE _) fun _ => .ret _
  | readable => exact ref_notClosed (hE _) fun _ => .ret _
  | writable => exact ref_notClosed (hE _) fun _ => .ret _
  | setTimeout t => exact hc.elim
  | setAggressive a => exact hc.elim

end Sec
end MThr

namespace PThr
namespace Sec
variable {lk : Nat → Nat} {g : Nat → MCfg} {n0 : Nat → Nat} {q0 : Nat} {proc : Nat → Nat}

/-- All regions. -/
abbrev reg (g : Nat → MCfg) (n0 : Nat → Nat) (q0 : Nat) : Regions PWorld PLock (Option Nat) :=
  pregOf (fun p => (g p).lock) (fun p => Made (g p) (n0 p)) (fun _ => True) q0

theorem ofClosed_true : OfClosed fun _ => True := fun _ _ _ _ => trivial

/-- What happens in a moment, with the locks in view. -/
def act (q0 : Nat) (proc : Nat → Nat) (i : Nat) : PSec → PWorld → PRet × PWorld
  | .mirror x, w => (.mirror (x.exec (MThr.view (w.procs (proc i), w.net))).1, lift (proc i) (MThr.Sec.step x) w)
  | .receive, w => (.main (Ret.of .bool (onMain ProcBuf.receive w).1), (onMain ProcBuf.receive w).2)
  | .stopAll, w => (.main (Ret.of (fun _ => .unit) (onMain ProcBuf.stopAll w).1), (onMain ProcBuf.stopAll w).2)
  | .forceStop, w => (.main (Ret.of (fun _ => .unit) ((putStop q0).seq w).1), ((putStop q0).seq w).2)

theorem seq_putStop (q : Nat) (w : PWorld) : (putStop q).seq w =
    onMain (fun s => ((Net.put q .stop true none s.2).1, (s.1, (Net.put q .stop true none s.2).2))) w := by
  have := congrFun (seq_atom (fun s : PNet => let (r, n) := Net.put q .stop true none s.2; (r, (s.1, n)))) w
  exact this

theorem act_exec (i : Nat) (x : PSec) (w : PWorld) (hw : w.main.mirror.queue = q0) :
    x.exec (proc i) (.of w) = ((act q0 proc i x w).1, PShared.of (act q0 proc i x w).2) := by
  cases x with
  | mirror x =>
    refine Prod.ext rfl ?_
    show (PShared.mk w.main _ _) = PShared.mk w.main _ _
    refine congrArg (fun m => PShared.mk w.main m _) (funext fun p => ?_)
    show upd (fun p => (w.procs p).mirror) (proc i) _ p = (upd w.procs (proc i) _ p).mirror
    by_cases h : p = proc i
    · subst h; rw [upd_same, upd_same]; rfl
    · rw [upd_other _ _ h, upd_other _ _ h]
  | receive => rfl
  | stopAll => rfl
  | forceStop =>
    subst hw
    show _ = (PRet.main (Ret.of (fun _ => .unit) ((putStop w.main.mirror.queue).seq w).1), PShared.of ((putStop w.main.mirror.queue).seq w).2)
    rw [seq_putStop]
    rfl

theorem seq_receiveCore : receiveCore.seq = onMain ProcBuf.receive := by
  rw [← seq_receive]
  exact (seq_withLock .config receiveCore).symm

theorem receive_queue (w : PWorld) : (onMain ProcBuf.receive w).2.main.mirror.queue = w.main.mirror.queue := by
  have h := (use_receiveCore (lk := fun _ => 0) (R := fun _ _ => True) (q0 := w.main.mirror.queue) ofClosed_true).keeps
    (s := w) (IOf_iff.2 ⟨rfl, fun _ => trivial, trivial⟩)
  rw [seq_receiveCore] at h
  exact (IOf_iff.1 h).1

theorem act_queue (i : Nat) (x : PSec) (w : PWorld) : (act q0 proc i x w).2.main.mirror.queue = w.main.mirror.queue := by
  cases x with
  | mirror x => rfl
  | receive => exact receive_queue w
  | stopAll => rfl
  | forceStop =>
    show ((putStop q0).seq w).2.main.mirror.queue = _
    rw [seq_putStop]
    rfl

/-- The service. -/
abbrev sys (q0 : Nat) (proc : Nat → Nat) : Sys PWorld PLock Unit PSec PRet := atomSys (act q0 proc)

theorem prog_mirror (i : Nat) (q : Ask MSec MRet MRet) :
    (mirror (proc i) (MThr.Sec.run q) >>= fun r => (Prog.ret (PRet.mirror r, ()) : PProg (PRet × Unit))) = (inProc q).prog (sys q0 proc) i := by
  induction q with
  | done r => rfl
  | ask x k ih =>
    have e1 : (mirror (proc i) (MThr.Sec.run (.ask x k)) >>= fun r => (Prog.ret (PRet.mirror r, ()) : PProg (PRet × Unit))) =
        Prog.act (lift (proc i) (MThr.Sec.step x)) fun w => mirror (proc i) (MThr.Sec.run (k (x.exec (MThr.view (w.procs (proc i), w.net))).1)) >>=
        fun r => (Prog.ret (PRet.mirror r, ()) : PProg (PRet × Unit)) := rfl
    have e2 : (inProc (.ask x k)).prog (sys q0 proc) i =
      Prog.act (lift (proc i) (MThr.Sec.step x)) fun w => (inProc (k (x.exec (MThr.view (w.procs (proc i), w.net))).1)).prog (sys q0 proc) i := by
      simp only [inProc, Ask.prog]
      rfl
    rw [e1, e2]
    exact congrArg (Prog.act _) (funext fun w => ih _)

/-- A call of the main process with one moment. -/
theorem ref_main {α : Type} {p : PProg α} {m : Py PWorld α} (F : Except Exc α → PRet) {x : PSec} (i : Nat) (hp : Ref (reg g n0 q0) none p (Prog.atom m))
    (hx : ∀ w, act q0 proc i x w = (F (m w).1, (m w).2)) :
    Ref (reg g n0 q0) none ((p.outcome >>= fun r => (Prog.ret (F r) : PProg PRet)) >>= fun r => (Prog.ret (r, ()) : PProg (PRet × Unit)))
      ((Ask.ask x fun r => Ask.done (r, ())).prog (sys q0 proc) i) := by
  have h := (hp.outcome.bind (g := fun r => (Prog.ret (F r) : PProg PRet)) (g' := fun r => Prog.ret (F r)) fun _ => .ret _).bind
    (g := fun r => (Prog.ret (r, ()) : PProg (PRet × Unit))) (g' := fun r => Prog.ret (r, ())) fun _ => .ret _
  have e : ((Ask.ask x fun r => Ask.done (r, ())).prog (sys q0 proc) i : PProg (PRet × Unit)) =
      .act (fun w => (act q0 proc i x w).2) fun w => .ret ((act q0 proc i x w).1, ()) := rfl
  rw [e, show (fun w => (act q0 proc i x w).2) = fun w => (m w).2 from funext fun w => congrArg Prod.snd (hx w),
    show (fun w => (Prog.ret ((act q0 proc i x w).1, ()) : PProg (PRet × Unit))) = fun w => Prog.ret (F (m w).1, ()) from
      funext fun w => congrArg (fun y : PRet × PWorld => (Prog.ret (y.1, ()) : PProg (PRet × Unit))) (hx w)]
  rw [Prog.atom_eq] at h
  refine Eq.mp (congrArg (Ref (reg g n0 q0) none _) (congrArg (Prog.act _) (funext fun w => ?_))) h
  dsimp only
  cases (m w).1 <;> rfl

theorem ref_stopAll : Ref (reg g n0 q0) none stopAll (Prog.atom (onMain ProcBuf.stopAll)) := by
  refine Ref.withOther (fun k h => by cases k <;> cases h) ?_
  show Ref _ _ (Prog.atom (onMain ProcBuf.stopAll)) (Prog.atom (onMain ProcBuf.stopAll))
  rw [Prog.atom_eq]
  refine .glob _ _ _ ⟨fun w hw => trivial, fun w hw k => ?_, fun w v hw hv e => ?_⟩ (fun w v hw hv e => rfl) fun w hw => .ret _
  · cases k <;> rfl
  · have e : w.net = v.net := e
    show ({ w.net with closed := some true } : Net) = { v.net with closed := some true }
    rw [e]

theorem ref_call (i : Nat) {c : PCall} (hc : HasMoments c) : Ref (reg g n0 q0) none
    (prog MThr.lazyLock (proc i) c >>= fun r => (Prog.ret (r, ()) : PProg (PRet × Unit))) ((pmoments c).prog (sys q0 proc) i) := by
  cases c with
  | mirror c =>
    show Ref _ _ _ ((inProc (momentsOf c)).prog (sys q0 proc) i)
    rw [← prog_mirror]
    refine Eq.mp (congrArg (fun q => Ref (reg g n0 q0) none q _) (Prog.bind_assoc' _ _ _).symm) ?_
    exact (ref_mirror (h := none) (MThr.Sec.ref_prog hc)).bind fun _ => .ret _
  | receive =>
    refine ref_main (Ret.of .bool · |> .main) i (ref_receive ofClosed_true) fun w => ?_
    rw [seq_receiveCore]
    rfl
  | stopAll => exact ref_main (Ret.of (fun _ => .unit) · |> .main) i ref_stopAll fun w => rfl
  | forceStop =>
    refine ref_main (Ret.of (fun _ => .unit) · |> .main) i (ref_forceStop ofClosed_true) fun w => ?_
    exact congrArg (fun y : Except Exc Unit × PWorld => (PRet.main (Ret.of (fun _ => .unit) y.1), y.2)) (seq_putStop q0 w)
  | take p => exact hc.elim
  | reset => exact hc.elim
  | buffer c => exact hc.elim

end Sec

/-- Every execution is a history of the moments. -/
theorem moments_history {proc : Nat → Nat} {ok : Nat → PCall → Prop} (hok : ∀ i c, ok i c → HasMoments c) {w : PWorld}
    (hlock : ∀ p, (w.procs p).lock ≠ none) {tr : List (Ev PCall PRet)}
    {κ : Conc.Conf PWorld PLock Unit PCall PRet} (hx : Exec (procThreads MThr.lazyLock proc ok) (init w fun _ => ()) tr κ) :
    ∃ (h : List (HEvent PCall PRet PSec PRet)) (rest : Nat → Option (PCall × Ask PSec PRet (PRet × Unit))) (t : PShared), seen h = tr ∧
      Serves (fun s i x a t => x.exec (proc i) s = (a, t)) (.of w) (opsOf h) t ∧
      (∀ i, ClientRun (fun _ c => pmoments c) i () (own i h) () (rest i)) ∧ t.net = κ.st.net ∧
      ((∀ i, κ.cur i = none) → t = .of κ.st ∧ ∀ i, rest i = none) := by
  have hg : ∃ g : Nat → MCfg, ∀ p, Made (g p) (w.procs p).made (w.procs p) := by
    refine ⟨fun p => ⟨(w.procs p).lock.getD 0, (w.procs p).mirror.queue, (w.procs p).mirror.block, (w.procs p).mirror.timeout⟩, fun p => ⟨?_, rfl, rfl, rfl, rfl⟩⟩
    cases h : (w.procs p).lock with
    | none => exact absurd h (hlock p)
    | some k => exact congrArg (fun l : Option Nat => some (l.getD 0)) h.symm
  obtain ⟨g, hg⟩ := hg
  obtain ⟨busy, κc, h1, h2⟩ := coarse_exec (Sec.reg g (fun p => (w.procs p).made) w.main.mirror.queue)
    (sys := procThreads MThr.lazyLock proc ok) (sysC := clients (Sec.sys w.main.mirror.queue proc) (fun _ _ c => pmoments c) ok)
    (fun i o c hc => Sec.ref_call i (hok i c hc)) (fun _ _ h => h) (IOf_iff.2 ⟨rfl, hg, trivial⟩) hx
  obtain ⟨h, rest, e1, e2, e3, e4⟩ := atom_history h1
  have key : ∀ {l : List (Nat × PSec × PRet)} {w' w'' : PWorld}, w'.main.mirror.queue = w.main.mirror.queue →
      Serves (fun s i q a t => Sec.act w.main.mirror.queue proc i q s = (a, t)) w' l w'' →
      Serves (fun s i x a t => x.exec (proc i) s = (a, t)) (PShared.of w') l (.of w'') := by
    intro l w' w'' hw hs
    induction hs with
    | nil => exact .nil _
    | cons s t u i q a l ha _ ih =>
      have hq := Sec.act_queue (q0 := w.main.mirror.queue) (proc := proc) i q s
      have hx := Sec.act_exec (q0 := w.main.mirror.queue) (proc := proc) i q s hw
      rw [ha] at hq hx
      exact .cons _ _ _ _ _ _ _ hx (ih (hq.trans hw))
  refine ⟨h, rest, .of κc.st, e1, key rfl e2, e3, h2.glob.symm, fun hi => ?_⟩
  obtain ⟨i1, i2⟩ := h2.idle hi
  refine ⟨by rw [i1], fun i => ?_⟩
  have := e4 i
  rw [i2 i] at this
  cases hr : rest i with
  | none => rfl
  | some x => rw [hr] at this; cases this

end PThr
end SyncStream
