import Verif.Lemmas.Blocks
import Verif.Lemmas.ProcThreads
/-!
# Threads that share a mirror: the sections of their calls

The `__buffer_lock` has been made, the mirror is open, its queue and timeout stay as they are, and the mirrors have not
been stopped.  Then every call on a mirror but `send_eof`, `send_error`, `send_warning` and `close` has one moment of
effect.
-/

namespace SyncStream
open Conc

/-- What does not change about a mirror: its lock, its queue, how it puts. -/
structure MCfg where
  lock : Nat
  queue : Nat
  block : Bool
  timeout : Option Nat

/-- The lock exists, the mirror is open and configured so. -/
structure Ready (g : MCfg) (m : MProc) : Prop where
  lock : m.lock = some g.lock
  queue : m.mirror.queue = g.queue
  block : m.mirror.block = g.block
  timeout : m.mirror.timeout = g.timeout
  opened : m.mirror.buf.closed = false

/-- The mirrors have not been stopped. -/
def Running (n : Net) : Prop := n.closed ≠ some true

namespace MThr
variable {α β : Type} {g : MCfg}

/-- One process: its region is the mirror, protected by the `__buffer_lock` number `k`, and `R` holds of it; the rest is what is shared,
of which `G` holds. -/
def mregOf (k : Nat) (R : MProc → Prop) (G : Net → Prop) : Regions (MProc × Net) MLock Unit where
  A _ := MProc
  G := Net
  get _ s := s.1
  set _ a s := (a, s.2)
  glob s := s.2
  lock _ := .buf k
  inv _ := R
  ginv := G
  get_same _ _ _ := rfl
  get_other _ _ _ _ h := absurd rfl h
  glob_set _ _ _ := rfl
  ext _ _ h h' := Prod.ext (h ()) h'
  lock_inj _ _ _ := rfl

/-- The same for an open mirror. -/
abbrev mreg (g : MCfg) : Regions (MProc × Net) MLock Unit := mregOf g.lock (Ready g) Running

theorem IOf_iff {k : Nat} {R : MProc → Prop} {G : Net → Prop} {s : MProc × Net} : (mregOf k R G).I s ↔ R s.1 ∧ G s.2 :=
  ⟨fun h => ⟨h.1 (), h.2⟩, fun h => ⟨fun _ => h.1, h.2⟩⟩

theorem I_iff {s : MProc × Net} : (mreg g).I s ↔ Ready g s.1 ∧ Running s.2 := IOf_iff

/-! ## Steps -/

theorem own_atom {m : Py (MProc × Net) α} {Q : Except Exc α → Prop}
    (h : ∀ s, Ready g s.1 → Running s.2 → Ready g (m s).2.1 ∧ (m s).2.2 = s.2 ∧ Q (m s).1)
    (hc : ∀ a n n', Ready g a → Running n → Running n' → (m (a, n)).1 = (m (a, n')).1 ∧ (m (a, n)).2.1 = (m (a, n')).2.1) :
    Priv (mreg g) () (Prog.atom m) Q := by
  intro d com
  rw [Prog.atom_eq]
  refine .inl ⟨⟨fun s hs => ?_, fun s hs => ?_, fun _ _ _ h => absurd rfl h, fun s t hs ht e => ?_, fun s t hs ht e => ?_⟩,
    fun s hs => ?_⟩
  · rw [I_iff] at hs; exact (h s hs.1 hs.2).1
  · rw [I_iff] at hs; exact (h s hs.1 hs.2).2.1
  · rw [I_iff] at hs ht
    obtain ⟨a, n⟩ := s
    obtain ⟨a', n'⟩ := t
    cases (e : a = a')
    exact (hc a n n' hs.1 hs.2 ht.2).2
  · rw [I_iff] at hs ht
    obtain ⟨a, n⟩ := s
    obtain ⟨a', n'⟩ := t
    cases (e : a = a')
    exact congrArg Prog.ofExcept (hc a n n' hs.1 hs.2 ht.2).1
  · rw [I_iff] at hs
    have := (h s hs.1 hs.2).2.2
    dsimp only
    cases hr : (m s).1 with
    | ok a => rw [hr] at this; exact ⟨rfl, rfl, this⟩
    | error e => rw [hr] at this; exact ⟨rfl, rfl, this⟩

theorem use_atom {m : Py (MProc × Net) α}
    (h : ∀ s, Ready g s.1 → Running s.2 → Ready g (m s).2.1 ∧ Running (m s).2.2) : Uses (mreg g) () (Prog.atom m) := by
  intro d
  rw [Prog.atom_eq]
  have e : ∀ s t : MProc × Net, (mreg g).get () s = (mreg g).get () t → (mreg g).glob s = (mreg g).glob t → s = t :=
    fun s t h h' => Prod.ext h h'
  refine .inr ⟨rfl, ⟨fun s hs => ?_, fun s hs => ?_, fun _ _ _ h => absurd rfl h, fun s t hs ht h1 h2 => ?_,
    fun s t hs ht h1 h2 => ?_⟩, fun s hs => ?_⟩
  · rw [I_iff] at hs; exact (h s hs.1 hs.2).1
  · rw [I_iff] at hs; exact (h s hs.1 hs.2).2
  · rw [e s t h1 h2]; exact ⟨rfl, rfl⟩
  · rw [e s t h1 h2]
  · dsimp only
    cases (m s).1 <;> exact rfl

/-- Operations on the `StringIO` that leave it open. -/
theorem own_onBuf {m : Py StringIO α} (h : ∀ b : StringIO, b.closed = false → (m b).2.closed = false) :
    Priv (mreg g) () (onBuf m) fun _ => True :=
  own_atom (fun _ h1 _ => ⟨⟨h1.lock, h1.queue, h1.block, h1.timeout, h _ h1.opened⟩, rfl, trivial⟩)
    fun _ _ _ _ _ _ => ⟨rfl, rfl⟩

/-- Reading something of the mirror. -/
theorem own_gets {f : MProc × Net → α} {Q : Except Exc α → Prop} (hf : ∀ a n n', f (a, n) = f (a, n'))
    (h : ∀ s, Ready g s.1 → Running s.2 → Q (.ok (f s))) : Priv (mreg g) () (gets f) Q :=
  own_atom (fun s h1 h2 => ⟨h1, rfl, h s h1 h2⟩) fun a n n' _ _ _ => ⟨congrArg Except.ok (hf a n n'), rfl⟩

theorem check_open {b : StringIO} (h : b.closed = false) : StringIO.check b = (.ok (), b) := by simp [StringIO.check, h]

theorem open_seek0 (b : StringIO) (h : b.closed = false) : (StringIO.seek0 b).2.closed = false := by
  unfold StringIO.seek0; rw [Py.bind_ok (check_open h)]; exact h
theorem open_truncate0 (b : StringIO) (h : b.closed = false) : (StringIO.truncate0 b).2.closed = false := by
  unfold StringIO.truncate0; rw [Py.bind_ok (check_open h)]; exact h
theorem open_tell (b : StringIO) (h : b.closed = false) : (StringIO.tell b).2.closed = false := by
  unfold StringIO.tell; rw [Py.bind_ok (check_open h)]; exact h
theorem open_getvalue (b : StringIO) (h : b.closed = false) : (StringIO.getvalue b).2.closed = false := by
  unfold StringIO.getvalue; rw [Py.bind_ok (check_open h)]; exact h
theorem open_flush (b : StringIO) (h : b.closed = false) : (StringIO.flush b).2.closed = false := by
  unfold StringIO.flush; rw [check_open h]; exact h
theorem open_write (d : PyStr) (b : StringIO) (h : b.closed = false) : (StringIO.write d b).2.closed = false := by
  unfold StringIO.write; rw [Py.bind_ok (check_open h)]
  by_cases hd : d = []
  · rw [if_pos hd]; exact h
  · rw [if_neg hd]; exact h
theorem open_read (n : Int) (b : StringIO) (h : b.closed = false) : (StringIO.read n b).2.closed = false := by
  unfold StringIO.read; rw [Py.bind_ok (check_open h)]; exact h

theorem use_put (msg : QMsg) : Uses (mreg g) () (put msg) := by
  refine use_atom fun s h1 h2 => ⟨h1, ?_⟩
  show (Net.put s.1.mirror.queue msg s.1.mirror.block s.1.mirror.timeout s.2).2.closed ≠ some true
  have : (Net.put s.1.mirror.queue msg s.1.mirror.block s.1.mirror.timeout s.2).2.closed = s.2.closed := by
    unfold Net.put
    dsimp only
    repeat' split
    all_goals rfl
  rw [this]; exact h2

/-- The lock is found. -/
theorem own_lazyLock : Priv (mreg g) () lazyLock fun r => r = .ok (.buf g.lock) := by
  unfold lazyLock
  refine Priv.bind (Q := fun r => r = .ok (some g.lock)) (own_gets (fun _ _ _ => rfl) fun s h _ => congrArg _ h.lock)
    (fun a ha => ?_) fun e he => nomatch he
  cases ha
  refine Priv.bind (Q := fun r => r = .ok (some g.lock)) (own_gets (fun _ _ _ => rfl) fun s h _ => congrArg _ h.lock)
    (fun a ha => ?_) fun e he => nomatch he
  cases ha
  exact .ret rfl

theorem own_locked {p : MProg α} {Q : Except Exc α → Prop} (h : Priv (mreg g) () p Q) : Priv (mreg g) () (locked lazyLock p) Q :=
  own_lazyLock.bind (fun _ hl => by cases hl; exact h.withOwn) fun _ he => nomatch he

theorem ref_lazyLock {h : Option Unit} {k : MLock → MProg α} {c : MProg α} (hr : Ref (mreg g) h (k (.buf g.lock)) c) :
    Ref (mreg g) h (lazyLock >>= k) c := by
  have e1 : ∀ s : MProc × Net, (mreg g).I s → s.1.lock = some g.lock := fun s hs => (I_iff.1 hs).1.lock
  refine .still h _ _ ((gets (·.1.lock) >>= fun l => Prog.ret (.buf (l.getD 0))) >>= k) c (fun s hs => ⟨rfl, ?_⟩)
    (.still h _ _ (k (.buf g.lock)) c (fun s hs => ⟨rfl, ?_⟩) hr)
  · dsimp only [Py.gets]
    rw [e1 s hs]
    rfl
  · dsimp only [Py.gets]
    rw [e1 s hs]
    rfl

theorem ref_locked {p c : MProg α} (h : Ref (mreg g) (some ()) (p.andRelease (.buf g.lock) true) c) :
    Ref (mreg g) none (locked lazyLock p) c := ref_lazyLock (Ref.withLock (P := mreg g) (k := ()) h)

/-- A section that is one block. -/
theorem ref_block {p : MProg α} (h : Uses (mreg g) () p) : Ref (mreg g) none (locked lazyLock p) (blk p) := ref_locked (.last (h 0))

theorem ref_gets {f : MProc × Net → α} (hf : ∀ a n n', f (a, n) = f (a, n')) :
    Ref (mreg g) none (locked lazyLock (gets f)) (blk (gets f)) :=
  ref_block (own_gets (Q := fun _ => True) hf fun _ _ _ => trivial).uses

theorem put_closed (q : Nat) (msg : QMsg) (b : Bool) (t : Option Nat) (n : Net) : (Net.put q msg b t n).2.closed = n.closed := by
  unfold Net.put
  dsimp only
  repeat' split
  all_goals rfl

theorem ref_put (msg : QMsg) : Ref (mreg g) none (put msg) (put msg) := by
  unfold put atom
  rw [Prog.atom_eq]
  have hd : ∀ s t : MProc × Net, (mreg g).I s → (mreg g).I t → (mreg g).glob s = (mreg g).glob t →
      Net.put s.1.mirror.queue msg s.1.mirror.block s.1.mirror.timeout s.2 =
        Net.put t.1.mirror.queue msg t.1.mirror.block t.1.mirror.timeout t.2 := fun s t hs ht e => by
    rw [I_iff] at hs ht
    rw [hs.1.queue, hs.1.block, hs.1.timeout, ht.1.queue, ht.1.block, ht.1.timeout, show s.2 = t.2 from e]
  refine .glob _ _ _ ⟨fun s hs => ?_, fun s hs _ => rfl, fun s t hs ht e => ?_⟩ (fun s t hs ht e => ?_) fun s hs => ?_
  · show (Net.put s.1.mirror.queue msg s.1.mirror.block s.1.mirror.timeout s.2).2.closed ≠ some true
    rw [put_closed]; exact (I_iff.1 hs).2
  · have := congrArg Prod.snd (hd s t hs ht e)
    exact this
  · have := congrArg (fun x => (Prog.ofExcept (Prod.fst x) : MProg Unit)) (hd s t hs ht e)
    exact this
  · dsimp only
    cases (Py.onPart (fun s : MProc × Net => (s.1.mirror, s.2)) (fun t s => ({ s.1 with mirror := t.1 }, t.2))
      (Mirror.put msg) s).1 with
    | ok a => exact .ret a
    | error e => exact .raise e

theorem own_closed : Priv (mreg g) () (closed lazyLock) fun r => r = .ok false :=
  own_locked (own_gets (fun _ _ _ => rfl) fun _ h _ => congrArg _ h.opened)

theorem use_sendData (d : PyStr) : Uses (mreg g) () (sendData lazyLock d) :=
  own_closed.then fun _ ha => by cases ha; exact use_put _

theorem own_checkState : Priv (mreg g) () checkState fun _ => True := by
  unfold checkState
  refine Priv.bind (own_gets (Q := fun _ => True) (fun _ _ _ => rfl) fun _ _ _ => trivial) (fun a _ => ?_) fun _ _ => trivial
  cases a with
  | false => exact .ret trivial
  | true =>
    have hd : ∀ n : Net, Running n → n.closed.getD false = false := fun n hn => by
      cases h : n.closed with
      | none => rfl
      | some b =>
        cases b with
        | false => rfl
        | true => exact absurd h hn
    refine Priv.withOther (Priv.bind (Q := fun r => r = .ok false) ?_ (fun a ha => ?_) fun _ _ => trivial) fun _ h => nomatch h
    · exact own_atom (fun s h1 h2 => ⟨h1, rfl, congrArg Except.ok (hd _ h2)⟩)
        fun a n n' _ hn hn' => ⟨congrArg Except.ok ((hd n hn).trans (hd n' hn').symm), rfl⟩
    · cases ha; exact .ret trivial

theorem use_writeCore (d : PyStr) : Uses (mreg g) () (writeCore lazyLock d) := by
  unfold writeCore
  refine own_checkState.then fun _ _ => ?_
  refine Priv.then (own_gets (Q := fun _ => True) (fun _ _ _ => rfl) fun _ _ _ => trivial) fun a _ => ?_
  extract_lets n
  split
  · exact (use_sendData d).bind fun _ => .ret trivial
  · split
    · refine (own_onBuf (open_write d)).then fun _ _ => (own_onBuf open_getvalue).then fun _ _ => (use_sendData _).bind fun _ => ?_
      exact (own_onBuf open_seek0).bind (fun _ _ => (own_onBuf open_truncate0).bind (fun _ _ => .ret trivial)
        fun _ _ => trivial) fun _ _ => trivial
    · split
      · exact (own_onBuf (open_write d)).uses
      · exact (Priv.ret (Q := fun _ => True) trivial).uses

/-- `new_line` without its lock. -/
def newLineCore : MProg Unit := do
  let pos ← onBuf StringIO.tell
  if pos > 0 then
    let _ ← writeCore lazyLock (lit "\n")
    return ()
  else return ()

theorem use_newLineCore : Uses (mreg g) () newLineCore :=
  (own_onBuf open_tell).then fun _ _ => by
    split
    · exact (use_writeCore _).bind fun _ => .ret trivial
    · exact (Priv.ret (Q := fun _ => True) trivial).uses

/-! ## The calls -/

/-- The calls with one moment of effect. -/
def OneMoment : MCall → Prop
  | .write _ | .newLine | .read _ | .clear | .flush | .sendData _ | .closed | .readable | .writable => True
  | _ => False

/-- The calls, every section as one step. -/
def coarse : MCall → MProg MRet
  | .write d => do return MRet.of .nat (← (do
      if !(← blk (gets fun s => !s.1.mirror.buf.closed)) then .raise .osError else blk (writeCore lazyLock d) : MProg Nat).outcome)
  | .newLine => do return MRet.of (fun _ => .unit) (← (blk newLineCore).outcome)
  | .read size => do return MRet.of .text (← (do
      if !(← blk (gets fun s => !s.1.mirror.buf.closed)) then .raise .osError
      else blk (match size with
        | none => onBuf StringIO.getvalue
        | some n => onBuf (StringIO.read n)) : MProg PyStr).outcome)
  | .clear => do return MRet.of (fun _ => .unit) (← (blk (do
      onBuf StringIO.seek0
      onBuf StringIO.truncate0)).outcome)
  | .flush => do return MRet.of (fun _ => .unit) (← (blk (onBuf StringIO.flush)).outcome)
  | .sendData d => do return MRet.of (fun _ => .unit) (← (do
      if ← blk (gets (·.1.mirror.buf.closed)) then return () else put (.str d) : MProg Unit).outcome)
  | .closed => do return MRet.of .bool (← (blk (gets (·.1.mirror.buf.closed))).outcome)
  | .readable => do return MRet.of .bool (← (blk (gets fun s => !s.1.mirror.buf.closed)).outcome)
  | .writable => do return MRet.of .bool (← (blk (gets fun s => !s.1.mirror.buf.closed)).outcome)
  | _ => return .unit

theorem ref_prog {c : MCall} (hc : OneMoment c) : Ref (mreg g) none (prog lazyLock c) (coarse c) := by
  have fin : ∀ {β : Type} {p q : MProg β} {F : Except Exc β → MRet}, Ref (mreg g) none p q →
      Ref (mreg g) none (p.outcome >>= fun r => (Prog.ret (F r) : MProg MRet)) (q.outcome >>= fun r => Prog.ret (F r)) :=
    fun h => h.outcome.bind fun _ => .ret _
  cases c with
  | write d =>
    refine fin ((ref_gets fun _ _ _ => rfl).bind fun b => ?_)
    split
    · exact .raise _
    · exact ref_block (use_writeCore d)
  | newLine => exact fin (ref_block use_newLineCore)
  | read size =>
    refine fin ((ref_gets fun _ _ _ => rfl).bind fun b => ?_)
    split
    · exact .raise _
    · cases size with
      | none => exact ref_block (own_onBuf open_getvalue).uses
      | some n => exact ref_block (own_onBuf (open_read n)).uses
  | clear =>
    exact fin (ref_block (((own_onBuf open_seek0).bind (fun _ _ => own_onBuf open_truncate0) fun _ _ => trivial :
      Priv _ _ _ fun _ => True).uses))
  | flush => exact fin (ref_block (own_onBuf open_flush).uses)
  | sendData d =>
    refine fin ((ref_gets fun _ _ _ => rfl).bind fun b => ?_)
    cases b with
    | false => exact ref_put _
    | true => exact .ret _
  | closed => exact fin (ref_gets fun _ _ _ => rfl)
  | readable => exact fin (ref_gets fun _ _ _ => rfl)
  | writable => exact fin (ref_gets fun _ _ _ => rfl)
  | _ => exact hc.elim

end MThr
end SyncStream
