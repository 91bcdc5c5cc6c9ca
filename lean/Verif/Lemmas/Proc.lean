import Verif.Lemmas.LineBuffer
import Verif.Model.Proc
/-!
# Closed forms of the mirror's methods
-/

namespace SyncStream
open Spec

/-! ## When a text triggers a transmission -/

theorem noBreak_iff_segFrom (d : PyStr) : NoBreak d ↔ (segFrom [] d).1 = [] := by
  constructor
  · intro h; rw [segFrom_noBreak _ _ h]
  · intro h
    have hl := lines_segFrom [] d noBreak_nil
    rw [h] at hl
    simp only [List.nil_append] at hl
    generalize (segFrom [] d).2 = r at hl
    cases hl
    assumption

/-- The test in `__write` is "the text contains a line terminator". -/
theorem triggers_iff (d : PyStr) :
    ((splitlines d).length > 1 ∨ ((splitlines d).length = 1 ∧ (splitlines d).head? = some []) ∨
      isEndLineBreak d = true) ↔ ¬ NoBreak d := by
  rw [noBreak_iff_segFrom]
  by_cases hd : d = []
  · subst hd; simp [splitlines_eq, isEndLineBreak]
  have he := isEndLineBreak_iff_rest d hd
  have hs := splitlines_eq d
  cases hls : (segFrom [] d).1 with
  | nil =>
    have hr : (segFrom [] d).2 ≠ [] := by
      have h1 := (noBreak_iff_segFrom d).2 hls
      rw [segFrom_noBreak _ _ h1]; simpa using hd
    rw [hls] at hs
    simp [hs, he, hr]
  | cons l ls =>
    rw [hls] at hs
    simp only [reduceCtorEq, not_false_eq_true, iff_true]
    by_cases hr : (segFrom [] d).2 = []
    · exact .inr (.inr (he.2 hr))
    · left; rw [hs]; simp [hr]

theorem splitlines_noBreak {d : PyStr} (h : NoBreak d) (hd : d ≠ []) : (splitlines d).length = 1 := by
  rw [splitlines_eq, segFrom_noBreak _ _ h]; simp [hd]

/-! ## put -/

/-- A queue with one more message in queue `q`. -/
def Net.appended (n : Net) (q : Nat) (msg : QMsg) : Nat → List QMsg :=
  fun i => if i = q then n.queues q ++ [msg] else n.queues i

/-- A `put` appends the message or fails and changes no queue; it never changes the state. -/
theorem Net.put_spec (q : Nat) (msg : QMsg) (b : Bool) (t : Option Nat) (n : Net) :
    (Net.put q msg b t n).2.closed = n.closed ∧
    (((Net.put q msg b t n).1 = .ok () ∧ (Net.put q msg b t n).2.queues = n.appended q msg) ∨
     ∃ e, (Net.put q msg b t n).1 = .error e ∧ (Net.put q msg b t n).2.queues = n.queues) := by
  unfold Net.put
  generalize n.room.headD (.after 0) = r
  cases r with
  | broken e => exact ⟨rfl, .inr ⟨e, rfl, rfl⟩⟩
  | never =>
    dsimp only
    split
    · cases t with
      | none => exact ⟨rfl, .inr ⟨_, rfl, rfl⟩⟩
      | some l => exact ⟨rfl, .inr ⟨_, rfl, rfl⟩⟩
    · exact ⟨rfl, .inr ⟨_, rfl, rfl⟩⟩
  | after k =>
    dsimp only
    split
    · cases t with
      | none => exact ⟨rfl, .inl ⟨rfl, rfl⟩⟩
      | some l =>
        dsimp only
        split
        · exact ⟨rfl, .inl ⟨rfl, rfl⟩⟩
        · exact ⟨rfl, .inr ⟨_, rfl, rfl⟩⟩
    · split
      · exact ⟨rfl, .inl ⟨rfl, rfl⟩⟩
      · exact ⟨rfl, .inr ⟨_, rfl, rfl⟩⟩

namespace Mirror

/-- The mirror with an open buffer holding `p`. -/
def withBuf (m : Mirror) (p : PyStr) : Mirror :=
  { m with buf := { buf := p, pos := p.length, closed := false } }

/-- The mirror with a closed buffer. -/
def closedM (m : Mirror) : Mirror := { m with buf := { buf := [], pos := 0, closed := true } }

/-- Stopped by `stop_all_mirrors`. -/
def stopped (m : Mirror) (n : Net) : Bool := m.hasState && n.closed.getD false

@[simp] theorem withBuf_withBuf (m : Mirror) (p q : PyStr) : (m.withBuf p).withBuf q = m.withBuf q := rfl
@[simp] theorem withBuf_aggressive (m : Mirror) (p : PyStr) : (m.withBuf p).aggressive = m.aggressive := rfl
@[simp] theorem withBuf_queue (m : Mirror) (p : PyStr) : (m.withBuf p).queue = m.queue := rfl
@[simp] theorem withBuf_buf (m : Mirror) (p : PyStr) : (m.withBuf p).buf.buf = p := rfl
@[simp] theorem withBuf_closed (m : Mirror) (p : PyStr) : (m.withBuf p).buf.closed = false := rfl
@[simp] theorem withBuf_stopped (m : Mirror) (p : PyStr) (n : Net) :
    (m.withBuf p).stopped n = m.stopped n := rfl
@[simp] theorem withBuf_block (m : Mirror) (p : PyStr) : (m.withBuf p).block = m.block := rfl
@[simp] theorem withBuf_timeout (m : Mirror) (p : PyStr) : (m.withBuf p).timeout = m.timeout := rfl
@[simp] theorem closedM_queue (m : Mirror) : m.closedM.queue = m.queue := rfl

theorem onBuf_write (m : Mirror) (p d : PyStr) (n : Net) :
    onBuf (StringIO.write d) (m.withBuf p, n) = (.ok d.length, (m.withBuf (p ++ d), n)) := by
  simp only [onBuf, withBuf, Py.onPart_apply, LineBuf.write_end]

theorem onBuf_getvalue (m : Mirror) (p : PyStr) (n : Net) :
    onBuf StringIO.getvalue (m.withBuf p, n) = (.ok p, (m.withBuf p, n)) := by
  simp [onBuf, withBuf, StringIO.getvalue, StringIO.check, Py.bind_apply]

theorem onBuf_tell (m : Mirror) (p : PyStr) (n : Net) :
    onBuf StringIO.tell (m.withBuf p, n) = (.ok p.length, (m.withBuf p, n)) := by
  simp [onBuf, withBuf, StringIO.tell, StringIO.check, Py.bind_apply]

theorem onBuf_seek_truncate {α : Type} (m : Mirror) (p : PyStr) (n : Net) (k : Unit → Py MNet α) :
    (onBuf StringIO.seek0 >>= fun _ => onBuf StringIO.truncate0 >>= k) (m.withBuf p, n) =
      k () (m.withBuf [], n) := by
  simp [onBuf, withBuf, StringIO.seek0, StringIO.truncate0, StringIO.check, Py.bind_apply]

theorem clear_open (m : Mirror) (p : PyStr) (n : Net) :
    clear (m.withBuf p, n) = (.ok (), (m.withBuf [], n)) := by
  simp [clear, onBuf, withBuf, StringIO.seek0, StringIO.truncate0, StringIO.check, Py.bind_apply]

theorem read_open (m : Mirror) (p : PyStr) (n : Net) (size : Option Int) :
    read size (m.withBuf p, n) =
      (.ok (match size with | none => p | some _ => []), (m.withBuf p, n)) := by
  unfold read
  rw [Py.bind_ok (show readable (m.withBuf p, n) = (.ok true, (m.withBuf p, n)) by
    simp [readable])]
  cases size with
  | none => simpa using onBuf_getvalue m p n
  | some k =>
    by_cases hk : k < 0
    · simp [onBuf, withBuf, StringIO.read, StringIO.check, Py.bind_apply, hk]
    · simp [onBuf, withBuf, StringIO.read, StringIO.check, Py.bind_apply, hk]

/-- `put` through the mirror. -/
def netPut (m : Mirror) (msg : QMsg) (n : Net) : Except Exc Unit × Net :=
  Net.put m.queue msg m.block m.timeout n

@[simp] theorem withBuf_netPut (m : Mirror) (p : PyStr) (msg : QMsg) (n : Net) :
    (m.withBuf p).netPut msg n = m.netPut msg n := rfl

theorem put_apply (m : Mirror) (msg : QMsg) (n : Net) :
    put msg (m, n) = ((m.netPut msg n).1, (m, (m.netPut msg n).2)) := rfl

theorem sendData_open (m : Mirror) (p d : PyStr) (n : Net) :
    sendData d (m.withBuf p, n) =
      ((m.netPut (.str d) n).1, (m.withBuf p, (m.netPut (.str d) n).2)) := by
  unfold sendData
  rw [Py.bind_ok (show closed (m.withBuf p, n) = (.ok false, (m.withBuf p, n)) by simp [closed])]
  rfl

/-- What `__write` does to an open mirror. -/
theorem writeCore_open (m : Mirror) (p d : PyStr) (n : Net) :
    writeCore d (m.withBuf p, n) =
      if m.stopped n then (.error .stopIteration, (m.withBuf p, n))
      else if m.aggressive then
        ((m.netPut (.str d) n).1.map fun _ => d.length, (m.withBuf p, (m.netPut (.str d) n).2))
      else if NoBreak d then (.ok d.length, (m.withBuf (p ++ d), n))
      else
        match m.netPut (.str (p ++ d)) n with
        | (.ok _, n') => (.ok d.length, (m.withBuf [], n'))
        | (.error e, n') => (.error e, (m.withBuf (p ++ d), n')) := by
  unfold writeCore
  rw [Py.bind_ok (Py.gets_apply _ _)]
  have hst : ((m.withBuf p, n).1.hasState && (m.withBuf p, n).2.closed.getD false) =
    m.stopped n := rfl
  rw [hst]
  by_cases hs : m.stopped n = true
  · simp [hs]
  simp only [hs, Bool.false_eq_true, if_false]
  rw [Py.bind_ok (show Py.gets (fun s : MNet => s.1.aggressive) (m.withBuf p, n) =
    (.ok m.aggressive, (m.withBuf p, n)) from rfl)]
  by_cases ha : m.aggressive = true
  · simp only [ha, if_true]
    cases hp : (m.netPut (.str d) n).1 with
    | ok u =>
      rw [Py.bind_ok (show sendData d (m.withBuf p, n) = (.ok (),
        (m.withBuf p, (m.netPut (.str d) n).2)) by rw [sendData_open, hp])]
      simp [Except.map]
    | error e =>
      rw [Py.bind_error (show sendData d (m.withBuf p, n) = (.error e,
        (m.withBuf p, (m.netPut (.str d) n).2)) by rw [sendData_open, hp])]
      simp [Except.map]
  simp only [ha, Bool.false_eq_true, if_false]
  have ht := triggers_iff d
  by_cases hb : NoBreak d
  · have : ¬ ((splitlines d).length > 1 ∨ ((splitlines d).length = 1 ∧
        (splitlines d).head? = some []) ∨ isEndLineBreak d = true) := by
      rw [ht]; exact fun h => h hb
    simp only [this, if_false, hb, if_true]
    by_cases hd : d = []
    · subst hd; simp [splitlines_eq]
    · simp only [splitlines_noBreak hb hd, if_true]
      exact onBuf_write m p d n
  · have := ht.2 hb
    simp only [this, if_true, hb, if_false]
    rw [Py.bind_ok (onBuf_write m p d n), Py.bind_ok (onBuf_getvalue m _ n)]
    cases hp : m.netPut (.str (p ++ d)) n with
    | mk r n' =>
      cases r with
      | ok u =>
        rw [Py.bind_ok (show sendData (p ++ d) (m.withBuf (p ++ d), n) = (.ok (),
          (m.withBuf (p ++ d), n')) by rw [sendData_open, hp])]
        rw [onBuf_seek_truncate]
        rfl
      | error e =>
        rw [Py.bind_error (show sendData (p ++ d) (m.withBuf (p ++ d), n) = (.error e,
          (m.withBuf (p ++ d), n')) by rw [sendData_open, hp])]

theorem write_open (m : Mirror) (p d : PyStr) (n : Net) :
    write d (m.withBuf p, n) = writeCore d (m.withBuf p, n) := by
  unfold write
  rw [Py.bind_ok (show writable (m.withBuf p, n) = (.ok true, (m.withBuf p, n)) by
    simp [writable])]
  simp

theorem newLine_open (m : Mirror) (p : PyStr) (n : Net) :
    newLine (m.withBuf p, n) =
      if p = [] then (.ok (), (m.withBuf p, n))
      else ((writeCore (lit "\n") (m.withBuf p, n)).1.map fun _ => (),
        (writeCore (lit "\n") (m.withBuf p, n)).2) := by
  unfold newLine
  rw [Py.bind_ok (onBuf_tell m p n)]
  by_cases hp : p = []
  · simp [hp]
  · have : p.length > 0 := List.length_pos_iff.2 hp
    simp only [this, if_true, hp, if_false, Py.bind_apply]
    cases hw : writeCore (lit "\n") (m.withBuf p, n) with
    | mk r s => cases r <;> simp [Except.map]

theorem not_noBreak_newline : ¬ NoBreak (lit "\n") := by decide +kernel

/-- `new_line()` of an open mirror that is not aggressive (or has nothing buffered). -/
theorem newLine_open' (m : Mirror) (p : PyStr) (n : Net) (ha : m.aggressive = true → p = []) :
    newLine (m.withBuf p, n) =
      if p = [] then (.ok (), (m.withBuf p, n))
      else if m.stopped n then (.error .stopIteration, (m.withBuf p, n))
      else match m.netPut (.str (p ++ lit "\n")) n with
        | (.ok _, n') => (.ok (), (m.withBuf [], n'))
        | (.error e, n') => (.error e, (m.withBuf (p ++ lit "\n"), n')) := by
  rw [newLine_open, writeCore_open]
  by_cases hp : p = []
  · simp [hp]
  · have ha' : m.aggressive = false := by
      cases h : m.aggressive with
      | false => rfl
      | true => exact absurd (ha h) hp
    simp only [hp, if_false, ha', Bool.false_eq_true, not_noBreak_newline]
    by_cases hs : m.stopped n = true
    · simp [hs, Except.map]
    · simp only [hs, Bool.false_eq_true, if_false]
      cases m.netPut (.str (p ++ lit "\n")) n with
      | mk r n' => cases r <;> simp [Except.map]

/-- A method of the form "return if closed; new_line(); put msg". -/
theorem send_open (m : Mirror) (p : PyStr) (n : Net) (msg : QMsg) :
    (do if ← closed then return ()
        newLine
        put msg : Py MNet Unit) (m.withBuf p, n) =
      match newLine (m.withBuf p, n) with
      | (.ok _, s) => put msg s
      | (.error e, s) => (.error e, s) := by
  rw [Py.bind_ok (show closed (m.withBuf p, n) = (.ok false, (m.withBuf p, n)) by simp [closed])]
  simp only [Bool.false_eq_true, if_false, Py.bind_apply]
  cases newLine (m.withBuf p, n) with
  | mk r s => cases r <;> rfl

theorem send_closed (m : Mirror) (n : Net) (msg : QMsg) :
    (do if ← closed then return ()
        newLine
        put msg : Py MNet Unit) (m.closedM, n) = (.ok (), (m.closedM, n)) := by
  rw [Py.bind_ok (show closed (m.closedM, n) = (.ok true, (m.closedM, n)) by simp [closed, closedM])]
  rfl

/-- The end signal that `close(exc)` sends. -/
def endMsg : Option ExcObj → QMsg
  | none => .close
  | some e => .error (GMsg.new (.exc e))

theorem close_open (m : Mirror) (p : PyStr) (n : Net) (exc : Option ExcObj) :
    close exc (m.withBuf p, n) =
      match newLine (m.withBuf p, n) with
      | (.error e, s) => (.error e, s)
      | (.ok _, s) =>
        match put (endMsg exc) s with
        | (.error e, s) => (.error e, s)
        | (.ok _, s) => (clear >>= fun _ => onBuf StringIO.close) s := by
  unfold close
  rw [Py.bind_ok (show closed (m.withBuf p, n) = (.ok false, (m.withBuf p, n)) by simp [closed])]
  simp only [Bool.false_eq_true, if_false]
  have key : ∀ msg, ((do if ← closed then return ()
                         newLine
                         put msg : Py MNet Unit) >>= fun _ => clear >>= fun _ => onBuf StringIO.close)
      (m.withBuf p, n) =
      match newLine (m.withBuf p, n) with
      | (.error e, s) => (.error e, s)
      | (.ok _, s) =>
        match put msg s with
        | (.error e, s) => (.error e, s)
        | (.ok _, s) => (clear >>= fun _ => onBuf StringIO.close) s := by
    intro msg
    rw [Py.bind_apply, send_open]
    cases newLine (m.withBuf p, n) with
    | mk r s =>
      cases r with
      | error e => rfl
      | ok u =>
        dsimp only
        cases put msg s with
        | mk r s => cases r <;> rfl
  cases exc with
  | none => exact key .close
  | some e => exact key (.error (GMsg.new (.exc e)))

theorem clear_close (m : Mirror) (p : PyStr) (n : Net) :
    (clear >>= fun _ => onBuf StringIO.close) (m.withBuf p, n) = (.ok (), (m.closedM, n)) := by
  rw [Py.bind_ok (clear_open m p n)]
  simp [onBuf, StringIO.close, withBuf, closedM]

theorem close_closed (m : Mirror) (n : Net) (exc : Option ExcObj) :
    close exc (m.closedM, n) = (.ok (), (m.closedM, n)) := by
  unfold close
  rw [Py.bind_ok (show closed (m.closedM, n) = (.ok true, (m.closedM, n)) by simp [closed, closedM])]
  rfl

/-! ## Every reachable mirror is in normal form -/

/-- Open with position at the end, or closed. -/
def Norm (m : Mirror) : Prop := (∃ p, m = m.withBuf p) ∨ m = m.closedM

theorem norm_withBuf (m : Mirror) (p : PyStr) : Norm (m.withBuf p) := .inl ⟨p, rfl⟩
theorem norm_closedM (m : Mirror) : Norm m.closedM := .inr rfl

theorem norm_new (q : Nat) (a : Bool) (t : Option Nat) : Norm (new q a t) := .inl ⟨[], rfl⟩

theorem writeCore_norm (m : Mirror) (p d : PyStr) (n : Net) :
    ∃ p' n', (writeCore d (m.withBuf p, n)).2 = (m.withBuf p', n') := by
  rw [writeCore_open]
  split
  · exact ⟨_, _, rfl⟩
  split
  · exact ⟨_, _, rfl⟩
  split
  · exact ⟨_, _, rfl⟩
  cases m.netPut (.str (p ++ d)) n with
  | mk r n' => cases r <;> exact ⟨_, _, rfl⟩

theorem newLine_norm (m : Mirror) (p : PyStr) (n : Net) :
    ∃ p' n', (newLine (m.withBuf p, n)).2 = (m.withBuf p', n') := by
  rw [newLine_open]
  split
  · exact ⟨_, _, rfl⟩
  · exact writeCore_norm _ _ _ _

theorem send_norm (m : Mirror) (p : PyStr) (n : Net) (msg : QMsg) :
    ∃ p' n', ((do if ← closed then return ()
                  newLine
                  put msg : Py MNet Unit) (m.withBuf p, n)).2 = (m.withBuf p', n') := by
  rw [send_open]
  obtain ⟨p', n', h⟩ := newLine_norm m p n
  cases hn : newLine (m.withBuf p, n) with
  | mk r s =>
    rw [hn] at h
    dsimp only at h
    subst h
    cases r with
    | error e => exact ⟨_, _, rfl⟩
    | ok u => exact ⟨_, _, rfl⟩

/-- Same attributes except the buffer, `aggressive` and the timeout. -/
theorem exec_norm (c : MCall) (m : Mirror) (n : Net) (h : Norm m) :
    Norm (exec c (m, n)).2.1 ∧ (exec c (m, n)).2.1.queue = m.queue ∧
    (exec c (m, n)).2.1.hasState = m.hasState := by
  rcases h with ⟨p, h⟩ | h
  · rw [h]
    cases c with
    | write d =>
      obtain ⟨p', n', h'⟩ := writeCore_norm m p d n
      simp only [exec, write_open, h']
      exact ⟨norm_withBuf _ _, by trivial, by trivial⟩
    | newLine =>
      obtain ⟨p', n', h'⟩ := newLine_norm m p n
      simp only [exec, h']
      exact ⟨norm_withBuf _ _, by trivial, by trivial⟩
    | read s => simp only [exec, read_open]; exact ⟨norm_withBuf _ _, by trivial, by trivial⟩
    | clear => simp only [exec, clear_open]; exact ⟨norm_withBuf _ _, by trivial, by trivial⟩
    | flush =>
      have : flush (m.withBuf p, n) = (.ok (), (m.withBuf p, n)) := by
        simp [flush, onBuf, StringIO.flush, StringIO.check, withBuf]
      simp only [exec, this]; exact ⟨norm_withBuf _ _, by trivial, by trivial⟩
    | sendData d => simp only [exec, sendData_open]; exact ⟨norm_withBuf _ _, by trivial, by trivial⟩
    | sendEof =>
      obtain ⟨p', n', h'⟩ := send_norm m p n .close
      simp only [exec]
      unfold sendEof
      rw [h']; exact ⟨norm_withBuf _ _, by trivial, by trivial⟩
    | sendError e =>
      obtain ⟨p', n', h'⟩ := send_norm m p n (.error (GMsg.new (.exc e)))
      simp only [exec]
      unfold sendError
      rw [h']; exact ⟨norm_withBuf _ _, by trivial, by trivial⟩
    | sendWarning e =>
      obtain ⟨p', n', h'⟩ := send_norm m p n (.warning (GMsg.new (.exc e)))
      simp only [exec]
      unfold sendWarning
      rw [h']; exact ⟨norm_withBuf _ _, by trivial, by trivial⟩
    | close exc =>
      simp only [exec, close_open]
      obtain ⟨p', n', h'⟩ := newLine_norm m p n
      cases hn : newLine (m.withBuf p, n) with
      | mk r s =>
        rw [hn] at h'
        dsimp only at h'
        subst h'
        cases r with
        | error e => exact ⟨norm_withBuf _ _, by trivial, by trivial⟩
        | ok u =>
          dsimp only
          rw [put_apply]
          cases hp : ((m.withBuf p').netPut (endMsg exc) n').1 with
          | error e => exact ⟨norm_withBuf _ _, by trivial, by trivial⟩
          | ok u =>
            dsimp only
            rw [clear_close]; exact ⟨norm_closedM _, by trivial, by trivial⟩
    | closed | readable | writable => exact ⟨norm_withBuf _ _, by trivial, by trivial⟩
    | setTimeout t => exact ⟨.inl ⟨p, rfl⟩, rfl, rfl⟩
    | setAggressive a => exact ⟨.inl ⟨p, rfl⟩, rfl, rfl⟩
  · rw [h]
    have hc : closed (m.closedM, n) = (.ok true, (m.closedM, n)) := by simp [closed, closedM]
    cases c with
    | write d =>
      have : write d (m.closedM, n) = (.error .osError, (m.closedM, n)) := by
        simp [write, writable, closedM, Py.bind_apply]
      simp only [exec, this]; exact ⟨norm_closedM _, by trivial, by trivial⟩
    | newLine =>
      have : newLine (m.closedM, n) = (.error .valueError, (m.closedM, n)) := by
        simp [newLine, onBuf, StringIO.tell, StringIO.check, closedM, Py.bind_apply]
      simp only [exec, this]; exact ⟨norm_closedM _, by trivial, by trivial⟩
    | read s =>
      have : read s (m.closedM, n) = (.error .osError, (m.closedM, n)) := by
        simp [read, readable, closedM, Py.bind_apply]
      simp only [exec, this]; exact ⟨norm_closedM _, by trivial, by trivial⟩
    | clear =>
      have : clear (m.closedM, n) = (.error .valueError, (m.closedM, n)) := by
        simp [clear, onBuf, StringIO.seek0, StringIO.check, closedM, Py.bind_apply]
      simp only [exec, this]; exact ⟨norm_closedM _, by trivial, by trivial⟩
    | flush =>
      have : flush (m.closedM, n) = (.error .valueError, (m.closedM, n)) := by
        simp [flush, onBuf, StringIO.flush, StringIO.check, closedM]
      simp only [exec, this]; exact ⟨norm_closedM _, by trivial, by trivial⟩
    | sendData d =>
      have : sendData d (m.closedM, n) = (.ok (), (m.closedM, n)) := by
        unfold sendData; rw [Py.bind_ok hc]; rfl
      simp only [exec, this]; exact ⟨norm_closedM _, by trivial, by trivial⟩
    | sendEof =>
      have : sendEof (m.closedM, n) = (.ok (), (m.closedM, n)) := send_closed m n .close
      simp only [exec, this]; exact ⟨norm_closedM _, by trivial, by trivial⟩
    | sendError e =>
      have : sendError e (m.closedM, n) = (.ok (), (m.closedM, n)) := send_closed m n _
      simp only [exec, this]; exact ⟨norm_closedM _, by trivial, by trivial⟩
    | sendWarning e =>
      have : sendWarning e (m.closedM, n) = (.ok (), (m.closedM, n)) := send_closed m n _
      simp only [exec, this]; exact ⟨norm_closedM _, by trivial, by trivial⟩
    | close exc => simp only [exec, close_closed]; exact ⟨norm_closedM _, by trivial, by trivial⟩
    | closed | readable | writable => exact ⟨norm_closedM _, by trivial, by trivial⟩
    | setTimeout t => exact ⟨.inr rfl, rfl, rfl⟩
    | setAggressive a => exact ⟨.inr rfl, rfl, rfl⟩

end Mirror
end SyncStream
