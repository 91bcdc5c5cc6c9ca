import Verif.Model.Threads
import Verif.Lemmas.Conc
import Verif.Lemmas.LineBuffer
/-!
# The programs of threads: what they do without interruption, and that they obey the discipline
-/

namespace SyncStream
open Conc

namespace Thr
variable {α β : Type}

theorem seq_bind' (p : TProg α) (g : α → TProg β) :
    (p >>= g).seq = (p.seq >>= fun a => (g a).seq : Py LineBuf β) := by
  funext s; exact Prog.seq_bind p g s

theorem seq_onLast (m : Py StringIO α) : (onLast m).seq = LineBuf.onLast m := by
  funext s; exact Prog.seq_atom _ s

theorem seq_onStorage (m : Py (Deque Item) α) : (onStorage m).seq = LineBuf.onStorage m := by
  funext s; exact Prog.seq_atom _ s

theorem seq_gets (f : LineBuf → α) : (gets f).seq = Py.gets f := by
  funext s; exact Prog.seq_atom _ s

theorem seq_locked (p : TProg α) : (locked p).seq = p.seq := by
  funext s; exact Prog.seq_withLock _ _ p s

theorem seq_pure' (a : α) : (pure a : TProg α).seq = (pure a : Py LineBuf α) := rfl

theorem seq_raise' (e : Exc) : (Prog.raise e : TProg α).seq = Py.raise e := rfl

theorem seq_ite (c : Prop) [Decidable c] (p q : TProg α) :
    (if c then p else q).seq = if c then p.seq else q.seq := by split <;> rfl

theorem seq_writeCore (d : PyStr) : (writeCore d).seq = LineBuf.writeCore d := by
  simp only [writeCore, LineBuf.writeCore, parseLines, LineBuf.parseLines, seq_ite, seq_bind', seq_onLast,
    seq_onStorage, seq_pure']

theorem seq_write (d : PyStr) : (write d).seq = LineBuf.write d := by
  simp only [write, LineBuf.write, writable, LineBuf.writable, seq_ite, seq_bind', seq_locked, seq_gets,
    seq_raise', seq_writeCore]

theorem seq_newLine : newLine.seq = LineBuf.newLine := by
  simp only [newLine, LineBuf.newLine, seq_ite, seq_bind', seq_locked, seq_onLast, seq_writeCore, seq_pure']

theorem seq_readAll : readAll.seq = LineBuf.readAll := by
  simp only [readAll, LineBuf.readAll, seq_ite, seq_bind', seq_gets, seq_onLast, seq_onStorage, seq_pure']

theorem seq_readLoop (n : Nat) (l : List Item) : (readLoop n l).seq = LineBuf.readLoop n l := by
  induction n generalizing l with
  | zero => rfl
  | succ n ih => simp only [readLoop, LineBuf.readLoop, seq_bind', seq_onStorage, ih]

theorem seq_readN (n : Int) : (readN n).seq = LineBuf.readN n := by
  simp only [readN, LineBuf.readN, seq_ite, seq_bind', seq_gets, seq_onLast, seq_onStorage, seq_pure',
    seq_readLoop]
  repeat' first
    | rfl
    | refine congrArg (Bind.bind _) (funext fun o => ?_)
    | split
    | (rename_i o _ _ _ _; cases o <;> simp only [seq_bind', seq_onStorage, seq_pure'])

theorem seq_read (n : Option Int) : (Thr.read n).seq = LineBuf.read n := by
  cases n <;>
  simp only [Thr.read, LineBuf.read, readable, LineBuf.readable, seq_ite, seq_bind', seq_locked, seq_gets,
    seq_raise', seq_readAll, seq_readN, seq_pure']

theorem seq_clear : clear.seq = LineBuf.clear := by
  funext s
  simp only [clear, LineBuf.clear, seq_bind', seq_locked, seq_onLast, seq_onStorage]
  simp only [Py.bind_apply]
  generalize LineBuf.onLast StringIO.seek0 s = x
  obtain ⟨x | x, y⟩ := x <;> rfl

theorem seq_flush : flush.seq = LineBuf.flush := by
  simp only [flush, LineBuf.flush, seq_locked, seq_onLast]

theorem seq_len (b : LineBuf) : len.seq b = LineBuf.len b := by
  simp only [len, seq_bind', seq_locked, seq_gets, seq_pure', Py.bind_apply]
  rfl

theorem seq_closed : closed.seq = LineBuf.closed := by
  simp only [closed, LineBuf.closed, seq_locked, seq_gets]

theorem seq_readable : readable.seq = LineBuf.readable := by
  simp only [readable, LineBuf.readable, seq_locked, seq_gets]

theorem seq_writable : writable.seq = LineBuf.writable := by
  simp only [writable, LineBuf.writable, seq_locked, seq_gets]

theorem seq_close : close.seq = LineBuf.close := by
  simp only [close, LineBuf.close, LineBuf.closed, seq_ite, seq_bind', seq_locked, seq_gets, seq_clear, seq_onLast,
    seq_pure']

theorem seq_ret (F : Except Exc α → Ret) (p : TProg α) (b : LineBuf) :
    (do return F (← p.outcome) : TProg Ret).seq b = (.ok (F (p.seq b).1), (p.seq b).2) :=
  (Prog.seq_bind_ok (Prog.seq_outcome p b)).trans rfl

/-- Without interruption, a call does and returns what the sequential model says. -/
theorem prog_seq (c : Call) (b : LineBuf) :
    (prog (.call c)).seq b = (.ok (LineBuf.exec c b).1, (LineBuf.exec c b).2) := by
  cases c with
  | write d => exact (seq_ret _ _ b).trans (by rw [seq_write]; rfl)
  | newLine => exact (seq_ret _ _ b).trans (by rw [seq_newLine]; rfl)
  | read n => exact (seq_ret _ _ b).trans (by rw [seq_read]; rfl)
  | len => exact (seq_ret _ _ b).trans (by rw [seq_len]; rfl)
  | maxlen => exact (seq_ret _ _ b).trans (by rw [seq_gets]; rfl)
  | clear => exact (seq_ret _ _ b).trans (by rw [seq_clear]; rfl)
  | flush => exact (seq_ret _ _ b).trans (by rw [seq_flush]; rfl)
  | close => exact (seq_ret _ _ b).trans (by rw [seq_close]; rfl)
  | closed => exact (seq_ret _ _ b).trans (by rw [seq_closed]; rfl)
  | readable => exact (seq_ret _ _ b).trans (by rw [seq_readable]; rfl)
  | writable => exact (seq_ret _ _ b).trans (by rw [seq_writable]; rfl)

/-! ## Discipline -/

/-- Everything is common; the buffer is open. -/
def parts : Parts LineBuf Unit where
  I b := b.lastLine.closed = false
  eqS _ s t := s = t
  eqL _ _ _ := True
  mix _ _ g := g
  S_refl _ _ := rfl
  S_symm h := h.symm
  S_trans h h' := h.trans h'
  L_refl _ _ := trivial
  L_symm _ := trivial
  L_trans _ _ := trivial
  mix_L _ _ _ := trivial
  mix_S _ _ _ _ := rfl
  mix_O _ _ _ := trivial
  mix_eq _ := rfl
  mix_cong _ _ := rfl
  mix_I _ h := h

/-- `p` runs inside a section and leaves the buffer open. -/
def InSec (i : Nat) (p : TProg α) : Prop :=
  ∀ com, WP parts () i (some true) com p fun _ h' _ => h' = some true

variable {i : Nat}

theorem InSec.ret (a : α) : InSec i (.ret a) := fun _ => rfl

theorem InSec.bind {p : TProg α} {g : α → TProg β} (hp : InSec i p) (hg : ∀ a, InSec i (g a)) :
    InSec i (p >>= g) := fun com => WP.bind ((hp com).mono fun r h' c' hq => by
  subst hq
  cases r with
  | ok a => exact hg a _
  | error e => rfl)

theorem InSec.atom {m : Py LineBuf α} (h : ∀ s, s.lastLine.closed = false → (m s).2.lastLine.closed = false) :
    InSec i (Prog.atom m) := fun com => by
  refine .inr ⟨true, rfl, ⟨h, fun _ _ _ _ => trivial, fun _ _ _ h => absurd rfl h, (nomatch ·), fun s t _ _ h _ => ?_, fun s t _ _ h _ => ?_⟩,
    fun s _ => ?_⟩
  · cases show s = t from h; exact ⟨rfl, trivial⟩
  · cases show s = t from h; rfl
  · dsimp only; split <;> rfl

theorem sec_gets (f : LineBuf → α) : InSec i (gets f) := .atom fun _ h => h

theorem sec_onStorage (m : Py (Deque Item) α) : InSec i (onStorage m) := .atom fun _ h => h

theorem sec_onLast {m : Py StringIO α} (h : ∀ t, t.closed = false → (m t).2.closed = false) :
    InSec i (onLast m) := .atom fun s hs => h s.lastLine hs

theorem open_seek0 (t : StringIO) (h : t.closed = false) : (StringIO.seek0 t).2.closed = false := by
  simp [StringIO.seek0, StringIO.check, Py.bind_apply, h]

theorem open_truncate0 (t : StringIO) (h : t.closed = false) : (StringIO.truncate0 t).2.closed = false := by
  simp [StringIO.truncate0, StringIO.check, Py.bind_apply, h]

theorem open_tell (t : StringIO) (h : t.closed = false) : (StringIO.tell t).2.closed = false := by
  simp [StringIO.tell, StringIO.check, Py.bind_apply, h]

theorem open_getvalue (t : StringIO) (h : t.closed = false) : (StringIO.getvalue t).2.closed = false := by
  simp [StringIO.getvalue, StringIO.check, Py.bind_apply, h]

theorem open_flush (t : StringIO) (h : t.closed = false) : (StringIO.flush t).2.closed = false := by
  simp [StringIO.flush, StringIO.check, h]

theorem open_write (d : PyStr) (t : StringIO) (h : t.closed = false) :
    (StringIO.write d t).2.closed = false := by
  simp only [StringIO.write, StringIO.check, Py.bind_apply, h]
  simp only [Bool.false_eq_true, if_false]
  split <;> simp_all [Py.bind_apply]

theorem sec_writeCore (d : PyStr) : InSec i (writeCore d) := by
  unfold writeCore
  generalize isEndLineBreak d = ending
  extract_lets m n m' n'
  split
  · exact .bind (sec_onLast open_getvalue) fun _ => .bind (sec_onStorage _) fun _ =>
      .bind (sec_onLast open_seek0) fun _ => .bind (sec_onLast open_truncate0) fun _ => .ret _
  · split
    · exact .bind (sec_onLast open_getvalue) fun _ => .bind (sec_onStorage _) fun _ =>
        .bind (sec_onLast open_seek0) fun _ => .bind (sec_onLast open_truncate0) fun _ =>
        sec_onLast (open_write _)
    · split
      · exact sec_onLast (open_write _)
      · exact .ret _

theorem sec_readAll : InSec i readAll := by
  unfold readAll
  refine .bind (sec_onLast open_tell) fun pos => .bind (sec_gets _) fun n => ?_
  split
  · refine .bind (sec_gets _) fun m => ?_
    split
    · exact .bind (sec_onStorage _) fun _ => .bind (sec_gets _) fun _ =>
        .bind (sec_onLast open_getvalue) fun _ => .bind (sec_onStorage _) fun _ => .ret _
    · split
      · exact .bind (sec_gets _) fun _ => .bind (sec_onLast open_getvalue) fun _ => .ret _
      · exact .bind (sec_onLast open_getvalue) fun _ => .ret _
  · exact sec_gets _

theorem sec_readLoop (n : Nat) (l : List Item) : InSec i (readLoop n l) := by
  induction n generalizing l with
  | zero => exact .ret _
  | succ n ih => exact .bind (sec_onStorage _) fun _ => .bind (sec_onStorage _) fun _ => ih _

theorem sec_readN (n : Int) : InSec i (readN n) := by
  unfold readN
  refine .bind (sec_onLast open_tell) fun pos => .bind (sec_gets _) fun n => .bind (sec_gets _) fun m =>
    .bind ?_ fun o => .bind ?_ fun _ => .bind (sec_readLoop _ _) fun _ => ?_
  · split
    · exact .bind (sec_onStorage _) fun _ => .ret _
    · exact .ret _
  · generalize (min _ _ : Int) = k
    split
    · exact sec_onStorage _
    · exact .ret _
  · split
    · refine .bind (sec_onLast open_getvalue) fun _ => ?_
      cases o with
      | some v => exact .bind (sec_onStorage _) fun _ => .ret _
      | none => exact .ret _
    · exact .ret _

/-- `p` uses the lock in at most one section with an effect. -/
def Once (i : Nat) (p : TProg α) : Prop :=
  WP parts () i none false p fun _ h' _ => h' = none

theorem InSec.once {p : TProg α} (hp : InSec i p) : Once i (locked p) :=
  WP.withS ((hp false).mono fun _ _ _ h => ⟨h, rfl⟩)

/-- Looking whether the (open) buffer is closed. -/
theorem once_check (f : Bool → Bool) (g : Bool → TProg β) (hg : Once i (g (f false))) :
    Once i (locked (gets fun b => f b.lastLine.closed) >>= g) := by
  refine WP.bind (WP.withS ?_)
  refine .inl ⟨⟨fun _ h => h, fun _ _ _ _ => rfl, fun s t hs ht => ?_⟩, fun s hs => ?_⟩
  · have hs : s.lastLine.closed = false := hs
    have ht : t.lastLine.closed = false := ht
    show (match (Py.gets (fun b : LineBuf => f b.lastLine.closed) t).1 with
      | .ok a => Prog.ret a
      | .error e => Prog.raise e) =
      (match (Py.gets (fun b : LineBuf => f b.lastLine.closed) s).1 with
      | .ok a => Prog.ret a
      | .error e => Prog.raise e)
    simp [hs, ht]
  · have hs : s.lastLine.closed = false := hs
    simp only [Py.gets_apply, hs]
    exact ⟨rfl, hg⟩

theorem once_write (d : PyStr) : Once i (write d) :=
  once_check (! ·) _ (by simp; exact InSec.once (sec_writeCore d))

theorem once_newLine : Once i newLine :=
  InSec.once (.bind (sec_onLast open_tell) fun pos => by
    split
    · exact .bind (sec_writeCore _) fun _ => .ret _
    · exact .ret _)

theorem once_read (n : Option Int) : Once i (Thr.read n) :=
  once_check (! ·) _ (by
    simp
    refine InSec.once ?_
    cases n with
    | none => exact sec_readAll
    | some n =>
      show InSec i (if n > 0 then readN n else Prog.ret [])
      split
      · exact sec_readN n
      · exact .ret _)

/-- The calls that C12 is about. -/
def Atomic : TCall → Prop
  | .call (.write _) | .call .newLine | .call (.read _) | .call .flush | .call .closed | .call .readable
  | .call .writable => True
  | _ => False

theorem fin_outcome {p : TProg α} (hp : Once i p) (F : Except Exc α → Ret) :
    WP parts () i none false (do return F (← p.outcome) : TProg Ret)
      fun r h _ => h = none ∧ ∃ x, r = .ok x :=
  WP.bind (WP.outcome (hp.mono fun _ _ _ h => ⟨h, _, rfl⟩))

theorem once_prog {c : TCall} (hc : Atomic c) :
    WP parts () i none false (prog c) fun r h _ => h = none ∧ ∃ x, r = .ok x := by
  cases c with
  | deliver x => cases hc
  | call c =>
  cases c with
  | write d => exact fin_outcome (once_write d) _
  | newLine => exact fin_outcome once_newLine _
  | read n => exact fin_outcome (once_read n) _
  | flush => exact fin_outcome (InSec.once (sec_onLast open_flush)) _
  | closed => exact fin_outcome (InSec.once (sec_gets _)) _
  | readable => exact fin_outcome (InSec.once (sec_gets _)) _
  | writable => exact fin_outcome (InSec.once (sec_gets _)) _
  | _ => cases hc

theorem disciplined : Disciplined parts (fun _ => ()) (threads fun _ c => Atomic c) (fun _ _ => True) := by
  intro i o c _ hc
  refine WP.bind ((once_prog hc).mono fun r h' c' hq => ?_)
  obtain ⟨rfl, x, rfl⟩ := hq
  exact ⟨rfl, _, _, rfl, trivial⟩

end Thr
end SyncStream
