import Verif.Lemmas.Deadlock
import Verif.Model.Threads
import Verif.Model.FileProcs
/-!
# The programs of threads and of file buffers take their locks in order
-/

namespace SyncStream
open Prog Conc

/-- Prove that a program is tidy by going through its text. -/
macro "tidy" : tactic => `(tactic| repeat' first
  | exact Tidy.ret _
  | exact Tidy.pure _
  | exact Tidy.raise _
  | exact Tidy.atom _
  | assumption
  | with_reducible refine Orderly.bind ?_ fun _ => ?_
  | split)

namespace Thr
variable {α : Type} {re : Unit → Prop} {rank : Unit → Nat} {H : List (Unit × Bool)}

theorem tidy_locked {p : TProg α} (hp : Tidy re rank [((), true)] p) : Tidy re rank [] (locked p) :=
  Tidy.withLock (.inl fun _ h => nomatch h) hp

theorem tidy_onLast (m : Py StringIO α) : Tidy re rank H (onLast m) := Tidy.atom _
theorem tidy_onStorage (m : Py (Deque Item) α) : Tidy re rank H (onStorage m) := Tidy.atom _
theorem tidy_gets (f : LineBuf → α) : Tidy re rank H (gets f) := Tidy.atom _

theorem tidy_writeCore (d : PyStr) : Tidy re rank H (writeCore d) := by
  unfold writeCore parseLines
  extract_lets m n e m' n'
  tidy
  all_goals first | exact tidy_onLast _ | exact tidy_onStorage _

theorem tidy_readAll : Tidy re rank H readAll := by
  unfold readAll
  tidy
  all_goals first | exact tidy_onLast _ | exact tidy_onStorage _ | exact tidy_gets _

theorem tidy_readLoop (n : Nat) (l : List Item) : Tidy re rank H (readLoop n l) := by
  induction n generalizing l with
  | zero => exact Tidy.ret _
  | succ n ih => exact .bind (tidy_onStorage _) fun _ => .bind (tidy_onStorage _) fun _ => ih _

theorem tidy_readN (n : Int) : Tidy re rank H (readN n) := by
  unfold readN
  refine .bind (tidy_onLast _) fun pos => .bind (tidy_gets _) fun n => .bind (tidy_gets _) fun m =>
    .bind ?_ fun o => .bind ?_ fun _ => .bind (tidy_readLoop _ _) fun _ => ?_
  · split
    · exact .bind (tidy_onStorage _) fun _ => Tidy.ret _
    · exact Tidy.ret _
  · generalize (min _ _ : Int) = k
    split
    · exact tidy_onStorage _
    · exact Tidy.ret _
  · split
    · refine .bind (tidy_onLast _) fun _ => ?_
      cases o with
      | some v => exact .bind (tidy_onStorage _) fun _ => Tidy.ret _
      | none => exact Tidy.ret _
    · exact Tidy.ret _

theorem tidy_clear : Tidy re rank [] clear :=
  .bind (tidy_locked (.bind (tidy_onLast _) fun _ => tidy_onLast _)) fun _ => tidy_onStorage _

theorem tidy_prog (c : TCall) : Tidy re rank [] (prog c) := by
  have fin : ∀ {α : Type} {p : TProg α} (F : Except Exc α → Ret), Tidy re rank [] p →
      Tidy re rank [] (do return F (← p.outcome) : TProg Ret) := fun F hp => .bind hp.outcome fun _ => Tidy.ret _
  cases c with
  | deliver x => exact fin _ (tidy_onStorage _)
  | call c =>
    cases c with
    | write d =>
      refine fin _ (.bind (tidy_locked (tidy_gets _)) fun _ => ?_)
      split
      · exact Tidy.raise _
      · exact tidy_locked (tidy_writeCore d)
    | newLine =>
      refine fin _ (tidy_locked (.bind (tidy_onLast _) fun _ => ?_))
      split
      · exact .bind (tidy_writeCore _) fun _ => Tidy.ret _
      · exact Tidy.ret _
    | read n =>
      refine fin _ (.bind (tidy_locked (tidy_gets _)) fun _ => ?_)
      split
      · exact Tidy.raise _
      · refine tidy_locked ?_
        cases n with
        | none => exact tidy_readAll
        | some n =>
          show Tidy _ _ _ (if n > 0 then readN n else Prog.ret [])
          split
          · exact tidy_readN n
          · exact Tidy.ret _
    | len =>
      exact fin _ (.bind (tidy_gets _) fun _ => .bind (tidy_gets _) fun _ =>
        .bind (tidy_locked (.bind (tidy_gets _) fun _ => Tidy.ret _)) fun _ => Tidy.ret _)
    | maxlen => exact fin _ (tidy_gets _)
    | clear => exact fin _ tidy_clear
    | flush => exact fin _ (tidy_locked (tidy_onLast _))
    | close =>
      refine fin _ (.bind (tidy_locked (tidy_gets _)) fun _ => ?_)
      split
      · exact Tidy.ret _
      · exact .bind tidy_clear fun _ => tidy_locked (tidy_onLast _)
    | closed => exact fin _ (tidy_locked (tidy_gets _))
    | readable => exact fin _ (tidy_locked (tidy_gets _))
    | writable => exact fin _ (tidy_locked (tidy_gets _))

theorem noRaise_prog (c : TCall) : NoRaise (prog c) := by
  have fin : ∀ {α : Type} (p : TProg α) (F : Except Exc α → Ret),
      NoRaise (do return F (← p.outcome) : TProg Ret) := fun p F => (noRaise_outcome p).bind fun _ => trivial
  cases c with
  | deliver x => exact fin _ _
  | call c => cases c <;> exact fin _ _

theorem orderly (ok : Nat → TCall → Prop) : OrderlySys (threads ok) (fun _ => 0) := fun _ _ c _ =>
  ⟨.bind (tidy_prog c) fun _ => Tidy.ret _, (noRaise_prog c).bind fun _ => trivial⟩

end Thr

namespace FileBuf
variable {α : Type} {re : PyStr → Prop} {b : FileBuf} {H : List (PyStr × Bool)}

/-- The rank of a lock: the length of its name. -/
def lockRank (l : PyStr) : Nat := l.length

theorem tmp_longer (b : FileBuf) : lockRank b.lockName < lockRank b.tmpLockName := by
  have h : (lit "-").length = 1 := by decide
  simp only [lockRank, lockName, tmpLockName, List.length_append]
  omega

theorem tidy_file {p : FProg α} {w : Bool} (hp : Tidy re lockRank [(b.lockName, w)] p) :
    Tidy re lockRank [] (Prog.withLock b.lockName w p) :=
  Tidy.withLock (.inl fun _ h => nomatch h) hp

theorem tidy_tmp {p : FProg α} {w : Bool} (hp : Tidy re lockRank [(b.tmpLockName, w)] p) :
    Tidy re lockRank [] (Prog.withLock b.tmpLockName w p) :=
  Tidy.withLock (.inl fun _ h => nomatch h) hp

theorem tidy_isfile (n : PyStr) : Tidy re lockRank H (File.isfile n) := fun _ => rfl
theorem tidy_listdir : Tidy re lockRank H File.listdir := fun _ => rfl
theorem tidy_remove (n : PyStr) : Tidy re lockRank H (File.remove n) := fun s => by
  dsimp only; split <;> rfl
theorem tidy_rename (n m : PyStr) : Tidy re lockRank H (File.rename n m) := fun s => by
  dsimp only; split <;> rfl
theorem tidy_openW (n : PyStr) : Tidy re lockRank H (File.openW n) := fun _ => rfl
theorem tidy_openA (n : PyStr) : Tidy re lockRank H (File.openA n) := fun _ => rfl
theorem tidy_readText (n : PyStr) : Tidy re lockRank H (File.readText n) := fun s => by
  dsimp only; split <;> rfl
theorem tidy_appendChars (n t : PyStr) : Tidy re lockRank H (File.appendChars n t) := by
  induction t with
  | nil => exact Tidy.ret _
  | cons c t ih => exact fun _ => ih
theorem tidy_writeText (env : FEnv) (n t : PyStr) : Tidy re lockRank H (File.writeText env n t) := by
  unfold File.writeText
  split
  · exact .bind (tidy_appendChars _ _) fun _ => Tidy.ret _
  · exact Tidy.raise _

theorem tidy_moveLoop (n m : Nat) : Tidy re lockRank H (moveLoop b n m) := by
  induction m with
  | zero => exact Tidy.ret _
  | succ m ih =>
    unfold moveLoop
    refine .bind (tidy_isfile _) fun x => ?_
    cases x with
    | true => exact .bind (tidy_remove _) fun _ => .bind (tidy_rename _ _) fun _ => ih
    | false => exact .bind (tidy_rename _ _) fun _ => ih

theorem tidy_writeLoop (env : FEnv) (l : List PyStr) : Tidy re lockRank H (writeLoop env b l) := by
  induction l with
  | nil => exact Tidy.ret _
  | cons x l ih => exact .bind (tidy_openW _) fun _ => .bind (tidy_writeText _ _ _) fun _ => ih

theorem tidy_updateRecords (env : FEnv) (l : List PyStr) : Tidy re lockRank [] (updateRecords env b l) := by
  unfold updateRecords
  refine tidy_file ?_
  split
  · exact Tidy.ret _
  · exact .bind tidy_listdir fun _ => .bind (tidy_moveLoop _ _) fun _ => tidy_writeLoop _ _

theorem tidy_getLastLine : Tidy re lockRank [] (getLastLine b) := by
  unfold getLastLine
  refine tidy_tmp (.bind (tidy_isfile _) fun _ => ?_)
  split
  · exact tidy_readText _
  · exact Tidy.ret _

theorem tidy_cleanLastLine : Tidy re lockRank [] (cleanLastLine b) := tidy_tmp (tidy_openW _)

theorem tidy_writeLastLine (env : FEnv) (l : PyStr) : Tidy re lockRank [] (writeLastLine env b l) :=
  tidy_tmp (.bind (tidy_openA _) fun _ => tidy_writeText _ _ _)

theorem tidy_check (w : Bool) (x : Bool) :
    Tidy re lockRank [] (Prog.withLock b.tmpLockName w (Prog.withLock b.lockName w (.ret x)) : FProg Bool) := by
  refine tidy_tmp (Tidy.withLock (.inl fun y hy => ?_) (Tidy.ret _))
  cases List.mem_singleton.mp hy
  exact tmp_longer b

theorem tidy_len : Tidy re lockRank [] (len b) := by
  unfold len
  exact .bind (tidy_file (.bind tidy_listdir fun _ => Tidy.ret _)) fun _ => .bind tidy_getLastLine fun _ => Tidy.ret _

theorem tidy_readLoop (n : Nat) : Tidy re lockRank H (readLoop b n) := by
  induction n with
  | zero => exact Tidy.ret _
  | succ n ih => exact .bind (tidy_readText _) fun _ => .bind ih fun _ => Tidy.ret _

theorem tidy_read (n : Option Int) : Tidy re lockRank [] (read b n) := by
  unfold read
  refine .bind (tidy_check _ _) fun _ => ?_
  split
  · exact Tidy.raise _
  · split
    · exact Tidy.ret _
    · exact .bind tidy_getLastLine fun _ => tidy_file (.bind tidy_listdir fun _ =>
        .bind (tidy_readLoop _) fun _ => Tidy.ret _)

theorem tidy_writeCore (env : FEnv) (d : PyStr) : Tidy re lockRank [] (writeCore env b d) := by
  unfold writeCore parseLines
  extract_lets m n e m' n'
  split
  · exact .bind tidy_getLastLine fun _ => .bind (tidy_updateRecords _ _) fun _ =>
      .bind tidy_cleanLastLine fun _ => Tidy.ret _
  · split
    · exact .bind tidy_getLastLine fun _ => .bind (tidy_updateRecords _ _) fun _ =>
        .bind tidy_cleanLastLine fun _ => tidy_writeLastLine _ _
    · split
      · exact tidy_writeLastLine _ _
      · exact Tidy.ret _

theorem tidy_newLine (env : FEnv) : Tidy re lockRank [] (newLine env b) := by
  unfold newLine
  split
  · exact Tidy.ret _
  · refine .bind tidy_getLastLine fun _ => ?_
    split
    · exact .bind (tidy_writeCore _ _) fun _ => Tidy.ret _
    · exact Tidy.ret _

theorem tidy_sendExc (env : FEnv) (e : ExcObj) : Tidy re lockRank [] (sendExc env b e) := by
  unfold sendExc
  split
  · exact Tidy.ret _
  · split
    · exact tidy_updateRecords _ _
    · exact Tidy.raise _

theorem tidy_removeAll (ns : List PyStr) : Tidy re lockRank H (removeAll ns) := by
  induction ns with
  | nil => exact Tidy.ret _
  | cons n ns ih => exact .bind (tidy_remove _) fun _ => ih

theorem tidy_clear (env : FEnv) : Tidy re lockRank [] (clear env b) := by
  unfold clear
  refine .bind (tidy_file fun s => ?_) fun _ => tidy_tmp (.bind (tidy_isfile _) fun x => ?_)
  · show Tidy re lockRank _ (match env.listing _ with | some ns => _ | none => _)
    split
    · exact tidy_removeAll _
    · exact fun _ => rfl
  · cases x with
    | true => exact tidy_remove _
    | false => exact Tidy.ret _

theorem tidy_exit (env : FEnv) (e : Option ExcObj) : Tidy re lockRank [] (exit env b e) := by
  unfold exit
  split
  · exact tidy_newLine _
  · exact tidy_sendExc _ _

theorem tidy_close (env : FEnv) (e : Option ExcObj) : Tidy re lockRank [] (close env b e) := by
  unfold close
  cases e with
  | none => exact .bind (tidy_newLine _) fun _ => Tidy.ret _
  | some e => exact .bind (tidy_sendExc _ _) fun _ => Tidy.ret _

theorem tidy_call (env : FEnv) (c : FCall) : Tidy re lockRank [] (call env b c) := by
  have fin : ∀ {α : Type} {p : FProg α} (F : Except Exc α → Ret), Tidy re lockRank [] p →
      Tidy re lockRank [] (do return (F (← p.outcome), b) : FProg (Ret × FileBuf)) :=
    fun F hp => .bind hp.outcome fun _ => Tidy.ret _
  cases c with
  | write d =>
    refine fin _ (.bind (tidy_check _ _) fun _ => ?_)
    split
    · exact Tidy.raise _
    · exact tidy_writeCore _ _
  | newLine => exact fin _ (tidy_newLine _)
  | read n => exact fin _ (tidy_read _)
  | len => exact fin _ tidy_len
  | maxlen => exact Tidy.ret _
  | clear => exact fin _ (tidy_clear _)
  | flush => exact Tidy.ret _
  | sendExc e => exact fin _ (tidy_sendExc _ _)
  | close e =>
    refine .bind (tidy_close _ _).outcome fun r => ?_
    cases r <;> exact Tidy.ret _
  | exit e => exact fin _ (tidy_exit _ _)
  | closed => exact Tidy.ret _
  | readable => exact fin _ (tidy_check _ _)
  | writable => exact fin _ (tidy_check _ _)

theorem orderly (env : FEnv) (ok : Nat → FCall → Prop) : OrderlySys (fileProcs env ok) lockRank := by
  intro i b c _
  refine ⟨tidy_call env c, ?_⟩
  have fin : ∀ {α : Type} (p : FProg α) (F : Except Exc α → Ret),
      NoRaise (do return (F (← p.outcome), b) : FProg (Ret × FileBuf)) :=
    fun p F => (noRaise_outcome p).bind fun _ => trivial
  cases c with
  | maxlen => trivial
  | flush => trivial
  | closed => trivial
  | close e =>
    refine (noRaise_outcome _).bind fun r => ?_
    cases r <;> trivial
  | _ => exact fin _ _

end FileBuf
end SyncStream
