import Verif.Model.NoneThreads
import Verif.Lemmas.NoneItems
import Verif.Lemmas.Orderly
/-!
# Reading a buffer that stores `None`, with several threads: the discipline
-/

namespace SyncStream
open Conc Spec

namespace Thr
variable {i : Nat}

theorem seq_readNAny (n : Int) : (readNAny n).seq = LineBuf.readNAny n := by
  simp only [readNAny, LineBuf.readNAny, seq_ite, seq_bind', seq_gets, seq_onLast, seq_onStorage, seq_pure',
    seq_readLoop]

theorem seq_readAny (n : Option Int) : (readAny n).seq = LineBuf.readAny n := by
  cases n <;>
  simp only [readAny, LineBuf.readAny, readable, LineBuf.readable, seq_ite, seq_bind', seq_locked, seq_gets,
    seq_raise', seq_readAll, seq_readNAny, seq_pure']

theorem sec_readNAny (n : Int) : InSec i (readNAny n) := by
  unfold readNAny
  refine .bind (sec_onLast open_tell) fun pos => .bind (sec_gets _) fun n => .bind (sec_gets _) fun m =>
    .bind ?_ fun o => .bind ?_ fun _ => .bind (sec_readLoop _ _) fun _ => ?_
  · split
    · exact sec_onStorage _
    · exact .ret _
  · generalize (min _ _ : Int) = k
    split
    · exact sec_onStorage _
    · exact .ret _
  · split
    · refine .bind (sec_onLast open_getvalue) fun _ => .bind ?_ fun _ => .ret _
      split
      · exact .ret _
      · exact sec_onStorage _
    · exact .ret _

theorem once_readAny (n : Option Int) : Once i (readAny n) :=
  once_check (! ·) _ (by
    simp
    refine InSec.once ?_
    cases n with
    | none => exact sec_readAll
    | some n =>
      show InSec i (if n > 0 then readNAny n else Prog.ret [])
      split
      · exact sec_readNAny n
      · exact .ret _)

section
variable {re : Unit → Prop} {rank : Unit → Nat} {H : List (Unit × Bool)}
open Prog

theorem tidy_readNAny (n : Int) : Tidy re rank H (readNAny n) := by
  unfold readNAny
  refine .bind (tidy_onLast _) fun pos => .bind (tidy_gets _) fun n => .bind (tidy_gets _) fun m =>
    .bind ?_ fun o => .bind ?_ fun _ => .bind (tidy_readLoop _ _) fun _ => ?_
  · split
    · exact tidy_onStorage _
    · exact Tidy.ret _
  · generalize (min _ _ : Int) = k
    split
    · exact tidy_onStorage _
    · exact Tidy.ret _
  · split
    · refine .bind (tidy_onLast _) fun _ => .bind ?_ fun _ => Tidy.ret _
      split
      · exact Tidy.ret _
      · exact tidy_onStorage _
    · exact Tidy.ret _

theorem tidy_readAny (n : Option Int) : Tidy re rank [] (readAny n) := by
  refine .bind (tidy_locked (tidy_gets _)) fun _ => ?_
  split
  · exact Tidy.raise _
  · refine tidy_locked ?_
    cases n with
    | none => exact tidy_readAll
    | some n =>
      show Tidy _ _ _ (if n > 0 then readNAny n else Prog.ret [])
      split
      · exact tidy_readNAny n
      · exact Tidy.ret _

end
end Thr

namespace Ovr
variable {U : Type}

/-- Without interruption, a call does what `Model/NoneItems.lean` says. -/
theorem progAny_seq {p : Override U} {c : Call} {b b' : OvBuf U} {r : Ret} (h : callAny p c b = (r, b'))
    (hr : ∀ e, (prog (method p) c).seq b ≠ (.error e, b')) : (progAny (method p) c).seq b = (.ok r, b') := by
  by_cases hc : ∃ n, c = .read n
  · obtain ⟨n, rfl⟩ := hc
    show (line (do return Ret.of .items (← (Thr.readAny n).outcome)) : OProg U Ret).seq b = _
    rw [seq_line]
    simp only [onBase, Py.onPart_apply, Thr.seq_ret, Thr.seq_readAny]
    simp only [callAny] at h
    injection h with h1 h2
    exact Prod.ext (congrArg Except.ok h1) h2
  · have e : progAny (method p) c = prog (method p) c := by
      cases c with
      | read n => exact absurd ⟨n, rfl⟩ hc
      | _ => rfl
    have e' : callAny p c b = match (prog (method p) c).seq b with
        | (.ok r, b') => (r, b')
        | (.error e, b') => (.exc e, b') := by
      cases c with
      | read n => exact absurd ⟨n, rfl⟩ hc
      | _ => rfl
    rw [e]
    rw [e'] at h
    rcases hq : (prog (method p) c).seq b with ⟨x, y⟩
    rw [hq] at h
    cases x with
    | ok a => injection h with h1 h2; rw [h1, h2]
    | error x =>
      injection h with h1 h2
      exact absurd (h2 ▸ hq) (hr x)

theorem once_progAny {i : Nat} (p : Override U) {c : Call} (hc : Thr.Atomic (.call c)) :
    WP parts () i none false (progAny (method p) c) fun r h _ => h = none ∧ ∃ x, r = .ok x := by
  cases c with
  | write d => exact fin_outcome (once_write p d) _
  | newLine => exact fin_outcome (once_newLine p) _
  | read n => exact wp_line (Thr.fin_outcome (Thr.once_readAny n) _)
  | _ => exact wp_line (Thr.once_prog hc)

theorem none_disciplined (p : Override U) :
    Disciplined parts (fun _ => ()) (noneThreads (method p) fun _ c => Thr.Atomic (.call c)) (fun _ _ => True) := by
  intro i o c _ hc
  refine WP.bind ((once_progAny p hc).mono fun r h' c' hq => ?_)
  obtain ⟨rfl, x, rfl⟩ := hq
  exact ⟨rfl, _, _, rfl, trivial⟩

theorem tidy_progAny {re : Unit → Prop} {rank : Unit → Nat} (p : Override U) (c : Call) :
    Prog.Tidy re rank [] (progAny (method p) c) := by
  cases c with
  | read n => exact tidy_line (.bind (Prog.Orderly.outcome (Thr.tidy_readAny n)) fun _ => Prog.Tidy.ret _)
  | write d => exact tidy_prog p (.write d)
  | newLine => exact tidy_prog p .newLine
  | _ => exact tidy_line (Thr.tidy_prog _)

theorem noRaise_progAny (p : Override U) (c : Call) : NoRaise (progAny (method p) c) := by
  cases c with
  | read n => exact HThr.noRaise_onPart ((noRaise_outcome _).bind fun _ => trivial)
  | write d => exact noRaise_prog p (.write d)
  | newLine => exact noRaise_prog p .newLine
  | _ => exact HThr.noRaise_onPart (Thr.noRaise_prog _)

theorem none_orderly (p : Override U) (ok : Nat → Call → Prop) : OrderlySys (noneThreads (method p) ok) (fun _ => 0) :=
  fun _ _ c _ => ⟨.bind (tidy_progAny p c) fun _ => Prog.Tidy.ret _, (noRaise_progAny p c).bind fun _ => trivial⟩

end Ovr
end SyncStream
