import Verif.Model.ProcThreads
import Verif.Spec.Atomic
import Verif.Spec.Observe
/-!
# Specification: processes whose threads share the mirror of their process

Every call takes effect in one moment, as the sequential model has it.
-/

namespace SyncStream.Spec

/-- The main buffer, the mirror of every process, and what is shared. -/
structure PShared where
  main : ProcBuf
  mirror : Nat → Mirror
  net : Net

/-- What a program works on, without the locks. -/
def PShared.of (w : PWorld) : PShared := ⟨w.main, fun p => (w.procs p).mirror, w.net⟩

/-- A call by a thread, in one moment; thread `i` belongs to process `proc i`. -/
inductive PShared.Step (proc : Nat → Nat) : PShared → Nat → PCall → PRet → PShared → Prop
  | mirror (s : PShared) (i : Nat) (c : MCall) (r : MRet) (m : Mirror) (n : Net) :
      Mirror.exec c (s.mirror (proc i), s.net) = (r, (m, n)) →
      Step proc s i (.mirror c) (.mirror r) { s with mirror := upd s.mirror (proc i) m, net := n }
  | receive (s : PShared) (i : Nat) (r : Except Exc Bool) (b : ProcBuf) (n : Net) :
      ProcBuf.receive (s.main, s.net) = (r, (b, n)) →
      Step proc s i .receive (.main (Ret.of .bool r)) { s with main := b, net := n }
  | forceStop (s : PShared) (i : Nat) (r : Except Exc Unit) (b : ProcBuf) (n : Net) :
      ProcBuf.forceStop (s.main, s.net) = (r, (b, n)) →
      Step proc s i .forceStop (.main (Ret.of (fun _ => .unit) r)) { s with main := b, net := n }

/-- The texts written by calls. -/
def textsOf (cs : List PCall) : List PyStr :=
  cs.filterMap fun
    | .mirror (.write d) => some d
    | _ => none

/-- The texts among messages. -/
def textOf (ms : List QMsg) : PyStr :=
  (ms.filterMap fun
    | .str d => some d
    | _ => none).flatten

end SyncStream.Spec
