import Verif.Model.ProcThreads
import Verif.Spec.Merge
import Verif.Spec.Observe
/-!
# Specification: processes at work while the main process receives

What the processes send is described by what each of them would send alone; this file describes what the main
process does with the messages.
-/

namespace SyncStream.Spec

variable {C R : Type}

/-- What the calls of thread `t` have returned, in order. -/
def retsBy (t : Nat) (tr : List (Ev C R)) : List R :=
  tr.filterMap fun
    | .inv _ _ => none
    | .ret i r => if i = t then some r else none

/-- The calls of thread `t` that have returned, with their results. -/
def returned (t : Nat) (tr : List (Ev C R)) : List (C × R) := (callsBy t tr).zip (retsBy t tr)

/-- A call of the main process, with the records and the number of mirrors in use before and after, and the messages taken from
the queue: an ordinary message is recorded and `receive` is true, an end signal is counted and `receive` tells whether
there is another mirror; if there is no message, `receive` waits (the exception `blocked`).  Methods of the buffer do what they do with the
records, and `write` is not implemented. -/
inductive MainStep : Log × Int → PCall → PRet → List QMsg → Log × Int → Prop
  | body (l l' : Log) (k : Int) (m : QMsg) : Arrives l m l' → IsBody m →
      MainStep (l, k) .receive (.main (.bool true)) [m] (l', k)
  | ends (l l' : Log) (k : Int) (m : QMsg) : Arrives l m l' → IsEnd m →
      MainStep (l, k) .receive (.main (.bool (decide (1 < k)))) [m] (l', k - 1)
  | waits (l : Log) (k : Int) : MainStep (l, k) .receive (.main (.exc .blocked)) [] (l, k)
  | write (l : Log) (k : Int) (d : PyStr) :
      MainStep (l, k) (.buffer (.write d)) (.main (.exc .notImplemented)) [] (l, k)
  | call (l l' : Log) (k : Int) (c : Call) (r : Ret) : (∀ d, c ≠ .write d) → Log.Step l c r l' →
      MainStep (l, k) (.buffer c) (.main r) [] (l', k)

/-- Calls of the main process one after the other. -/
inductive MainSteps : Log × Int → List (PCall × PRet) → List QMsg → Log × Int → Prop
  | nil (s : Log × Int) : MainSteps s [] [] s
  | snoc (s s' s'' : Log × Int) (cs : List (PCall × PRet)) (got ms : List QMsg) (c : PCall) (r : PRet) :
      MainSteps s cs got s' → MainStep s' c r ms s'' → MainSteps s (cs ++ [(c, r)]) (got ++ ms) s''

end SyncStream.Spec
