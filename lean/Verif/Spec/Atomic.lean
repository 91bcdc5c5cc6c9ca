import Verif.Model.Conc
/-!
# Specification: linearizability

The atomic object: every call takes effect in one indivisible moment between its start and its
return.  A concurrent system is linearizable if everything that can be observed of it (starts and
returns of calls, with arguments and results, in their order) can be observed of the atomic object.
-/

namespace SyncStream.Spec

/-- A thread of the atomic object: not in a call; in a call that has not taken effect; in a call that
has taken effect, with its result. -/
inductive Stat (C R : Type) where
  | idle
  | called (c : C)
  | done (r : R)

/-- A state of the atomic object. -/
structure AConf (A C R : Type) where
  st : A
  stat : Nat → Stat C R

variable {A C R : Type}

/-- A step of the atomic object: a call starts, takes effect (not observed), returns. -/
inductive AStep (spec : A → Nat → C → R → A → Prop) :
    AConf A C R → Option (Ev C R) → AConf A C R → Prop
  | inv (a : AConf A C R) (i : Nat) (c : C) : a.stat i = .idle →
      AStep spec a (some (.inv i c)) { a with stat := upd a.stat i (.called c) }
  | effect (a : AConf A C R) (i : Nat) (c : C) (r : R) (st : A) : a.stat i = .called c →
      spec a.st i c r st → AStep spec a none { st := st, stat := upd a.stat i (.done r) }
  | ret (a : AConf A C R) (i : Nat) (r : R) : a.stat i = .done r →
      AStep spec a (some (.ret i r)) { a with stat := upd a.stat i .idle }

/-- An execution of the atomic object, with what can be observed. -/
inductive AExec (spec : A → Nat → C → R → A → Prop) :
    AConf A C R → List (Ev C R) → AConf A C R → Prop
  | nil (a : AConf A C R) : AExec spec a [] a
  | snoc (a a' a'' : AConf A C R) (tr : List (Ev C R)) (e : Option (Ev C R)) :
      AExec spec a tr a' → AStep spec a' e a'' → AExec spec a (tr ++ e.toList) a''

end SyncStream.Spec
