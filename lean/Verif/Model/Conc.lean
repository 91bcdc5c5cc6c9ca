import Verif.Model.Prog
/-!
# Several threads or processes running programs on shared state

Any number of threads (or processes), numbered by `Nat`, each with an object of its own (for a thread
sharing one buffer: nothing), perform calls.  A call is a program (`Model/Prog.lean`); the primitive
steps of different threads are interleaved in every possible way.  Which call a thread makes next is
left open, so all scripts are covered, also scripts that depend on results.

Locks: a lock taken for writing excludes everyone else, a lock taken for reading excludes writers
(`fasteners.InterProcessReaderWriterLock`); a plain lock (`threading.Lock`) is always taken for
writing.  A thread cannot take a lock again that it holds, unless the lock is reentrant
(`threading.RLock`).
-/

namespace SyncStream

/-- `f` with the value at `i` replaced. -/
def upd {α : Type} (f : Nat → α) (i : Nat) (x : α) : Nat → α := fun j => if j = i then x else f j

@[simp] theorem upd_same {α : Type} (f : Nat → α) (i : Nat) (x : α) : upd f i x i = x := by simp [upd]

theorem upd_other {α : Type} (f : Nat → α) {i j : Nat} (x : α) (h : j ≠ i) : upd f i x j = f j := by
  simp [upd, h]

/-- What can be observed from outside: thread `i` starts the call `c`; its call returns `r`. -/
inductive Ev (C R : Type) where
  | inv (i : Nat) (c : C)
  | ret (i : Nat) (r : R)

namespace Conc

/-- The programs of the calls: `call i o c` is the call `c` by thread `i` with its object `o`; it returns
a result and the object afterwards.  `ok i c`: thread `i` may make the call `c`.  `reentrant l`: a
thread holding `l` can take it again. -/
structure Sys (σ L O C R : Type) where
  call : Nat → O → C → Prog σ L (R × O)
  ok : Nat → C → Prop
  reentrant : L → Prop := fun _ => False

/-- A state of the whole: the shared state, who holds which lock (how often and in which modes), the
objects, and the running calls with what remains to be done. -/
structure Conf (σ L O C R : Type) where
  st : σ
  held : Nat → L → List Bool
  obj : Nat → O
  cur : Nat → Option (C × Prog σ L (R × O))

variable {σ L O C R : Type}

/-- Thread `i` can take the lock `l` (for writing if `w`). -/
def CanTake (sys : Sys σ L O C R) (κ : Conf σ L O C R) (i : Nat) (l : L) (w : Bool) : Prop :=
  (κ.held i l = [] ∨ sys.reentrant l) ∧
  ∀ j, j ≠ i → true ∉ κ.held j l ∧ (w = true → κ.held j l = [])

/-- One step of the whole; `none` if nothing can be observed. -/
inductive Step [DecidableEq L] (sys : Sys σ L O C R) :
    Conf σ L O C R → Option (Ev C R) → Conf σ L O C R → Prop
  | inv (κ : Conf σ L O C R) (i : Nat) (c : C) : κ.cur i = none → sys.ok i c →
      Step sys κ (some (.inv i c)) { κ with cur := upd κ.cur i (some (c, sys.call i (κ.obj i) c)) }
  | act (κ : Conf σ L O C R) (i : Nat) (c : C) (f : σ → σ) (k : σ → Prog σ L (R × O)) :
      κ.cur i = some (c, .act f k) →
      Step sys κ none { κ with st := f κ.st, cur := upd κ.cur i (some (c, k κ.st)) }
  | acq (κ : Conf σ L O C R) (i : Nat) (c : C) (l : L) (w : Bool) (k : Prog σ L (R × O)) :
      κ.cur i = some (c, .acq l w k) → CanTake sys κ i l w →
      Step sys κ none { κ with
                        held := upd κ.held i fun l' => if l' = l then w :: κ.held i l else κ.held i l'
                        cur := upd κ.cur i (some (c, k)) }
  | rel (κ : Conf σ L O C R) (i : Nat) (c : C) (l : L) (w : Bool) (k : Prog σ L (R × O)) :
      κ.cur i = some (c, .rel l w k) →
      Step sys κ none { κ with
                        held := upd κ.held i fun l' => if l' = l then (κ.held i l).tail else κ.held i l'
                        cur := upd κ.cur i (some (c, k)) }
  | ret (κ : Conf σ L O C R) (i : Nat) (c : C) (r : R) (o : O) :
      κ.cur i = some (c, .ret (r, o)) →
      Step sys κ (some (.ret i r)) { κ with obj := upd κ.obj i o, cur := upd κ.cur i none }

/-- An execution, with what can be observed. -/
inductive Exec [DecidableEq L] (sys : Sys σ L O C R) :
    Conf σ L O C R → List (Ev C R) → Conf σ L O C R → Prop
  | nil (κ : Conf σ L O C R) : Exec sys κ [] κ
  | snoc (κ κ' κ'' : Conf σ L O C R) (tr : List (Ev C R)) (e : Option (Ev C R)) :
      Exec sys κ tr κ' → Step sys κ' e κ'' → Exec sys κ (tr ++ e.toList) κ''

/-- The beginning: no call is running and no lock is held. -/
def init (s : σ) (obj : Nat → O) : Conf σ L O C R :=
  { st := s, held := fun _ _ => [], obj := obj, cur := fun _ => none }

end Conc
end SyncStream
