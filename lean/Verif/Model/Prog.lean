import Verif.Py.Basic
/-!
# Programs made of primitive steps on shared state

A method that is executed by a thread or process among others is a sequence of primitive steps on
shared state; between any two of them others may run, or the process may die.  The same program is
run here without interruption (`seq`), with a crash (`Crash`), and in `Model/Conc.lean` interleaved
with others.
-/

namespace SyncStream

/-- Programs over shared state `σ` with locks named by `L`.  `act f k`: one indivisible step, which
sees the state `s`, replaces it by `f s` and goes on with `k s`.  `acq l w`: wait for the lock `l`
and take it, for writing if `w`, else for reading (an ordinary lock is always taken for writing). -/
inductive Prog (σ L α : Type) where
  | ret (a : α)
  | raise (e : Exc)
  | act (f : σ → σ) (k : σ → Prog σ L α)
  | acq (l : L) (w : Bool) (k : Prog σ L α)
  | rel (l : L) (w : Bool) (k : Prog σ L α)

namespace Prog
variable {σ L α β : Type}

/-- Sequencing; an exception skips the rest. -/
protected def bind : Prog σ L α → (α → Prog σ L β) → Prog σ L β
  | ret a, g => g a
  | raise e, _ => raise e
  | act f k, g => act f fun s => (k s).bind g
  | acq l w k, g => acq l w (k.bind g)
  | rel l w k, g => rel l w (k.bind g)

instance : Monad (Prog σ L) where
  pure := ret
  bind := Prog.bind

/-- One indivisible step, given as a method. -/
def atom (m : Py σ α) : Prog σ L α :=
  act (fun s => (m s).2) fun s =>
    match (m s).1 with
    | .ok a => ret a
    | .error e => raise e

/-- The end of a `with lock:` block: the lock is released, also after an exception. -/
def andRelease (l : L) (w : Bool) : Prog σ L α → Prog σ L α
  | ret a => rel l w (ret a)
  | raise e => rel l w (raise e)
  | act f k => act f fun s => (k s).andRelease l w
  | acq l' w' k => acq l' w' (k.andRelease l w)
  | rel l' w' k => rel l' w' (k.andRelease l w)

/-- `with lock: p` -/
def withLock (l : L) (w : Bool) (p : Prog σ L α) : Prog σ L α := acq l w (p.andRelease l w)

/-- The result of a program, exception or value, as a value. -/
def outcome : Prog σ L α → Prog σ L (Except Exc α)
  | ret a => ret (.ok a)
  | raise e => ret (.error e)
  | act f k => act f fun s => (k s).outcome
  | acq l w k => acq l w k.outcome
  | rel l w k => rel l w k.outcome

/-- Uninterrupted execution. -/
def seq : Prog σ L α → Py σ α
  | ret a => fun s => (.ok a, s)
  | raise e => fun s => (.error e, s)
  | act f k => fun s => (k s).seq (f s)
  | acq _ _ k => k.seq
  | rel _ _ k => k.seq

/-- A program working on a part of the state, with its locks under other names. -/
def onPart {τ L' : Type} (get : τ → σ) (set : σ → τ → τ) (ren : L → L') : Prog σ L α → Prog τ L' α
  | ret a => ret a
  | raise e => raise e
  | act f k => act (fun t => set (f (get t)) t) fun t => (k (get t)).onPart get set ren
  | acq l w k => acq (ren l) w (k.onPart get set ren)
  | rel l w k => rel (ren l) w (k.onPart get set ren)

/-- `Crash p s s'`: if the process executing `p` from state `s` dies at some moment, the state that
remains can be `s'`. -/
inductive Crash : Prog σ L α → σ → σ → Prop
  | now (p : Prog σ L α) (s : σ) : Crash p s s
  | act (f : σ → σ) (k : σ → Prog σ L α) (s s' : σ) : Crash (k s) (f s) s' → Crash (.act f k) s s'
  | acq (l : L) (w : Bool) (k : Prog σ L α) (s s' : σ) : Crash k s s' → Crash (.acq l w k) s s'
  | rel (l : L) (w : Bool) (k : Prog σ L α) (s s' : σ) : Crash k s s' → Crash (.rel l w k) s s'

end Prog
end SyncStream
