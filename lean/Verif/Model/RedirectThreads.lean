import Verif.Model.Conc
import Verif.Model.Redirect
/-!
# Redirection of `sys.stdout` and `sys.stderr` by several threads

The same methods and contexts as in `Model/Redirect.lean`, step by step: `sys.stdout` and `sys.stderr` belong to the
process, so all threads see and change the same ones, and between any two statements another thread may run.

Simplifications: those of `Model/Redirect.lean`.  One statement of `__enter__` or `__exit__` is one step (what
it reads and what it assigns are an attribute of `sys` and an attribute of an object), and so is each call of a method of
`list` or `setattr` in `contextlib`.  The `write` a `print` calls is one step.
-/

namespace SyncStream

/-- Programs on the streams of a process. -/
abbrev RProg := Prog Streams Unit

namespace RThr
variable {α : Type}

/-- A statement that changes something. -/
def step (f : Streams → Streams) : RProg Unit := .act f fun _ => .ret ()

/-- A look at the streams. -/
def look (g : Streams → α) : RProg α := .act id fun s => .ret (g s)

/-- A result that was put off. -/
def again : Except Exc Unit → RProg Unit
  | .ok () => .ret ()
  | .error e => .raise e

/-- `__enter__` (`mproc.py:363-369`, `mproc.py:452-458`, `file.py:119-125`, `host.py:117-123`). -/
def enterObj (o : Nat) : RProg Unit := do
  step fun s => { s with saved := fun x => if x = o then (s.stdout, (s.saved x).2) else s.saved x }
  step fun s => { s with saved := fun x => if x = o then ((s.saved x).1, s.stderr) else s.saved x }
  step fun s => { s with stdout := some (.obj o) }
  step fun s => { s with stderr := some (.obj o) }

/-- The first four statements of `__exit__` (`mproc.py:378-381`, `mproc.py:467-470`, `file.py:134-137`,
`host.py:132-135`). -/
def exitObj (o : Nat) : RProg Unit := do
  step fun s => { s with stdout := (s.saved o).1 }
  step fun s => { s with stderr := (s.saved o).2 }
  step fun s => { s with saved := fun x => if x = o then (none, (s.saved x).2) else s.saved x }
  step fun s => { s with saved := fun x => if x = o then ((s.saved x).1, none) else s.saved x }

/-- `redirect_stdout.__enter__`, `redirect_stderr.__enter__` (`base.py:134-135`, `base.py:156-157`):
`self._old_targets.append(getattr(sys, self._stream))` and `setattr(sys, self._stream, self._new_target)`. -/
def enterRedir (c : Chan) (t : Target) (r : Nat) : RProg Unit := do
  let old ← look fun s => s.get c
  step fun s => { s with stack := fun x => if x = r then old :: s.stack x else s.stack x }
  step fun s => s.set (some t) c

/-- `redirect_stdout.__exit__`, `redirect_stderr.__exit__` (`base.py:137-143`, `base.py:159-165`):
`setattr(sys, self._stream, self._old_targets.pop())`. -/
def exitRedir (c : Chan) (r : Nat) : RProg Unit := do
  let old ← .act (fun s => { s with stack := fun x => if x = r then (s.stack x).tail else s.stack x })
    fun s => .ret ((s.stack r).headD none)
  step fun s => s.set old c

/-- `print(text)`: the stream is looked up, then its `write` is called. -/
def print (c : Chan) (t : PyStr) (res : Except Exc Unit) : RProg Unit := do
  match ← look fun s => s.get c with
  | none => .ret ()
  | some x => do
    step fun s => { s with written := s.written ++ [(x, t)] }
    again res

/-- A run of a thread (`Code.run`), step by step. -/
def run : Code → RProg Unit
  | .skip => .ret ()
  | .print c t res => print c t res
  | .raise e => .raise e
  | .seq a b => do
    run a
    run b
  | .catch a b => do
    match ← (run a).outcome with
    | .ok () => .ret ()
    | .error _ => run b
  | .finally a b => do
    let x ← (run a).outcome
    run b
    again x
  | .withObj o close a => do
    enterObj o
    let x ← (run a).outcome
    exitObj o
    again close
    again x
  | .withRedir c t r a => do
    enterRedir c t r
    let x ← (run a).outcome
    exitRedir c r
    again x

end RThr

/-- The threads of a process: every thread runs pieces of code, one after the other; `ok i k`: thread `i` may run `k`. -/
def redirThreads (ok : Nat → Code → Prop) : Conc.Sys Streams Unit Unit Code (Except Exc Unit) where
  call _ _ k := do
    let r ← (RThr.run k).outcome
    return (r, ())
  ok := ok

end SyncStream
