import Verif.Py.Basic
/-!
# Redirection of `sys.stdout` and `sys.stderr`

What `__enter__` and `__exit__` of buffers and mirrors and the two contexts of `base.py` do to the
streams of one process, while a single thread runs.

Simplifications:
* A run of a program is given by its tree of `with` statements, `try` statements and prints with
  all choices made (loops are unrolled, functions are expanded), so every terminating run of
  properly nested code is such a tree.
* The results of the calls that leave this module (the `write` a `print` calls, the `close`,
  `new_line` or `send_exc` that ends a context) are part of the tree, so they may be anything.
* Exceptions that arrive from outside between two statements (signals) are not modelled.
-/

namespace SyncStream

/-- `sys.stdout` or `sys.stderr`. -/
inductive Chan where
  | out
  | err
  deriving DecidableEq, Repr

/-- What the two streams may refer to: a stream that existed before, or a buffer or mirror. -/
inductive Target where
  | term (n : Nat)
  | obj (o : Nat)
  deriving DecidableEq, Repr

/-- The streams of `sys`, the attributes `__stdout`, `__stderr` of the buffers and mirrors
(`mproc.py:360-361`, `mproc.py:449-450`, `file.py:116-117`, `host.py:114-115`), the lists
`_old_targets` of the redirecting contexts, and what has been written to which target. -/
structure Streams where
  stdout : Option Target
  stderr : Option Target
  saved : Nat → Option Target × Option Target := fun _ => (none, none)
  stack : Nat → List (Option Target) := fun _ => []
  written : List (Target × PyStr) := []

namespace Streams

/-- The current stream. -/
def get (s : Streams) : Chan → Option Target
  | .out => s.stdout
  | .err => s.stderr

/-- Assignment to `sys.stdout` or `sys.stderr`. -/
def set (s : Streams) (v : Option Target) : Chan → Streams
  | .out => { s with stdout := v }
  | .err => { s with stderr := v }

/-- `__enter__` of `LineBuffer`, `LineProcMirror`, `LineFileBuffer` and `LineHostMirror`
(`mproc.py:363-369`, `mproc.py:452-458`, `file.py:119-125`, `host.py:117-123`). -/
def enterObj (o : Nat) (s : Streams) : Streams :=
  { s with saved := fun x => if x = o then (s.stdout, s.stderr) else s.saved x
           stdout := some (.obj o)
           stderr := some (.obj o) }

/-- The first four statements of `__exit__` of the same classes (`mproc.py:378-381`,
`mproc.py:467-470`, `file.py:134-137`, `host.py:132-135`). -/
def exitObj (o : Nat) (s : Streams) : Streams :=
  { s with stdout := (s.saved o).1
           stderr := (s.saved o).2
           saved := fun x => if x = o then (none, none) else s.saved x }

/-- `redirect_stdout.__enter__`, `redirect_stderr.__enter__` (`base.py:134-135`,
`base.py:156-157`), that is `contextlib._RedirectStream.__enter__`: the old target is appended to
`_old_targets`. -/
def enterRedir (c : Chan) (t : Target) (r : Nat) (s : Streams) : Streams :=
  { s with stack := fun x => if x = r then s.get c :: s.stack x else s.stack x }.set (some t) c

/-- `redirect_stdout.__exit__`, `redirect_stderr.__exit__` (`base.py:137-143`, `base.py:159-165`),
that is `contextlib._RedirectStream.__exit__`: `setattr(sys, self._stream, self._old_targets.pop())`.
Python calls `__exit__` only after `__enter__`, so that the list is never empty. -/
def exitRedir (c : Chan) (r : Nat) (s : Streams) : Streams :=
  { s with stack := fun x => if x = r then (s.stack x).tail else s.stack x }.set
    ((s.stack r).headD none) c

/-- `print(text, file=None)`: nothing happens if the stream is `None`; otherwise its `write` is
called, with the given result. -/
def print (c : Chan) (t : PyStr) (res : Except Exc Unit) (s : Streams) : Except Exc Unit × Streams :=
  match s.get c with
  | none => (.ok (), s)
  | some x => (res, { s with written := s.written ++ [(x, t)] })

end Streams

/-- A run of a program, see above.  A redirecting context is an object `r` created by
`redirect_stdout(t)` or `redirect_stderr(t)`. -/
inductive Code where
  | skip
  | print (c : Chan) (t : PyStr) (res : Except Exc Unit)
  | raise (e : Exc)
  | seq (a b : Code)
  /-- `try: a except BaseException: b` -/
  | catch (a b : Code)
  /-- `try: a finally: b` -/
  | finally (a b : Code)
  /-- `with o: a`; `close` is the result of what `__exit__` does after restoring the streams. -/
  | withObj (o : Nat) (close : Except Exc Unit) (a : Code)
  /-- `with r: a`, also a call of a function decorated with `r`. -/
  | withRedir (c : Chan) (t : Target) (r : Nat) (a : Code)

namespace Code

/-- The run, on the streams of a process.  An exception of `__exit__` replaces the one of the
body; otherwise the one of the body goes on, because every `__exit__` returns `None`
(`mproc.py:382`, `mproc.py:472`, `file.py:142`, `host.py:137`). -/
def run : Code → Streams → Except Exc Unit × Streams
  | .skip, s => (.ok (), s)
  | .print c t res, s => s.print c t res
  | .raise e, s => (.error e, s)
  | .seq a b, s =>
    match run a s with
    | (.ok (), s) => run b s
    | r => r
  | .catch a b, s =>
    match run a s with
    | (.error _, s) => run b s
    | r => r
  | .finally a b, s =>
    match run a s with
    | (x, s) =>
      match run b s with
      | (.ok (), s) => (x, s)
      | r => r
  | .withObj o close a, s =>
    match run a (s.enterObj o) with
    | (x, s) => (match close with | .ok () => x | .error e => .error e, s.exitObj o)
  | .withRedir c t r a, s =>
    match run a (s.enterRedir c t r) with
    | (x, s) => (x, s.exitRedir c r)

end Code

end SyncStream
