import Verif.Model.Conc
import Verif.Model.Calls
/-!
# One `_LineBuffer` used by several threads (`syncstream/mproc.py:58-340, 891-922`)

The methods of `Model/LineBuffer.lean` again, as programs: every operation on `self.storage` or
`self.last_line` is one primitive step (they are single calls of C functions, during which the
interpreter does not switch threads), `with self.__last_line_lock:` takes and releases the lock.
`Lemmas/Threads.lean` proves that without interruption they do what `Model/LineBuffer.lean` says.

`deliver x` is what `LineProcBuffer.receive` (`mproc.py:909-916`) does with an error or a warning; its
`__config_lock` is not modelled, since `read` and the other methods do not take it.  (The service of
`LineHostBuffer` does the same in `host.py`.)
-/

namespace SyncStream

/-- Programs of threads; there is one lock. -/
abbrev TProg := Prog LineBuf Unit

namespace Thr
open LineBuf

/-- `self.last_line.<method>` -/
def onLast {α : Type} (m : Py StringIO α) : TProg α := Prog.atom (LineBuf.onLast m)

/-- `self.storage.<method>` -/
def onStorage {α : Type} (m : Py (Deque Item) α) : TProg α := Prog.atom (LineBuf.onStorage m)

/-- Reading an attribute. -/
def gets {α : Type} (f : LineBuf → α) : TProg α := Prog.atom (Py.gets f)

/-- `with self.__last_line_lock:` (`mproc.py:84`, a `threading.Lock`). -/
def locked {α : Type} (p : TProg α) : TProg α := Prog.withLock () true p

/-- `_LineBuffer.__len__` (`mproc.py:94-101`): `len(self.storage)` is evaluated before the lock is
taken. -/
def len : TProg Nat := do
  let maxLen ← gets (·.maxlen)
  let n ← gets (·.storage.items.length)
  let n ← locked do
    let t ← gets (·.lastLine.truth)
    return if t then n + 1 else n
  return if maxLen ≠ 0 then min maxLen n else n

/-- `_LineBuffer.closed` (`mproc.py:103-107`). -/
def closed : TProg Bool := locked (gets (·.lastLine.closed))

/-- `_LineBuffer.clear` (`mproc.py:162-172`): the storage is cleared after the lock is released. -/
def clear : TProg Unit := do
  locked do
    onLast StringIO.seek0
    onLast StringIO.truncate0
  onStorage (Py.modify Deque.clear)

/-- `_LineBuffer.close` (`mproc.py:109-118`). -/
def close : TProg Unit := do
  if ← locked (gets (·.lastLine.closed)) then return ()
  else
    clear
    locked (onLast StringIO.close)

/-- `_LineBuffer.readable` (`mproc.py:133-140`). -/
def readable : TProg Bool := locked (gets fun b => !b.lastLine.closed)

/-- `_LineBuffer.writable` (`mproc.py:142-149`). -/
def writable : TProg Bool := locked (gets fun b => !b.lastLine.closed)

/-- `_LineBuffer.flush` (`mproc.py:189-192`). -/
def flush : TProg Unit := locked (onLast StringIO.flush)

/-- `_LineBuffer.parse_lines` (`mproc.py:194-208`), the default. -/
def parseLines (lines : List Item) : TProg Unit := onStorage (Py.modify (Deque.extend lines))

/-- `_LineBuffer.__write` (`mproc.py:292-317`). -/
def writeCore (data : PyStr) : TProg Nat := do
  let messageLines := splitlines data
  let nLines := messageLines.length
  if nLines = 1 ∧ messageLines.head? = some [] then
    let last ← onLast StringIO.getvalue
    parseLines [.str last]
    onLast StringIO.seek0
    onLast StringIO.truncate0
    return 1
  else
    let ending := isEndLineBreak data
    let messageLines := if ending then messageLines ++ [[]] else messageLines
    let nLines := if ending then nLines + 1 else nLines
    if nLines > 1 then
      let last ← onLast StringIO.getvalue
      let messageLines := (last ++ messageLines.headD []) :: messageLines.tail
      let lastLine := messageLines.getLastD []
      let messageLines := messageLines.dropLast
      parseLines (messageLines.map .str)
      onLast StringIO.seek0
      onLast StringIO.truncate0
      onLast (StringIO.write lastLine)
    else if nLines = 1 then
      onLast (StringIO.write (messageLines.headD []))
    else
      return 0

/-- `_LineBuffer.write` (`mproc.py:319-340`). -/
def write (data : PyStr) : TProg Nat := do
  if !(← writable) then .raise .osError
  else locked (writeCore data)

/-- `_LineBuffer.new_line` (`mproc.py:174-187`). -/
def newLine : TProg Unit := locked do
  let pos ← onLast StringIO.tell
  if pos > 0 then
    let _ ← writeCore (lit "\n")
    return ()
  else return ()

/-- `_LineBuffer.__read_all` (`mproc.py:210-229`). -/
def readAll : TProg (List Item) := do
  let hasLastLine := (← onLast StringIO.tell) > 0
  let nLines ← gets (·.storage.items.length)
  if hasLastLine then
    let lenMax ← gets (·.storage.maxlen)
    if lenMax ≠ 0 ∧ nLines = lenMax then
      let value ← onStorage Deque.popleft
      let items ← gets (·.storage.items)
      let last ← onLast StringIO.getvalue
      onStorage (Py.modify (Deque.appendleft value))
      return items ++ [.str last]
    else if nLines > 0 then
      let items ← gets (·.storage.items)
      let last ← onLast StringIO.getvalue
      return items ++ [.str last]
    else
      let last ← onLast StringIO.getvalue
      return [.str last]
  else
    gets (·.storage.items)

/-- The loop of `__read_n` (`mproc.py:250-253`). -/
def readLoop : Nat → List Item → TProg (List Item)
  | 0, results => pure results
  | n + 1, results => do
    let value ← onStorage Deque.popleft
    onStorage (Py.modify (Deque.append value))
    readLoop n (results ++ [value])

/-- `_LineBuffer.__read_n` (`mproc.py:231-258`). -/
def readN (size : Int) : TProg (List Item) := do
  let hasLastLine := (← onLast StringIO.tell) > 0
  let nLines ← gets (·.storage.items.length)
  let lenMax ← gets (·.storage.maxlen)
  let preserved ←
    (if hasLastLine ∧ lenMax ≠ 0 ∧ nLines = lenMax then do
      let v ← onStorage Deque.popleft
      pure (some v)
     else pure none : TProg (Option Item))
  let nRead : Int := min (if hasLastLine then size - 1 else size)
    (if preserved.isNone then (nLines : Int) else (nLines : Int) - 1)
  (if nRead > 0 then onStorage (Py.modify (Deque.rotate nRead.toNat)) else pure () : TProg Unit)
  let results ← readLoop nRead.toNat []
  if hasLastLine then
    let last ← onLast StringIO.getvalue
    match preserved with
    | some v => onStorage (Py.modify (Deque.appendleft v))
    | none => pure ()
    return results ++ [.str last]
  else
    return results

/-- `_LineBuffer.read` (`mproc.py:260-290`). -/
def read (size : Option Int) : TProg (List Item) := do
  if !(← readable) then .raise .osError
  else locked do
    match size with
    | none => readAll
    | some n => if n > 0 then readN n else return []

/-- `LineProcBuffer.receive` for an error or a warning (`mproc.py:909-916`). -/
def deliver (x : Item) : TProg Unit := onStorage (Py.modify (Deque.append x))

end Thr

/-- What a thread can do with the buffer: the calls of `Calls.lean`, or deliver an item received. -/
inductive TCall where
  | call (c : Call)
  | deliver (x : Item)

/-- The program of a call and what it returns. -/
def Thr.prog : TCall → TProg Ret
  | .call (.write d) => do return Ret.of .nat (← (write d).outcome)
  | .call .newLine => do return Ret.of (fun _ => .unit) (← newLine.outcome)
  | .call (.read size) => do return Ret.of .items (← (Thr.read size).outcome)
  | .call .len => do return Ret.of .nat (← len.outcome)
  | .call .maxlen => do return Ret.of .nat (← (gets (·.maxlen)).outcome)
  | .call .clear => do return Ret.of (fun _ => .unit) (← clear.outcome)
  | .call .flush => do return Ret.of (fun _ => .unit) (← flush.outcome)
  | .call .close => do return Ret.of (fun _ => .unit) (← close.outcome)
  | .call .closed => do return Ret.of .bool (← closed.outcome)
  | .call .readable => do return Ret.of .bool (← readable.outcome)
  | .call .writable => do return Ret.of .bool (← writable.outcome)
  | .deliver x => do return Ret.of (fun _ => .unit) (← (deliver x).outcome)

/-- The threads on one buffer; `ok i c`: thread `i` may make the call `c`. -/
def threads (ok : Nat → TCall → Prop) : Conc.Sys LineBuf Unit Unit TCall Ret where
  call _ _ c := do return (← Thr.prog c, ())
  ok := ok

end SyncStream
