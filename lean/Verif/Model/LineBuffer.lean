import Verif.Py.StringIO
import Verif.Py.Deque
import Verif.Model.Message
/-!
# Model of `_LineBuffer` and `LineBuffer` (`syncstream/mproc.py:58-382`)

Sequential behaviour; `with self.__last_line_lock:` has no effect here.  The interleaved
behaviour, with the lock and with single operations as steps, is in `Model/Threads.lean`.

`parse_lines` is the default one; `Model/Override.lean` is about overrides by users.
-/

namespace SyncStream

/-- The attributes `storage` and `last_line` (`mproc.py:82-83`). -/
structure LineBuf where
  storage : Deque Item
  lastLine : StringIO := {}

namespace LineBuf

/-- `self.last_line.<method>` -/
def onLast {α : Type} (m : Py StringIO α) : Py LineBuf α :=
  Py.onPart (·.lastLine) (fun t b => { b with lastLine := t }) m

/-- `self.storage.<method>` -/
def onStorage {α : Type} (m : Py (Deque Item) α) : Py LineBuf α :=
  Py.onPart (·.storage) (fun t b => { b with storage := t }) m

/-- `_LineBuffer.__init__` (`mproc.py:66-84`) for an `int` argument (a `bool` is an `int`
too; other types raise `TypeError` as well). -/
def new (maxlen : Int) : Except Exc LineBuf :=
  if maxlen < 1 then .error .typeError
  else .ok { storage := { maxlen := maxlen.toNat } }

/-- `_LineBuffer.maxlen` (`mproc.py:86-92`). -/
def maxlen (b : LineBuf) : Nat := b.storage.maxlen

/-- `_LineBuffer.__len__` (`mproc.py:94-101`).  `if self.last_line` tests the truth of the
`StringIO` object. -/
def len : Py LineBuf Nat := fun b =>
  let maxLen := b.maxlen
  let n := b.storage.items.length
  let n := if b.lastLine.truth then n + 1 else n
  (.ok (if maxLen ≠ 0 then min maxLen n else n), b)

/-- `_LineBuffer.closed` (`mproc.py:103-107`). -/
def closed : Py LineBuf Bool := Py.gets (·.lastLine.closed)

/-- `_LineBuffer.clear` (`mproc.py:162-172`). -/
def clear : Py LineBuf Unit := do
  onLast StringIO.seek0
  onLast StringIO.truncate0
  onStorage (Py.modify Deque.clear)

/-- `_LineBuffer.close` (`mproc.py:109-118`). -/
def close : Py LineBuf Unit := do
  if ← closed then return ()
  clear
  onLast StringIO.close

/-- `_LineBuffer.fileno` (`mproc.py:120-127`) -/
def fileno : Py LineBuf Unit := Py.raise .osError

/-- `_LineBuffer.isatty` (`mproc.py:129-131`) -/
def isatty : Py LineBuf Bool := pure false

/-- `_LineBuffer.readable` (`mproc.py:133-140`). -/
def readable : Py LineBuf Bool := Py.gets fun b => !b.lastLine.closed

/-- `_LineBuffer.writable` (`mproc.py:142-149`). -/
def writable : Py LineBuf Bool := Py.gets fun b => !b.lastLine.closed

/-- `_LineBuffer.seekable` (`mproc.py:151-153`) -/
def seekable : Py LineBuf Bool := pure false

/-- `_LineBuffer.seek` (`mproc.py:155-160`) -/
def seek : Py LineBuf Unit := Py.raise .osError

/-- `_LineBuffer.flush` (`mproc.py:189-192`). -/
def flush : Py LineBuf Unit := onLast StringIO.flush

/-- `_LineBuffer.parse_lines` (`mproc.py:194-208`), the default. -/
def parseLines (lines : List Item) : Py LineBuf Unit :=
  onStorage (Py.modify (Deque.extend lines))

/-- `_LineBuffer.__write` (`mproc.py:292-317`). -/
def writeCore (data : PyStr) : Py LineBuf Nat := do
  let messageLines := splitlines data
  let nLines := messageLines.length
  if nLines = 1 ∧ messageLines.head? = some [] then
    let last ← onLast StringIO.getvalue
    parseLines [.str last]
    onLast StringIO.seek0
    onLast StringIO.truncate0
    return 1
  else
    let ending := isEndLineBreak data
    let messageLines := if ending then messageLines ++ [[]] else messageLines
    let nLines := if ending then nLines + 1 else nLines
    if nLines > 1 then
      let last ← onLast StringIO.getvalue
      let messageLines := (last ++ messageLines.headD []) :: messageLines.tail
      let lastLine := messageLines.getLastD []
      let messageLines := messageLines.dropLast
      parseLines (messageLines.map .str)
      onLast StringIO.seek0
      onLast StringIO.truncate0
      onLast (StringIO.write lastLine)
    else if nLines = 1 then
      onLast (StringIO.write (messageLines.headD []))
    else
      return 0

/-- `_LineBuffer.write` (`mproc.py:319-340`). -/
def write (data : PyStr) : Py LineBuf Nat := do
  if !(← writable) then Py.raise .osError
  else writeCore data

/-- `_LineBuffer.new_line` (`mproc.py:174-187`). -/
def newLine : Py LineBuf Unit := do
  let pos ← onLast StringIO.tell
  if pos > 0 then
    let _ ← writeCore (lit "\n")
    return ()
  else return ()

/-- `_LineBuffer.__read_all` (`mproc.py:210-229`). -/
def readAll : Py LineBuf (List Item) := do
  let hasLastLine := (← onLast StringIO.tell) > 0
  let nLines ← Py.gets (·.storage.items.length)
  if hasLastLine then
    let lenMax ← Py.gets (·.storage.maxlen)
    if lenMax ≠ 0 ∧ nLines = lenMax then
      let value ← onStorage Deque.popleft
      let items ← Py.gets (·.storage.items)
      let last ← onLast StringIO.getvalue
      onStorage (Py.modify (Deque.appendleft value))
      return items ++ [.str last]
    else if nLines > 0 then
      let items ← Py.gets (·.storage.items)
      let last ← onLast StringIO.getvalue
      return items ++ [.str last]
    else
      let last ← onLast StringIO.getvalue
      return [.str last]
  else
    Py.gets (·.storage.items)

/-- The loop of `__read_n` (`mproc.py:250-253`): `n` times take the leftmost item, record it
and append it at the right end. -/
def readLoop : Nat → List Item → Py LineBuf (List Item)
  | 0, results => pure results
  | n + 1, results => do
    let value ← onStorage Deque.popleft
    onStorage (Py.modify (Deque.append value))
    readLoop n (results ++ [value])

/-- `_LineBuffer.__read_n` (`mproc.py:231-258`).  `preserved_value` is `None` exactly if nothing
was popped, because no stored item is `None`. -/
def readN (size : Int) : Py LineBuf (List Item) := do
  let hasLastLine := (← onLast StringIO.tell) > 0
  let nLines ← Py.gets (·.storage.items.length)
  let lenMax ← Py.gets (·.storage.maxlen)
  let preserved ←
    (if hasLastLine ∧ lenMax ≠ 0 ∧ nLines = lenMax then do
      let v ← onStorage Deque.popleft
      pure (some v)
     else pure none : Py LineBuf (Option Item))
  let nRead : Int := min (if hasLastLine then size - 1 else size)
    (if preserved.isNone then (nLines : Int) else (nLines : Int) - 1)
  (if nRead > 0 then onStorage (Py.modify (Deque.rotate nRead.toNat)) else pure () : Py LineBuf Unit)
  let results ← readLoop nRead.toNat []
  if hasLastLine then
    let last ← onLast StringIO.getvalue
    match preserved with
    | some v => onStorage (Py.modify (Deque.appendleft v))
    | none => pure ()
    return results ++ [.str last]
  else
    return results

/-- `_LineBuffer.read` (`mproc.py:260-290`). -/
def read (size : Option Int) : Py LineBuf (List Item) := do
  if !(← readable) then Py.raise .osError
  else
    match size with
    | none => readAll
    | some n => if n > 0 then readN n else return []

end LineBuf
end SyncStream
