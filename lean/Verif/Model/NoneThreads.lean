import Verif.Model.NoneItems
/-!
# Reading a buffer that stores `None`, with several threads (`syncstream/mproc.py:210-290`)

The programs of `Model/NoneItems.lean` step by step, as in `Model/Threads.lean` and `Model/Override.lean`.
-/

namespace SyncStream

namespace Thr

/-- `_LineBuffer.__read_n` (`mproc.py:231-258`), whatever the storage contains. -/
def readNAny (size : Int) : TProg (List Item) := do
  let hasLastLine := (← onLast StringIO.tell) > 0
  let nLines ← gets (·.storage.items.length)
  let lenMax ← gets (·.storage.maxlen)
  let preserved ←
    (if hasLastLine ∧ lenMax ≠ 0 ∧ nLines = lenMax then onStorage Deque.popleft
     else pure (.raw .null) : TProg Item)
  let nRead : Int := min (if hasLastLine then size - 1 else size)
    (if preserved.isNone then (nLines : Int) else (nLines : Int) - 1)
  (if nRead > 0 then onStorage (Py.modify (Deque.rotate nRead.toNat)) else pure () : TProg Unit)
  let results ← readLoop nRead.toNat []
  if hasLastLine then
    let last ← onLast StringIO.getvalue
    (if preserved.isNone then pure () else onStorage (Py.modify (Deque.appendleft preserved)) : TProg Unit)
    return results ++ [.str last]
  else
    return results

/-- `_LineBuffer.read` (`mproc.py:260-290`), whatever the storage contains. -/
def readAny (size : Option Int) : TProg (List Item) := do
  if !(← readable) then .raise .osError
  else locked do
    match size with
    | none => readAll
    | some n => if n > 0 then readNAny n else return []

end Thr

/-- The program of a call on an instance whose `parse_lines` may store `None` (`mproc.py:174-340`). -/
def Ovr.progAny {U : Type} (par : List Item → OProg U Unit) : Call → OProg U Ret
  | .read n => line (do return Ret.of .items (← (Thr.readAny n).outcome))
  | c => prog par c

/-- The threads on one such instance; `ok i c`: thread `i` may make the call `c`. -/
def noneThreads {U : Type} (par : List Item → OProg U Unit) (ok : Nat → Call → Prop) :
    Conc.Sys (OvBuf U) Unit Unit Call Ret where
  call _ _ c := do return (← Ovr.progAny par c, ())
  ok := ok

end SyncStream
