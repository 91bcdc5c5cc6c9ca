import Verif.Model.Override
/-!
# Reading a buffer that stores `None` (`syncstream/mproc.py:210-290`)

"Users could inherit this method and override it with their customized parsing method, like regular
expression searching" (`mproc.py:200-201`), and `re.search` gives `None` for a line without a match.
`__read_n` takes a stored `None` for "nothing preserved" (`mproc.py:240, 243, 256`).
`Model/LineBuffer.lean` assumes that no stored item is `None`; here it may be.  The item `None` is
`Item.raw Json.null`.  Here the calls come one after the other; for
threads see `Model/NoneThreads.lean`.
-/

namespace SyncStream

/-- Python's `x is None`. -/
def Item.isNone : Item → Bool
  | .raw .null => true
  | _ => false

namespace LineBuf

/-- `_LineBuffer.__read_n` (`mproc.py:231-258`), whatever the storage contains: `preserved_value`
is `None` also if a `None` was popped. -/
def readNAny (size : Int) : Py LineBuf (List Item) := do
  let hasLastLine := (← onLast StringIO.tell) > 0
  let nLines ← Py.gets (·.storage.items.length)
  let lenMax ← Py.gets (·.storage.maxlen)
  let preserved ←
    (if hasLastLine ∧ lenMax ≠ 0 ∧ nLines = lenMax then onStorage Deque.popleft
     else pure (.raw .null) : Py LineBuf Item)
  let nRead : Int := min (if hasLastLine then size - 1 else size)
    (if preserved.isNone then (nLines : Int) else (nLines : Int) - 1)
  (if nRead > 0 then onStorage (Py.modify (Deque.rotate nRead.toNat)) else pure () : Py LineBuf Unit)
  let results ← readLoop nRead.toNat []
  if hasLastLine then
    let last ← onLast StringIO.getvalue
    (if preserved.isNone then pure () else onStorage (Py.modify (Deque.appendleft preserved)) : Py LineBuf Unit)
    return results ++ [.str last]
  else
    return results

/-- `_LineBuffer.read` (`mproc.py:260-290`), whatever the storage contains. -/
def readAny (size : Option Int) : Py LineBuf (List Item) := do
  if !(← readable) then Py.raise .osError
  else
    match size with
    | none => readAll
    | some n => if n > 0 then readNAny n else return []

end LineBuf

namespace Ovr
variable {U : Type}

/-- A call, without interruption, on an instance whose `parse_lines` is `p` and may store `None`
(`mproc.py:174-340`). -/
def callAny (p : Override U) (c : Call) (b : OvBuf U) : Ret × OvBuf U :=
  match c with
  | .read n =>
    let (r, t) := LineBuf.readAny n b.base
    (Ret.of .items r, { b with base := t })
  | c =>
    match (prog (method p) c).seq b with
    | (.ok r, b') => (r, b')
    | (.error e, b') => (.exc e, b')

/-- One call after the other: what they return, and the instance at the end. -/
def callsAny (p : Override U) : List Call → OvBuf U → List Ret × OvBuf U
  | [], b => ([], b)
  | c :: cs, b =>
    let (r, b') := callAny p c b
    let (rs, b'') := callsAny p cs b'
    (r :: rs, b'')

end Ovr

/-- An override that stores what a search finds in each line: `None`, if it finds nothing
(`self.storage.extend(map(f, lines))`). -/
def Override.searching {U : Type} (f : Item → Option Item) : Override U := fun lines =>
  Prog.atom (Py.modify fun x => (x.1.extend (lines.map fun l => (f l).getD (.raw .null)), x.2))

end SyncStream
