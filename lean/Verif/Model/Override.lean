import Verif.Model.Threads
/-!
# `_LineBuffer` with a user's `parse_lines` (`syncstream/mproc.py:174-208, 292-340`)

"Users could inherit this method and override it with their customized parsing method"
(`mproc.py:200-201`).  A subclass of `LineBuffer` with attributes of its own, whose `parse_lines` is any
program; the inherited methods are those of `Model/Threads.lean`, except that `__write` calls the
override.

An `Override` uses `self.storage` and the attributes of the subclass, step by step, and may raise; it
takes no lock.  Overrides that call methods of the buffer are programs on the whole object.  Not
modelled here: overrides that touch `self.last_line`, and overrides that store `None`
(`Model/NoneItems.lean`).
-/

namespace SyncStream

/-- An instance of the subclass: the attributes of `_LineBuffer` and those of the subclass. -/
structure OvBuf (U : Type) where
  base : LineBuf
  own : U

/-- Programs of threads on such an instance; there is one lock (`mproc.py:84`). -/
abbrev OProg (U : Type) := Prog (OvBuf U) Unit

/-- A `parse_lines` that works with `self.storage` and the attributes of the subclass. -/
abbrev Override (U : Type) := List Item → Prog (Deque Item × U) Empty Unit

namespace Ovr
variable {U α : Type}

/-- What `Model/Threads.lean` describes, on the inherited attributes. -/
def line (p : TProg α) : OProg U α := p.onPart (·.base) (fun t b => { b with base := t }) id

/-- The override, called as a method of the instance. -/
def method (p : Override U) (lines : List Item) : OProg U Unit :=
  (p lines).onPart (fun b => (b.base.storage, b.own))
    (fun x b => { base := { b.base with storage := x.1 }, own := x.2 }) Empty.elim

/-- `_LineBuffer.__write` (`mproc.py:292-317`), `par` is `self.parse_lines`. -/
def writeCore (par : List Item → OProg U Unit) (data : PyStr) : OProg U Nat := do
  let messageLines := splitlines data
  let nLines := messageLines.length
  if nLines = 1 ∧ messageLines.head? = some [] then
    let last ← line (Thr.onLast StringIO.getvalue)
    par [.str last]
    line (Thr.onLast StringIO.seek0)
    line (Thr.onLast StringIO.truncate0)
    return 1
  else
    let ending := isEndLineBreak data
    let messageLines := if ending then messageLines ++ [[]] else messageLines
    let nLines := if ending then nLines + 1 else nLines
    if nLines > 1 then
      let last ← line (Thr.onLast StringIO.getvalue)
      let messageLines := (last ++ messageLines.headD []) :: messageLines.tail
      let lastLine := messageLines.getLastD []
      let messageLines := messageLines.dropLast
      par (messageLines.map .str)
      line (Thr.onLast StringIO.seek0)
      line (Thr.onLast StringIO.truncate0)
      line (Thr.onLast (StringIO.write lastLine))
    else if nLines = 1 then
      line (Thr.onLast (StringIO.write (messageLines.headD [])))
    else
      return 0

/-- `with self.__last_line_lock:` (`mproc.py:84`, a `threading.Lock`). -/
def locked (p : OProg U α) : OProg U α := Prog.withLock () true p

/-- `_LineBuffer.write` (`mproc.py:319-340`). -/
def write (par : List Item → OProg U Unit) (data : PyStr) : OProg U Nat := do
  if !(← line Thr.writable) then .raise .osError
  else locked (writeCore par data)

/-- `_LineBuffer.new_line` (`mproc.py:174-187`). -/
def newLine (par : List Item → OProg U Unit) : OProg U Unit := locked do
  let pos ← line (Thr.onLast StringIO.tell)
  if pos > 0 then
    let _ ← writeCore par (lit "\n")
    return ()
  else return ()

/-- The program of a call and what it returns; the other methods are inherited. -/
def prog (par : List Item → OProg U Unit) : Call → OProg U Ret
  | .write d => do return Ret.of .nat (← (write par d).outcome)
  | .newLine => do return Ret.of (fun _ => .unit) (← (newLine par).outcome)
  | c => line (Thr.prog (.call c))

end Ovr

/-- The threads on one instance of the subclass; `ok i c`: thread `i` may make the call `c`. -/
def ovThreads {U : Type} (par : List Item → OProg U Unit) (ok : Nat → Call → Prop) :
    Conc.Sys (OvBuf U) Unit Unit Call Ret where
  call _ _ c := do return (← Ovr.prog par c, ())
  ok := ok

/-- `self.storage.extend(lines)`, the default `parse_lines` (`mproc.py:208`). -/
def Override.default {U : Type} : Override U := fun lines =>
  Prog.atom (Py.modify fun x => (x.1.extend lines, x.2))

/-- The override `p` in a subclass that also notes which lines it was given (`super().parse_lines(lines)`,
then `self.seen.extend(lines)`). -/
def Override.noting {U : Type} (p : Override U) : Override (U × List Item) := fun lines => do
  (p lines).onPart (fun x => (x.1, x.2.1)) (fun y x => (y.1, y.2, x.2.2)) id
  Prog.atom (Py.modify fun x => (x.1, x.2.1, x.2.2 ++ lines))

end SyncStream
