import Verif.Model.FileProcs
/-!
# Model of subclasses of `LineFileBuffer` with a `parse_lines` of their own

"Users could inherit this method and override it with their customized parsing method" (`file.py:375-376`).
`__write` calls `self.parse_lines` (`file.py:446, 455`) without holding a lock of the buffer; `send_exc` does not
call it (`file.py:243`).

* The override is a program on the files of the directory and on attributes of its own, in any number of steps;
  it can take and release locks by name, so it can do what the methods of the buffer do (`super().parse_lines`,
  `self.read()`, ...).
* It does not change the attribute `__closed` of the object (it does not call `self.close()`).
-/

namespace SyncStream

/-- The files of the directory, and the attributes that the object of each process has in addition. -/
structure OvDir (U : Type) where
  files : FS
  own : Nat → U

/-- Programs of the processes. -/
abbrev DProg (U : Type) := Prog (OvDir U) PyStr

/-- A user's `parse_lines`: what it does for an object, given the lines. -/
abbrev FOverride (U : Type) := FileBuf → List PyStr → Prog (FS × U) PyStr Unit

/-- The default: `self.__update_records(lines)` (`file.py:383`); also `super().parse_lines(lines)`. -/
def FOverride.default {U : Type} (env : FEnv) : FOverride U := fun b lines =>
  (FileBuf.parseLines env b lines).onPart (·.1) (fun s x => (s, x.2)) id

/-- The override `p` in a subclass that first notes which lines it is given (`self.given.append(lines)`). -/
def FOverride.noting {U : Type} (p : FOverride U) : FOverride (U × List (List PyStr)) := fun b lines => do
  Prog.atom (Py.modify fun x => (x.1, x.2.1, x.2.2 ++ [lines]))
  (p b lines).onPart (fun x => (x.1, x.2.1)) (fun y x => (y.1, y.2, x.2.2)) id

namespace FOvr
variable {U α : Type}

/-- A method that is inherited: it works on the files. -/
def onFiles (p : FProg α) : DProg U α := p.onPart (·.files) (fun s d => { d with files := s }) id

/-- The override, for the object of process `i`. -/
def method (p : FOverride U) (i : Nat) (b : FileBuf) (lines : List PyStr) : DProg U Unit :=
  (p b lines).onPart (fun d => (d.files, d.own i)) (fun x d => { files := x.1, own := upd d.own i x.2 }) id

/-- `LineFileBuffer.__write` (`file.py:438-461`), with `par` for `self.parse_lines`. -/
def writeCore (env : FEnv) (par : List PyStr → DProg U Unit) (b : FileBuf) (data : PyStr) : DProg U Nat := do
  let messageLines := splitlines data
  let nLines := messageLines.length
  if nLines = 1 ∧ messageLines.head? = some [] then
    let last ← onFiles b.getLastLine
    par [last]
    onFiles b.cleanLastLine
    return 1
  else
    let ending := isEndLineBreak data
    let messageLines := if ending then messageLines ++ [[]] else messageLines
    let nLines := if ending then nLines + 1 else nLines
    if nLines > 1 then
      let last ← onFiles b.getLastLine
      let messageLines := (last ++ messageLines.headD []) :: messageLines.tail
      let lastLine := messageLines.getLastD []
      let messageLines := messageLines.dropLast
      par messageLines
      onFiles b.cleanLastLine
      onFiles (b.writeLastLine env lastLine)
    else if nLines = 1 then
      onFiles (b.writeLastLine env (messageLines.headD []))
    else
      return 0

/-- `LineFileBuffer.write` (`file.py:463-483`). -/
def write (env : FEnv) (par : List PyStr → DProg U Unit) (b : FileBuf) (data : PyStr) : DProg U Nat := do
  if !(← onFiles b.writable) then .raise .osError
  else writeCore env par b data

/-- `LineFileBuffer.new_line` (`file.py:245-259`). -/
def newLine (env : FEnv) (par : List PyStr → DProg U Unit) (b : FileBuf) : DProg U Unit := do
  if b.closed then return ()
  else if (← onFiles b.getLastLine) ≠ [] then
    let _ ← writeCore env par b (lit "\n")
    return ()
  else return ()

/-- The program of a call, what it returns and the object afterwards.  Those that do not complete lines are
inherited; `close` (`file.py:177-191`) and `__exit__` (`file.py:127-142`) without an exception call
`new_line`, with one `send_exc`. -/
def call (env : FEnv) (par : List PyStr → DProg U Unit) (b : FileBuf) : FCall → DProg U (Ret × FileBuf)
  | .write d => do return (Ret.of .nat (← (write env par b d).outcome), b)
  | .newLine => do return (Ret.of (fun _ => .unit) (← (newLine env par b).outcome), b)
  | .close none => do
    match ← (newLine env par b).outcome with
    | .ok _ => return (.unit, { b with closed := true })
    | .error e => return (.exc e, b)
  | .exit none => do return (Ret.of (fun _ => .unit) (← (newLine env par b).outcome), b)
  | c => onFiles (b.call env c)

end FOvr

/-- The processes, each with an object of its own and with its own override; `ok i c`: process `i` may make the
call `c`. -/
def ovProcs {U : Type} (env : FEnv) (par : Nat → FOverride U) (ok : Nat → FCall → Prop) :
    Conc.Sys (OvDir U) PyStr FileBuf FCall Ret where
  call i b c := FOvr.call env (FOvr.method (par i) i b) b c
  ok := ok

end SyncStream
