import Verif.Model.Prog
import Verif.Model.Calls
import Verif.Py.Path
/-!
# Model of `LineFileBuffer` (`syncstream/file.py`)

* The files are those of the buffer's directory (`self.__file_dir`); a file is named by its name in
  it, so `"{file_path}-0.log"` and `"{file_name}-0.log"` denote the same file.  Other directories,
  subdirectories and special files are not modelled; every entry of the directory is a regular file.
* A file's contents are the characters as stored: newline translation is modelled, the encoding only
  by which characters it can represent.  Every single character of a write is a step of its own, so
  a crash can leave any prefix of it.
* The lock files of `fasteners` are names of locks, not files in the model.
* `parse_lines` is the default one.
* `clear` looks at the directory once and then removes the matching files one by one, in the order in
  which the platform lists them (a parameter; see `FEnv.listing`); that the directory part of the path
  contains no pattern characters is assumed.
* `tmp_id` contains no `/`.
* The redirection of `stdout`/`stderr` by `__enter__`/`__exit__` is in `Model/Redirect.lean`.
-/

namespace SyncStream

/-- The files of the directory. -/
abbrev FS := PyStr → Option PyStr

/-- The directory with the entry for `n` replaced. -/
def FS.set (s : FS) (n : PyStr) (v : Option PyStr) : FS := fun m => if m = n then v else s m

/-- The platform: whether `os.linesep` is `\r\n`, which characters the locale's encoding can
represent, and in which order a directory with given entries is listed.  `none` is for a directory
that cannot be listed because it is infinite; an environment may also say `none` for others, then
`clear` removes their entries in one step. -/
structure FEnv where
  crlf : Bool := false
  encodable : Nat → Bool := fun _ => true
  listing : (PyStr → Bool) → Option (List PyStr) := fun _ => none
  lists : ∀ P ns, listing P = some ns → ns.Nodup ∧ ∀ n, n ∈ ns ↔ P n = true := by exact fun _ _ h => nomatch h

/-- Programs on files; locks are named by the names of their lock files. -/
abbrev FProg := Prog FS PyStr

namespace File

/-- `os.path.isfile(name)`, or the test for an entry of `os.listdir`. -/
def isfile (n : PyStr) : FProg Bool := .act id fun s => .ret (s n).isSome

/-- `os.listdir(dir)`, as a test. -/
def listdir : FProg (PyStr → Bool) := .act id fun s => .ret fun n => (s n).isSome

/-- `os.remove(name)` -/
def remove (n : PyStr) : FProg Unit :=
  .act (fun s => s.set n none) fun s => if (s n).isSome then .ret () else .raise .fileNotFound

/-- `os.rename(a, b)` -/
def rename (a b : PyStr) : FProg Unit :=
  .act (fun s => match s a with
    | none => s
    | some c => (s.set a none).set b (some c))
    fun s => if (s a).isSome then .ret () else .raise .fileNotFound

/-- `open(name, "w")`: creates or empties the file. -/
def openW (n : PyStr) : FProg Unit := .act (fun s => s.set n (some [])) fun _ => .ret ()

/-- `open(name, "a")`: creates the file if necessary. -/
def openA (n : PyStr) : FProg Unit :=
  .act (fun s => if (s n).isSome then s else s.set n (some [])) fun _ => .ret ()

/-- `open(name, "r").read()`: universal newlines. -/
def readText (n : PyStr) : FProg PyStr :=
  .act id fun s => match s n with
    | none => .raise .fileNotFound
    | some c => .ret (univNewlines c)

/-- Characters arriving at the end of a file, one after the other. -/
def appendChars (n : PyStr) : PyStr → FProg Unit
  | [] => .ret ()
  | c :: cs => .act (fun s => s.set n (some ((s n).getD [] ++ [c]))) fun _ => appendChars n cs

/-- `fobj.write(text)` and closing the file: the text is encoded first, which can fail; the
number of characters is returned. -/
def writeText (env : FEnv) (n text : PyStr) : FProg Nat :=
  if text.all env.encodable then do
    appendChars n (writeNewlines env.crlf text)
    return text.length
  else .raise .unicodeEncodeError

end File

/-- The decimal digits of `n`; `fuel` is at least `n`. -/
def digits : Nat → Nat → PyStr
  | 0, n => [48 + n]
  | fuel + 1, n => if n < 10 then [48 + n] else digits fuel (n / 10) ++ [48 + n % 10]

/-- `"{0:d}".format(n)` -/
def dec (n : Nat) : PyStr := digits n n

/-- A `LineFileBuffer` (`file.py:94-113`); `name` is `__file_name`. -/
structure FileBuf where
  name : PyStr
  tmpId : PyStr
  maxlen : Nat
  closed : Bool := false

/-- `LineFileBuffer.__init__` (`file.py:61-113`), with `str(file_path)` and `str(tmp_id)` as arguments:
the directory, and the object. -/
def FileBuf.new (filePath : PyStr) (maxlen : Int) (tmpId : PyStr) : Except Exc (PyStr × FileBuf) :=
  if maxlen < 1 then .error .typeError
  else
    let filePath := strip filePath
    if filePath = [] then .error .typeError
    else if tmpId = [] then .error .typeError
    else
      let (fileDir, fileName) := pathSplit (pathSplitext filePath).1
      if fileName = [] then .error .typeError
      else .ok (if fileDir = [] then lit "." else fileDir,
        { name := fileName, tmpId := tmpId, maxlen := maxlen.toNat })

namespace FileBuf

/-- `"{0}-{1:d}.log".format(self.__file_name, n)` (`file.py:164, 308, 315-316, 323, 418, 432`). -/
def logName (b : FileBuf) (n : Nat) : PyStr := b.name ++ lit "-" ++ dec n ++ lit ".log"

/-- `__tmp_file_path` (`file.py:144-150`). -/
def tmpName (b : FileBuf) : PyStr := b.name ++ lit "-" ++ b.tmpId ++ lit ".tmp"

/-- `__file_lock` (`file.py:105-107`). -/
def lockName (b : FileBuf) : PyStr := b.name ++ lit ".lock"

/-- `__file_tmp_lock` (`file.py:108-110`). -/
def tmpLockName (b : FileBuf) : PyStr := b.name ++ lit "-" ++ b.tmpId ++ lit ".lock"

/-- The loop "for n in range(limit): if the file number n exists, count it, else break"
(`file.py:163-167, 307-311, 417-421`), from `n` on. -/
def countFrom (b : FileBuf) (files : PyStr → Bool) (n : Nat) : Nat → Nat
  | 0 => 0
  | limit + 1 => if files (b.logName n) then countFrom b files (n + 1) limit + 1 else 0

/-- The renaming loop of `__update_records` (`file.py:314-319`): `for n in range(n_remain - 1, -1, -1)`. -/
def moveLoop (b : FileBuf) (nLines : Nat) : Nat → FProg Unit
  | 0 => return ()
  | n + 1 => do
    let fileOld := b.logName n
    let fileNew := b.logName (n + nLines)
    if ← File.isfile fileNew then File.remove fileNew
    File.rename fileOld fileNew
    moveLoop b nLines n

/-- The writing loop (`file.py:321-325`): the first of the remaining `lines` goes to the file
numbered by how many follow it. -/
def writeLoop (env : FEnv) (b : FileBuf) : List PyStr → FProg Unit
  | [] => return ()
  | line :: lines => do
    File.openW (b.logName lines.length)
    let _ ← File.writeText env (b.logName lines.length) line
    writeLoop env b lines

/-- `LineFileBuffer.__update_records` (`file.py:282-325`). -/
def updateRecords (env : FEnv) (b : FileBuf) (lines : List PyStr) : FProg Unit :=
  Prog.withLock b.lockName true do
    if lines.length ≤ 0 then return ()
    let lines := if lines.length ≥ b.maxlen then lines.drop (lines.length - b.maxlen) else lines
    let nLines := lines.length
    let files ← File.listdir
    let nCurrent := countFrom b files 0 b.maxlen
    let nRemain := min nCurrent (b.maxlen - nLines)
    moveLoop b nLines nRemain
    writeLoop env b lines

/-- `LineFileBuffer.__get_last_line` (`file.py:327-341`). -/
def getLastLine (b : FileBuf) : FProg PyStr :=
  Prog.withLock b.tmpLockName false do
    if ← File.isfile b.tmpName then File.readText b.tmpName
    else return []

/-- `LineFileBuffer.__clean_last_line` (`file.py:343-353`). -/
def cleanLastLine (b : FileBuf) : FProg Unit :=
  Prog.withLock b.tmpLockName true (File.openW b.tmpName)

/-- `LineFileBuffer.__write_last_line` (`file.py:355-365`). -/
def writeLastLine (env : FEnv) (b : FileBuf) (line : PyStr) : FProg Nat :=
  Prog.withLock b.tmpLockName true do
    File.openA b.tmpName
    File.writeText env b.tmpName line

/-- `LineFileBuffer.parse_lines` (`file.py:367-383`). -/
def parseLines (env : FEnv) (b : FileBuf) (lines : List PyStr) : FProg Unit :=
  updateRecords env b lines

/-- `LineFileBuffer.__len__` (`file.py:157-170`). -/
def len (b : FileBuf) : FProg Nat := do
  let n ← Prog.withLock b.lockName false do
    let files ← File.listdir
    return countFrom b files 0 b.maxlen
  let last ← getLastLine b
  let n := if last ≠ [] then n + 1 else n
  return if b.maxlen ≠ 0 then min b.maxlen n else n

/-- `LineFileBuffer.readable` (`file.py:206-213`). -/
def readable (b : FileBuf) : FProg Bool :=
  Prog.withLock b.tmpLockName false (Prog.withLock b.lockName false (return !b.closed))

/-- `LineFileBuffer.writable` (`file.py:215-222`). -/
def writable (b : FileBuf) : FProg Bool :=
  Prog.withLock b.tmpLockName true (Prog.withLock b.lockName true (return !b.closed))

/-- The reading loop (`file.py:431-433`): `for n in range(n_read - 1, -1, -1)`. -/
def readLoop (b : FileBuf) : Nat → FProg (List PyStr)
  | 0 => return []
  | n + 1 => do
    let text ← File.readText (b.logName n)
    let rest ← readLoop b n
    return text :: rest

/-- `LineFileBuffer.read` (`file.py:385-436`). -/
def read (b : FileBuf) (size : Option Int) : FProg (List PyStr) := do
  if !(← readable b) then .raise .osError
  else if size.any (· ≤ 0) then return []
  else
    let last ← getLastLine b
    Prog.withLock b.lockName false do
      let files ← File.listdir
      let nCurrent := countFrom b files 0 (if last ≠ [] then b.maxlen - 1 else b.maxlen)
      let nRead : Nat := match size with
        | none => nCurrent
        | some k => (if last ≠ [] then min (k - 1) nCurrent else min k nCurrent).toNat
      let res ← readLoop b nRead
      return if last ≠ [] then res ++ [last] else res

/-- `LineFileBuffer.__write` (`file.py:438-461`). -/
def writeCore (env : FEnv) (b : FileBuf) (data : PyStr) : FProg Nat := do
  let messageLines := splitlines data
  let nLines := messageLines.length
  if nLines = 1 ∧ messageLines.head? = some [] then
    let last ← getLastLine b
    parseLines env b [last]
    cleanLastLine b
    return 1
  else
    let ending := isEndLineBreak data
    let messageLines := if ending then messageLines ++ [[]] else messageLines
    let nLines := if ending then nLines + 1 else nLines
    if nLines > 1 then
      let last ← getLastLine b
      let messageLines := (last ++ messageLines.headD []) :: messageLines.tail
      let lastLine := messageLines.getLastD []
      let messageLines := messageLines.dropLast
      parseLines env b messageLines
      cleanLastLine b
      writeLastLine env b lastLine
    else if nLines = 1 then
      writeLastLine env b (messageLines.headD [])
    else
      return 0

/-- `LineFileBuffer.write` (`file.py:463-483`). -/
def write (env : FEnv) (b : FileBuf) (data : PyStr) : FProg Nat := do
  if !(← writable b) then .raise .osError
  else writeCore env b data

/-- `LineFileBuffer.new_line` (`file.py:245-259`). -/
def newLine (env : FEnv) (b : FileBuf) : FProg Unit := do
  if b.closed then return ()
  else if (← getLastLine b) ≠ [] then
    let _ ← writeCore env b (lit "\n")
    return ()
  else return ()

/-- `LineFileBuffer.send_exc` (`file.py:235-243`). -/
def sendExc (env : FEnv) (b : FileBuf) (e : ExcObj) : FProg Unit :=
  if b.closed then return ()
  else
    match (GMsg.new (.exc e)).toStr with
    | .ok text => updateRecords env b [text]
    | .error x => .raise x

/-- The loop of `clear` (`file.py:269-272`). -/
def removeAll : List PyStr → FProg Unit
  | [] => return ()
  | n :: ns => do
    File.remove n
    removeAll ns

/-- `LineFileBuffer.clear` (`file.py:261-276`). -/
def clear (env : FEnv) (b : FileBuf) : FProg Unit := do
  Prog.withLock b.lockName true
    (.act id fun s =>
      match env.listing fun n => globMatch (b.name ++ lit "-*.log") n && (s n).isSome with
      | some ns => removeAll ns
      | none => .act (fun s n => if globMatch (b.name ++ lit "-*.log") n then none else s n) fun _ => .ret ())
  Prog.withLock b.tmpLockName true do
    if ← File.isfile b.tmpName then File.remove b.tmpName

/-- `LineFileBuffer.close` (`file.py:177-191`); returns the object with `closed` set. -/
def close (env : FEnv) (b : FileBuf) (exc : Option ExcObj) : FProg FileBuf := do
  match exc with
  | none => newLine env b
  | some e => sendExc env b e
  return { b with closed := true }

/-- `LineFileBuffer.__exit__` (`file.py:127-142`) without the redirection. -/
def exit (env : FEnv) (b : FileBuf) (exc : Option ExcObj) : FProg Unit :=
  match exc with
  | none => newLine env b
  | some e => sendExc env b e

end FileBuf

/-- A call of a public method of `LineFileBuffer`; `exit` is the end of a `with` block. -/
inductive FCall where
  | write (data : PyStr)
  | newLine
  | read (size : Option Int)
  | len
  | maxlen
  | clear
  | flush
  | sendExc (e : ExcObj)
  | close (exc : Option ExcObj)
  | exit (exc : Option ExcObj)
  | closed
  | readable
  | writable

namespace FileBuf

/-- A call: what it returns and the object afterwards. -/
def call (env : FEnv) (b : FileBuf) : FCall → FProg (Ret × FileBuf)
  | .write d => do return (Ret.of .nat (← (write env b d).outcome), b)
  | .newLine => do return (Ret.of (fun _ => .unit) (← (newLine env b).outcome), b)
  | .read size => do return (Ret.of (fun l => .items (l.map .str)) (← (read b size).outcome), b)
  | .len => do return (Ret.of .nat (← (len b).outcome), b)
  | .maxlen => return (.nat b.maxlen, b)
  | .clear => do return (Ret.of (fun _ => .unit) (← (clear env b).outcome), b)
  | .flush => return (.unit, b)
  | .sendExc e => do return (Ret.of (fun _ => .unit) (← (sendExc env b e).outcome), b)
  | .close exc => do
    match ← (close env b exc).outcome with
    | .ok b' => return (.unit, b')
    | .error e => return (.exc e, b)
  | .exit exc => do return (Ret.of (fun _ => .unit) (← (exit env b exc).outcome), b)
  | .closed => return (.bool b.closed, b)
  | .readable => do return (Ret.of .bool (← (readable b).outcome), b)
  | .writable => do return (Ret.of .bool (← (writable b).outcome), b)

/-- One call by a process that is alone. -/
def exec (env : FEnv) (c : FCall) (b : FileBuf) (s : FS) : Ret × FileBuf × FS :=
  match (call env b c).seq s with
  | (.ok (r, b'), s') => (r, b', s')
  | (.error e, s') => (.exc e, b, s')

/-- A history of calls by a process that is alone. -/
def run (env : FEnv) : List FCall → FileBuf → FS → List Ret × FileBuf × FS
  | [], b, s => ([], b, s)
  | c :: cs, b, s =>
    let (r, b', s') := exec env c b s
    let (rs, b'', s'') := run env cs b' s'
    (r :: rs, b'', s'')

end FileBuf
end SyncStream
