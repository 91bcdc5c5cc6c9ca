import Verif.Py.Basic
/-!
# `io.StringIO`

Created with the default `newline="\n"`, i.e. without newline translation.  Modelled after
CPython `Modules/_io/stringio.c`.
-/

namespace SyncStream

/-- A `StringIO` object: content, stream position, closed flag. -/
structure StringIO where
  buf : PyStr := []
  pos : Nat := 0
  closed : Bool := false
  deriving DecidableEq, Repr

namespace StringIO

/-- Every method of a closed `StringIO` raises `ValueError`. -/
def check : Py StringIO Unit := fun s => if s.closed then (.error .valueError, s) else (.ok (), s)

/-- Overwrite `d` at position `pos`; a gap after the end is filled with NUL characters. -/
def overwrite (buf : PyStr) (pos : Nat) (d : PyStr) : PyStr :=
  (buf ++ List.replicate (pos - buf.length) 0).take pos ++ d ++ buf.drop (pos + d.length)

/-- `write(d)`: returns the number of characters; writing `""` does nothing. -/
def write (d : PyStr) : Py StringIO Nat := do
  check
  if d = [] then return 0
  else
    Py.modify fun s => { s with buf := overwrite s.buf s.pos d, pos := s.pos + d.length }
    return d.length

/-- `seek(0, os.SEEK_SET)` -/
def seek0 : Py StringIO Unit := do
  check
  Py.modify fun s => { s with pos := 0 }

/-- `truncate(0)`: empties the content, does not move the position. -/
def truncate0 : Py StringIO Unit := do
  check
  Py.modify fun s => { s with buf := [] }

/-- `tell()` -/
def tell : Py StringIO Nat := do
  check
  Py.gets (·.pos)

/-- `getvalue()` -/
def getvalue : Py StringIO PyStr := do
  check
  Py.gets (·.buf)

/-- `read(size)`: at most `size` characters from the position on, all of them if `size < 0`;
moves the position. -/
def read (size : Int) : Py StringIO PyStr := do
  check
  let r ← Py.gets fun s =>
    if size < 0 then s.buf.drop s.pos else (s.buf.drop s.pos).take size.toNat
  Py.modify fun s => { s with pos := s.pos + r.length }
  return r

/-- `flush()` -/
def flush : Py StringIO Unit := check

/-- `close()`: the content is discarded. -/
def close : Py StringIO Unit :=
  Py.modify fun s => { s with buf := [], pos := 0, closed := true }

/-- `bool(s)`: `StringIO` defines neither `__bool__` nor `__len__`, so it is always true. -/
def truth (_ : StringIO) : Bool := true

end StringIO
end SyncStream
