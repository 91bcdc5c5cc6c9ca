import Verif.Py.Basic
/-!
# Python text: `str.splitlines`, `str.strip`, `str.join`, newline translation
-/

namespace SyncStream

/-- The characters at which `str.splitlines` breaks lines: `\n \v \f \r \x1c \x1d \x1e \x85
   ` (table in the documentation of `str.splitlines`; the two-character boundary
`\r\n` is handled in `splitlinesFrom`). -/
def isBreak (c : Nat) : Bool :=
  c == 10 || c == 11 || c == 12 || c == 13 || c == 28 || c == 29 || c == 30 ||
  c == 0x85 || c == 0x2028 || c == 0x2029

/-- Loop of `str.splitlines` (CPython `stringlib/split.h`, `splitlines`): `cur` is the line
read so far.  `\r\n` counts as one boundary; text after the last boundary is a line only if it
is not empty. -/
def splitlinesFrom (cur : PyStr) : PyStr → List PyStr
  | [] => if cur = [] then [] else [cur]
  | 13 :: 10 :: rest => cur :: splitlinesFrom [] rest
  | c :: rest => if isBreak c then cur :: splitlinesFrom [] rest
                 else splitlinesFrom (cur ++ [c]) rest

/-- `s.splitlines()` -/
def splitlines (s : PyStr) : List PyStr := splitlinesFrom [] s

/-- `sep.join(parts)` -/
def join (sep : PyStr) : List PyStr → PyStr
  | [] => []
  | [p] => p
  | p :: q :: ps => p ++ sep ++ join sep (q :: ps)

/-- `str.isspace` for one character. -/
def isSpace (c : Nat) : Bool :=
  (9 ≤ c && c ≤ 13) || (28 ≤ c && c ≤ 32) || c == 0x85 || c == 0xA0 || c == 0x1680 ||
  (0x2000 ≤ c && c ≤ 0x200A) || c == 0x2028 || c == 0x2029 || c == 0x202F || c == 0x205F ||
  c == 0x3000

/-- `s.lstrip()` -/
def lstrip (s : PyStr) : PyStr := s.dropWhile isSpace

/-- `s.rstrip()` -/
def rstrip (s : PyStr) : PyStr := (s.reverse.dropWhile isSpace).reverse

/-- `s.strip()` -/
def strip (s : PyStr) : PyStr := rstrip (lstrip s)

/-- Newline translation when a text file is read (`io.TextIOWrapper`, `newline=None`):
`\r\n` and `\r` become `\n`. -/
def univNewlines : PyStr → PyStr
  | [] => []
  | 13 :: 10 :: rest => 10 :: univNewlines rest
  | c :: rest => (if c = 13 then 10 else c) :: univNewlines rest

/-- Newline translation when a text file is written (`newline=None`): `\n` becomes
`os.linesep`, which is `\r\n` if `crlf` (Windows) and `\n` otherwise. -/
def writeNewlines (crlf : Bool) : PyStr → PyStr
  | [] => []
  | c :: rest => (if c = 10 ∧ crlf = true then [13, 10] else [c]) ++ writeNewlines crlf rest

end SyncStream
