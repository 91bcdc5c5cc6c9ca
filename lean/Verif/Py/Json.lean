import Verif.Py.Text
/-!
# JSON values as Python objects

The value of `json.loads`, i.e. `None`, `bool`, `int`, `float`, `str`, `list`, `dict`.
`json.loads(json.dumps(j))` is `wire j`: it is `j` except that two consecutive characters that form
a surrogate pair become one character (both are written as `\\ud83d\\ude00`).  (A Python tuple becomes a
list, see `GMsg.serialize`.)
-/

namespace SyncStream

/-- A JSON value.  `flt r nz` is a float with (opaque) text `r`, `nz` telling whether it is
non-zero. -/
inductive Json where
  | null
  | bool (b : Bool)
  | int (n : Int)
  | flt (repr : PyStr) (nonzero : Bool)
  | str (s : PyStr)
  | arr (l : List Json)
  | obj (l : List (PyStr × Json))

namespace Json

/-- Key lookup in a list of pairs; for repeated keys the last pair counts, as in
`json.loads`. -/
def lookup (k : PyStr) : List (PyStr × Json) → Option Json
  | [] => none
  | (k', v) :: rest =>
    match lookup k rest with
    | some w => some w
    | none => if k' = k then some v else none

/-- `isinstance(obj, Mapping)` -/
def isMapping : Json → Bool
  | .obj _ => true
  | _ => false

/-- `obj.get(k, dflt)` for a mapping (for other objects the code does not call it; the model
returns the default). -/
def get (j : Json) (k : PyStr) (dflt : Json) : Json :=
  match j with
  | .obj l => (lookup k l).getD dflt
  | _ => dflt

/-- `obj[k]` for a mapping: `KeyError` if missing. -/
def getItem (j : Json) (k : PyStr) : Except Exc Json :=
  match j with
  | .obj l => match lookup k l with
    | some v => .ok v
    | none => .error .keyError
  | _ => .error .typeError

/-- `bool(obj)` -/
def truth : Json → Bool
  | .null => false
  | .bool b => b
  | .int n => n != 0
  | .flt _ nz => nz
  | .str s => s != []
  | .arr l => !l.isEmpty
  | .obj l => !l.isEmpty

/-- `obj == <a str literal>` -/
def eqStr (j : Json) (s : PyStr) : Bool :=
  match j with
  | .str t => t = s
  | _ => false

/-- `tuple(obj)`: the elements of a list, the characters of a string, the keys of a mapping;
`TypeError` for values that are not iterable. -/
def toTuple : Json → Except Exc (List Json)
  | .arr l => .ok l
  | .str s => .ok (s.map fun c => .str [c])
  | .obj l => .ok ((dedup (l.map Prod.fst)).map .str)
  | _ => .error .typeError
where
  /-- keys of a `dict` built from pairs: first occurrences, in order -/
  dedup : List PyStr → List PyStr
    | [] => []
    | k :: ks => k :: (dedup ks).filter (· ≠ k)

/-- Digits of a natural number. -/
def natStr (n : Nat) : PyStr := (Nat.toDigits 10 n).map Char.toNat

/-- `str(n)` for an `int`. -/
def intStr : Int → PyStr
  | .ofNat n => natStr n
  | .negSucc n => 45 :: natStr (n + 1)

/-- `str(obj)`.  Exact for `None`, `bool`, `int`, `str`.  The text of a list or dict is its
Python `repr`: only its first character is modelled, the rest is the parameter `ext`. -/
def strOf (ext : Json → PyStr) : Json → PyStr
  | .null => lit "None"
  | .bool true => lit "True"
  | .bool false => lit "False"
  | .int n => intStr n
  | .flt r _ => r
  | .str s => s
  | .arr l => 91 :: ext (.arr l)
  | .obj l => 123 :: ext (.obj l)

/-- `json.loads(json.dumps(s))` for a string: `json.dumps` writes every non-ASCII character as `\\uXXXX`
(a character above `0xFFFF` as a surrogate pair), `json.loads` joins every surrogate pair. -/
def wireStr : PyStr → PyStr
  | hi :: lo :: rest =>
    if 0xD800 ≤ hi ∧ hi ≤ 0xDBFF ∧ 0xDC00 ≤ lo ∧ lo ≤ 0xDFFF then
      (0x10000 + (hi - 0xD800) * 0x400 + (lo - 0xDC00)) :: wireStr rest
    else hi :: wireStr (lo :: rest)
  | s => s

mutual
/-- `json.loads(json.dumps(j))` -/
def wire : Json → Json
  | .str s => .str (wireStr s)
  | .arr l => .arr (wireList l)
  | .obj l => .obj (wirePairs l)
  | .null => .null
  | .bool b => .bool b
  | .int n => .int n
  | .flt r nz => .flt r nz
/-- elements of a list -/
def wireList : List Json → List Json
  | [] => []
  | j :: l => wire j :: wireList l
/-- entries of a dict -/
def wirePairs : List (PyStr × Json) → List (PyStr × Json)
  | [] => []
  | (k, j) :: l => (wireStr k, wire j) :: wirePairs l
end

end Json
end SyncStream
