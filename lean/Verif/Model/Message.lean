import Verif.Py.Json
/-!
# Model of `syncstream/base.py`: line-break test and `GroupedMessage`
-/

namespace SyncStream

/-- `base.is_end_line_break` (`syncstream/base.py:45-57`).  `val_str[-1]` is the last
character; the test is made by calling `str.splitlines` on it, as in the code. -/
def isEndLineBreak (val : PyStr) : Bool :=
  if val = [] then false
  else
    let res := splitlines (val.drop (val.length - 1))
    res.length == 1 && res.head? == some []

/-- An exception or warning object as far as the code looks at it: whether it is a `Warning`
(`isinstance`), whether it is a `StopIteration`, and the chunks that
`traceback.format_exception` returns for it (external, arbitrary). -/
structure ExcObj where
  isWarning : Bool := false
  isStop : Bool := false
  formatted : List PyStr := []
  deriving DecidableEq, Repr

/-- A `GroupedMessage` object (`syncstream/base.py:168-218`).  The attributes are untyped, as in
Python: `deserialize` can put any value there. -/
structure GMsg where
  type : Json
  data : List Json

/-- The possible arguments of `GroupedMessage(data)` (`syncstream/base.py:173-175`).  `seq` holds
the already computed `str(val)` of the elements (`base.py:191`). -/
inductive MsgArg where
  | none
  | str (s : PyStr)
  | exc (e : ExcObj)
  | seq (vals : List PyStr)

namespace GMsg

/-- `GroupedMessage.__init__` (`syncstream/base.py:173-191`). -/
def new : MsgArg → GMsg
  | .none => { type := .str (lit "str"), data := [] }
  | .str s => { type := .str (lit "str"), data := [.str s] }
  | .exc e =>
    { type := if e.isWarning then .str (lit "warning") else .str (lit "error"),
      data := (splitlines (join [] e.formatted)).map .str }
  | .seq vals => { type := .str (lit "str"), data := vals.map .str }

/-- `GroupedMessage.__str__` (`syncstream/base.py:198-199`): `"\n".join(self.data)`; `join` raises
`TypeError` if an element is not a string (possible after `deserialize` of foreign data). -/
def toStr (m : GMsg) : Except Exc PyStr :=
  match strs m.data with
  | some l => .ok (join (lit "\n") l)
  | .none => .error .typeError
where
  /-- the elements, if all are strings -/
  strs : List Json → Option (List PyStr)
    | [] => some []
    | .str s :: rest => (strs rest).map (s :: ·)
    | _ :: _ => .none

/-- `GroupedMessage.serialize` (`syncstream/base.py:201-208`), seen after the JSON round trip
(the tuple `self.data` has become a list). -/
def serialize (m : GMsg) : Json :=
  .obj [(lit "/is_syncsdata", .bool true),
        (lit "/type", .str (lit "GroupedMessage")),
        (lit "type", m.type),
        (lit "data", .arr m.data)]

end GMsg

/-- `is_serialized_grouped_message` (`syncstream/base.py:96-112`), as a truth value (the code
returns the value of the `and` chain, which is only ever tested for truth). -/
def isSerialized (j : Json) : Bool :=
  j.isMapping &&
  (j.get (lit "/is_syncsdata") (.bool false)).truth &&
  (j.get (lit "/type") .null).eqStr (lit "GroupedMessage")

/-- What an item of a buffer's storage can be: a text line, a `GroupedMessage`, or (in
`LineHostBuffer` only, see `GroupedMessage.deserialize`) a plain mapping. -/
inductive Item where
  | str (s : PyStr)
  | msg (m : GMsg)
  | raw (j : Json)

/-- `GroupedMessage.deserialize` (`syncstream/base.py:210-218`).  An object that is not a
serialised message is returned as it is (`raw`).  `KeyError`/`TypeError` if the fields `type`,
`data` are missing or `data` is not iterable. -/
def GMsg.deserialize (j : Json) : Except Exc Item :=
  if !isSerialized j then .ok (.raw j)
  else do
    let t ← j.getItem (lit "type")
    let d ← j.getItem (lit "data")
    let l ← d.toTuple
    return .msg { type := t, data := l }

end SyncStream
