import Verif.Model.ModeOverride
import Verif.Model.NoneItems
/-!
# Serving what a user's `parse_lines` stores (`syncstream/host.py:563-588, 646-662`)

A subclass of `LineHostBuffer` may store values of its own.  `read_serialized` hands everything that is not a
text to `GroupedMessage.serialize`.  A value of the subclass is an `Item.raw`; `None` is `Item.raw Json.null`.
-/

namespace SyncStream

/-- `LineHostBuffer.read_serialized` (`host.py:563-588`), whatever the storage contains: any value that is
neither a text nor a message has no attribute `type`, and `GroupedMessage.serialize` (`base.py:201-208`) raises
`AttributeError`. -/
def HostBuf.readSerializedAny (size : Option Int) : Py HostBuf (List Json) := do
  let items ← onBase (LineBuf.readAny size)
  lift (serializeAll items)

/-- `BufferPost.get` (`host.py:646-662`), whatever the storage contains. -/
def HostBuf.getAny (env : HEnv) (n : Option PyStr) : Py HostBuf (List Json) := do
  let number ← (match n with
    | none => pure none
    | some s => match env.int s with
      | some k => pure (some k)
      | none => Py.raise .valueError : Py HostBuf (Option Int))
  readSerializedAny number

namespace OvHost
variable {U : Type}

/-- Process a request (`host.py:590-730`), whatever the storage contains. -/
def handleAny (p : Override U) (env : HEnv) (r : Req) (h : OvHost U) : Resp × OvHost U :=
  match r with
  | .get n =>
    let (x, h') := HostBuf.getAny env n h.host
    (HostBuf.answer 200 (fun l => HostBuf.successData (.arr l)) x, { h with host := h' })
  | r => handle p env r h

/-- Process requests, one after the other; the answers. -/
def serveAny (p : Override U) (env : HEnv) : List Req → OvHost U → List Resp × OvHost U
  | [], h => ([], h)
  | r :: rs, h =>
    let (x, h') := handleAny p env r h
    let (xs, h'') := serveAny p env rs h'
    (x :: xs, h'')

end OvHost
end SyncStream
