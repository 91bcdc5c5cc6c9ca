import Verif.Model.LineBuffer
/-!
# The API calls of a `LineBuffer` as data

Used to quantify over histories of calls.
-/

namespace SyncStream

/-- A call of a public method of `_LineBuffer` (`syncstream/mproc.py:86-340`). -/
inductive Call where
  | write (data : PyStr)
  | newLine
  | read (size : Option Int)
  | len
  | maxlen
  | clear
  | flush
  | close
  | closed
  | readable
  | writable

/-- What a call returns. -/
inductive Ret where
  | unit
  | nat (n : Nat)
  | bool (b : Bool)
  | items (l : List Item)
  | exc (e : Exc)

/-- Turn the outcome of a method into a `Ret`. -/
def Ret.of {α : Type} (f : α → Ret) : Except Exc α → Ret
  | .ok a => f a
  | .error e => .exc e

namespace LineBuf

/-- Perform a call: its result and the new state of the object. -/
def exec (c : Call) (b : LineBuf) : Ret × LineBuf :=
  match c with
  | .write d => let (r, b') := write d b; (Ret.of .nat r, b')
  | .newLine => let (r, b') := newLine b; (Ret.of (fun _ => .unit) r, b')
  | .read size => let (r, b') := read size b; (Ret.of .items r, b')
  | .len => let (r, b') := len b; (Ret.of .nat r, b')
  | .maxlen => (.nat b.maxlen, b)
  | .clear => let (r, b') := clear b; (Ret.of (fun _ => .unit) r, b')
  | .flush => let (r, b') := flush b; (Ret.of (fun _ => .unit) r, b')
  | .close => let (r, b') := close b; (Ret.of (fun _ => .unit) r, b')
  | .closed => let (r, b') := closed b; (Ret.of .bool r, b')
  | .readable => let (r, b') := readable b; (Ret.of .bool r, b')
  | .writable => let (r, b') := writable b; (Ret.of .bool r, b')

/-- Perform a history of calls: all results, and the final state. -/
def run : List Call → LineBuf → List Ret × LineBuf
  | [], b => ([], b)
  | c :: cs, b =>
    let (r, b') := exec c b
    let (rs, b'') := run cs b'
    (r :: rs, b'')

end LineBuf
end SyncStream

namespace SyncStream.LineBuf

/-- `b` is a state that some history of calls leads to, starting from `LineBuffer(maxlen)`. -/
def Reach (maxlen : Int) (b : LineBuf) : Prop :=
  ∃ b0 cs, new maxlen = .ok b0 ∧ (run cs b0).2 = b

end SyncStream.LineBuf
