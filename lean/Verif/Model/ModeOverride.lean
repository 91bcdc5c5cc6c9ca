import Verif.Model.Override
import Verif.Model.Host
import Verif.Model.Proc
/-!
# A user's `parse_lines` in the process mode and in the host mode

`LineProcBuffer` (`mproc.py:754-941`) and `LineHostBuffer` (`host.py:497-767`) inherit `parse_lines` from `_LineBuffer`
(`mproc.py:194-208`), so a subclass of them may override it as well.  The override is called by `super().write`
(`mproc.py:907`, `host.py:631`) and by `new_line` (`host.py:635, 639`), nowhere else: `receive` and the service store errors and warnings
themselves (`mproc.py:911, 915`, `host.py:637`).

The override is that of `Model/Override.lean`.  There is one thread on the side of the buffer; the rest is as in `Model/Proc.lean`
and `Model/Host.lean`.
-/

namespace SyncStream

/-- An instance of a subclass of `LineProcBuffer`: the attributes of `LineProcBuffer` and those of the subclass. -/
structure OvProc (U : Type) where
  main : ProcBuf
  own : U

/-- The main buffer and what it shares with the mirrors. -/
abbrev OvNet (U : Type) := OvProc U × Net

namespace OvProc
variable {U α : Type}

/-- A method that does not call `parse_lines`. -/
def inherited (m : Py PNet α) : Py (OvNet U) α :=
  Py.onPart (fun s => (s.1.main, s.2)) (fun t s => ({ s.1 with main := t.1 }, t.2)) m

/-- A method of the line buffer. -/
def onLines (p : OProg U α) : Py (OvNet U) α :=
  Py.onPart (fun s => ⟨s.1.main.base, s.1.own⟩)
    (fun b s => ({ main := { s.1.main with base := b.base }, own := b.own }, s.2)) p.seq

/-- `LineProcBuffer.receive` (`mproc.py:891-922`). -/
def receive (p : Override U) : Py (OvNet U) Bool := do
  let data ← inherited ProcBuf.get
  match data with
  | .str d =>
    let _ ← onLines (Ovr.write (Ovr.method p) d)
    return true
  | .error m =>
    inherited (ProcBuf.store (.msg m))
    inherited ProcBuf.checkClose
  | .warning m =>
    inherited (ProcBuf.store (.msg m))
    return true
  | .close => inherited ProcBuf.checkClose
  | .stop =>
    inherited (Py.modify fun s => ({ s.1 with nMirrors := 0 }, s.2))
    return false
  | .other => return false

end OvProc

/-- Everything: the main buffer, the mirrors taken so far (one copy per process), and what they share. -/
structure OvSys (U : Type) where
  main : OvProc U
  mirrors : List Mirror := []
  net : Net := {}

namespace OvSys
variable {U α : Type}

/-- Perform a method of the main buffer. -/
def onMain (m : Py (OvNet U) α) (s : OvSys U) : Except Exc α × OvSys U :=
  let (r, (p, n)) := m (s.main, s.net)
  (r, { s with main := p, net := n })

/-- A step of the system.  (The public `write` of the main buffer is not the inherited one.) -/
def step (p : Override U) (o : ProcOp) (s : OvSys U) : OvSys U :=
  match o with
  | .take =>
    match onMain (OvProc.inherited ProcBuf.takeMirror) s with
    | (.ok m, s') => { s' with mirrors := s'.mirrors ++ [m] }
    | (.error _, s') => s'
  | .mirror i c =>
    match s.mirrors[i]? with
    | none => s
    | some m =>
      let (_, (m', n')) := Mirror.exec c (m, s.net)
      { s with mirrors := s.mirrors.set i m', net := n' }
  | .receive => (onMain (OvProc.receive p) s).2
  | .stopAll => (onMain (OvProc.inherited ProcBuf.stopAll) s).2
  | .forceStop => (onMain (OvProc.inherited ProcBuf.forceStop) s).2
  | .reset => (onMain (OvProc.inherited ProcBuf.resetStates) s).2
  | .buffer (.write d) => (onMain (OvProc.inherited (ProcBuf.write d)) s).2
  | .buffer c => (onMain (OvProc.onLines (Ovr.prog (Ovr.method p) c)) s).2

/-- A history. -/
def run (p : Override U) (os : List ProcOp) (s : OvSys U) : OvSys U := os.foldl (fun s o => step p o s) s

end OvSys

/-- An instance of a subclass of `LineHostBuffer`. -/
structure OvHost (U : Type) where
  host : HostBuf
  own : U

namespace OvHost
variable {U α : Type}

/-- A method that does not call `parse_lines`. -/
def inherited (m : Py HostBuf α) : Py (OvHost U) α := Py.onPart (·.host) (fun t b => { b with host := t }) m

/-- A method of the line buffer. -/
def onLines (p : OProg U α) : Py (OvHost U) α :=
  Py.onPart (fun b => ⟨b.host.base, b.own⟩) (fun t b => { host := { b.host with base := t.base }, own := t.own }) p.seq

/-- `BufferPost.post` after the body has been decoded (`host.py:624-644`). -/
def post (p : Override U) (env : HEnv) (args : Json) : Py (OvHost U) Unit := do
  let dtype := strip ((args.get (lit "type") (.str [])).strOf env.ext)
  if dtype = lit "str" then
    let data := args.get (lit "data") .null
    if data.isMapping then
      match data.get (lit "value") .null with
      | .null => return ()
      | v =>
        let _ ← onLines (Ovr.write (Ovr.method p) (v.strOf env.ext))
        return ()
    else return ()
  else if dtype = lit "error" ∨ dtype = lit "warning" then
    let data := args.get (lit "data") .null
    if data.isMapping then
      onLines (Ovr.newLine (Ovr.method p))
      let item ← inherited (HostBuf.lift (GMsg.deserialize data))
      inherited (HostBuf.store item)
    else return ()
  else if dtype = lit "close" then
    onLines (Ovr.newLine (Ovr.method p))
  else Py.raise .typeError

/-- Process a request (`host.py:590-730`): only POST requests to the route of the buffer call `parse_lines`. -/
def handle (p : Override U) (env : HEnv) (r : Req) (h : OvHost U) : Resp × OvHost U :=
  match r with
  | .post b =>
    match HostBuf.jsonArgs b with
    | .error _ => ({ status := 500, body := none }, h)
    | .ok none => ({ status := 400, body := none }, h)
    | .ok (some args) =>
      let (x, h') := post p env args h
      (HostBuf.answer 201 (fun _ => HostBuf.success) x, h')
  | r =>
    let (x, h') := HostBuf.handle env r h.host
    (x, { h with host := h' })

/-- Process requests, one after the other; the statuses of the answers. -/
def serve (p : Override U) (env : HEnv) : List Req → OvHost U → List Nat × OvHost U
  | [], h => ([], h)
  | r :: rs, h =>
    let (x, h') := handle p env r h
    let (xs, h'') := serve p env rs h'
    (x.status :: xs, h'')

end OvHost
end SyncStream
