import Verif.Model.Proc
/-!
# Model of how mirrors get to other processes (`syncstream/mproc.py:429-482, 804-814`)

`LineProcBuffer.mirror` returns the same object each time; a process gets a copy of it when the object
is sent (pickled) or when the process is forked.  `Model/Proc.lean` starts from the copies.  Here the
objects are modelled:

* Every mirror is an object in a heap.  Each use of `pbuf.mirror` gives a reference to the buffer's
  object; the references are numbered, and `ref` says which object the holder of a reference has.
* `send ts` is one message in which the references `ts` are pickled together, as in the arguments of
  `Process(args=...)` or in a chunk of `Pool.map`.  Python's pickle copies an object once per message
  however often it occurs in it (its memo).  An object whose lock has been made (`__buffer_lock_`,
  `mproc.py:474-482`) or that has saved streams (`__stdout`, `__stderr`, `mproc.py:454-455`) cannot be
  pickled: `TypeError`, since locks and open text files cannot; nor can one whose `StringIO` is closed
  (`ValueError`).  The proxies of the manager can always be pickled.
* `fork t` is a process started by `fork` with the reference `t` as its argument: the whole object is
  copied, with its text.  (That the child also gets copies of everything else is not modelled.)
* Left out: what is redirected to the objects (`Model/Redirect.lean`), saved streams that can be pickled.
-/

namespace SyncStream

/-- A mirror object: the mirror, whether `__buffer_lock_` has been made, and whether `__stdout` and
`__stderr` hold saved streams (`mproc.py:429-450`). -/
structure MObj where
  mirror : Mirror
  lock : Bool := false
  saved : Bool := false

/-- Whether a method makes the lock: all use `with self.__buffer_lock` (`mproc.py:488, 501, 531, 540,
565, 573, 595, 610, 627, 655, 665, 684, 750`) but the setter of `timeout` and the attribute
`aggressive`. -/
def MCall.locks : MCall → Bool
  | .setTimeout _ => false
  | .setAggressive _ => false
  | _ => true

/-- `pickle.loads(pickle.dumps(obj))`: the attributes are pickled in the order in which `__init__` sets
them. -/
def MObj.pickle (o : MObj) : Except Exc MObj :=
  if o.mirror.buf.closed then .error .valueError
  else if o.lock then .error .typeError
  else if o.saved then .error .typeError
  else .ok { mirror := o.mirror }

/-- The objects. -/
structure Heap where
  obj : Nat → MObj
  size : Nat

/-- A new object. -/
def Heap.add (h : Heap) (o : MObj) : Heap :=
  { obj := fun i => if i = h.size then o else h.obj i, size := h.size + 1 }

/-- Change an object. -/
def Heap.put (h : Heap) (i : Nat) (o : MObj) : Heap := { h with obj := fun j => if j = i then o else h.obj j }

/-- Pickle objects in one message: `memo` says which have been copied already, and to where. -/
def Heap.pickle : List Nat → (Nat → Option Nat) → Heap → Except Exc ((Nat → Option Nat) × Heap)
  | [], memo, h => .ok (memo, h)
  | o :: os, memo, h =>
    match memo o with
    | some _ => Heap.pickle os memo h
    | none =>
      match (h.obj o).pickle with
      | .error e => .error e
      | .ok c => Heap.pickle os (fun x => if x = o then some h.size else memo x) (h.add c)

/-- The main buffer, the mirror objects (`own` is the buffer's attribute `__mirror`), the references
that have been taken, and what the processes share.  (Of the field `mirror` of `main` only the number of
the queue matters here.) -/
structure SendSys where
  main : ProcBuf
  heap : Heap
  own : Nat
  ref : List Nat := []
  net : Net := {}

/-- What can happen: a mirror is taken; references are sent in one message; a process is forked with a
reference; the holder of a reference uses its mirror, enters its context, or leaves it (with an
exception); someone uses the main buffer. -/
inductive SOp where
  | take
  | send (ts : List Nat)
  | fork (t : Nat)
  | use (t : Nat) (c : MCall)
  | enter (t : Nat)
  | leave (t : Nat) (exc : Option ExcObj)
  | receive
  | stopAll
  | forceStop
  | reset
  | buffer (c : Call)

namespace SendSys

/-- `LineProcBuffer.__init__` (`mproc.py:775-797`). -/
def new (maxlen : Int) (room : List Room := []) : Except Exc SendSys := do
  let p ← ProcBuf.new maxlen
  return { main := p, heap := { obj := fun _ => { mirror := p.mirror }, size := 1 }, own := 0
           net := { room := room } }

/-- Perform a method of the main buffer. -/
def onMain {α : Type} (m : Py PNet α) (s : SendSys) : Except Exc α × SendSys :=
  let (r, (p, n)) := m (s.main, s.net)
  (r, { s with main := p, net := n })

/-- The object the holder of a reference has. -/
def holds (s : SendSys) (t : Nat) : Option Nat := s.ref[t]?

/-- One message with references. -/
def send (ts : List Nat) (s : SendSys) : Except Exc Unit × SendSys :=
  match Heap.pickle (ts.filterMap s.holds) (fun _ => none) s.heap with
  | .error e => (.error e, s)
  | .ok (memo, h) =>
    (.ok (), { s with heap := h,
                      ref := s.ref.mapIdx fun t o => if t ∈ ts then (memo o).getD o else o })

/-- A method is called by the holder of a reference. -/
def use (t : Nat) (c : MCall) (s : SendSys) : MRet × SendSys :=
  match s.holds t with
  | none => (.unit, s)
  | some o =>
    let x := s.heap.obj o
    let (r, (m, n)) := Mirror.exec c (x.mirror, s.net)
    (r, { s with heap := s.heap.put o { x with mirror := m, lock := x.lock || c.locks }, net := n })

/-- A step; the result is that of the call. -/
def exec (op : SOp) (s : SendSys) : MRet × SendSys :=
  match op with
  | .take =>
    let (r, s') := onMain ProcBuf.takeMirror s
    (MRet.of (fun _ => .unit) r, { s' with ref := s'.ref ++ [s.own] })
  | .send ts => let (r, s') := send ts s; (MRet.of (fun _ => .unit) r, s')
  | .fork t =>
    match s.holds t with
    | none => (.unit, s)
    | some o => (.unit, { s with heap := s.heap.add (s.heap.obj o), ref := s.ref.set t s.heap.size })
  | .use t c => use t c s
  | .enter t =>
    match s.holds t with
    | none => (.unit, s)
    | some o => (.unit, { s with heap := s.heap.put o { s.heap.obj o with saved := true } })
  | .leave t exc =>
    match s.holds t with
    | none => (.unit, s)
    | some o => use t (.close exc) { s with heap := s.heap.put o { s.heap.obj o with saved := false } }
  | .receive => let (r, s') := onMain ProcBuf.receive s; (MRet.of .bool r, s')
  | .stopAll => let (r, s') := onMain ProcBuf.stopAll s; (MRet.of (fun _ => .unit) r, s')
  | .forceStop => let (r, s') := onMain ProcBuf.forceStop s; (MRet.of (fun _ => .unit) r, s')
  | .reset =>
    match onMain ProcBuf.resetStates s with
    | (.error e, s') => (.exc e, s')
    | (.ok (), s') =>
      (.unit, { s' with heap := s'.heap.add { mirror := s'.main.mirror }, own := s'.heap.size })
  | .buffer (.write d) =>
    let (r, s') := onMain (ProcBuf.write d) s
    (MRet.of .nat r, s')
  | .buffer c => (.unit, { s with main := { s.main with base := (LineBuf.exec c s.main.base).2 } })

/-- A history. -/
def run (os : List SOp) (s : SendSys) : SendSys := os.foldl (fun s o => (exec o s).2) s

end SendSys

/-! ## `multiprocessing.Pool.map` -/

/-- The size of the chunks into which `Pool.map` and `Pool.map_async` cut `n` tasks for `p` workers
(standard library, `Pool._map_async`): `divmod(n, p * 4)`, and one more if there is a remainder. -/
def chunkSize (n p : Nat) : Nat := n / (p * 4) + if n % (p * 4) = 0 then 0 else 1

/-- Cut a list into pieces of size `k` (`Pool._get_tasks`), at most `fuel` of them. -/
def chunksOf {α : Type} (k : Nat) : Nat → List α → List (List α)
  | 0, _ => []
  | fuel + 1, xs => if xs = [] then [] else xs.take k :: chunksOf k fuel (xs.drop k)

/-- The chunks of `Pool(p).map(f, [mirror, mirror, ...])` with the references `ts`; each is one message
(`Pool._handle_tasks`). -/
def poolChunks (p : Nat) (ts : List Nat) : List (List Nat) := chunksOf (chunkSize ts.length p) ts.length ts

/-- What the program does: takes `n` mirrors and calls `Pool(p).map` with them (`mproc.py:762-772`). -/
def poolMap (p n : Nat) : List SOp :=
  List.replicate n .take ++ (poolChunks p (List.range n)).map .send

end SyncStream
