import Verif.Spec.Override
import Verif.Model.Host
import Verif.Model.Proc
/-!
# Specification of a user's `parse_lines` in the process mode and in the host mode

The buffer is that of `Spec/Override.lean`.  Text that arrives is written to it; errors and warnings are stored, without a call of
the user's function.
-/

namespace SyncStream.Spec

/-- What happens to the main buffer of the process mode: a message is received, or one of its methods is called. -/
inductive Did where
  | got (m : QMsg)
  | called (c : Call)

/-- What that does, with the user's function `par`. -/
inductive DidStep {U : Type} (par : List Item → Py (Deque Item × U) Unit) : OvLog U → Did → OvLog U → Prop
  /-- Text is written; if the user's function raises, then so does `receive`. -/
  | text (l : OvLog U) (d : PyStr) (r : Ret) (l' : OvLog U) : OvStep par l 0 (.write d) r l' → DidStep par l (.got (.str d)) l'
  /-- The error is stored after the lines; the user's function is not called, and the unfinished line stays. -/
  | error (l : OvLog U) (m : GMsg) : DidStep par l (.got (.error m)) { l with store := l.store.append (.msg m) }
  | warning (l : OvLog U) (m : GMsg) : DidStep par l (.got (.warning m)) { l with store := l.store.append (.msg m) }
  | close (l : OvLog U) : DidStep par l (.got .close) l
  | stop (l : OvLog U) : DidStep par l (.got .stop) l
  | other (l : OvLog U) : DidStep par l (.got .other) l
  | clear (l : OvLog U) : DidStep par l (.called .clear) { l with part := [], store := l.store.clear }
  | called (l : OvLog U) (c : Call) (r : Ret) (l' : OvLog U) : OvStep par l 0 c r l' → DidStep par l (.called c) l'

/-- One after the other. -/
inductive DidSteps {U : Type} (par : List Item → Py (Deque Item × U) Unit) : OvLog U → List Did → OvLog U → Prop
  | nil (l : OvLog U) : DidSteps par l [] l
  | cons (l l1 l2 : OvLog U) (x : Did) (xs : List Did) : DidStep par l x l1 → DidSteps par l1 xs l2 → DidSteps par l (x :: xs) l2

/-- What happens to the main buffer in a step: the oldest message is received, or a method is called.  (The public `write`
does nothing but raise.) -/
def didOf (s : ProcSys) : ProcOp → List Did
  | .receive => ((s.net.queues s.main.mirror.queue).head?.map Did.got).toList
  | .buffer (.write _) => []
  | .buffer c => [.called c]
  | _ => []

/-- What happens to the main buffer in a history. -/
def didIn : ProcSys → List ProcOp → List Did
  | _, [] => []
  | s, o :: os => didOf s o ++ didIn (s.step o) os

/-- The methods of the main buffer that are covered: all but `close`, `len` and `maxlen`. -/
def OvOp : ProcOp → Prop
  | .buffer .close | .buffer .len | .buffer .maxlen => False
  | _ => True

/-- The lines that are completed when the unfinished line is `part` and the user's function does not raise; at the end the unfinished
line is `rest`. -/
inductive Completed : PyStr → List Did → List PyStr → PyStr → Prop
  | nil (part : PyStr) : Completed part [] [] part
  | text (part d mid rest : PyStr) (xs : List Did) (ls ls' : List PyStr) :
      Lines (part ++ d) ls mid → Completed mid xs ls' rest → Completed part (.got (.str d) :: xs) (ls ++ ls') rest
  | newLine (part rest : PyStr) (xs : List Did) (ls : List PyStr) : part ≠ [] →
      Completed [] xs ls rest → Completed part (.called .newLine :: xs) (part :: ls) rest
  | newLineEmpty (rest : PyStr) (xs : List Did) (ls : List PyStr) :
      Completed [] xs ls rest → Completed [] (.called .newLine :: xs) ls rest
  | clear (part rest : PyStr) (xs : List Did) (ls : List PyStr) :
      Completed [] xs ls rest → Completed part (.called .clear :: xs) ls rest
  | message (part rest : PyStr) (m : QMsg) (xs : List Did) (ls : List PyStr) : (∀ d, m ≠ .str d) →
      Completed part xs ls rest → Completed part (.got m :: xs) ls rest
  | call (part rest : PyStr) (c : Call) (xs : List Did) (ls : List PyStr) : (∀ d, c ≠ .write d) → c ≠ .newLine → c ≠ .clear →
      Completed part xs ls rest → Completed part (.called c :: xs) ls rest

/-! ## Host mode -/

/-- What a mirror posts: text, an error or a warning, or that it has ended. -/
inductive Posted where
  | text (d : PyStr)
  | error (m : GMsg)
  | warning (m : GMsg)
  | fin

/-- The body of the request. -/
def Posted.body : Posted → Json
  | .text d => HMirror.strMsg d
  | .error m => HMirror.objMsg (lit "error") m
  | .warning m => HMirror.objMsg (lit "warning") m
  | .fin => HMirror.closeMsg

/-- It ends the unfinished line and, unless it is only the end, is stored. -/
def Posted.stored : Posted → Option (Option GMsg)
  | .text _ => none
  | .error m | .warning m => some (some m)
  | .fin => some none

/-- What the request does, and the status of the answer. -/
inductive PostStep {U : Type} (par : List Item → Py (Deque Item × U) Unit) : OvLog U → Posted → Nat → OvLog U → Prop
  | text (l : OvLog U) (d : PyStr) (n : Nat) (l' : OvLog U) :
      OvStep par l 0 (.write d) (.nat n) l' → PostStep par l (.text d) 201 l'
  /-- The user's function raises: the request is refused. -/
  | textRaise (l : OvLog U) (d : PyStr) (e : Exc) (l' : OvLog U) :
      OvStep par l 0 (.write d) (.exc e) l' → PostStep par l (.text d) 500 l'
  /-- The unfinished line, if there is one, is handed over; then the error or warning is stored. -/
  | item (l : OvLog U) (x : Posted) (m : GMsg) (l' : OvLog U) : x.stored = some (some m) →
      OvStep par l 0 .newLine .unit l' → PostStep par l x 201 { l' with store := l'.store.append (.msg m) }
  | fin (l : OvLog U) (x : Posted) (l' : OvLog U) : x.stored = some none →
      OvStep par l 0 .newLine .unit l' → PostStep par l x 201 l'
  /-- The user's function raises: the request is refused, and nothing is stored. -/
  | raised (l : OvLog U) (x : Posted) (o : Option GMsg) (e : Exc) (l' : OvLog U) : x.stored = some o →
      OvStep par l 0 .newLine (.exc e) l' → PostStep par l x 500 l'

/-- One request after the other. -/
inductive PostSteps {U : Type} (par : List Item → Py (Deque Item × U) Unit) :
    OvLog U → List Posted → List Nat → OvLog U → Prop
  | nil (l : OvLog U) : PostSteps par l [] [] l
  | cons (l l1 l2 : OvLog U) (x : Posted) (xs : List Posted) (n : Nat) (ns : List Nat) :
      PostStep par l x n l1 → PostSteps par l1 xs ns l2 → PostSteps par l (x :: xs) (n :: ns) l2

/-- The lines that the accepted requests complete, in order, and the unfinished line at the end: a refused request
completes none. -/
inductive Accepted : PyStr → List (Posted × Nat) → List PyStr → PyStr → Prop
  | nil (part : PyStr) : Accepted part [] [] part
  | text (part d mid rest : PyStr) (xs : List (Posted × Nat)) (ls ls' : List PyStr) :
      Lines (part ++ d) ls mid → Accepted mid xs ls' rest → Accepted part ((.text d, 201) :: xs) (ls ++ ls') rest
  | ends (part rest : PyStr) (x : Posted) (o : Option GMsg) (xs : List (Posted × Nat)) (ls : List PyStr) :
      x.stored = some o → part ≠ [] → Accepted [] xs ls rest → Accepted part ((x, 201) :: xs) (part :: ls) rest
  | endsEmpty (rest : PyStr) (x : Posted) (o : Option GMsg) (xs : List (Posted × Nat)) (ls : List PyStr) :
      x.stored = some o → Accepted [] xs ls rest → Accepted [] ((x, 201) :: xs) ls rest
  | refused (part rest : PyStr) (x : Posted) (xs : List (Posted × Nat)) (ls : List PyStr) :
      Accepted part xs ls rest → Accepted part ((x, 500) :: xs) ls rest

end SyncStream.Spec
