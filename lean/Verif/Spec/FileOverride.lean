import Verif.Spec.FileLog
import Verif.Model.Prog
/-!
# Specification of file buffers with a user's `parse_lines`

What one process has for itself: its unfinished line and its closed flag.  A call that completes lines hands
them to the user's function, in one piece and once; nothing else calls it.
-/

namespace SyncStream.Spec

/-- What a process has for itself. -/
structure Draft where
  text : PyStr := []
  closed : Bool := false

/-- The calls that end the unfinished line. -/
def EndsLine : FCall → Prop
  | .newLine => True
  | .close none => True
  | .exit none => True
  | _ => False

/-- The calls that close the object. -/
def Closes : FCall → Bool
  | .close _ => true
  | _ => false

/-- The calls that have nothing to do with the draft. -/
def Aside : FCall → Prop
  | .write _ => False
  | .newLine => False
  | .close _ => False
  | .exit none => False
  | .clear => False
  | _ => True

/-- `Gives E d c r g d'`: the call `c` with the draft `d` returns `r`, calls the user's function once for each
entry of `g`, with these lines, and leaves the draft `d'`; `E`: the exceptions that the function raises. -/
inductive Gives (E : Exc → Prop) : Draft → FCall → Ret → List (List PyStr) → Draft → Prop
  | writeClosed (d : Draft) (t : PyStr) : d.closed = true → Gives E d (.write t) (.exc .osError) [] d
  /-- No line is completed. -/
  | writePart (d : Draft) (t r : PyStr) (n : Nat) : d.closed = false → Lines (d.text ++ t) [] r →
      FLog.WriteRet t n → Gives E d (.write t) (.nat n) [] { d with text := r }
  /-- The completed lines are handed over in one call. -/
  | write (d : Draft) (t r : PyStr) (ls : List PyStr) (n : Nat) : d.closed = false →
      Lines (d.text ++ t) ls r → ls ≠ [] → FLog.WriteRet t n →
      Gives E d (.write t) (.nat n) [ls] { d with text := r }
  /-- The function raises: so does `write`, and the draft is what it was. -/
  | writeRaise (d : Draft) (t r : PyStr) (ls : List PyStr) (e : Exc) : d.closed = false →
      Lines (d.text ++ t) ls r → ls ≠ [] → E e → Gives E d (.write t) (.exc e) [ls] d
  /-- There is no line to end. -/
  | endNone (d : Draft) (c : FCall) : EndsLine c → (d.closed = true ∨ d.text = []) →
      Gives E d c .unit [] { d with closed := d.closed || Closes c }
  | ends (d : Draft) (c : FCall) : EndsLine c → d.closed = false → d.text ≠ [] →
      Gives E d c .unit [[d.text]] { text := [], closed := Closes c }
  | endRaise (d : Draft) (c : FCall) (e : Exc) : EndsLine c → d.closed = false → d.text ≠ [] → E e →
      Gives E d c (.exc e) [[d.text]] d
  | clear (d : Draft) : Gives E d .clear .unit [] { d with text := [] }
  /-- A record was removed by someone else (by an override that does not take the lock). -/
  | clearFails (d : Draft) : Gives E d .clear (.exc .fileNotFound) [] d
  | closeExc (d : Draft) (x : ExcObj) : Gives E d (.close (some x)) .unit [] { d with closed := true }
  | closeExcFails (d : Draft) (x : ExcObj) (e : Exc) : Gives E d (.close (some x)) (.exc e) [] d
  | aside (d : Draft) (c : FCall) (r : Ret) : Aside c → Gives E d c r [] d

/-- The calls of a process one after the other: what the user's function is given in all of them, and the draft
at the end. -/
inductive Given (E : Exc → Prop) (d : Draft) : List (FCall × Ret) → List (List PyStr) → Draft → Prop
  | nil : Given E d [] [] d
  | snoc (cs : List (FCall × Ret)) (gs g : List (List PyStr)) (d' d'' : Draft) (c : FCall) (r : Ret) :
      Given E d cs gs d' → Gives E d' c r g d'' → Given E d (cs ++ [(c, r)]) (gs ++ g) d''

/-- Every step of the program leaves the files alone whose names satisfy `T`. -/
def LeavesFiles {σ L α : Type} (files : σ → PyStr → Option PyStr) (T : PyStr → Prop) : Prog σ L α → Prop
  | .ret _ => True
  | .raise _ => True
  | .act f k => (∀ s n, T n → files (f s) n = files s n) ∧ ∀ s, LeavesFiles files T (k s)
  | .acq _ _ k => LeavesFiles files T k
  | .rel _ _ k => LeavesFiles files T k

/-- The program raises only exceptions satisfying `E`. -/
def RaisesOnly {σ L α : Type} (E : Exc → Prop) : Prog σ L α → Prop
  | .ret _ => True
  | .raise e => E e
  | .act _ k => ∀ s, RaisesOnly E (k s)
  | .acq _ _ k => RaisesOnly E k
  | .rel _ _ k => RaisesOnly E k

/-- Started with the locks `held` (the one taken last is the first), the program takes only locks whose names are
shorter than those of all locks it holds at that moment, releases the one taken last first, and ends with
none. -/
def TakesInOrder {σ α : Type} : List (PyStr × Bool) → Prog σ PyStr α → Prop
  | held, .ret _ => held = []
  | held, .raise _ => held = []
  | held, .act _ k => ∀ s, TakesInOrder held (k s)
  | held, .acq l w k => (∀ x ∈ held, l.length < x.1.length) ∧ TakesInOrder ((l, w) :: held) k
  | held, .rel l w k => ∃ held', held = (l, w) :: held' ∧ TakesInOrder held' k

end SyncStream.Spec
