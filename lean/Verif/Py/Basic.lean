/-!
# Python basics: strings, exceptions, stateful methods

Nothing in this file models a function of `/repo`; it models the parts of Python that the
code of `/repo` is written in.
-/

namespace SyncStream

/-- A Python `str`: the list of its code points.  Every Python string is such a list (lone
surrogates included); lists with numbers above `0x10FFFF` are extra, harmless values. -/
abbrev PyStr := List Nat

/-- A literal, e.g. `lit "type"`. -/
def lit (s : String) : PyStr := s.toList.map Char.toNat

/-- The exceptions that the modelled code can raise, as values. -/
inductive Exc where
  /-- `OSError` -/
  | osError
  /-- `ValueError` (e.g. I/O operation on closed file) -/
  | valueError
  /-- `TypeError` -/
  | typeError
  /-- `StopIteration` -/
  | stopIteration
  /-- `NotImplementedError` -/
  | notImplemented
  /-- `IndexError` (pop from an empty deque) -/
  | indexError
  /-- `KeyError` -/
  | keyError
  /-- `AttributeError` -/
  | attributeError
  /-- `queue.Full` -/
  | queueFull
  /-- `ConnectionError` -/
  | connectionError
  /-- `json.JSONDecodeError` -/
  | jsonDecodeError
  /-- an exception of the HTTP library (`urllib3.exceptions.HTTPError`) -/
  | httpError
  /-- `FileNotFoundError` -/
  | fileNotFound
  /-- `UnicodeEncodeError` -/
  | unicodeEncodeError
  /-- `ImportError` -/
  | importError
  /-- `ModuleNotFoundError` -/
  | moduleNotFound
  /-- `ModuleReplaceError` of `syncstream/utils.py` -/
  | moduleReplaceError
  /-- `RecursionError` -/
  | recursionError
  /-- any other exception (e.g. a broken connection to the manager process) -/
  | other
  /-- not an exception: the call blocks and never returns -/
  | blocked
  deriving DecidableEq, Repr

/-- A method of an object with state `σ`: it returns a value or raises an exception, and in
both cases leaves the object in some state. -/
def Py (σ α : Type) := σ → Except Exc α × σ

namespace Py
variable {σ α β : Type}

/-- `return a` -/
protected def pure (a : α) : Py σ α := fun s => (.ok a, s)

/-- Sequencing: an exception skips the rest. -/
protected def bind (m : Py σ α) (f : α → Py σ β) : Py σ β := fun s =>
  match m s with
  | (.ok a, s') => f a s'
  | (.error e, s') => (.error e, s')

instance : Monad (Py σ) where
  pure := Py.pure
  bind := Py.bind

/-- `raise e` -/
def raise (e : Exc) : Py σ α := fun s => (.error e, s)

/-- Read (a part of) the object. -/
def gets (f : σ → α) : Py σ α := fun s => (.ok (f s), s)

/-- Update the object. -/
def modify (f : σ → σ) : Py σ Unit := fun s => (.ok (), f s)

@[simp] theorem pure_apply (a : α) (s : σ) : (pure a : Py σ α) s = (.ok a, s) := rfl
@[simp] theorem raise_apply (e : Exc) (s : σ) : (raise e : Py σ α) s = (.error e, s) := rfl
@[simp] theorem gets_apply (f : σ → α) (s : σ) : gets f s = (.ok (f s), s) := rfl
@[simp] theorem modify_apply (f : σ → σ) (s : σ) : modify f s = (.ok (), f s) := rfl

theorem bind_apply (m : Py σ α) (f : α → Py σ β) (s : σ) :
    (m >>= f) s = match m s with
      | (.ok a, s') => f a s'
      | (.error e, s') => (.error e, s') := rfl

@[simp] theorem bind_ok {m : Py σ α} {f : α → Py σ β} {s s' : σ} {a : α}
    (h : m s = (.ok a, s')) : (m >>= f) s = f a s' := by
  simp [bind_apply, h]

@[simp] theorem bind_error {m : Py σ α} {f : α → Py σ β} {s s' : σ} {e : Exc}
    (h : m s = (.error e, s')) : (m >>= f) s = (.error e, s') := by
  simp [bind_apply, h]

theorem ite_apply (c : Prop) [Decidable c] (m n : Py σ α) (s : σ) :
    (if c then m else n) s = if c then m s else n s := by
  split <;> rfl

/-- Use a method of a component of the object (`self.part.method(...)`). -/
def onPart {τ : Type} (get : σ → τ) (set : τ → σ → σ) (m : Py τ α) : Py σ α := fun s =>
  let (r, t) := m (get s)
  (r, set t s)

@[simp] theorem onPart_apply {τ : Type} (get : σ → τ) (set : τ → σ → σ) (m : Py τ α) (s : σ) :
    onPart get set m s = ((m (get s)).1, set (m (get s)).2 s) := rfl

end Py
end SyncStream
