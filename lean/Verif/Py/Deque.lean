import Verif.Py.Basic
/-!
# `collections.deque(maxlen=n)`

Modelled after CPython `Modules/_collectionsmodule.c`.  The bounded form only: every deque in
`/repo` is created with an integer `maxlen`.
-/

namespace SyncStream

/-- A bounded deque; the left end is the head of the list. -/
structure Deque (α : Type) where
  maxlen : Nat
  items : List α := []
  deriving DecidableEq, Repr

namespace Deque
variable {α : Type}

/-- `append(x)`: add at the right end; if that exceeds `maxlen`, drop the leftmost item. -/
def append (x : α) (d : Deque α) : Deque α :=
  let items := d.items ++ [x]
  { d with items := if items.length > d.maxlen then items.tail else items }

/-- `extend(xs)`: `append` for each item. -/
def extend (xs : List α) (d : Deque α) : Deque α := xs.foldl (fun d x => d.append x) d

/-- `appendleft(x)`: add at the left end; if that exceeds `maxlen`, drop the rightmost item. -/
def appendleft (x : α) (d : Deque α) : Deque α :=
  let items := x :: d.items
  { d with items := if items.length > d.maxlen then items.dropLast else items }

/-- `popleft()`: `IndexError` on an empty deque. -/
def popleft : Py (Deque α) α := fun d =>
  match d.items with
  | [] => (.error .indexError, d)
  | x :: xs => (.ok x, { d with items := xs })

/-- `rotate(n)` for `n >= 0`: move the `n` rightmost items, one after the other, to the left
end. -/
def rotate (n : Nat) (d : Deque α) : Deque α :=
  let k := n % d.items.length
  { d with items := d.items.drop (d.items.length - k) ++ d.items.take (d.items.length - k) }

/-- `clear()` -/
def clear (d : Deque α) : Deque α := { d with items := [] }

end Deque
end SyncStream
