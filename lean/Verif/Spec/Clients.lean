import Verif.Model.Clients
/-!
# Specification: clients of a service that performs each operation in one moment

A history of the whole: calls of the clients begin and end, and in between the service performs operations for them.
-/

namespace SyncStream.Spec

/-- Client `i` begins the call `c`; the service performs the operation `q` for it and answers `a`; the call returns `r`. -/
inductive HEvent (C' R' C R : Type) where
  | inv (i : Nat) (c : C')
  | op (i : Nat) (q : C) (a : R)
  | ret (i : Nat) (r : R')

variable {C' R' C R O α A : Type}

/-- Whose event it is. -/
def HEvent.who : HEvent C' R' C R → Nat
  | .inv i _ => i
  | .op i _ _ => i
  | .ret i _ => i

/-- What can be observed of the clients. -/
def seen : List (HEvent C' R' C R) → List (Ev C' R')
  | [] => []
  | .inv i c :: h => .inv i c :: seen h
  | .op _ _ _ :: h => seen h
  | .ret i r :: h => .ret i r :: seen h

/-- The operations of the service, with whom they are for. -/
def opsOf : List (HEvent C' R' C R) → List (Nat × C × R)
  | [] => []
  | .op i q a :: h => (i, q, a) :: opsOf h
  | _ :: h => opsOf h

/-- The events of client `i`. -/
def own (i : Nat) (h : List (HEvent C' R' C R)) : List (HEvent C' R' C R) := h.filter fun e => e.who == i

/-- The service performs the operations one after the other and gives these answers. -/
inductive Serves (act : A → Nat → C → R → A → Prop) : A → List (Nat × C × R) → A → Prop
  | nil (s : A) : Serves act s [] s
  | cons (s t u : A) (i : Nat) (q : C) (a : R) (l : List (Nat × C × R)) : act s i q a t → Serves act t l u → Serves act s ((i, q, a) :: l) u

/-- `q` asks for these operations and gets these answers; then `q'` is left. -/
inductive Asks : Ask C R α → List (C × R) → Ask C R α → Prop
  | nil (q : Ask C R α) : Asks q [] q
  | cons (c : C) (r : R) (k : R → Ask C R α) (l : List (C × R)) (q' : Ask C R α) : Asks (k r) l q' → Asks (.ask c k) ((c, r) :: l) q'

/-- The events of one client in a history of its own. -/
def asOps (i : Nat) (l : List (C × R)) : List (HEvent C' R' C R) := l.map fun x => .op i x.1 x.2

/-- Client `i`, with the object `o`, makes calls one after the other, each of which asks for operations and gets answers; at the end its
object is `o'` and, if it is in the middle of a call, the call and what is left of it are given. -/
inductive ClientRun (cl : O → C' → Ask C R (R' × O)) (i : Nat) : O → List (HEvent C' R' C R) → O → Option (C' × Ask C R (R' × O)) → Prop
  | nil (o : O) : ClientRun cl i o [] o none
  | call (o o1 o' : O) (c : C') (l : List (C × R)) (r : R') (h : List (HEvent C' R' C R)) (rest : Option (C' × Ask C R (R' × O))) :
      Asks (cl o c) l (.done (r, o1)) → ClientRun cl i o1 h o' rest →
      ClientRun cl i o (.inv i c :: (asOps i l ++ .ret i r :: h)) o' rest
  | within (o : O) (c : C') (l : List (C × R)) (q : Ask C R (R' × O)) : Asks (cl o c) l q →
      ClientRun cl i o (.inv i c :: asOps i l) o (some (c, q))

end SyncStream.Spec
