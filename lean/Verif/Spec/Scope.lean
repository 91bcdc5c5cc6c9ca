import Verif.Model.Redirect
/-!
# Lexical scope of a redirection

What a program that redirects the streams is supposed to do: a `with` statement changes the streams
for its body and for nothing else.  There are no saved values, no lists of old targets and no state
here: the streams are parameters.
-/

namespace SyncStream.Spec

/-- The two streams inside `with redirect_...(t)`. -/
def inner (t : Target) : Chan → Option Target × Option Target → Option Target × Option Target
  | .out, io => (some t, io.2)
  | .err, io => (io.1, some t)

/-- The outcome of a run and what it writes to which target, if the streams are `io`. -/
def lexical : Code → Option Target × Option Target → Except Exc Unit × List (Target × PyStr)
  | .skip, _ => (.ok (), [])
  | .print .out t res, io => io.1.elim (.ok (), []) fun x => (res, [(x, t)])
  | .print .err t res, io => io.2.elim (.ok (), []) fun x => (res, [(x, t)])
  | .raise e, _ => (.error e, [])
  | .seq a b, io =>
    match lexical a io with
    | (.ok (), u) => ((lexical b io).1, u ++ (lexical b io).2)
    | r => r
  | .catch a b, io =>
    match lexical a io with
    | (.error _, u) => ((lexical b io).1, u ++ (lexical b io).2)
    | r => r
  | .finally a b, io =>
    (match (lexical b io).1 with | .ok () => (lexical a io).1 | .error e => .error e,
      (lexical a io).2 ++ (lexical b io).2)
  | .withObj o close a, _ =>
    let r := lexical a (some (.obj o), some (.obj o))
    (match close with | .ok () => r.1 | .error e => .error e, r.2)
  | .withRedir c t _ a, io => lexical a (inner t c io)

/-- The buffers and mirrors whose contexts a run enters. -/
def enters : Code → List Nat
  | .skip => []
  | .print _ _ _ => []
  | .raise _ => []
  | .seq a b => enters a ++ enters b
  | .catch a b => enters a ++ enters b
  | .finally a b => enters a ++ enters b
  | .withObj o _ a => o :: enters a
  | .withRedir _ _ _ a => enters a

/-- No context of a buffer or mirror is entered inside itself. -/
def NotReentered : Code → Prop
  | .skip => True
  | .print _ _ _ => True
  | .raise _ => True
  | .seq a b => NotReentered a ∧ NotReentered b
  | .catch a b => NotReentered a ∧ NotReentered b
  | .finally a b => NotReentered a ∧ NotReentered b
  | .withObj o _ a => o ∉ enters a ∧ NotReentered a
  | .withRedir _ _ _ a => NotReentered a

end SyncStream.Spec
