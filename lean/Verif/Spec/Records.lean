import Verif.Spec.FileLog
/-!
# Specification: numbered places for records, when writers can die

There are places numbered `0, 1, 2, …`; in a place there is an entry or nothing.  Every entry has a serial number, which tells when it was
begun, the text that it is to become and the text that is there so far.
-/

namespace SyncStream.Spec

structure Entry where
  serial : Nat
  goal : PyStr
  text : PyStr

structure Shelf where
  place : Nat → Option Entry
  /-- the next serial number -/
  next : Nat

namespace Shelf

def put (f : Shelf) (k : Nat) (e : Option Entry) : Shelf := { f with place := fun j => if j = k then e else f.place j }

/-- Nothing anywhere. -/
def blank : Shelf := ⟨fun _ => none, 0⟩

/-- No entry is in two places, and every entry is a beginning of what it is to become. -/
structure Good (f : Shelf) : Prop where
  old : ∀ k e, f.place k = some e → e.serial < f.next
  once : ∀ a b e e', f.place a = some e → f.place b = some e' → e.serial = e'.serial → a = b
  text : ∀ k e, f.place k = some e → e.text <+: e.goal

/-- The higher the number of the place, the older the entry. -/
def InOrder (f : Shelf) : Prop :=
  ∀ a b e e', a < b → f.place a = some e → f.place b = some e' → e'.serial < e.serial

/-- What a writer that adds texts for which `Goal`, or that clears if `clears`, can do in one step.  Clearing takes some of the entries away, perhaps
not all at once.  A text is only ever appended to the
entry that was begun last. -/
inductive Step (Goal : PyStr → Prop) (clears : Prop) (f : Shelf) : Shelf → Prop
  | clear (gone : Nat → Bool) : clears → Step Goal clears f { f with place := fun k => if gone k then none else f.place k }
  | drop (k : Nat) : (∃ t, Goal t) → Step Goal clears f (f.put k none)
  | move (a b : Nat) (e : Entry) : (∃ t, Goal t) → a < b → f.place a = some e → f.place b = none →
      Step Goal clears f ((f.put a none).put b (some e))
  | begin (k : Nat) (t : PyStr) : Goal t →
      Step Goal clears f { (f.put k (some ⟨f.next, t, []⟩)) with next := f.next + 1 }
  | extend (k : Nat) (e : Entry) (c : Nat) : f.place k = some e → e.serial + 1 = f.next → Goal e.goal →
      e.text ++ [c] <+: e.goal → Step Goal clears f (f.put k (some { e with text := e.text ++ [c] }))

/-- The same with little steps: there are `m` places for the writer; an entry is dropped only when all `m` are taken, and then it is that in
the last of them; entries move from a place to the next, if that is free; a new entry takes the place 0, which is free unless it is the
only place. -/
inductive Turn (m : Nat) (Goal : PyStr → Prop) (clears : Prop) (f : Shelf) : Shelf → Prop
  | clear (gone : Nat → Bool) : clears → Turn m Goal clears f { f with place := fun k => if gone k then none else f.place k }
  | drop (k : Nat) : (∃ t, Goal t) → k + 1 = m → (∀ j, j ≤ k → f.place j ≠ none) → Turn m Goal clears f (f.put k none)
  | move (a : Nat) (e : Entry) : (∃ t, Goal t) → a + 1 < m → f.place a = some e → f.place (a + 1) = none →
      Turn m Goal clears f ((f.put a none).put (a + 1) (some e))
  | begin (t : PyStr) : Goal t → f.place 0 = none ∨ m = 1 →
      Turn m Goal clears f { (f.put 0 (some ⟨f.next, t, []⟩)) with next := f.next + 1 }
  | extend (e : Entry) (c : Nat) : f.place 0 = some e → e.serial + 1 = f.next → Goal e.goal →
      e.text ++ [c] <+: e.goal → Turn m Goal clears f (f.put 0 (some { e with text := e.text ++ [c] }))

/-- The texts of the entries in the places `n - 1, …, 1, 0`. -/
def Shows (f : Shelf) (n : Nat) (texts : List PyStr) : Prop :=
  texts.length = n ∧ ∀ k, k < n → ∃ e, f.place k = some e ∧ texts[n - 1 - k]? = some (univNewlines e.text)

/-- The places `0, 1, …` hold these texts, as they are stored, the last of them in the place 0; all are complete. -/
def Holds (f : Shelf) (crlf : Bool) (lines : List PyStr) : Prop :=
  ∀ k, k < lines.length → ∃ e t, f.place k = some e ∧ lines[lines.length - 1 - k]? = some t ∧
    e.text = writeNewlines crlf t ∧ e.goal = e.text

/-- From `f` to `f'` no entry was lost after which fewer than `m - 1` others were begun until then, and none was shortened. -/
def Kept (m : Nat) (f f' : Shelf) : Prop :=
  ∀ k e, f.place k = some e → f'.next < e.serial + m →
    ∃ k' e', f'.place k' = some e' ∧ e'.serial = e.serial ∧ e'.goal = e.goal ∧ e.text <+: e'.text

end Shelf

/-- No name in the family is made of another one, a `-` and more. -/
def Unrelated (fam : PyStr → Prop) : Prop := ∀ N N', fam N → fam N' → ∀ t, N' ≠ N ++ lit "-" ++ t

/-- What `read(size)` of a buffer with `m` records can return, if it looked at the records when they were `f`. -/
def ReadShows (m : Nat) (size : Option Int) (f : Shelf) (l : List PyStr) : Prop :=
  ∃ n texts last, f.Shows n texts ∧ NoBreak last ∧ l = texts ++ (if last = [] then [] else [last]) ∧
    n ≤ (if last = [] then m else m - 1) ∧
    (size = none → n = (if last = [] then m else m - 1) ∨ f.place n = none) ∧
    (∀ k : Int, size = some k → (l.length : Int) ≤ max k 0)

/-- The texts that a call can add to the log; the unfinished line is any text without line terminators. -/
inductive Adds : FCall → PyStr → Prop
  | write (d part : PyStr) (ls : List PyStr) (r t : PyStr) : NoBreak part → Lines (part ++ d) ls r → t ∈ ls → Adds (.write d) t
  | newLine (c : FCall) (part : PyStr) : c = .newLine ∨ c = .close none ∨ c = .exit none → NoBreak part → Adds c part
  | exc (c : FCall) (e : ExcObj) (t : PyStr) : c = .sendExc e ∨ c = .close (some e) ∨ c = .exit (some e) →
      FLog.ExcText e t → Adds c t

/-- The call adds at most one text. -/
def OneLine (c : FCall) : Prop := ∀ d, c = .write d → ∀ ls r, Lines d ls r → ls.length ≤ 1

end SyncStream.Spec
