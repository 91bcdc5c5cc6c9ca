import Verif.Py.Basic
/-!
# Specification: lines of a text, windows of a list

Independent of the model: nothing here mentions `splitlines` or a buffer.
-/

namespace SyncStream.Spec

/-- The characters that end a line (Python documentation of `str.splitlines`):
`\n \v \f \r \x1c \x1d \x1e \x85 U+2028 U+2029`. -/
def breakChars : List Nat := [0x0A, 0x0B, 0x0C, 0x0D, 0x1C, 0x1D, 0x1E, 0x85, 0x2028, 0x2029]

/-- The text contains no line terminator. -/
def NoBreak (s : PyStr) : Prop := ∀ c ∈ s, c ∉ breakChars

instance (s : PyStr) : Decidable (NoBreak s) := inferInstanceAs (Decidable (∀ c ∈ s, c ∉ breakChars))

/-- `Lines text lines rest`: `text` consists of the completed lines `lines`, each followed by a
terminator, and of the unfinished line `rest`.  A terminator is the pair `\r\n` or a single
character; a `\r` followed by `\n` is never a terminator alone. -/
inductive Lines : PyStr → List PyStr → PyStr → Prop
  | unfinished (rest : PyStr) : NoBreak rest → Lines rest [] rest
  | crlf (line text : PyStr) (lines : List PyStr) (rest : PyStr) :
      NoBreak line → Lines text lines rest →
      Lines (line ++ [0x0D, 0x0A] ++ text) (line :: lines) rest
  | single (line : PyStr) (c : Nat) (text : PyStr) (lines : List PyStr) (rest : PyStr) :
      NoBreak line → c ∈ breakChars → ¬ (c = 0x0D ∧ text.head? = some 0x0A) →
      Lines text lines rest →
      Lines (line ++ [c] ++ text) (line :: lines) rest

/-- `Feeds part pieces lines rest`: with the unfinished line `part`, feeding the pieces of text
one after the other completes the lines `lines` and leaves the unfinished line `rest`. -/
inductive Feeds : PyStr → List PyStr → List PyStr → PyStr → Prop
  | nil (part : PyStr) : Feeds part [] [] part
  | cons (part piece : PyStr) (pieces ls ls' : List PyStr) (mid rest : PyStr) :
      Lines (part ++ piece) ls mid → Feeds mid pieces ls' rest →
      Feeds part (piece :: pieces) (ls ++ ls') rest

/-- The last `n` entries of a list (all, if there are fewer). -/
def lastN {α : Type} (n : Nat) (l : List α) : List α := l.drop (l.length - n)

/-- No cut between two pieces separates a `\r` from the `\n` that follows it. -/
def NoSplitCrLf : List PyStr → Prop
  | [] => True
  | piece :: pieces =>
    ¬ (piece.getLast? = some 0x0D ∧ pieces.flatten.head? = some 0x0A) ∧ NoSplitCrLf pieces

instance decNoSplitCrLf : (pieces : List PyStr) → Decidable (NoSplitCrLf pieces)
  | [] => inferInstanceAs (Decidable True)
  | piece :: pieces =>
    have := decNoSplitCrLf pieces
    inferInstanceAs (Decidable
      (¬ (piece.getLast? = some 0x0D ∧ pieces.flatten.head? = some 0x0A) ∧ NoSplitCrLf pieces))

end SyncStream.Spec
