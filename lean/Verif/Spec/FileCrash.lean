import Verif.Model.File
/-!
# Specification: what may be found in the record files after a crash
-/

namespace SyncStream

/-- Where the contents of a record file come from: an old record (numbered from the newest), or a
new line (numbered in the order of writing). -/
inductive Origin where
  | old (i : Nat)
  | new (j : Nat)

/-- The contents of a file are explained by an origin: exactly the old record, or a beginning of the
new line. -/
inductive Explains (rs lines : List PyStr) : Option Origin → Option PyStr → Prop
  | absent : Explains rs lines none none
  | old (i : Nat) (c : PyStr) : rs[i]? = some c → Explains rs lines (some (.old i)) (some c)
  | new (j : Nat) (line c : PyStr) : lines[j]? = some line → c <+: line →
      Explains rs lines (some (.new j)) (some c)

namespace FileBuf

/-- Every kept record has exactly one file. -/
def KeptOnce (R : Nat) (lab : Nat → Option Origin) : Prop :=
  ∀ i, i < R → ∃ k, lab k = some (.old i) ∧ ∀ k', lab k' = some (.old i) → k' = k

/-- Of the stored records `rs` (newest first), the `R` newest were to be kept, while the texts
`lines` were being added: every record file holds an old record or a beginning of a new text, and
every record to be kept is found intact in exactly one file. -/
def CrashSafe (b : FileBuf) (rs lines : List PyStr) (R : Nat) (s : FS) : Prop :=
  ∃ lab : Nat → Option Origin, (∀ k, Explains rs lines (lab k) (s (b.logName k))) ∧ KeptOnce R lab

end FileBuf
end SyncStream
