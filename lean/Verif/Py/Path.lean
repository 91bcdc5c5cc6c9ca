import Verif.Py.Text
/-!
# Python: `os.path.split`, `os.path.splitext`, `fnmatch`, `glob` (POSIX)
-/

namespace SyncStream

/-- The part of `s` up to and including the last `c` (nothing if there is none), and the rest. -/
def splitAfterLast (c : Nat) (s : PyStr) : PyStr × PyStr :=
  ((s.reverse.dropWhile (· != c)).reverse, (s.reverse.takeWhile (· != c)).reverse)

/-- `posixpath.split`: head without trailing slashes (unless it consists of slashes), tail. -/
def pathSplit (p : PyStr) : PyStr × PyStr :=
  let (head, tail) := splitAfterLast 47 p
  if head.all (· == 47) then (head, tail)
  else ((head.reverse.dropWhile (· == 47)).reverse, tail)

/-- `posixpath.splitext` (`genericpath._splitext`): the suffix starts at the last dot of the file
name, unless only dots precede it there. -/
def pathSplitext (p : PyStr) : PyStr × PyStr :=
  let (dir, file) := splitAfterLast 47 p
  let (stemDot, ext) := splitAfterLast 46 file
  let stem := stemDot.dropLast
  if stem.all (· == 46) then (p, []) else (dir ++ stem, 46 :: ext)

/-- An element of a pattern of `fnmatch`. -/
inductive Tok where
  | star
  | any
  | cls (neg : Bool) (stuff : PyStr)
  | chr (c : Nat)

/-- The rest of a character class `[…]` (after `[`): its contents and what follows it
(`fnmatch.translate`); `none` if it is not closed. -/
def splitClass (p : PyStr) : Option (Bool × PyStr × PyStr) :=
  let (neg, p) := if p.head? = some 33 then (true, p.tail) else (false, p)
  let (first, p) := if p.head? = some 93 then ([93], p.tail) else ([], p)
  let stuff := p.takeWhile (· != 93)
  match p.dropWhile (· != 93) with
  | [] => none
  | _ :: rest => some (neg, first ++ stuff, rest)

/-- The pattern as a list of tokens; `fuel` is at least the length of the pattern. -/
def parsePat : Nat → PyStr → List Tok
  | 0, _ => []
  | _, [] => []
  | fuel + 1, c :: p =>
    if c = 42 then .star :: parsePat fuel p
    else if c = 63 then .any :: parsePat fuel p
    else if c = 91 then
      match splitClass p with
      | some (neg, stuff, rest) => .cls neg stuff :: parsePat fuel rest
      | none => .chr c :: parsePat fuel p
    else .chr c :: parsePat fuel p

/-- Membership in the contents of a character class. -/
def inClass (c : Nat) : PyStr → Bool
  | x :: 45 :: y :: rest => (x ≤ c && c ≤ y) || inClass c rest
  | x :: rest => c == x || inClass c rest
  | [] => false

/-- Whether some suffix of the text satisfies `f`. -/
def anySuffix (f : PyStr → Bool) : PyStr → Bool
  | [] => f []
  | c :: s => f (c :: s) || anySuffix f s

/-- Whether the text matches the tokens. -/
def matchToks : List Tok → PyStr → Bool
  | [], s => s.isEmpty
  | .star :: ts, s => anySuffix (matchToks ts) s
  | .any :: ts, s => match s with
    | [] => false
    | _ :: s => matchToks ts s
  | .cls neg stuff :: ts, s => match s with
    | [] => false
    | c :: s => (inClass c stuff != neg) && matchToks ts s
  | .chr x :: ts, s => match s with
    | [] => false
    | c :: s => c == x && matchToks ts s

/-- `fnmatch.fnmatch(name, pattern)` -/
def fnmatch (pat name : PyStr) : Bool := matchToks (parsePat pat.length pat) name

/-- Whether `glob.iglob(pattern)` yields the file `name` of the directory, if it exists there;
the pattern has no directory part (`glob._glob1`: hidden files only for hidden patterns). -/
def globMatch (pat name : PyStr) : Bool :=
  (pat.head? == some 46 || name.head? != some 46) && fnmatch pat name

end SyncStream
