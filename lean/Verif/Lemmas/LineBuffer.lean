import Verif.Lemmas.Text
import Verif.Spec.Log
/-!
# The model of `_LineBuffer` refines the log specification
-/

namespace SyncStream
open Spec

/-! ## lastN and deques -/

section lastN
variable {α : Type}

theorem lastN_of_le {n : Nat} {l : List α} (h : l.length ≤ n) : lastN n l = l := by
  simp [lastN, Nat.sub_eq_zero_of_le h]

theorem length_lastN (n : Nat) (l : List α) : (lastN n l).length = min n l.length := by
  simp [lastN]; omega

theorem length_lastN_le (n : Nat) (l : List α) : (lastN n l).length ≤ n := by
  rw [length_lastN]; omega

@[simp] theorem lastN_nil (n : Nat) : lastN n ([] : List α) = [] := by simp [lastN]

theorem lastN_lastN_append (n : Nat) (a b : List α) :
    lastN n (lastN n a ++ b) = lastN n (a ++ b) := by
  simp only [lastN, List.length_append, List.length_drop]
  rw [List.drop_append, List.drop_append, List.drop_drop]
  rw [List.length_drop]
  congr 1
  · congr 1; omega
  · congr 1; omega

theorem lastN_lastN (m n : Nat) (l : List α) : lastN m (lastN n l) = lastN (min m n) l := by
  simp only [lastN, List.length_drop, List.drop_drop]
  congr 1; omega

theorem lastN_append_singleton (n : Nat) (a : List α) (x : α) (hn : 1 ≤ n) :
    lastN n (a ++ [x]) = lastN (n - 1) a ++ [x] := by
  simp only [lastN, List.length_append, List.length_cons, List.length_nil]
  rw [List.drop_append_of_le_length (by omega)]
  congr 2; omega

theorem mem_of_mem_lastN {n : Nat} {l : List α} {x : α} (h : x ∈ lastN n l) : x ∈ l :=
  List.mem_of_mem_drop h

theorem Deque.append_eq (d : Deque α) (x : α) (h : d.items.length ≤ d.maxlen) :
    d.append x = { d with items := lastN d.maxlen (d.items ++ [x]) } := by
  simp only [Deque.append, lastN, List.length_append, List.length_cons, List.length_nil]
  congr 1
  split
  · rw [← List.drop_one]; congr 1; omega
  · have : d.items.length + (0 + 1) - d.maxlen = 0 := by omega
    rw [this]; simp

theorem Deque.extend_eq (d : Deque α) (xs : List α) (h : d.items.length ≤ d.maxlen)
    (h1 : 1 ≤ d.maxlen) :
    d.extend xs = { d with items := lastN d.maxlen (d.items ++ xs) } := by
  unfold Deque.extend
  induction xs generalizing d with
  | nil => simp [lastN_of_le h]
  | cons x xs ih =>
    simp only [List.foldl_cons]
    rw [ih]
    · rw [Deque.append_eq d x h]
      simp only [Deque.mk.injEq, true_and]
      rw [lastN_lastN_append, List.append_assoc]; rfl
    · rw [Deque.append_eq d x h]; exact length_lastN_le _ _
    · rw [Deque.append_eq d x h]; exact h1

end lastN

/-! ## Normal form of a buffer state -/

namespace LineBuf

/-- An open buffer with given storage and unfinished line. -/
def opened (cap : Nat) (items : List Item) (part : PyStr) : LineBuf :=
  { storage := { maxlen := cap, items := items },
    lastLine := { buf := part, pos := part.length, closed := false } }

/-- A closed buffer. -/
def shut (cap : Nat) : LineBuf :=
  { storage := { maxlen := cap, items := [] },
    lastLine := { buf := [], pos := 0, closed := true } }

@[simp] theorem overwrite_end (buf d : PyStr) :
    StringIO.overwrite buf buf.length d = buf ++ d := by
  simp [StringIO.overwrite]

theorem write_end (part d : PyStr) :
    StringIO.write d { buf := part, pos := part.length, closed := false } =
      (.ok d.length, { buf := part ++ d, pos := (part ++ d).length, closed := false }) := by
  by_cases h : d = []
  · simp [StringIO.write, StringIO.check, h, Py.bind_apply]
  · simp [StringIO.write, StringIO.check, h, Py.bind_apply]

theorem onLast_write (cap : Nat) (items : List Item) (part d : PyStr) :
    onLast (StringIO.write d) (opened cap items part) =
      (.ok d.length, opened cap items (part ++ d)) := by
  simp only [onLast, opened, Py.onPart_apply, write_end]

theorem onLast_getvalue (cap : Nat) (items : List Item) (part : PyStr) :
    onLast StringIO.getvalue (opened cap items part) = (.ok part, opened cap items part) := by
  simp [onLast, opened, StringIO.getvalue, StringIO.check, Py.bind_apply]

theorem onLast_tell (cap : Nat) (items : List Item) (part : PyStr) :
    onLast StringIO.tell (opened cap items part) = (.ok part.length, opened cap items part) := by
  simp [onLast, opened, StringIO.tell, StringIO.check, Py.bind_apply]

/-- `seek(0)` then `truncate(0)`. -/
theorem onLast_seek_truncate {α : Type} (cap : Nat) (items : List Item) (part : PyStr)
    (k : Unit → Py LineBuf α) :
    (onLast StringIO.seek0 >>= fun _ => onLast StringIO.truncate0 >>= k) (opened cap items part) =
      k () (opened cap items []) := by
  simp [onLast, opened, StringIO.seek0, StringIO.truncate0, StringIO.check, Py.bind_apply]

theorem parseLines_opened (cap : Nat) (items ls : List Item) (part : PyStr)
    (h : items.length ≤ cap) (h1 : 1 ≤ cap) :
    parseLines ls (opened cap items part) = (.ok (), opened cap (lastN cap (items ++ ls)) part) := by
  have := Deque.extend_eq (α := Item) { maxlen := cap, items := items } ls h h1
  simp [parseLines, onStorage, opened, this]

/-- The value returned by `write`. -/
def writeRet (d : PyStr) : Nat :=
  if (segFrom [] d).1 = [[]] ∧ (segFrom [] d).2 = [] then 1 else (segFrom [] d).2.length

theorem writeCore_opened (cap : Nat) (items : List Item) (part d : PyStr)
    (h : items.length ≤ cap) (h1 : 1 ≤ cap) :
    writeCore d (opened cap items part) =
      (.ok (writeRet d),
       opened cap (lastN cap (items ++ (segFrom part d).1.map .str)) (segFrom part d).2) := by
  unfold writeCore
  by_cases hd : d = []
  · subst hd
    simp [splitlines_eq, isEndLineBreak, writeRet, lastN_of_le h]
  have hcorr := splitlines_corrected d hd
  have hsp := splitlines_eq d
  have hcur := segFrom_cur part d
  generalize hls : (segFrom [] d).1 = ls at *
  generalize hr : (segFrom [] d).2 = r at *
  have hseg : segFrom [] d = (ls, r) := by rw [← hls, ← hr]
  rw [hseg] at hcur
  by_cases hlone : (splitlines d).length = 1 ∧ (splitlines d).head? = some []
  · -- a lone terminator
    have hr0 : r = [] ∧ ls = [[]] := by
      rw [hsp] at hlone
      by_cases hrr : r = []
      · simp [hrr] at hlone
        refine ⟨hrr, ?_⟩
        match ls, hlone with
        | [x], hl => simpa using hl.2
      · simp [hrr] at hlone
        exfalso
        match ls, hlone with
        | [], hl => simp [hrr] at hl
    obtain ⟨rfl, rfl⟩ := hr0
    simp only [hlone, and_self, if_true]
    rw [Py.bind_ok (onLast_getvalue cap items part),
      Py.bind_ok (parseLines_opened cap items _ part h h1), onLast_seek_truncate]
    simp [hcur, writeRet, hls, hr]
  · simp only [hlone, if_false]
    have hret : writeRet d = r.length := by
      unfold writeRet
      rw [hls, hr, if_neg]
      rintro ⟨h1, h2⟩
      apply hlone
      rw [hsp, h1, h2]; simp
    rw [hcorr]
    have hlen : (if isEndLineBreak d = true then (splitlines d).length + 1
        else (splitlines d).length) = ls.length + 1 := by
      have := congrArg List.length hcorr
      rw [List.length_append] at this
      split at this
      · simpa [*] using this
      · simpa [*] using this
    rw [hlen]
    cases ls with
    | nil =>
      simp only [List.length_nil, Nat.zero_add, gt_iff_lt, Nat.lt_irrefl, if_false, if_true,
        List.nil_append, List.headD_cons]
      rw [onLast_write]
      simp [hcur, hret, lastN_of_le h]
    | cons l ls =>
      have : ls.length + 1 + 1 > 1 := by omega
      simp only [List.length_cons, this, if_true]
      rw [Py.bind_ok (onLast_getvalue cap items part)]
      have e : (part ++ ((l :: ls) ++ [r]).headD []) :: ((l :: ls) ++ [r]).tail =
          ((part ++ l) :: ls) ++ [r] := by simp
      rw [e]
      rw [Py.bind_ok (parseLines_opened cap items _ part h h1), onLast_seek_truncate]
      have e1 : ((part ++ l) :: ls ++ [r]).getLastD [] = r := by
        rw [List.getLastD_eq_getLast?, List.getLast?_concat]; rfl
      have e2 : ((part ++ l) :: ls ++ [r]).dropLast = (part ++ l) :: ls := by
        rw [List.dropLast_append_of_ne_nil (by simp)]; simp
      rw [e1, e2, onLast_write]
      simp [hcur, hret]

theorem write_opened (cap : Nat) (items : List Item) (part d : PyStr)
    (h : items.length ≤ cap) (h1 : 1 ≤ cap) :
    write d (opened cap items part) =
      (.ok (writeRet d),
       opened cap (lastN cap (items ++ (segFrom part d).1.map .str)) (segFrom part d).2) := by
  unfold write
  rw [Py.bind_ok (show writable (opened cap items part) = (.ok true, opened cap items part) by
    simp [writable, opened])]
  simpa using writeCore_opened cap items part d h h1

theorem write_shut (cap : Nat) (d : PyStr) :
    write d (shut cap) = (.error .osError, shut cap) := by
  simp [write, writable, shut, Py.bind_apply]

theorem newLine_opened (cap : Nat) (items : List Item) (part : PyStr)
    (h : items.length ≤ cap) (h1 : 1 ≤ cap) :
    newLine (opened cap items part) =
      (.ok (), if part = [] then opened cap items part
               else opened cap (lastN cap (items ++ [.str part])) []) := by
  unfold newLine
  rw [Py.bind_ok (onLast_tell cap items part)]
  by_cases hp : part = []
  · simp [hp]
  · have : part.length > 0 := List.length_pos_iff.2 hp
    simp only [this, if_true, hp, if_false]
    rw [Py.bind_ok (writeCore_opened cap items part (lit "\n") h h1)]
    have e : segFrom part (lit "\n") = ([part], []) := by
      show segFrom part [10] = _
      rw [segFrom_break _ _ _ (by decide) (by simp)]; simp
    simp [e]

theorem newLine_shut (cap : Nat) : newLine (shut cap) = (.error .valueError, shut cap) := by
  simp [newLine, onLast, StringIO.tell, StringIO.check, shut, Py.bind_apply]

theorem clear_opened (cap : Nat) (items : List Item) (part : PyStr) :
    clear (opened cap items part) = (.ok (), opened cap [] []) := by
  unfold clear
  rw [onLast_seek_truncate]
  simp [onStorage, opened, Deque.clear]

theorem clear_shut (cap : Nat) : clear (shut cap) = (.error .valueError, shut cap) := by
  simp [clear, onLast, StringIO.seek0, StringIO.check, shut, Py.bind_apply]

theorem close_opened (cap : Nat) (items : List Item) (part : PyStr) :
    close (opened cap items part) = (.ok (), shut cap) := by
  unfold close
  rw [Py.bind_ok (show closed (opened cap items part) = (.ok false, opened cap items part) by
    simp [closed, opened])]
  simp only [Bool.false_eq_true, if_false]
  rw [Py.bind_ok (clear_opened cap items part)]
  simp [onLast, StringIO.close, opened, shut]

theorem close_shut (cap : Nat) : close (shut cap) = (.ok (), shut cap) := by
  simp [close, closed, shut, Py.bind_apply]

/-! ### read -/

theorem Deque.popleft_cons {α : Type} (cap : Nat) (x : α) (xs : List α) :
    Deque.popleft { maxlen := cap, items := x :: xs } = (.ok x, { maxlen := cap, items := xs }) := rfl

theorem onStorage_popleft (cap : Nat) (x : Item) (xs : List Item) (part : PyStr) :
    onStorage Deque.popleft (opened cap (x :: xs) part) = (.ok x, opened cap xs part) := by
  simp [onStorage, opened, Deque.popleft]

theorem onStorage_appendleft (cap : Nat) (x : Item) (xs : List Item) (part : PyStr)
    (h : xs.length < cap) :
    onStorage (Py.modify (Deque.appendleft x)) (opened cap xs part) =
      (.ok (), opened cap (x :: xs) part) := by
  simp [onStorage, opened, Deque.appendleft]
  omega

/-- What `read()` shows of an open buffer. -/
def shown (cap : Nat) (items : List Item) (part : PyStr) : List Item :=
  lastN cap (items ++ if part = [] then [] else [.str part])

theorem readAll_opened (cap : Nat) (items : List Item) (part : PyStr)
    (h : items.length ≤ cap) (h1 : 1 ≤ cap) :
    readAll (opened cap items part) = (.ok (shown cap items part), opened cap items part) := by
  unfold readAll shown
  rw [Py.bind_ok (onLast_tell cap items part)]
  rw [Py.bind_ok (show Py.gets (fun x : LineBuf => x.storage.items.length) (opened cap items part) =
    (.ok items.length, opened cap items part) by simp [opened])]
  by_cases hp : part = []
  · subst hp
    simp [opened, lastN_of_le h]
  · have hpos : part.length > 0 := List.length_pos_iff.2 hp
    simp only [hpos, if_true, hp, if_false]
    rw [Py.bind_ok (show Py.gets (fun x : LineBuf => x.storage.maxlen) (opened cap items part) =
      (.ok cap, opened cap items part) by simp [opened])]
    by_cases hf : items.length = cap
    · have hc : cap ≠ 0 ∧ items.length = cap := ⟨by omega, hf⟩
      simp only [hc, if_true, and_self, ne_eq, not_false_eq_true]
      cases items with
      | nil => simp at hf; omega
      | cons x xs =>
        have hxs : xs.length < cap := by simp at hf; omega
        rw [Py.bind_ok (onStorage_popleft cap x xs part)]
        rw [Py.bind_ok (show Py.gets (fun x : LineBuf => x.storage.items) (opened cap xs part) =
          (.ok xs, opened cap xs part) by simp [opened])]
        rw [Py.bind_ok (onLast_getvalue cap xs part),
          Py.bind_ok (onStorage_appendleft cap x xs part hxs)]
        simp only [Py.pure_apply]
        rw [lastN_append_singleton _ _ _ h1]
        have : lastN (cap - 1) (x :: xs) = xs := by
          simp only [lastN, List.length_cons]
          simp at hf
          have : xs.length + 1 - (cap - 1) = 1 := by omega
          rw [this]; simp
        rw [this]
    · have hc : ¬ (cap ≠ 0 ∧ items.length = cap) := by rintro ⟨_, h⟩; exact hf h
      simp only [hc, if_false]
      have hw : lastN cap (items ++ [Item.str part]) = items ++ [.str part] :=
        lastN_of_le (by simp; omega)
      rw [hw]
      by_cases hz : items.length > 0
      · simp only [hz, if_true]
        rw [Py.bind_ok (show Py.gets (fun x : LineBuf => x.storage.items) (opened cap items part) =
          (.ok items, opened cap items part) by simp [opened])]
        rw [Py.bind_ok (onLast_getvalue cap items part)]
        simp
      · simp only [hz, if_false]
        rw [Py.bind_ok (onLast_getvalue cap items part)]
        have : items = [] := by
          cases items with
          | nil => rfl
          | cons => simp at hz
        simp [this]

/-- The loop rotates the first `n` items to the end and collects them. -/
theorem readLoop_opened (cap : Nat) (a b : List Item) (part : PyStr) (res : List Item)
    (h : (a ++ b).length ≤ cap) :
    readLoop a.length res (opened cap (a ++ b) part) =
      (.ok (res ++ a), opened cap (b ++ a) part) := by
  induction a generalizing b res with
  | nil => simp [readLoop]
  | cons x a ih =>
    simp only [List.length_cons, readLoop, List.cons_append]
    rw [Py.bind_ok (onStorage_popleft cap x (a ++ b) part)]
    have happ : onStorage (Py.modify (Deque.append x)) (opened cap (a ++ b) part) =
        (.ok (), opened cap (a ++ (b ++ [x])) part) := by
      simp only [onStorage, opened, Deque.append, Py.onPart_apply, Py.modify_apply,
        LineBuf.mk.injEq, Deque.mk.injEq, Prod.mk.injEq, true_and, and_true]
      rw [if_neg]
      · simp
      · simp at h ⊢; omega
    rw [Py.bind_ok happ, ih]
    · simp
    · simp at h ⊢; omega

theorem onStorage_rotate (cap : Nat) (items : List Item) (part : PyStr) (n : Nat)
    (h : n ≤ items.length) :
    onStorage (Py.modify (Deque.rotate n)) (opened cap items part) =
      (.ok (), opened cap (lastN n items ++ items.take (items.length - n)) part) := by
  simp only [onStorage, opened, Deque.rotate, Py.onPart_apply, Py.modify_apply, lastN,
    Prod.mk.injEq, LineBuf.mk.injEq, Deque.mk.injEq, true_and, and_true]
  by_cases hn : n = items.length
  · simp [hn]
  · have : n % items.length = n := Nat.mod_eq_of_lt (by omega)
    rw [this]

/-- Rotate right by `n`, then take the first `n` and put them back: the last `n` items, and
nothing changes. -/
theorem rotate_loop {α : Type} (cap : Nat) (items : List Item) (part : PyStr) (n : Int)
    (k : List Item → Py LineBuf α) (h : n ≤ items.length) (hc : items.length ≤ cap) :
    ((if n > 0 then onStorage (Py.modify (Deque.rotate n.toNat)) else pure () : Py LineBuf Unit)
      >>= fun _ => readLoop n.toNat [] >>= k) (opened cap items part) =
      k (lastN n.toNat items) (opened cap items part) := by
  by_cases hn : n > 0
  · simp only [hn, if_true]
    rw [Py.bind_ok (onStorage_rotate cap items part n.toNat (by omega))]
    have hl : (lastN n.toNat items).length = n.toNat := by rw [length_lastN]; omega
    have := readLoop_opened cap (lastN n.toNat items) (items.take (items.length - n.toNat)) part []
      (by simp [hl]; omega)
    rw [hl] at this
    rw [Py.bind_ok this]
    simp [lastN]
  · have : n.toNat = 0 := by omega
    simp [hn, this, readLoop, Py.bind_apply, lastN]

theorem readN_opened (cap : Nat) (items : List Item) (part : PyStr) (size : Int)
    (h : items.length ≤ cap) (h1 : 1 ≤ cap) (hs : 0 < size) :
    readN size (opened cap items part) =
      (.ok (lastN size.toNat (shown cap items part)), opened cap items part) := by
  unfold readN
  rw [Py.bind_ok (onLast_tell cap items part)]
  rw [Py.bind_ok (show Py.gets (fun x : LineBuf => x.storage.items.length) (opened cap items part) =
    (.ok items.length, opened cap items part) by simp [opened])]
  rw [Py.bind_ok (show Py.gets (fun x : LineBuf => x.storage.maxlen) (opened cap items part) =
      (.ok cap, opened cap items part) by simp [opened])]
  by_cases hp : part = []
  · subst hp
    simp only [List.length_nil, gt_iff_lt, Nat.lt_irrefl, false_and, if_false]
    rw [Py.bind_ok (Py.pure_apply _ _)]
    simp only [Option.isNone_none, if_true]
    rw [rotate_loop cap items [] _ _ (by omega) h]
    simp only [Py.pure_apply, shown, if_true, List.append_nil, lastN_of_le h]
    congr 2
    simp only [lastN]
    congr 1
    omega
  · have hpos : part.length > 0 := List.length_pos_iff.2 hp
    by_cases hf : items.length = cap
    · have hc : cap ≠ 0 := by omega
      cases items with
      | nil => simp at hf; omega
      | cons x xs =>
        have hxs : xs.length < cap := by simp at hf; omega
        simp only [hpos, hf, hc, ne_eq, not_false_eq_true, and_self, if_true]
        rw [Py.bind_ok (show ((do let v ← onStorage Deque.popleft; pure (some v)) :
            Py LineBuf (Option Item)) (opened cap (x :: xs) part) =
            (.ok (some x), opened cap xs part) by
          rw [Py.bind_ok (onStorage_popleft cap x xs part)]; rfl)]
        simp only [Option.isNone_some, Bool.false_eq_true, if_false]
        simp at hf
        rw [rotate_loop cap xs part _ _ (by omega) (by omega)]
        rw [Py.bind_ok (onLast_getvalue cap xs part),
          Py.bind_ok (onStorage_appendleft cap x xs part hxs)]
        simp only [Py.pure_apply, shown, hp, if_false]
        congr 2
        rw [lastN_append_singleton _ _ _ h1, lastN_append_singleton _ _ _ (by omega), lastN_lastN]
        congr 1
        simp only [lastN, List.length_cons]
        have e : xs.length + 1 - min (size.toNat - 1) (cap - 1) =
          (xs.length - min (size.toNat - 1) (cap - 1)) + 1 := by omega
        rw [e, List.drop_succ_cons]
        congr 1
        omega
    · simp only [hpos, hf, and_false, if_true, if_false]
      rw [Py.bind_ok (Py.pure_apply _ _)]
      simp only [Option.isNone_none, if_true]
      rw [rotate_loop cap items part _ _ (by omega) h]
      rw [Py.bind_ok (onLast_getvalue cap items part)]
      simp only [Py.pure_apply, shown, hp, if_false]
      congr 2
      rw [lastN_append_singleton _ _ _ h1, lastN_append_singleton _ _ _ (by omega), lastN_lastN]
      congr 1
      simp only [lastN]
      congr 1
      omega

theorem read_opened (cap : Nat) (items : List Item) (part : PyStr) (size : Option Int)
    (h : items.length ≤ cap) (h1 : 1 ≤ cap) :
    read size (opened cap items part) =
      (.ok (match size with
        | none => shown cap items part
        | some n => if 0 < n then lastN n.toNat (shown cap items part) else []),
       opened cap items part) := by
  unfold read
  rw [Py.bind_ok (show readable (opened cap items part) = (.ok true, opened cap items part) by
    simp [readable, opened])]
  simp only [Bool.not_true, Bool.false_eq_true, if_false]
  cases size with
  | none => exact readAll_opened cap items part h h1
  | some n =>
    by_cases hn : n > 0
    · simp only [hn, if_true]
      exact readN_opened cap items part n h h1 hn
    · simp [hn]

theorem read_shut (cap : Nat) (size : Option Int) :
    read size (shut cap) = (.error .osError, shut cap) := by
  simp [read, readable, shut, Py.bind_apply]

/-! ## Refinement -/

/-- The buffer state that represents an abstract log. -/
def rep (l : Log) : LineBuf :=
  if l.closed then shut l.cap else opened l.cap (lastN l.cap l.done) l.part

/-- Facts about logs that occur. -/
structure Ok (l : Log) : Prop where
  cap : 1 ≤ l.cap
  part : NoBreak l.part
  closed : l.closed = true → l.done = [] ∧ l.part = []

theorem rep_open {l : Log} (h : l.closed = false) :
    rep l = opened l.cap (lastN l.cap l.done) l.part := by simp [rep, h]

theorem rep_closed {l : Log} (h : l.closed = true) : rep l = shut l.cap := by simp [rep, h]

theorem shown_eq (l : Log) :
    shown l.cap (lastN l.cap l.done) l.part = l.view := by
  simp only [shown, Log.view, Log.all, lastN_lastN_append]

theorem writeRet_spec (d : PyStr) : Log.WriteRet d (writeRet d) :=
  ⟨_, _, lines_segFrom [] d noBreak_nil, rfl⟩

/-- One call of the modelled object is one step of the abstract log. -/
theorem exec_refines (c : Call) (l : Log) (ok : Ok l) :
    ∃ l', Log.Step l c (exec c (rep l)).1 l' ∧ (exec c (rep l)).2 = rep l' ∧ Ok l' ∧
      l'.cap = l.cap := by
  have hle := length_lastN_le l.cap l.done
  have h1 := ok.cap
  cases hcl : l.closed with
  | true =>
    have hr := rep_closed hcl
    obtain ⟨hd, hp⟩ := ok.closed hcl
    cases c with
    | write d =>
      refine ⟨l, ?_, ?_, ok, rfl⟩ <;> simp only [exec, hr, write_shut, Ret.of]
      exact .writeClosed l d hcl
    | newLine =>
      refine ⟨l, ?_, ?_, ok, rfl⟩ <;> simp only [exec, hr, newLine_shut, Ret.of]
      exact .newLineClosed l hcl
    | read s =>
      refine ⟨l, ?_, ?_, ok, rfl⟩ <;> simp only [exec, hr, read_shut, Ret.of]
      exact .readClosed l s hcl
    | len =>
      refine ⟨l, ?_, by simp [exec, len], ok, rfl⟩
      have := Log.Step.len l
      rw [hd] at this
      simpa [exec, hr, len, shut, StringIO.truth, Ret.of, maxlen, show l.cap ≠ 0 by omega] using this
    | maxlen =>
      refine ⟨l, ?_, by simp [exec], ok, rfl⟩
      simp only [exec, hr]; exact .maxlen l
    | clear =>
      refine ⟨l, ?_, ?_, ok, rfl⟩ <;> simp only [exec, hr, clear_shut, Ret.of]
      exact .clearClosed l hcl
    | flush =>
      refine ⟨l, ?_, ?_, ok, rfl⟩ <;>
        simp [exec, hr, flush, onLast, StringIO.flush, StringIO.check, shut, Ret.of]
      exact .flushClosed l hcl
    | close =>
      refine ⟨l, ?_, ?_, ok, rfl⟩ <;> simp only [exec, hr, close_shut, Ret.of]
      exact .closeClosed l hcl
    | closed =>
      refine ⟨l, ?_, by simp [exec, closed], ok, rfl⟩
      have := Log.Step.closed l
      simpa [exec, hr, closed, shut, Ret.of, hcl] using this
    | readable =>
      refine ⟨l, ?_, by simp [exec, readable], ok, rfl⟩
      have := Log.Step.readable l
      simpa [exec, hr, readable, shut, Ret.of, hcl] using this
    | writable =>
      refine ⟨l, ?_, by simp [exec, writable], ok, rfl⟩
      have := Log.Step.writable l
      simpa [exec, hr, writable, shut, Ret.of, hcl] using this
  | false =>
    have hr := rep_open hcl
    cases c with
    | write d =>
      refine ⟨{ l with
          done := l.done ++ (segFrom l.part d).1.map .str
          part := (segFrom l.part d).2 }, ?_, ?_, ?_, ?_⟩
      rotate_left
      · simp only [exec, hr, write_opened _ _ _ _ hle h1, lastN_lastN_append]
        exact (rep_open (l := { l with
          done := l.done ++ (segFrom l.part d).1.map .str
          part := (segFrom l.part d).2 }) hcl).symm
      · exact ⟨h1, segFrom_cur_noBreak _ _ ok.part, by simp [hcl]⟩
      · rfl
      · simp only [exec, hr, write_opened _ _ _ _ hle h1, Ret.of]
        exact .write l d _ _ _ hcl (lines_segFrom _ _ ok.part) (writeRet_spec d)
    | newLine =>
      by_cases hp : l.part = []
      · refine ⟨l, ?_, ?_, ok, rfl⟩ <;> simp only [exec, hr, newLine_opened _ _ _ hle h1, Ret.of, hp, if_true]
        exact .newLineEmpty l hcl hp
      · refine ⟨{ l with done := l.done ++ [.str l.part], part := [] }, ?_, ?_, ?_, ?_⟩
        rotate_left
        · simp only [exec, hr, newLine_opened _ _ _ hle h1, hp, if_false, lastN_lastN_append]
          exact (rep_open (l := { l with done := l.done ++ [.str l.part], part := [] }) hcl).symm
        · exact ⟨h1, noBreak_nil, by simp [hcl]⟩
        · rfl
        · simp only [exec, hr, newLine_opened _ _ _ hle h1, Ret.of]
          exact .newLine l hcl hp
    | read s =>
      refine ⟨l, ?_, ?_, ok, rfl⟩ <;>
        simp only [exec, hr, read_opened _ _ _ _ hle h1, Ret.of, shown_eq l]
      cases s with
      | none => exact .readAll l hcl
      | some n =>
        by_cases hn : 0 < n
        · simp only [hn, if_true]; exact .readSize l n hcl hn
        · simp only [hn, if_false]; exact .readNonPos l n hcl (by omega)
    | len =>
      refine ⟨l, ?_, by simp [exec, len], ok, rfl⟩
      have := Log.Step.len l
      simpa [exec, hr, len, opened, StringIO.truth, Ret.of, maxlen, show l.cap ≠ 0 by omega] using this
    | maxlen =>
      refine ⟨l, ?_, by simp [exec], ok, rfl⟩
      simp only [exec, hr]; exact .maxlen l
    | clear =>
      refine ⟨{ l with done := [], part := [] }, ?_, ?_, ?_, ?_⟩
      rotate_left
      · simp only [exec, hr, clear_opened]
        have := (rep_open (l := { l with done := [], part := [] }) hcl).symm
        simpa using this
      · exact ⟨h1, noBreak_nil, by simp [hcl]⟩
      · rfl
      · simp only [exec, hr, clear_opened, Ret.of]
        exact .clear l hcl
    | flush =>
      refine ⟨l, ?_, ?_, ok, rfl⟩ <;>
        simp [exec, hr, flush, onLast, StringIO.flush, StringIO.check, opened, Ret.of]
      exact .flush l hcl
    | close =>
      refine ⟨{ l with done := [], part := [], closed := true }, ?_, ?_, ?_, ?_⟩
      rotate_left
      · simp only [exec, hr, close_opened]
        exact (rep_closed (l := { l with done := [], part := [], closed := true }) rfl).symm
      · exact ⟨h1, noBreak_nil, by simp⟩
      · rfl
      · simp only [exec, hr, close_opened, Ret.of]
        exact .close l hcl
    | closed =>
      refine ⟨l, ?_, by simp [exec, closed], ok, rfl⟩
      have := Log.Step.closed l
      simpa [exec, hr, closed, opened, Ret.of, hcl] using this
    | readable =>
      refine ⟨l, ?_, by simp [exec, readable], ok, rfl⟩
      have := Log.Step.readable l
      simpa [exec, hr, readable, opened, Ret.of, hcl] using this
    | writable =>
      refine ⟨l, ?_, by simp [exec, writable], ok, rfl⟩
      have := Log.Step.writable l
      simpa [exec, hr, writable, opened, Ret.of, hcl] using this

theorem run_refines (cs : List Call) (l : Log) (ok : Ok l) :
    ∃ l', Log.Steps l cs (run cs (rep l)).1 l' ∧ (run cs (rep l)).2 = rep l' ∧ Ok l' ∧
      l'.cap = l.cap := by
  induction cs generalizing l with
  | nil => exact ⟨l, .nil l, rfl, ok, rfl⟩
  | cons c cs ih =>
    obtain ⟨l1, hs, hr, ok1, hc⟩ := exec_refines c l ok
    obtain ⟨l2, hs2, hr2, ok2, hc2⟩ := ih l1 ok1
    refine ⟨l2, ?_, ?_, ok2, hc2.trans hc⟩
    · simp only [run]
      rw [← hr] at hs2
      exact .cons _ _ _ _ _ _ _ hs hs2
    · simp only [run]
      rw [hr]; exact hr2

/-- Steps of the abstract log are determined by the log and the call. -/
theorem step_unique {l l1 l2 : Log} {c : Call} {r1 r2 : Ret} (h1 : Log.Step l c r1 l1)
    (h2 : Log.Step l c r2 l2) : r1 = r2 ∧ l1 = l2 := by
  cases h1 <;> cases h2 <;> simp_all
  case write.write ls r n h3 h4 ls' r' n' _ h5 h6 =>
    obtain ⟨rfl, rfl⟩ := lines_unique h3 h5
    obtain ⟨a, b, ha, hb⟩ := h4
    obtain ⟨a', b', ha', hb'⟩ := h6
    obtain ⟨rfl, rfl⟩ := lines_unique ha ha'
    simp_all
  all_goals omega

end LineBuf
end SyncStream
