import Verif.Lemmas.NoneItems
import Verif.Props.Override
/-!
# Property C92: reading a buffer that stores `None`
-/

namespace SyncStream
open Spec LineBuf Conc

variable {U : Type}

theorem callsAny_rep {p : Override U} (hp : KeepsDeque fun ls => (p ls).seq) {cs : List Call}
    (hc : ∀ c ∈ cs, Thr.Atomic (.call c)) {l : OvLog U} (hl : Ovr.Sound l) :
    ∃ m, NoneSteps (fun ls => (p ls).seq) l cs (Ovr.callsAny p cs (Ovr.rep l)).1 m ∧
      (Ovr.callsAny p cs (Ovr.rep l)).2 = Ovr.rep m := by
  induction cs generalizing l with
  | nil => exact ⟨l, .nil l, rfl⟩
  | cons c cs ih =>
    obtain ⟨r, l', h1, h2, h3⟩ := Ovr.callAny_rep hp hl (hc c (List.mem_cons_self ..))
    obtain ⟨m, h4, h5⟩ := ih (fun c h => hc c (List.mem_cons_of_mem _ h)) h3
    simp only [Ovr.callsAny, h1]
    exact ⟨m, .cons _ _ _ _ _ _ _ h2 h4, h5⟩

/-- **C92** Whatever a user's `parse_lines` stores, `None` included, calls one after the other do and
return exactly this: what is documented, except when `read(n)` is called while a line is unfinished, the
storage is full and its oldest item is `None`.  Then the `None` is taken out of the storage; `read(n)` still
shows the last `n` items if `n` is not more than the storage can hold, otherwise it shows the newest item a second time in the
place of the oldest, or raises `IndexError` if the `None` was all. -/
theorem C92_exact (p : Override U) (hp : KeepsDeque fun ls => (p ls).seq) (st : Deque Item) (part : PyStr) (u : U)
    (hst : IsDeque st) (hpart : NoBreak part) (cs : List Call) (hc : ∀ c ∈ cs, Thr.Atomic (.call c)) :
    ∃ m, NoneSteps (fun ls => (p ls).seq) ⟨part, st, u⟩ cs (Ovr.callsAny p cs (ovOpen st part u)).1 m ∧
      (Ovr.callsAny p cs (ovOpen st part u)).2 = ovOpen m.store m.part m.own :=
  callsAny_rep (l := ⟨part, st, u⟩) hp hc ⟨hpart, hst⟩

/-- **C92, only `read()`** If the only readings are those of everything, all is as documented, whatever is
stored.  (Missing: `read(n)`, see `C92_violated`.) -/
theorem C92_all_partial (p : Override U) (hp : KeepsDeque fun ls => (p ls).seq) (st : Deque Item) (part : PyStr)
    (u : U) (hst : IsDeque st) (hpart : NoBreak part) (cs : List Call) (hc : ∀ c ∈ cs, Thr.Atomic (.call c))
    (hr : ∀ n, .read (some n) ∈ cs → n ≤ 0) :
    ∃ m, OvSteps (fun ls => (p ls).seq) ⟨part, st, u⟩ cs (Ovr.callsAny p cs (ovOpen st part u)).1 m ∧
      (Ovr.callsAny p cs (ovOpen st part u)).2 = ovOpen m.store m.part m.own := by
  obtain ⟨m, h1, h2⟩ := C92_exact p hp st part u hst hpart cs hc
  refine ⟨m, ?_, h2⟩
  clear h2 hc
  generalize (Ovr.callsAny p cs (ovOpen st part u)).1 = rs at h1
  generalize (⟨part, st, u⟩ : OvLog U) = l at h1
  induction h1 with
  | nil => exact .nil _
  | cons l m l' c r cs rs h1 _ ih =>
    refine .cons _ _ _ _ _ _ _ ?_ (ih fun n h => hr n (List.mem_cons_of_mem _ h))
    cases h1 with
    | right _ _ _ _ h => exact h
    | lost n a hb h0 => exact absurd h0 (by have := hr n (List.mem_cons_self ..); omega)
    | again n a x hb h0 => exact absurd h0 (by have := hr n (List.mem_cons_self ..); omega)
    | fails n hb h0 => exact absurd h0 (by have := hr n (List.mem_cons_self ..); omega)

/-- **C92, no `None`** If `parse_lines` never stores a `None`, all is as documented.  (Missing: overrides that
store `None`, see `C92_violated`.) -/
theorem C92_no_none_partial (p : Override U) (hp : KeepsDeque fun ls => (p ls).seq)
    (hn : StoresNoNone fun ls => (p ls).seq) (st : Deque Item) (part : PyStr) (u : U) (hst : IsDeque st)
    (hno : NoNone st) (hpart : NoBreak part) (cs : List Call) (hc : ∀ c ∈ cs, Thr.Atomic (.call c)) :
    ∃ m, OvSteps (fun ls => (p ls).seq) ⟨part, st, u⟩ cs (Ovr.callsAny p cs (ovOpen st part u)).1 m ∧
      (Ovr.callsAny p cs (ovOpen st part u)).2 = ovOpen m.store m.part m.own := by
  obtain ⟨m, h1, h2⟩ := C92_exact p hp st part u hst hpart cs hc
  refine ⟨m, ?_, h2⟩
  clear h2 hc
  generalize (Ovr.callsAny p cs (ovOpen st part u)).1 = rs at h1
  have hno' : NoNone (⟨part, st, u⟩ : OvLog U).store := hno
  generalize (⟨part, st, u⟩ : OvLog U) = l at h1 hno'
  have strs : ∀ ls : List PyStr, Item.raw .null ∉ ls.map Item.str := by simp
  have free : ∀ {l : OvLog U} {a}, NoNone l.store → ¬ Blocked l a := fun h hb =>
    h (hb.2.1 ▸ List.mem_cons_self ..)
  induction h1 with
  | nil => exact .nil _
  | cons l m l' c r cs rs h1 _ ih =>
    cases h1 with
    | right _ _ _ _ h =>
      refine .cons _ _ _ _ _ _ _ h (ih ?_)
      cases h with
      | write d r ls n st' u' _ _ g => exact (show st' = _ from (congrArg (·.2.1) g).symm) ▸ hn _ _ (strs ls) hno'
      | writeRaise d r ls e st' u' _ _ g => exact (show st' = _ from (congrArg (·.2.1) g).symm) ▸ hn _ _ (strs ls) hno'
      | newLine st' u' _ g => exact (show st' = _ from (congrArg (·.2.1) g).symm) ▸ hn _ _ (strs [l.part]) hno'
      | newLineRaise e st' u' _ g => exact (show st' = _ from (congrArg (·.2.1) g).symm) ▸ hn _ _ (strs [l.part]) hno'
      | _ => exact hno'
    | lost n a hb h0 => exact absurd hb (free hno')
    | again n a x hb h0 => exact absurd hb (free hno')
    | fails n hb h0 => exact absurd hb (free hno')

/-- **C92 is violated** Whenever a line is unfinished, the storage is full and its oldest item is `None`, no `read(n)` is as
documented: it takes the `None` out of the storage. -/
theorem C92_violated (p : Override U) (hp : KeepsDeque fun ls => (p ls).seq) (st : Deque Item) (part : PyStr)
    (u : U) (hst : IsDeque st) (hpart : NoBreak part) (a : List Item) (hb : Blocked ⟨part, st, u⟩ a) (n : Int)
    (hn : 0 < n) :
    (Ovr.callAny p (.read (some n)) (ovOpen st part u)).2 = ovOpen { st with items := a } part u ∧
      ¬ ∃ m, OvStep (fun ls => (p ls).seq) ⟨part, st, u⟩ 0 (.read (some n))
          (Ovr.callAny p (.read (some n)) (ovOpen st part u)).1 m ∧
        (Ovr.callAny p (.read (some n)) (ovOpen st part u)).2 = ovOpen m.store m.part m.own := by
  obtain ⟨r, l', h1, h2, _⟩ := Ovr.callAny_rep (l := ⟨part, st, u⟩) hp ⟨hpart, hst⟩ (c := .read (some n)) trivial
  have h1' : Ovr.callAny p (.read (some n)) (ovOpen st part u) = (r, ovOpen l'.store l'.part l'.own) := h1
  rw [h1']
  have tail : ∀ {a'}, Blocked (⟨part, st, u⟩ : OvLog U) a' → a' = a := fun h => by
    have := h.2.1.symm.trans hb.2.1
    injection this
  have e : l' = OvLog.holding ⟨part, st, u⟩ a := by
    cases h2 with
    | right _ _ _ h => exact absurd hb (h n a rfl hn)
    | lost _ a' hb' => rw [tail hb']
    | again _ a' x hb' => rw [tail hb']
    | fails _ hb' => rw [tail hb']
  subst e
  refine ⟨rfl, ?_⟩
  rintro ⟨m, h3, h4⟩
  have hm : m = ⟨part, st, u⟩ := by
    cases h3 with
    | readSize => rfl
    | readNonPos => rfl
  subst hm
  have := congrArg (fun b : OvBuf U => b.base.storage.items.length) h4
  have hi := hb.2.1
  dsimp only [ovOpen, OvLog.holding] at this hi
  rw [hi] at this
  simp at this

/-- **C92 is violated** `read(n)`, with `n` more than the storage can hold, shows the newest item twice and the
items in a wrong order. -/
theorem C92_twice_violated (p : Override U) (cap : Nat) (a : List Item) (x : Item) (part : PyStr) (u : U)
    (hp : part ≠ []) (hcap : a.length + 2 = cap) (n : Int) (hn : cap < n) :
    (Ovr.callAny p (.read (some n)) (ovOpen ⟨cap, .raw .null :: (a ++ [x])⟩ part u)).1 =
      .items (x :: (a ++ [x, .str part])) := by
  have h := readAny_opened cap (.raw .null :: (a ++ [x])) part n (by omega)
  rw [readNAny_again cap a x part n hp (by simp; omega) hn] at h
  simp only [opened] at h
  simp only [Ovr.callAny, ovOpen, h]
  rfl

/-- **C92 is violated** With room for one item, which is `None`, `read(n)` for every `n > 1` raises `IndexError` while a
line is unfinished. -/
theorem C92_fails_violated (p : Override U) (part : PyStr) (u : U) (hp : part ≠ []) (n : Int) (hn : 1 < n) :
    (Ovr.callAny p (.read (some n)) (ovOpen ⟨1, [.raw .null]⟩ part u)).1 = .exc .indexError := by
  have h := readAny_opened 1 [.raw .null] part n (by omega)
  rw [readNAny_fails part n hp hn] at h
  simp only [opened] at h
  simp only [Ovr.callAny, ovOpen, h]
  rfl

/-- **C92, closed** A closed buffer cannot be read, and the attempt changes nothing. -/
theorem C92_closed (p : Override U) (n : Option Int) (b : OvBuf U) (h : b.base.lastLine.closed = true) :
    Ovr.callAny p (.read n) b = (.exc .osError, b) := by
  simp only [Ovr.callAny, LineBuf.readAny]
  rw [Py.bind_ok (show readable b.base = (.ok false, b.base) by simp [readable, h])]
  rfl

/-! ## Concrete cases -/

example : (Ovr.callAny (Override.searching fun _ => none) (.read (some 2))
    ⟨{ storage := { maxlen := 2 }, lastLine := { closed := true } }, ()⟩).1 = .exc .osError := rfl

/-- What a search for `E` at the start of a line finds. -/
def findE : Item → Option Item
  | .str (c :: s) => if c = 69 then some (.str (c :: s)) else none
  | _ => none

/-- The items in a form that can be compared; `None` is `none`. -/
def seenItem : Item → Option PyStr
  | .str s => some s
  | _ => none

/-- What a call shows. -/
def seenRet : Ret → List (Option PyStr)
  | .items l => l.map seenItem
  | .exc _ => [some (lit "raised")]
  | _ => []

theorem searching_keeps (f : Item → Option Item) :
    KeepsDeque fun ls => ((Override.searching f : Override U) ls).seq := by
  rintro ls ⟨st, u⟩ ⟨h1, h2⟩
  show IsDeque (st.extend _)
  rw [Deque.extend_eq _ _ h2 h1]
  exact ⟨h1, length_lastN_le _ _⟩

/-- Two lines, the first without a match, and an unfinished line: `read(3)` shows the match twice. -/
example : (Ovr.callsAny (Override.searching findE) [.write (lit "ok\nE1\nxy"), .read none, .read (some 2), .read (some 3)]
    (ovOpen ⟨2, []⟩ [] ())).1.map seenRet =
    [[], [some (lit "E1"), some (lit "xy")], [some (lit "E1"), some (lit "xy")],
      [some (lit "E1"), some (lit "xy")]] := by decide +kernel

example : (Ovr.callsAny (Override.searching findE) [.write (lit "ok\nE1\nxy"), .read (some 3)]
    (ovOpen ⟨2, []⟩ [] ())).1.map seenRet =
    [[], [some (lit "E1"), some (lit "E1"), some (lit "xy")]] := by decide +kernel

/-- With room for one item, `read(2)` raises. -/
example : (Ovr.callsAny (Override.searching findE) [.write (lit "ok\nxy"), .read none, .read (some 2)]
    (ovOpen ⟨1, []⟩ [] ())).1.map seenRet =
    [[], [some (lit "xy")], [some (lit "raised")]] := by decide +kernel

/-- The same search, but lines that start with `x` are comments and not stored. -/
def findEOrSkip : Override Unit := fun lines =>
  Override.searching findE (lines.filter fun | .str (120 :: _) => false | _ => true)

/-- **C92 is violated** A reading changes what a later one shows: without the `read(1)` the `None` is still shown when the
unfinished line is over, after it not. -/
theorem C92_lost_violated :
    (Ovr.callsAny findEOrSkip [.write (lit "ok\nE1\nxy"), .newLine, .read none] (ovOpen ⟨2, []⟩ [] ())).1.map seenRet =
      [[], [], [none, some (lit "E1")]] ∧
    (Ovr.callsAny findEOrSkip [.write (lit "ok\nE1\nxy"), .read (some 1), .newLine, .read none]
      (ovOpen ⟨2, []⟩ [] ())).1.map seenRet = [[], [some (lit "xy")], [], [some (lit "E1")]] := by decide +kernel

/-- The default `parse_lines` stores no `None`. -/
theorem default_no_none : StoresNoNone fun ls => ((Override.default : Override U) ls).seq := by
  rintro ls ⟨st, u⟩ h1 h2
  have key : ∀ (ls : List Item) (d : Deque Item), Item.raw .null ∉ ls → NoNone d → NoNone (d.extend ls) := by
    intro ls
    induction ls with
    | nil => intro d _ h; exact h
    | cons x ls ih =>
      intro d h1 h2
      refine ih (d.append x) (fun h => h1 (List.mem_cons_of_mem _ h)) ?_
      intro hm
      have : Item.raw .null ∈ d.items ++ [x] := by
        simp only [Deque.append] at hm
        split at hm
        · exact List.mem_of_mem_tail hm
        · exact hm
      rcases List.mem_append.1 this with h | h
      · exact h2 h
      · exact h1 (List.mem_singleton.1 h ▸ List.mem_cons_self ..)
  exact key ls st h1 h2

end SyncStream
