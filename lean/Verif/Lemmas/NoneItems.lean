import Verif.Model.NoneItems
import Verif.Spec.NoneItems
import Verif.Lemmas.Override
/-!
# Reading a buffer that stores `None`: the steps
-/

namespace SyncStream
open Conc Spec

theorem Item.isNone_iff (x : Item) : x.isNone = true ↔ x = .raw .null := by
  cases x with
  | raw j => cases j <;> simp [Item.isNone]
  | _ => simp [Item.isNone]

namespace LineBuf

/-- Unless the oldest item of a full storage is `None` and a line is unfinished, nothing differs. -/
theorem readNAny_eq (cap : Nat) (items : List Item) (part : PyStr) (size : Int)
    (h : ¬ (part ≠ [] ∧ items.length = cap ∧ items.head? = some (.raw .null))) :
    readNAny size (opened cap items part) = readN size (opened cap items part) := by
  unfold readNAny readN
  rw [Py.bind_ok (onLast_tell cap items part), Py.bind_ok (onLast_tell cap items part)]
  have e1 : Py.gets (fun x : LineBuf => x.storage.items.length) (opened cap items part) =
    (.ok items.length, opened cap items part) := by simp [opened]
  have e2 : Py.gets (fun x : LineBuf => x.storage.maxlen) (opened cap items part) =
      (.ok cap, opened cap items part) := by simp [opened]
  rw [Py.bind_ok e1, Py.bind_ok e1, Py.bind_ok e2, Py.bind_ok e2]
  by_cases hc : part.length > 0 ∧ cap ≠ 0 ∧ items.length = cap
  · simp only [if_pos hc]
    cases items with
    | nil => exact absurd hc.2.2.symm hc.2.1
    | cons x xs =>
      have hx : x.isNone = false := by
        cases hx : x.isNone with
        | false => rfl
        | true =>
          rw [Item.isNone_iff] at hx
          exact absurd ⟨List.length_pos_iff.1 hc.1, hc.2.2, by rw [hx]; rfl⟩ h
      rw [Py.bind_ok (onStorage_popleft cap x xs part)]
      rw [Py.bind_ok (show ((do let v ← onStorage Deque.popleft; pure (some v)) :
          Py LineBuf (Option Item)) (opened cap (x :: xs) part) =
          (.ok (some x), opened cap xs part) by
        rw [Py.bind_ok (onStorage_popleft cap x xs part)]; rfl)]
      simp only [hx, Option.isNone_some, Bool.false_eq_true, if_false]
  · simp only [if_neg hc]
    rw [Py.bind_ok (Py.pure_apply _ _), Py.bind_ok (Py.pure_apply _ _)]
    simp only [Item.isNone, Option.isNone_none, if_true]
    rfl

theorem readAny_opened (cap : Nat) (items : List Item) (part : PyStr) (n : Int) (hn : 0 < n) :
    readAny (some n) (opened cap items part) = readNAny n (opened cap items part) := by
  unfold readAny
  rw [Py.bind_ok (show readable (opened cap items part) = (.ok true, opened cap items part) by
    simp [readable, opened])]
  simp [hn]

theorem readAny_eq (cap : Nat) (items : List Item) (part : PyStr) (size : Option Int)
    (h : ∀ n, size = some n → 0 < n →
      ¬ (part ≠ [] ∧ items.length = cap ∧ items.head? = some (.raw .null))) :
    readAny size (opened cap items part) = read size (opened cap items part) := by
  unfold readAny read
  have e : readable (opened cap items part) = (.ok true, opened cap items part) := by simp [readable, opened]
  rw [Py.bind_ok e, Py.bind_ok e]
  simp only [Bool.not_true, Bool.false_eq_true, if_false]
  cases size with
  | none => rfl
  | some n =>
    by_cases hn : n > 0
    · simp only [hn, if_true]
      exact readNAny_eq cap items part n (h n rfl hn)
    · simp only [hn, if_false]

/-- What `__read_n` does after it has taken a `None` off the storage. -/
theorem readNAny_blocked (cap : Nat) (a : List Item) (part : PyStr) (size : Int) (hp : part ≠ [])
    (hf : a.length + 1 = cap) :
    readNAny size (opened cap (.raw .null :: a) part) =
      ((if min (size - 1) (cap : Int) > 0 then
          onStorage (Py.modify (Deque.rotate (min (size - 1) (cap : Int)).toNat)) else pure () : Py LineBuf Unit)
        >>= fun _ => readLoop (min (size - 1) (cap : Int)).toNat [] >>= fun res =>
          onLast StringIO.getvalue >>= fun last => pure (res ++ [.str last])) (opened cap a part) := by
  unfold readNAny
  rw [Py.bind_ok (onLast_tell cap _ part)]
  rw [Py.bind_ok (show Py.gets (fun x : LineBuf => x.storage.items.length) (opened cap (.raw .null :: a) part) =
    (.ok cap, opened cap (.raw .null :: a) part) by simp [opened, hf])]
  rw [Py.bind_ok (show Py.gets (fun x : LineBuf => x.storage.maxlen) (opened cap (.raw .null :: a) part) =
      (.ok cap, opened cap (.raw .null :: a) part) by simp [opened])]
  have hpos : part.length > 0 := List.length_pos_iff.2 hp
  have hc : cap ≠ 0 := by omega
  simp only [hpos, hc, ne_eq, not_false_eq_true, and_self, if_true]
  rw [Py.bind_ok (onStorage_popleft cap _ a part)]
  simp only [Item.isNone, if_true]
  rfl

/-- Not more than the storage can hold: the `None` is lost. -/
theorem readNAny_lost (cap : Nat) (a : List Item) (part : PyStr) (size : Int) (hp : part ≠ [])
    (hf : a.length + 1 = cap) (h0 : 0 < size) (h1 : size ≤ cap) :
    readNAny size (opened cap (.raw .null :: a) part) =
      (.ok (lastN size.toNat (shown cap (.raw .null :: a) part)), opened cap a part) := by
  rw [readNAny_blocked cap a part size hp hf, rotate_loop cap a part _ _ (by omega) (by omega)]
  rw [Py.bind_ok (onLast_getvalue cap a part)]
  simp only [Py.pure_apply, shown, hp, if_false]
  congr 2
  rw [lastN_append_singleton _ _ _ (by omega), lastN_append_singleton _ _ _ (by omega), lastN_lastN]
  congr 1
  simp only [lastN, List.length_cons]
  have e : a.length + 1 - min (size.toNat - 1) (cap - 1) =
    (a.length - min (size.toNat - 1) (cap - 1)) + 1 := by omega
  rw [e, List.drop_succ_cons]
  congr 1
  omega

/-- More than the storage can hold, and something else is stored: the newest item is shown twice. -/
theorem readNAny_again (cap : Nat) (a : List Item) (x : Item) (part : PyStr) (size : Int) (hp : part ≠ [])
    (hf : (a ++ [x]).length + 1 = cap) (h1 : (cap : Int) < size) :
    readNAny size (opened cap (.raw .null :: (a ++ [x])) part) =
      (.ok (x :: (a ++ [x, .str part])), opened cap (a ++ [x]) part) := by
  rw [readNAny_blocked cap _ part size hp hf]
  have e1 : min (size - 1) (cap : Int) = cap := by omega
  have e2 : (cap : Int) > 0 := by omega
  simp only [e1, e2, if_true, Int.toNat_natCast]
  simp only [List.length_append, List.length_cons, List.length_nil, Nat.zero_add] at hf
  have er : onStorage (Py.modify (Deque.rotate cap)) (opened cap (a ++ [x]) part) =
      (.ok (), opened cap (x :: a) part) := by
    simp only [onStorage, opened, Deque.rotate, Py.onPart_apply, Py.modify_apply, Prod.mk.injEq,
      LineBuf.mk.injEq, Deque.mk.injEq, true_and, and_true]
    by_cases ha : a = []
    · subst ha; simp [Nat.mod_one]
    · have hl : 0 < a.length := List.length_pos_iff.2 ha
      have e : cap % (a ++ [x]).length = 1 := by
        rw [← hf, List.length_append, List.length_singleton, Nat.add_mod_left,
          Nat.mod_eq_of_lt (by omega)]
      rw [e]
      simp
  rw [Py.bind_ok er]
  -- the loop: once around, and once more
  have hl : (x :: a).length + 1 = cap := by simp; omega
  have split : ∀ (m n : Nat) (res : List Item), readLoop (m + n) res =
      (readLoop m res >>= fun r => readLoop n r : Py LineBuf (List Item)) := by
    intro m
    induction m with
    | zero => intro n res; funext s; simp [readLoop, Py.bind_apply]
    | succ m ih =>
      intro n res
      rw [Nat.succ_add]
      funext s
      simp only [readLoop, Py.bind_apply]
      rcases onStorage Deque.popleft s with ⟨_ | v, s'⟩
      · rfl
      · simp only
        rcases onStorage (Py.modify (Deque.append v)) s' with ⟨_ | _, s''⟩
        · rfl
        · simp only [ih, Py.bind_apply]
  have l1 := readLoop_opened cap (x :: a) [] part [] (by simp; omega)
  simp only [List.append_nil, List.nil_append] at l1
  have l2 := readLoop_opened cap [x] a part (x :: a) (by simp; omega)
  have hloop : readLoop cap [] (opened cap (x :: a) part) = (.ok (x :: a ++ [x]), opened cap (a ++ [x]) part) := by
    have := split (x :: a).length 1 []
    rw [hl] at this
    rw [this, Py.bind_ok l1]
    exact l2
  rw [Py.bind_ok hloop, Py.bind_ok (onLast_getvalue cap _ part)]
  simp

/-- More than the storage can hold, which is one item: `IndexError`. -/
theorem readNAny_fails (part : PyStr) (size : Int) (hp : part ≠ []) (h1 : 1 < size) :
    readNAny size (opened 1 [.raw .null] part) = (.error .indexError, opened 1 [] part) := by
  rw [readNAny_blocked 1 [] part size hp rfl]
  have e1 : min (size - 1) ((1 : Nat) : Int) = 1 := by omega
  simp only [e1]
  simp [Py.bind_apply, onStorage, opened, Deque.rotate, readLoop, Deque.popleft]

end LineBuf

namespace Ovr
open LineBuf
variable {U : Type}

/-- A call does and returns what `NoneStep` says. -/
theorem callAny_rep {p : Override U} (hp : KeepsDeque fun ls => (p ls).seq) {l : OvLog U} (hl : Sound l)
    {c : Call} (hc : Thr.Atomic (.call c)) :
    ∃ r l', callAny p c (rep l) = (r, rep l') ∧ NoneStep (fun ls => (p ls).seq) l c r l' ∧ Sound l' := by
  by_cases hr : ∃ n, c = .read n
  · obtain ⟨n, rfl⟩ := hr
    by_cases hb : ∃ k a, n = some k ∧ 0 < k ∧ Blocked l a
    · obtain ⟨k, a, rfl, hk, hb⟩ := hb
      obtain ⟨b1, b2, b3⟩ := hb
      have hlen : a.length + 1 = l.store.maxlen := by rw [← b3, b2]; rfl
      have hd : IsDeque { l.store with items := a } := ⟨hl.2.1, by dsimp only; omega⟩
      have key : ∀ x, readNAny k (opened l.store.maxlen (.raw .null :: a) l.part) = (x, opened l.store.maxlen a l.part) →
          callAny p (.read (some k)) (rep l) = (Ret.of .items x, rep (l.holding a)) := by
        intro x hx
        have := readAny_opened l.store.maxlen l.store.items l.part k hk
        rw [b2, hx] at this
        simp only [callAny, rep, b2, this]
        rfl
      by_cases hsz : k ≤ l.store.maxlen
      · refine ⟨_, _, key _ (readNAny_lost _ a _ k b1 hlen hk hsz), ?_, hl.1, hd⟩
        have hv : shown l.store.maxlen (.raw .null :: a) l.part = l.view := by rw [OvLog.view, b2]; rfl
        rw [hv]
        exact .lost l k a ⟨b1, b2, b3⟩ hk hsz
      · rcases List.eq_nil_or_concat a with rfl | ⟨a', x, rfl⟩
        · have h1 : l.store.maxlen = 1 := hlen.symm
          refine ⟨_, _, key (.error .indexError) ?_, .fails l k ⟨b1, b2, b3⟩ (by omega), hl.1, hd⟩
          rw [h1]
          exact readNAny_fails _ k b1 (by omega)
        · rw [List.concat_eq_append] at *
          exact ⟨_, _, key _ (readNAny_again _ a' x _ k b1 hlen (by omega)),
            .again l k a' x ⟨b1, b2, b3⟩ (by omega), hl.1, hd⟩
    · have hne : ∀ k, n = some k → 0 < k →
          ¬ (l.part ≠ [] ∧ l.store.items.length = l.store.maxlen ∧ l.store.items.head? = some (.raw .null)) := by
        rintro k hk h0 ⟨g1, g2, g3⟩
        cases hi : l.store.items with
        | nil => rw [hi] at g3; cases g3
        | cons y a =>
          rw [hi] at g3
          injection g3 with g3
          exact hb ⟨k, a, hk, h0, g1, by rw [hi, g3], g2⟩
      obtain ⟨r, l', s1, s2, s3⟩ := step_rep hp hl 0 (c := .read n) hc
      have e := readAny_eq l.store.maxlen l.store.items l.part n hne
      have hq : callAny p (.read n) (rep l) = (r, rep l') := by
        have h1 : (line (Thr.prog (.call (.read n))) : OProg U Ret).seq (rep l) = (.ok r, rep l') := s1
        rw [seq_line] at h1
        simp only [onBase, Py.onPart_apply, Thr.prog_seq, exec] at h1
        simp only [callAny, rep, e]
        simp only [rep] at h1
        injection h1 with h2 h3
        injection h2 with h2
        exact Prod.ext h2 h3
      exact ⟨r, l', hq, .right l _ r l' (fun k a hk h0 hB => hb ⟨k, a, by injection hk, h0, hB⟩) s2, s3⟩
  · obtain ⟨r, l', s1, s2, s3⟩ := step_rep hp hl 0 hc
    refine ⟨r, l', ?_, .right l c r l' (fun k _ hk => absurd ⟨_, hk⟩ hr) s2, s3⟩
    cases c with
    | read n => exact absurd ⟨n, rfl⟩ hr
    | _ => simp only [callAny, s1]

end Ovr
end SyncStream
