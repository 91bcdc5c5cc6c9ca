import Verif.Lemmas.Rely
import Verif.Lemmas.Threads
/-!
# Threads on one line buffer: what holds in every race
-/

namespace SyncStream
open Prog

/-- Prove that a program keeps to a relation by going through its text. -/
macro "guar" : tactic => `(tactic| repeat' first
  | exact trivial
  | assumption
  | with_reducible refine Prog.Guar.bind ?_ fun _ => ?_
  | split)

namespace Thr
variable {α β : Type}

/-- How a buffer can change: what is closed remains closed; the storage does not outgrow its `maxlen`. -/
structure Calm (b b' : LineBuf) : Prop where
  closed : b.lastLine.closed = true → b'.lastLine.closed = true
  maxlen : b'.storage.maxlen = b.storage.maxlen
  length : b.storage.items.length ≤ b.storage.maxlen → b'.storage.items.length ≤ b'.storage.maxlen

theorem calm : Steady Calm where
  refl _ := ⟨id, rfl, id⟩
  trans h h' := ⟨fun x => h'.1 (h.1 x), h'.2.trans h.2, fun x => h'.3 (h.3 x)⟩

/-- How a buffer that nobody closes can change. -/
structure Open (b b' : LineBuf) : Prop where
  closed : b.lastLine.closed = false → b'.lastLine.closed = false

theorem open_steady : Steady Open where
  refl _ := ⟨id⟩
  trans h h' := ⟨fun x => h'.1 (h.1 x)⟩

/-! ## Every program, any relation that the single operations keep to -/

/-- The relation is kept by all operations on the unfinished line, except closing it, and by all operations
on the storage. -/
structure Kept (G : LineBuf → LineBuf → Prop) : Prop where
  refl : ∀ b, G b b
  last : ∀ {α : Type} (m : Py StringIO α) (b : LineBuf), (∀ t, (m t).2.closed = t.closed) → G b (LineBuf.onLast m b).2
  popleft : ∀ b, G b (LineBuf.onStorage Deque.popleft b).2
  modify : ∀ (f : Deque Item → Deque Item) b, (∀ d, (f d).maxlen = d.maxlen ∧
    (d.items.length ≤ d.maxlen → (f d).items.length ≤ d.maxlen)) → G b (LineBuf.onStorage (Py.modify f) b).2

theorem len_append (x : Item) (d : Deque Item) : (d.append x).maxlen = d.maxlen ∧
    (d.items.length ≤ d.maxlen → (d.append x).items.length ≤ d.maxlen) := by
  refine ⟨rfl, fun h => ?_⟩
  simp only [Deque.append]
  split
  · simp at *; omega
  · omega

theorem len_extend (xs : List Item) (d : Deque Item) : (d.extend xs).maxlen = d.maxlen ∧
    (d.items.length ≤ d.maxlen → (d.extend xs).items.length ≤ d.maxlen) := by
  unfold Deque.extend
  induction xs generalizing d with
  | nil => exact ⟨rfl, id⟩
  | cons x xs ih =>
    obtain ⟨h1, h2⟩ := ih (d.append x)
    exact ⟨h1.trans (len_append x d).1, fun h => h2 ((len_append x d).2 h)⟩

theorem len_appendleft (x : Item) (d : Deque Item) : (d.appendleft x).maxlen = d.maxlen ∧
    (d.items.length ≤ d.maxlen → (d.appendleft x).items.length ≤ d.maxlen) := by
  refine ⟨rfl, fun h => ?_⟩
  simp only [Deque.appendleft]
  split
  · simp at *; omega
  · omega

theorem len_rotate (n : Nat) (d : Deque Item) : (d.rotate n).maxlen = d.maxlen ∧
    (d.items.length ≤ d.maxlen → (d.rotate n).items.length ≤ d.maxlen) := by
  refine ⟨rfl, fun h => ?_⟩
  simp only [Deque.rotate, List.length_append, List.length_drop, List.length_take]
  omega

theorem len_clear (d : Deque Item) : d.clear.maxlen = d.maxlen ∧
    (d.items.length ≤ d.maxlen → d.clear.items.length ≤ d.maxlen) := ⟨rfl, fun _ => Nat.zero_le _⟩

theorem same_check (t : StringIO) : (StringIO.check t).2.closed = t.closed := by
  unfold StringIO.check; split <;> rfl

theorem same_seek0 (t : StringIO) : (StringIO.seek0 t).2.closed = t.closed := by
  rcases t with ⟨b, p, _ | _⟩ <;> rfl
theorem same_truncate0 (t : StringIO) : (StringIO.truncate0 t).2.closed = t.closed := by
  rcases t with ⟨b, p, _ | _⟩ <;> rfl
theorem same_tell (t : StringIO) : (StringIO.tell t).2.closed = t.closed := by
  rcases t with ⟨b, p, _ | _⟩ <;> rfl
theorem same_getvalue (t : StringIO) : (StringIO.getvalue t).2.closed = t.closed := by
  rcases t with ⟨b, p, _ | _⟩ <;> rfl
theorem same_flush (t : StringIO) : (StringIO.flush t).2.closed = t.closed := same_check t
theorem same_write (d : PyStr) (t : StringIO) : (StringIO.write d t).2.closed = t.closed := by
  cases d <;> rcases t with ⟨b, p, _ | _⟩ <;> rfl

theorem kept_calm : Kept Calm where
  refl _ := ⟨id, rfl, id⟩
  last m b h := ⟨fun hb => (h _).trans hb, rfl, id⟩
  popleft b := by
    rcases b with ⟨⟨n, l⟩, t⟩
    cases l with
    | nil => exact ⟨id, rfl, id⟩
    | cons x l => exact ⟨id, rfl, fun h => Nat.le_of_succ_le h⟩
  modify f b h := ⟨id, (h _).1, fun hb => by rw [show (LineBuf.onStorage (Py.modify f) b).2.storage = f b.storage from rfl, (h _).1]; exact (h _).2 hb⟩

theorem kept_open : Kept Open where
  refl _ := ⟨id⟩
  last m b h := ⟨fun hb => (h _).trans hb⟩
  popleft b := by
    rcases b with ⟨⟨n, l⟩, t⟩
    cases l <;> exact ⟨id⟩
  modify f b h := ⟨id⟩

section
variable {G : LineBuf → LineBuf → Prop} (hG : Kept G)
include hG

theorem guar_gets (f : LineBuf → α) : (gets f).Guar G := .atom fun b => hG.refl b
theorem guar_last {m : Py StringIO α} (h : ∀ t, (m t).2.closed = t.closed) : (onLast m).Guar G :=
  .atom fun b => hG.last m b h
theorem guar_popleft : (onStorage Deque.popleft).Guar G := .atom fun b => hG.popleft b
theorem guar_modify {f : Deque Item → Deque Item} (h : ∀ d, (f d).maxlen = d.maxlen ∧
    (d.items.length ≤ d.maxlen → (f d).items.length ≤ d.maxlen)) : (onStorage (Py.modify f)).Guar G :=
  .atom fun b => hG.modify f b h

theorem guar_writeCore (d : PyStr) : (writeCore d).Guar G := by
  unfold writeCore parseLines
  extract_lets m n e m' n'
  guar
  all_goals first
    | exact guar_last hG same_getvalue
    | exact guar_last hG same_seek0
    | exact guar_last hG same_truncate0
    | exact guar_last hG (same_write _)
    | exact guar_modify hG (len_extend _)

theorem guar_write (d : PyStr) : (write d).Guar G := by
  refine .bind (Guar.withLock (guar_gets hG _)) fun x => ?_
  split
  · trivial
  · exact (guar_writeCore hG d).withLock

theorem guar_newLine : newLine.Guar G := by
  refine Guar.withLock (.bind (guar_last hG same_tell) fun x => ?_)
  split
  · exact .bind (guar_writeCore hG _) fun _ => trivial
  · trivial

theorem guar_readAll : readAll.Guar G := by
  unfold readAll
  guar
  all_goals first
    | exact guar_last hG same_tell
    | exact guar_last hG same_getvalue
    | exact guar_gets hG _
    | exact guar_popleft hG
    | exact guar_modify hG (len_appendleft _)

theorem guar_readLoop (n : Nat) (l : List Item) : (readLoop n l).Guar G := by
  induction n generalizing l with
  | zero => trivial
  | succ n ih => exact .bind (guar_popleft hG) fun _ => .bind (guar_modify hG (len_append _)) fun _ => ih _

theorem guar_readN (n : Int) : (readN n).Guar G := by
  unfold readN
  refine .bind (guar_last hG same_tell) fun pos => .bind (guar_gets hG _) fun n => .bind (guar_gets hG _) fun m =>
    .bind ?_ fun o => .bind ?_ fun _ => .bind (guar_readLoop hG _ _) fun _ => ?_
  · split
    · exact .bind (guar_popleft hG) fun _ => trivial
    · trivial
  · generalize (min _ _ : Int) = k
    split
    · exact guar_modify hG (len_rotate _)
    · trivial
  · split
    · refine .bind (guar_last hG same_getvalue) fun _ => ?_
      cases o with
      | some v => exact .bind (guar_modify hG (len_appendleft _)) fun _ => trivial
      | none => trivial
    · trivial

theorem guar_read (n : Option Int) : (Thr.read n).Guar G := by
  refine .bind (Guar.withLock (guar_gets hG _)) fun x => ?_
  split
  · trivial
  · refine Guar.withLock ?_
    cases n with
    | none => exact guar_readAll hG
    | some n =>
      show Guar G (if n > 0 then readN n else pure [])
      split
      · exact guar_readN hG n
      · trivial

theorem guar_clear : clear.Guar G :=
  .bind (Guar.withLock (.bind (guar_last hG same_seek0) fun _ => guar_last hG same_truncate0)) fun _ =>
    guar_modify hG len_clear

theorem guar_prog (c : TCall) (hc : c ≠ .call .close) : (prog c).Guar G := by
  have fin : ∀ {α : Type} {p : TProg α} (F : Except Exc α → Ret), p.Guar G →
      (do return F (← p.outcome) : TProg Ret).Guar G := fun F hp => .bind hp.outcome fun _ => trivial
  cases c with
  | deliver x => exact fin _ (guar_modify hG (len_append x))
  | call c =>
    cases c with
    | write d => exact fin _ (guar_write hG d)
    | newLine => exact fin _ (guar_newLine hG)
    | read n => exact fin _ (guar_read hG n)
    | len =>
      exact fin _ (.bind (guar_gets hG _) fun _ => .bind (guar_gets hG _) fun _ =>
        .bind (Guar.withLock (.bind (guar_gets hG _) fun _ => trivial)) fun _ => trivial)
    | maxlen => exact fin _ (guar_gets hG _)
    | clear => exact fin _ (guar_clear hG)
    | flush => exact fin _ (Guar.withLock (guar_last hG same_flush))
    | closed => exact fin _ (Guar.withLock (guar_gets hG _))
    | readable => exact fin _ (Guar.withLock (guar_gets hG _))
    | writable => exact fin _ (Guar.withLock (guar_gets hG _))
    | close => exact absurd rfl hc

end

theorem guar_calm (c : TCall) : (prog c).Guar Calm := by
  by_cases hc : c = .call .close
  · subst hc
    refine Guar.bind (Guar.outcome (.bind (Guar.withLock (guar_gets kept_calm _)) fun x => ?_)) fun _ => trivial
    split
    · trivial
    · exact .bind (guar_clear kept_calm) fun _ => Guar.withLock (.atom fun b => ⟨fun _ => rfl, rfl, id⟩)
  · exact guar_prog kept_calm c hc

/-! ## Which exceptions can be raised -/

/-- What is known of the buffer at all times (`A`), how it changes (`G`), and which exceptions are expected
(`E`). -/
structure Setting (G : LineBuf → LineBuf → Prop) (A : LineBuf → Prop) (E : Exc → Prop) : Prop where
  steady : Steady G
  kept : Kept G
  stable : ∀ b b', A b → G b b' → A b'
  closed : ∀ b, A b → b.lastLine.closed = true → E .valueError

/-- The program raises only the exceptions `E`. -/
def Only (G : LineBuf → LineBuf → Prop) (A : LineBuf → Prop) (E : Exc → Prop) (p : TProg α) : Prop :=
  ∀ b, A b → p.Meets G (fun r b' => A b' ∧ ∀ e, r = .error e → E e) b

section
variable {G : LineBuf → LineBuf → Prop} {A : LineBuf → Prop} {E : Exc → Prop} (hS : Setting G A E)
include hS

theorem Only.bind {p : TProg α} {g : α → TProg β} (hp : Only G A E p) (hg : ∀ a, Only G A E (g a)) :
    Only G A E (p >>= g) := fun b hb =>
  (hp b hb).bind hS.steady (fun a t h => hg a t h.1) (fun _ _ h => ⟨h.1, fun _ he => h.2 _ (by cases he; rfl)⟩)

theorem Only.ret (a : α) : Only G A E (pure a) := fun _ hb _ ht => ⟨hS.stable _ _ hb ht, fun _ h => nomatch h⟩

theorem Only.raise {e : Exc} (he : E e) : Only G A E (Prog.raise e : TProg α) :=
  fun b hb t ht => ⟨hS.stable _ _ hb ht, fun _ h => by cases h; exact he⟩

omit hS in
theorem Only.locked {p : TProg α} (hp : Only G A E p) : Only G A E (locked p) := fun b hb => (hp b hb).withLock

theorem only_atom {m : Py LineBuf α} (hg : ∀ b, G b (m b).2) (h : ∀ b e, A b → (m b).1 = .error e → E e) :
    Only G A E (Prog.atom m) := fun b hb => .atom fun t ht u hu => by
  have ha := hS.stable _ _ hb ht
  exact ⟨hS.stable _ _ (hS.stable _ _ ha (hg t)) hu, fun e he => h t e ha he⟩

theorem only_gets (f : LineBuf → α) : Only G A E (gets f) :=
  only_atom hS (fun b => hS.kept.refl b) fun _ _ _ h => nomatch h

theorem only_modify {f : Deque Item → Deque Item} (h : ∀ d, (f d).maxlen = d.maxlen ∧
    (d.items.length ≤ d.maxlen → (f d).items.length ≤ d.maxlen)) : Only G A E (onStorage (Py.modify f)) :=
  only_atom hS (fun b => hS.kept.modify f b h) fun _ _ _ h => nomatch h

theorem only_popleft (hi : E .indexError) : Only G A E (onStorage Deque.popleft) :=
  only_atom hS (fun b => hS.kept.popleft b) fun b e _ h => by
    rcases b with ⟨⟨n, l⟩, t⟩
    cases l with
    | nil => cases h; exact hi
    | cons x l => cases h

theorem only_last {m : Py StringIO α} (hm : ∀ t, (m t).2.closed = t.closed)
    (h : ∀ t e, (m t).1 = .error e → t.closed = true ∧ e = .valueError) : Only G A E (onLast m) :=
  only_atom hS (fun b => hS.kept.last m b hm) fun b e ha he => by
    obtain ⟨h1, rfl⟩ := h b.lastLine e he
    exact hS.closed b ha h1

omit hS in
theorem err_seek0 (t : StringIO) (e : Exc) (h : (StringIO.seek0 t).1 = .error e) : t.closed = true ∧ e = .valueError := by
  rcases t with ⟨b, p, _ | _⟩ <;> cases h
  exact ⟨rfl, rfl⟩
omit hS in
theorem err_truncate0 (t : StringIO) (e : Exc) (h : (StringIO.truncate0 t).1 = .error e) :
    t.closed = true ∧ e = .valueError := by
  rcases t with ⟨b, p, _ | _⟩ <;> cases h
  exact ⟨rfl, rfl⟩
omit hS in
theorem err_tell (t : StringIO) (e : Exc) (h : (StringIO.tell t).1 = .error e) : t.closed = true ∧ e = .valueError := by
  rcases t with ⟨b, p, _ | _⟩ <;> cases h
  exact ⟨rfl, rfl⟩
omit hS in
theorem err_getvalue (t : StringIO) (e : Exc) (h : (StringIO.getvalue t).1 = .error e) :
    t.closed = true ∧ e = .valueError := by
  rcases t with ⟨b, p, _ | _⟩ <;> cases h
  exact ⟨rfl, rfl⟩
omit hS in
theorem err_flush (t : StringIO) (e : Exc) (h : (StringIO.flush t).1 = .error e) : t.closed = true ∧ e = .valueError := by
  rcases t with ⟨b, p, _ | _⟩ <;> cases h
  exact ⟨rfl, rfl⟩
omit hS in
theorem err_write (d : PyStr) (t : StringIO) (e : Exc) (h : (StringIO.write d t).1 = .error e) :
    t.closed = true ∧ e = .valueError := by
  cases d <;> rcases t with ⟨b, p, _ | _⟩ <;> cases h <;> exact ⟨rfl, rfl⟩

theorem only_writeCore (d : PyStr) : Only G A E (writeCore d) := by
  unfold writeCore parseLines
  extract_lets m n e m' n'
  repeat' first
    | exact Only.ret hS _
    | exact only_last hS same_getvalue err_getvalue
    | exact only_last hS same_seek0 err_seek0
    | exact only_last hS same_truncate0 err_truncate0
    | exact only_last hS (same_write _) (err_write _)
    | exact only_modify hS (len_extend _)
    | with_reducible refine Only.bind hS ?_ fun _ => ?_
    | split

/-- A test whether the buffer is open, and then the rest. -/
theorem only_check (ho : ∀ b, A b → b.lastLine.closed = true → E .osError) {p : TProg α} (hp : Only G A E p) :
    Only G A E (do if !(← locked (gets fun b => !b.lastLine.closed)) then .raise .osError else p) := by
  intro b hb
  refine Meets.bind hS.steady (Q := fun r t => A t ∧ (∀ e, r = .error e → False) ∧ (r = .ok false → E .osError))
    (Meets.withLock (.atom fun t ht u hu => ?_)) ?_ ?_
  · have ha := hS.stable _ _ hb ht
    refine ⟨hS.stable _ _ ha hu, (fun _ h => nomatch h), fun h => ?_⟩
    refine ho t ha ?_
    injection h with h
    simpa using h
  · rintro x t ⟨h1, -, h2⟩
    cases x with
    | false => exact Only.raise hS (h2 rfl) t h1
    | true => exact hp t h1
  · rintro e t ⟨-, h, -⟩
    exact (h e rfl).elim

theorem only_write (ho : ∀ b, A b → b.lastLine.closed = true → E .osError) (d : PyStr) :
    Only G A E (write d) := only_check hS ho (only_writeCore hS d).locked

theorem only_newLine : Only G A E newLine := by
  refine Only.locked (.bind hS (only_last hS same_tell err_tell) fun x => ?_)
  split
  · exact .bind hS (only_writeCore hS _) fun _ => .ret hS _
  · exact .ret hS _

theorem only_readLoop (hi : E .indexError) (n : Nat) (l : List Item) : Only G A E (readLoop n l) := by
  induction n generalizing l with
  | zero => exact .ret hS _
  | succ n ih => exact .bind hS (only_popleft hS hi) fun _ => .bind hS (only_modify hS (len_append _)) fun _ => ih _

theorem only_readAll (hi : E .indexError) : Only G A E readAll := by
  unfold readAll
  repeat' first
    | exact Only.ret hS _
    | exact only_gets hS _
    | exact only_last hS same_getvalue err_getvalue
    | exact only_last hS same_tell err_tell
    | exact only_popleft hS hi
    | exact only_modify hS (len_appendleft _)
    | with_reducible refine Only.bind hS ?_ fun _ => ?_
    | split

theorem only_readN (hi : E .indexError) (n : Int) : Only G A E (readN n) := by
  unfold readN
  refine .bind hS (only_last hS same_tell err_tell) fun pos => .bind hS (only_gets hS _) fun n =>
    .bind hS (only_gets hS _) fun m => .bind hS ?_ fun o => .bind hS ?_ fun _ =>
    .bind hS (only_readLoop hS hi _ _) fun _ => ?_
  · split
    · exact .bind hS (only_popleft hS hi) fun _ => .ret hS _
    · exact .ret hS _
  · generalize (min _ _ : Int) = k
    split
    · exact only_modify hS (len_rotate _)
    · exact .ret hS _
  · split
    · refine .bind hS (only_last hS same_getvalue err_getvalue) fun _ => ?_
      cases o with
      | some v => exact .bind hS (only_modify hS (len_appendleft _)) fun _ => .ret hS _
      | none => exact .ret hS _
    · exact .ret hS _

theorem only_read (ho : ∀ b, A b → b.lastLine.closed = true → E .osError) (hi : E .indexError) (n : Option Int) :
    Only G A E (Thr.read n) := by
  refine only_check hS ho (Only.locked ?_)
  cases n with
  | none => exact only_readAll hS hi
  | some n =>
    show Only G A E (if n > 0 then readN n else pure [])
    split
    · exact only_readN hS hi n
    · exact .ret hS _

theorem only_clear : Only G A E clear :=
  .bind hS (Only.locked (.bind hS (only_last hS same_seek0 err_seek0) fun _ =>
    only_last hS same_truncate0 err_truncate0)) fun _ => only_modify hS len_clear

theorem only_len : Only G A E len :=
  .bind hS (only_gets hS _) fun _ => .bind hS (only_gets hS _) fun _ =>
    .bind hS (Only.locked (.bind hS (only_gets hS _) fun _ => .ret hS _)) fun _ => .ret hS _

end

theorem only_close {A : LineBuf → Prop} {E : Exc → Prop} (hS : Setting Calm A E) : Only Calm A E close := by
  refine .bind hS (Only.locked (only_gets hS _)) fun x => ?_
  split
  · exact .ret hS _
  · exact .bind hS (only_clear hS) fun _ => .locked (only_atom hS (fun b => ⟨fun _ => rfl, rfl, id⟩)
      fun _ _ _ h => nomatch h)

/-! ## After the buffer has been closed -/

/-- On a closed buffer the program ends with `r`, whatever the others do. -/
def Det (p : TProg α) (r : Except Exc α) : Prop :=
  ∀ b, b.lastLine.closed = true → p.Meets Calm (fun x b' => b'.lastLine.closed = true ∧ x = r) b

theorem Det.bind {p : TProg α} {g : α → TProg β} {a : α} {r : Except Exc β} (hp : Det p (.ok a))
    (hg : Det (g a) r) : Det (p >>= g) r := fun b hb =>
  (hp b hb).bind calm (fun a' t h => by
    obtain ⟨h1, h2⟩ := h
    cases h2
    exact hg t h1) (fun _ _ h => nomatch h.2)

theorem Det.bind_error {p : TProg α} {g : α → TProg β} {e : Exc} (hp : Det p (.error e)) :
    Det (p >>= g) (.error e) := fun b hb =>
  (hp b hb).bind calm (fun _ _ h => nomatch h.2) (fun _ _ h => by
    obtain ⟨h1, h2⟩ := h
    cases h2
    exact ⟨h1, rfl⟩)

theorem Det.ret (a : α) : Det (pure a) (.ok a) := fun _ hb _ ht => ⟨ht.closed hb, rfl⟩
theorem Det.raise (e : Exc) : Det (Prog.raise e : TProg α) (.error e) := fun _ hb _ ht => ⟨ht.closed hb, rfl⟩
theorem Det.locked {p : TProg α} {r : Except Exc α} (hp : Det p r) : Det (locked p) r := fun b hb => (hp b hb).withLock

theorem Det.atom {m : Py LineBuf α} {r : Except Exc α} (hg : ∀ b, Calm b (m b).2)
    (h : ∀ b, b.lastLine.closed = true → (m b).1 = r) : Det (Prog.atom m) r := fun _ hb => .atom fun t ht _ hu =>
  ⟨hu.closed ((hg t).closed (ht.closed hb)), h t (ht.closed hb)⟩

theorem Det.gets {f : LineBuf → α} {a : α} (h : ∀ b, b.lastLine.closed = true → f b = a) : Det (gets f) (.ok a) :=
  .atom (fun _ => kept_calm.refl _) fun b hb => congrArg Except.ok (h b hb)

theorem Det.last {m : Py StringIO α} (hm : ∀ t, (m t).2.closed = t.closed)
    (h : ∀ t, t.closed = true → (m t).1 = .error .valueError) : Det (onLast m) (.error .valueError) :=
  .atom (fun b => kept_calm.last m b hm) fun b hb => h b.lastLine hb

theorem shut_seek0 (t : StringIO) (h : t.closed = true) : (StringIO.seek0 t).1 = .error .valueError := by
  rcases t with ⟨b, p, _ | _⟩ <;> first | rfl | cases h
theorem shut_tell (t : StringIO) (h : t.closed = true) : (StringIO.tell t).1 = .error .valueError := by
  rcases t with ⟨b, p, _ | _⟩ <;> first | rfl | cases h
theorem shut_flush (t : StringIO) (h : t.closed = true) : (StringIO.flush t).1 = .error .valueError := by
  rcases t with ⟨b, p, _ | _⟩ <;> first | rfl | cases h

theorem det_write (d : PyStr) : Det (write d) (.error .osError) :=
  .bind (a := false) (.locked (.gets fun b hb => by rw [hb]; rfl)) (.raise _)

theorem det_read (n : Option Int) : Det (Thr.read n) (.error .osError) :=
  .bind (a := false) (.locked (.gets fun b hb => by rw [hb]; rfl)) (.raise _)

theorem det_newLine : Det newLine (.error .valueError) := .locked (.bind_error (.last same_tell shut_tell))

theorem det_clear : Det clear (.error .valueError) :=
  .bind_error (.locked (.bind_error (.last same_seek0 shut_seek0)))

theorem det_close : Det close (.ok ()) :=
  .bind (a := true) (.locked (.gets fun _ hb => hb)) (.ret _)

/-- However a `close` ends, the buffer is closed then. -/
theorem closes (b : LineBuf) : close.Meets Calm (fun _ b' => b'.lastLine.closed = true) b := by
  refine Meets.bind calm (Q := fun r t => ∃ x, r = .ok x ∧ (x = true → t.lastLine.closed = true))
    (Meets.withLock (.atom fun t _ u hu => ⟨_, rfl, hu.closed⟩)) ?_ (fun _ _ h => by obtain ⟨_, h, _⟩ := h; cases h)
  rintro x t ⟨_, h, h'⟩
  cases h
  cases x with
  | true => exact fun u hu => hu.closed (h' rfl)
  | false =>
    refine Meets.bind calm (Q := fun r t => (∀ e, r = .error e → t.lastLine.closed = true)) ?_
      (fun _ _ _ => Meets.withLock (.atom fun _ _ u hu => hu.closed rfl)) (fun e t h => h e rfl)
    have hl : ∀ {m : Py StringIO Unit}, (∀ t, (m t).2.closed = t.closed) →
        (∀ t e, (m t).1 = .error e → t.closed = true ∧ e = .valueError) → ∀ s,
        (onLast m).Meets Calm (fun r t => (∀ e, r = .error e → t.lastLine.closed = true)) s :=
      fun {m} hm he s => .atom fun t _ u hu e h => hu.closed ((hm _).trans (he t.lastLine e h).1)
    refine Meets.bind calm (Q := fun r t => (∀ e, r = .error e → t.lastLine.closed = true)) ?_
      (fun _ _ _ => .atom fun _ _ _ _ _ h => nomatch h) (fun e t h _ _ => h e rfl)
    exact Meets.withLock (Meets.bind calm (hl same_seek0 err_seek0 _) (fun _ _ _ => hl same_truncate0 err_truncate0 _)
      (fun e t h _ _ => h e rfl))

/-- `len()` is between 1 and `maxlen`. -/
theorem len_between (b : LineBuf) (h1 : 1 ≤ b.storage.maxlen) (h2 : b.storage.items.length ≤ b.storage.maxlen) :
    len.Meets Calm (fun r _ => ∃ k, k ≤ b.storage.maxlen ∧ r = .ok (min b.storage.maxlen (k + 1))) b := by
  refine Meets.bind calm (Q := fun r t => Calm b t ∧ r = .ok b.storage.maxlen)
    (.atom fun t ht u hu => ⟨calm.trans ht hu, congrArg Except.ok ht.maxlen⟩) ?_ (fun _ _ h => nomatch h.2)
  rintro m t ⟨ht, hm⟩
  cases hm
  refine Meets.bind calm (Q := fun r t => Calm b t ∧ ∃ k, k ≤ b.storage.maxlen ∧ r = .ok k)
    (.atom fun u hu v hv => ⟨calm.trans ht (calm.trans hu hv), _, ?_, rfl⟩) ?_
    (fun _ _ h => by obtain ⟨_, _, _, h⟩ := h; cases h)
  · have := (calm.trans ht hu).length h2
    rw [(calm.trans ht hu).maxlen] at this
    exact this
  · rintro k t ⟨ht, k', hk, h⟩
    cases h
    refine Meets.bind calm (Q := fun r _ => r = .ok (k + 1)) (Meets.withLock (Meets.bind calm (Q := fun r _ => r = .ok true)
      (.atom fun _ _ _ _ => rfl) (fun x _ h => by cases h; exact fun _ _ => rfl) (fun _ _ h => nomatch h))) ?_
      (fun _ _ h => nomatch h)
    rintro x _ h
    cases h
    refine fun u _ => ⟨k, hk, ?_⟩
    rw [if_pos (by omega)]

end Thr
end SyncStream
