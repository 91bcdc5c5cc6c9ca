import Verif.Lemmas.SendShared
/-!
# C79: mirrors that are sent to other processes
-/

namespace SyncStream
open Spec

/-- The states that can occur. -/
def SendReach (maxlen : Int) (s : SendSys) : Prop :=
  ∃ s0 room os, SendSys.new maxlen room = .ok s0 ∧ s = SendSys.run os s0

theorem SendReach.inv {maxlen : Int} {s : SendSys} (h : SendReach maxlen s) : SendInv s := by
  obtain ⟨s0, room, os, h0, rfl⟩ := h
  exact SendSys.inv_run (SendSys.inv_new h0).1 os

/-! ## What arrives -/

/-- **C79** If a message with mirrors can be sent, every mirror that arrives is a new object: open, with
no text, lock or saved streams, and with the queue, the flag and the configuration of the one sent.  Two
references in the message have the same mirror afterwards if and only if they had the same before.
Everything else is as before. -/
theorem C79_fresh (maxlen : Int) (s s' : SendSys) (h : SendReach maxlen s) (ts : List Nat)
    (hs : SendSys.exec (.send ts) s = (.unit, s')) :
    (∀ t o, t ∈ ts → s.holds t = some o → ∃ o', s'.holds t = some o' ∧ s.heap.size ≤ o' ∧
      s'.heap.obj o' = { mirror := { (s.heap.obj o).mirror with buf := {} }, lock := false, saved := false }) ∧
    (∀ t t' o o', t ∈ ts → t' ∈ ts → s.holds t = some o → s.holds t' = some o' →
      (s'.holds t = s'.holds t' ↔ o = o')) ∧
    (∀ t, t ∉ ts → s'.holds t = s.holds t) ∧ (∀ i, i < s.heap.size → s'.heap.obj i = s.heap.obj i) ∧
    s'.main = s.main ∧ s'.net = s.net ∧ s'.own = s.own := by
  simp only [SendSys.exec] at hs
  cases hr : SendSys.send ts s with
  | mk r s1 =>
    rw [hr] at hs
    cases r with
    | error e => exact absurd (Prod.mk.inj hs).1 (by simp [MRet.of])
    | ok u =>
      have e : s1 = s' := (Prod.mk.inj hs).2
      subst e
      obtain ⟨h1, h2, h3, _, _, h6, h7, h8, h9, _⟩ := SendSys.send_spec h.inv ts hr
      refine ⟨fun t o ht ho => ?_, h9, h7, h6, h1, h2, h3⟩
      obtain ⟨o', ho', hle, _, hp⟩ := h8 t o ht ho
      obtain ⟨_, hl, _, hc⟩ := MObj.pickle_ok hp
      refine ⟨o', ho', hle, ?_⟩
      rw [hc, ← h.inv.fresh o (h.inv.ref _ (SendSys.holds_mem ho)) hl]

/-- Two references in two messages get objects of their own; in one message they get one. -/
example : ∃ s0, SendSys.new 3 = .ok s0 ∧
    (SendSys.run [.take, .take, .send [0], .send [1]] s0).ref = [1, 2] ∧
    (SendSys.run [.take, .take, .send [0, 1]] s0).ref = [1, 1] := ⟨_, rfl, rfl, rfl⟩

/-- **C79** A message can be sent if and only if none of its mirrors is closed, has made its lock, or is
in its context; otherwise nothing changes. -/
theorem C79_when (maxlen : Int) (s : SendSys) (h : SendReach maxlen s) (ts : List Nat) :
    ((SendSys.exec (.send ts) s).1 = .unit ↔ ∀ t o, t ∈ ts → s.holds t = some o →
      (s.heap.obj o).mirror.buf.closed = false ∧ (s.heap.obj o).lock = false ∧ (s.heap.obj o).saved = false) ∧
    ((SendSys.exec (.send ts) s).1 ≠ .unit → (SendSys.exec (.send ts) s).2 = s) := by
  simp only [SendSys.exec]
  cases hr : SendSys.send ts s with
  | mk r s1 =>
    cases r with
    | error e =>
      refine ⟨⟨fun hx => ?_, fun hx => ?_⟩, fun _ => SendSys.send_error hr⟩
      · simp [MRet.of] at hx
      · exfalso
        obtain ⟨q, hq⟩ := Heap.pickle_succeeds (ts.filterMap s.holds) (fun _ => none) s.heap
          (fun x hm => by
            obtain ⟨t, _, ht⟩ := List.mem_filterMap.1 hm
            exact h.inv.ref _ (SendSys.holds_mem ht))
          (fun x hm => by
            obtain ⟨t, ht, ho⟩ := List.mem_filterMap.1 hm
            obtain ⟨a, b, c⟩ := hx t x ht ho
            exact ⟨_, MObj.pickle_of a b c⟩)
        unfold SendSys.send at hr
        rw [hq] at hr
        cases hr
    | ok u =>
      refine ⟨⟨fun _ t o ht ho => ?_, fun _ => rfl⟩, fun hx => absurd rfl hx⟩
      obtain ⟨o', _, _, _, hp⟩ := (SendSys.send_spec h.inv ts hr).2.2.2.2.2.2.2.1 t o ht ho
      obtain ⟨a, b, c, _⟩ := MObj.pickle_ok hp
      exact ⟨a, b, c⟩

/-- Any number of times before its use, not afterwards. -/
example : ∃ s0, SendSys.new 3 = .ok s0 ∧
    (SendSys.exec (.send [0]) (SendSys.run [.take, .send [0], .use 0 (.setAggressive true)] s0)).1 = .unit ∧
    (SendSys.exec (.send [0]) (SendSys.run [.take, .send [0], .use 0 .closed] s0)).1 = .exc .typeError ∧
    (SendSys.exec (.send [0]) (SendSys.run [.take, .enter 0] s0)).1 = .exc .typeError ∧
    (SendSys.exec (.send [0]) (SendSys.run [.take, .enter 0, .leave 0 none] s0)).1 = .exc .valueError :=
  ⟨_, rfl, rfl, rfl, rfl, rfl⟩

/-- Objects that nobody has used. -/
def AllNew (s : SendSys) : Prop :=
  ∀ i, i < s.heap.size → (s.heap.obj i).mirror.buf.closed = false ∧ (s.heap.obj i).lock = false ∧
    (s.heap.obj i).saved = false

theorem AllNew.exec {s : SendSys} (hi : SendInv s) (h : AllNew s) (op : SOp) (hop : UnusedStep op) :
    AllNew (SendSys.exec op s).2 := by
  cases op with
  | take => exact h
  | send ts =>
    simp only [SendSys.exec]
    cases hr : SendSys.send ts s with
    | mk r s1 =>
      cases r with
      | error e => rw [SendSys.send_error hr]; exact h
      | ok u =>
        obtain ⟨_, _, _, _, _, a6, _, _, _, a10⟩ := SendSys.send_spec hi ts hr
        intro i hlt
        rcases Nat.lt_or_ge i s.heap.size with g | g
        · simp only [a6 i g]; exact h i g
        · obtain ⟨_, _, _, _, hp⟩ := a10 i g hlt
          obtain ⟨b1, _, _, b4⟩ := MObj.pickle_ok hp
          simp only [b4]; exact ⟨b1, trivial, trivial⟩
  | fork t =>
    simp only [SendSys.exec]
    cases ho : s.holds t with
    | none => exact h
    | some o =>
      intro i hlt
      simp only [Heap.add_size] at hlt
      rcases Nat.lt_or_ge i s.heap.size with g | g
      · simp only [Heap.add_old g]; exact h i g
      · have : i = s.heap.size := by omega
        subst this
        simp only [Heap.add_new]; exact h o (hi.ref _ (SendSys.holds_mem ho))
  | use t c =>
    simp only [SendSys.exec]
    cases ho : s.holds t with
    | none => rw [SendSys.use_none ho]; exact h
    | some o =>
      rw [SendSys.use_some ho]
      intro i hlt
      by_cases e : i = o
      · subst e
        obtain ⟨b1, b2, b3⟩ := h i hlt
        simp only [Heap.put_same, b2, b3]
        cases c <;> first | exact hop.elim | exact ⟨b1, rfl, trivial⟩
      · simp only [Heap.put_other e]; exact h i hlt
  | enter t => exact hop.elim
  | leave t exc => exact hop.elim
  | receive => exact h
  | stopAll => exact h
  | forceStop => exact h
  | reset =>
    have hinv := SendSys.inv_exec hi .reset
    simp only [SendSys.exec] at hinv ⊢
    cases hr : SendSys.onMain ProcBuf.resetStates s with
    | mk r s1 =>
      have he : s1 = (SendSys.onMain ProcBuf.resetStates s).2 := by rw [hr]
      have hh : s1.heap = s.heap := by rw [he]; rfl
      cases r with
      | error e => intro i hlt; simp only [hh] at hlt ⊢; exact h i hlt
      | ok u =>
        rw [hr] at hinv
        intro i hlt
        simp only [hh, Heap.add_size] at hlt hinv ⊢
        rcases Nat.lt_or_ge i s.heap.size with g | g
        · simp only [Heap.add_old g]; exact h i g
        · have : i = s.heap.size := by omega
          subst this
          have hb := hinv.fresh s.heap.size (by simp) (by simp)
          simp only [Heap.add_new] at hb ⊢
          rw [hb]; exact ⟨rfl, trivial, trivial⟩
  | buffer c => cases c <;> exact h

/-- **C79** As long as no mirror is used and no context entered, every message can be sent: mirrors may be
configured, sent on and forked any number of times. -/
theorem C79_unused (maxlen : Int) (room : List Room) (s0 : SendSys) (h : SendSys.new maxlen room = .ok s0)
    (os : List SOp) (hos : ∀ o ∈ os, UnusedStep o) (ts : List Nat) :
    (SendSys.exec (.send ts) (SendSys.run os s0)).1 = .unit := by
  refine (C79_when maxlen _ ⟨s0, room, os, h, rfl⟩ ts).1.2 ?_
  have key : ∀ (os : List SOp) (s : SendSys), SendInv s → AllNew s → (∀ o ∈ os, UnusedStep o) →
      SendInv (SendSys.run os s) ∧ AllNew (SendSys.run os s) := by
    intro os
    induction os with
    | nil => exact fun s a b _ => ⟨a, b⟩
    | cons o os ih =>
      exact fun s a b c => ih _ (SendSys.inv_exec a o) (b.exec a o (c o List.mem_cons_self))
        fun x hx => c x (List.mem_cons_of_mem _ hx)
  obtain ⟨hi, p0, _, rfl, hm, _⟩ := SendSys.inv_new h
  obtain ⟨a, b⟩ := key os _ hi (fun i _ => ⟨by simp only [hm]; rfl, rfl, rfl⟩) hos
  exact fun t o _ ho => b o (a.ref _ (SendSys.holds_mem ho))

example : ∀ o ∈ [SOp.take, .take, .use 0 (.setTimeout (some 3)), .send [0, 1], .receive, .fork 1, .reset],
    UnusedStep o := by simp [UnusedStep, Setter]

/-! ## A mirror that has been used -/

/-- The holder of `t` has an object whose lock has been made or that has saved streams. -/
def Locked (t : Nat) (s : SendSys) : Prop :=
  ∃ o, s.holds t = some o ∧ o < s.heap.size ∧ ((s.heap.obj o).lock = true ∨ (s.heap.obj o).saved = true)

namespace SendSys

theorem locked_put {s : SendSys} {t : Nat} (h : Locked t s) (i : Nat) (x : MObj) (n : Net)
    (hx : (s.heap.obj i).lock = true ∨ (s.heap.obj i).saved = true → x.lock = true ∨ x.saved = true) :
    Locked t { s with heap := s.heap.put i x, net := n } := by
  obtain ⟨o, h1, h2, h3⟩ := h
  refine ⟨o, h1, h2, ?_⟩
  by_cases e : o = i
  · subst e; simp only [Heap.put_same]; exact hx h3
  · simp only [Heap.put_other e]; exact h3

theorem locked_use {s : SendSys} {t : Nat} (h : Locked t s) (i : Nat) (c : MCall) : Locked t (use i c s).2 := by
  cases ho : s.holds i with
  | none => rw [use_none ho]; exact h
  | some o =>
    rw [use_some ho]
    exact locked_put h o _ _ (fun hl => by rcases hl with hl | hl <;> simp [hl])

theorem leave_some {s : SendSys} {t o : Nat} (h : s.holds t = some o) (exc : Option ExcObj) :
    (exec (.leave t exc) s).2 =
      { s with heap := s.heap.put o { mirror := (Mirror.exec (.close exc) ((s.heap.obj o).mirror, s.net)).2.1,
                                      lock := true, saved := false },
               net := (Mirror.exec (.close exc) ((s.heap.obj o).mirror, s.net)).2.2 } := by
  simp only [exec, h]
  rw [use_some (s := { s with heap := s.heap.put o { s.heap.obj o with saved := false } }) (o := o) h]
  simp only [Heap.put_same, MCall.locks, Bool.or_true]
  congr 1
  simp only [Heap.put, Heap.mk.injEq, and_true]
  funext j
  by_cases e : j = o <;> simp [e]

/-- What is used stays used. -/
theorem locked_exec {s : SendSys} (hi : SendInv s) {t : Nat} (h : Locked t s) (op : SOp) (hf : op ≠ .fork t) :
    Locked t (exec op s).2 := by
  obtain ⟨o, h1, h2, h3⟩ := h
  cases op with
  | take =>
    refine ⟨o, ?_, h2, h3⟩
    have : t < s.ref.length := (List.getElem?_eq_some_iff.1 h1).1
    simp only [exec, onMain, holds, List.getElem?_append_left this]
    exact h1
  | send ts =>
    simp only [exec]
    cases hr : send ts s with
    | mk r s1 =>
      cases r with
      | error e => rw [send_error hr]; exact ⟨o, h1, h2, h3⟩
      | ok u =>
        obtain ⟨_, _, _, _, a5, a6, a7, a8, _⟩ := send_spec hi ts hr
        have hn : t ∉ ts := by
          intro hm
          obtain ⟨_, _, _, _, hp⟩ := a8 t o hm h1
          obtain ⟨_, b1, b2, _⟩ := MObj.pickle_ok hp
          rcases h3 with h3 | h3
          · rw [h3] at b1; cases b1
          · rw [h3] at b2; cases b2
        exact ⟨o, (a7 t hn).trans h1, Nat.lt_of_lt_of_le h2 a5, by rw [a6 o h2]; exact h3⟩
  | fork i =>
    simp only [exec]
    cases ho : s.holds i with
    | none => exact ⟨o, h1, h2, h3⟩
    | some x =>
      refine ⟨o, ?_, Nat.lt_succ_of_lt h2, ?_⟩
      · have : i ≠ t := fun e => hf (by rw [e])
        simp only [holds, List.getElem?_set_ne this]; exact h1
      · simp only [Heap.add_old h2]; exact h3
  | use i c => exact locked_use ⟨o, h1, h2, h3⟩ i c
  | enter i =>
    simp only [exec]
    cases ho : s.holds i with
    | none => exact ⟨o, h1, h2, h3⟩
    | some x => exact locked_put ⟨o, h1, h2, h3⟩ x _ s.net (fun _ => .inr rfl)
  | leave i exc =>
    cases ho : s.holds i with
    | none => simp only [exec, ho]; exact ⟨o, h1, h2, h3⟩
    | some x =>
      rw [leave_some ho]
      exact locked_put ⟨o, h1, h2, h3⟩ x _ _ (fun _ => .inl rfl)
  | receive => exact ⟨o, h1, h2, h3⟩
  | stopAll => exact ⟨o, h1, h2, h3⟩
  | forceStop => exact ⟨o, h1, h2, h3⟩
  | reset =>
    simp only [exec]
    cases hr : onMain ProcBuf.resetStates s with
    | mk r s1 =>
      have he : s1 = (onMain ProcBuf.resetStates s).2 := by rw [hr]
      have hh : s1.heap = s.heap := by rw [he]; rfl
      have hrf : s1.ref = s.ref := by rw [he]; rfl
      cases r with
      | error e => exact ⟨o, by simp only [holds, hrf]; exact h1, by rw [hh]; exact h2, by rw [hh]; exact h3⟩
      | ok u =>
        refine ⟨o, by simp only [holds, hrf]; exact h1, by simp only [hh, Heap.add_size]; omega, ?_⟩
        simp only [hh, Heap.add_old h2]; exact h3
  | buffer c => cases c <;> exact ⟨o, h1, h2, h3⟩

theorem locked_run {s : SendSys} (hi : SendInv s) {t : Nat} (h : Locked t s) (os : List SOp)
    (hf : .fork t ∉ os) : Locked t (run os s) := by
  induction os generalizing s with
  | nil => exact h
  | cons o os ih =>
    exact ih (inv_exec hi o) (locked_exec hi h o fun e => hf (by rw [e]; exact List.mem_cons_self))
      fun hm => hf (List.mem_cons_of_mem _ hm)

end SendSys

/-- **C79** Once the holder of `t` has called a method of its mirror (other than setting `timeout` or
`aggressive`), or has entered or left its context, no message with `t` can ever be sent, whatever happens
in between, and the attempt changes nothing. -/
theorem C79_used_never (maxlen : Int) (s : SendSys) (h : SendReach maxlen s) (t o : Nat)
    (ho : s.holds t = some o) (op : SOp) (hop : Uses t op) (os : List SOp) (hf : .fork t ∉ os)
    (ts : List Nat) (ht : t ∈ ts) (s' : SendSys) (hs : s' = SendSys.run (op :: os) s) :
    (SendSys.exec (.send ts) s').1 ≠ .unit ∧ (SendSys.exec (.send ts) s').2 = s' := by
  have hr' : SendReach maxlen s' := by
    obtain ⟨s0, room, os0, h0, rfl⟩ := h
    exact ⟨s0, room, os0 ++ (op :: os), h0, by rw [hs, SendSys.run_append]⟩
  have hlt := h.inv.ref _ (SendSys.holds_mem ho)
  have hl : Locked t s' := by
    rw [hs]
    refine SendSys.locked_run (SendSys.inv_exec h.inv op) ?_ os hf
    cases op with
    | use t' c =>
      obtain ⟨rfl, hc⟩ := hop
      have hlk : c.locks = true := by cases c <;> first | rfl | exact absurd trivial hc
      simp only [SendSys.exec, SendSys.use_some ho]
      exact ⟨o, ho, hlt, by simp [hlk]⟩
    | enter t' =>
      cases hop
      simp only [SendSys.exec, ho]
      exact ⟨o, ho, hlt, by simp⟩
    | leave t' exc =>
      cases hop
      rw [SendSys.leave_some ho]
      exact ⟨o, ho, hlt, by simp⟩
    | _ => exact hop.elim
  obtain ⟨h1, h2⟩ := C79_when maxlen s' hr' ts
  have hne : (SendSys.exec (.send ts) s').1 ≠ .unit := by
    intro hu
    obtain ⟨x, a, _, b⟩ := hl
    have := (h1.1 hu t x ht a).2
    rcases b with b | b
    · rw [b] at this; cases this.1
    · rw [b] at this; cases this.2
  exact ⟨hne, h2 hne⟩

/-- The main process asks whether its mirror is closed; then no process can get it. -/
example : ∃ s0, SendSys.new 3 = .ok s0 ∧ (SendSys.run [.take] s0).holds 0 = some 0 ∧
    (SendSys.exec (.send [1]) (SendSys.run [.take, .use 0 .closed, .take] s0)).1 = .exc .typeError :=
  ⟨_, rfl, rfl, rfl⟩

/-- **C79** is violated for a mirror used in the main process: `pbuf.mirror` gives the same object each
time, so after `pbuf.mirror.write(...)` no mirror of this buffer can be sent to another process, before
the states are reset. -/
theorem C79_main_used_violated (maxlen : Int) (s0 : SendSys) (room : List Room)
    (h : SendSys.new maxlen room = .ok s0) (d : PyStr) (n : Nat) (ts : List Nat) (ht : ∃ t ∈ ts, t ≤ n) :
    (SendSys.exec (.send ts) (SendSys.run (.take :: .use 0 (.write d) :: List.replicate n .take) s0)).1 ≠
      .unit := by
  have hr : SendReach maxlen (SendSys.run (.take :: .use 0 (.write d) :: List.replicate n .take) s0) :=
    ⟨s0, room, _, h, rfl⟩
  obtain ⟨_, p0, _, rfl, _, _⟩ := SendSys.inv_new h
  intro hu
  have key : ∀ n (s : SendSys), s.own = 0 → (s.heap.obj 0).lock = true → (∀ t, t < s.ref.length → s.holds t = some 0) →
      ((SendSys.run (List.replicate n .take) s).heap.obj 0).lock = true ∧
      ∀ t, t < s.ref.length + n → (SendSys.run (List.replicate n .take) s).holds t = some 0 := by
    intro n
    induction n with
    | zero => exact fun s _ h2 h3 => ⟨h2, h3⟩
    | succ n ih =>
      intro s h1 h2 h3
      have hlen : (SendSys.exec .take s).2.ref.length = s.ref.length + 1 := by simp [SendSys.exec, SendSys.onMain]
      obtain ⟨a, b⟩ := ih (SendSys.exec .take s).2 h1 h2 (fun t htl => by
        rw [hlen] at htl
        simp only [SendSys.exec, SendSys.onMain, SendSys.holds]
        rcases Nat.lt_or_ge t s.ref.length with g | g
        · rw [List.getElem?_append_left g]; exact h3 t g
        · have : t = s.ref.length := by omega
          subst this; simp [h1])
      exact ⟨a, fun t htl => b t (by rw [hlen]; omega)⟩
  obtain ⟨t, hm, hle⟩ := ht
  obtain ⟨a, b⟩ := key n (SendSys.run [.take, .use 0 (.write d)]
      { main := p0, heap := { obj := fun _ => { mirror := p0.mirror }, size := 1 }, own := 0,
        net := { room := room } }) rfl rfl (fun t ht => by
    have : t = 0 := Nat.lt_one_iff.1 ht
    subst this; rfl)
  have hlen : (SendSys.run [.take, .use 0 (.write d)]
      { main := p0, heap := { obj := fun _ => { mirror := p0.mirror }, size := 1 }, own := 0,
        net := { room := room } }).ref.length = 1 := rfl
  rw [hlen] at b
  have := ((C79_when maxlen _ hr ts).1.1 hu t 0 hm (b t (by omega))).2.1
  have h2 : (SendSys.run (.take :: .use 0 (.write d) :: List.replicate n .take)
      { main := p0, heap := { obj := fun _ => { mirror := p0.mirror }, size := 1 }, own := 0,
        net := { room := room } }) = SendSys.run (List.replicate n .take) (SendSys.run [.take, .use 0 (.write d)]
      { main := p0, heap := { obj := fun _ => { mirror := p0.mirror }, size := 1 }, own := 0,
        net := { room := room } }) := rfl
  rw [h2, a] at this
  cases this

example : ∃ s0, SendSys.new 3 = .ok s0 ∧
    (SendSys.exec (.send [2]) (SendSys.run [.take, .use 0 (.write (lit "a")), .take, .take] s0)).1 =
      .exc .typeError := ⟨_, rfl, rfl⟩

/-- **C79** is violated for a fork: a mirror with pending text is copied with it, and the text is sent by
both. -/
theorem C79_fork_violated : ∃ s0, SendSys.new 3 = .ok s0 ∧
    (SendSys.run [.take, .take, .use 0 (.write (lit "abc")), .fork 1, .leave 0 none, .leave 1 none]
      s0).net.queues 0 = [.str (lit "abc\n"), .close, .str (lit "abc\n"), .close] :=
  ⟨_, rfl, rfl⟩

/-! ## If the rules are kept, everyone has a mirror of their own -/

/-- **C79** If each reference is sent alone in its message, or forked, before its mirror is used, then
the main buffer, the queue and all mirrors are in every moment as if everyone who took a mirror had one
of their own: as in `ProcSys`, of which the other properties of process mode speak. -/
theorem C79_own (maxlen : Int) (room : List Room) (s0 : SendSys) (h : SendSys.new maxlen room = .ok s0)
    (os : List SOp) (hp : Proper 0 [] os) :
    ∃ p0, ProcBuf.new maxlen = .ok p0 ∧ ∃ a, a = ProcSys.run (os.flatMap abs) { main := p0, net := { room := room } } ∧
      SysReach maxlen a ∧ a.main = (SendSys.run os s0).main ∧ a.net = (SendSys.run os s0).net ∧
      a.mirrors = (SendSys.run os s0).ref.map fun o => ((SendSys.run os s0).heap.obj o).mirror := by
  obtain ⟨ha, p0, hp0, hs⟩ := apart_new h
  exact ⟨p0, hp0, _, rfl, ⟨_, _, ⟨p0, room, hp0, rfl⟩, rfl⟩, SendSys.run_sim os ha hs hp⟩

/-- Two mirrors are sent, one of them is forked, and one is sent on; a text is received. -/
example : Proper 0 [] [.take, .take, .send [0], .take, .send [0], .fork 2, .enter 0, .use 0 (.write (lit "a\n")),
    .use 2 (.write (lit "b")), .receive, .leave 0 none, .send [1], .leave 2 none] := by
  simp [Proper]

example : ∃ s0, SendSys.new 3 = .ok s0 ∧
    (SendSys.run [.take, .take, .send [0], .take, .send [0], .fork 2, .enter 0, .use 0 (.write (lit "a\n")),
      .use 2 (.write (lit "b")), .receive, .leave 0 none, .send [1], .leave 2 none] s0).net.queues 0 =
      [.close, .str (lit "b\n"), .close] := ⟨_, rfl, rfl⟩

/-! ## `Pool.map` -/

theorem chunkSize_one {n p : Nat} (h1 : 1 ≤ n) (h2 : n ≤ 4 * p) : chunkSize n p = 1 := by
  unfold chunkSize
  rcases Nat.lt_or_ge n (p * 4) with g | g
  · rw [Nat.div_eq_of_lt g, Nat.mod_eq_of_lt g, if_neg (by omega)]
  · have : n = p * 4 := by omega
    subst this
    rw [Nat.div_self (by omega), Nat.mod_self, if_pos rfl]

theorem chunkSize_many {n p : Nat} (h1 : 1 ≤ p) (h2 : 4 * p < n) : 2 ≤ chunkSize n p := by
  unfold chunkSize
  have hd : 1 ≤ n / (p * 4) := (Nat.one_le_div_iff (by omega)).2 (by omega)
  by_cases hm : n % (p * 4) = 0
  · rw [if_pos hm]
    have hdm := Nat.div_add_mod n (p * 4)
    rcases Nat.lt_or_ge (n / (p * 4)) 2 with g | g
    · have h3 : n / (p * 4) = 1 := by omega
      rw [h3, hm] at hdm
      omega
    · omega
  · rw [if_neg hm]; omega

theorem chunksOf_one {α : Type} (fuel : Nat) (xs : List α) (h : xs.length ≤ fuel) :
    chunksOf 1 fuel xs = xs.map fun x => [x] := by
  induction fuel generalizing xs with
  | zero =>
    have : xs = [] := List.length_eq_zero_iff.1 (by omega)
    subst this; rfl
  | succ fuel ih =>
    cases xs with
    | nil => rfl
    | cons x xs =>
      simp only [chunksOf, reduceCtorEq, if_false, List.take_succ_cons, List.take_zero, List.drop_succ_cons,
        List.drop_zero, List.map_cons]
      rw [ih xs (by simp at h; omega)]

theorem chunksOf_mem {α : Type} {k fuel : Nat} {xs c : List α} (h : c ∈ chunksOf k fuel xs) :
    ∀ x ∈ c, x ∈ xs := by
  induction fuel generalizing xs with
  | zero => cases h
  | succ fuel ih =>
    simp only [chunksOf] at h
    split at h
    · cases h
    · rcases List.mem_cons.1 h with rfl | g
      · exact fun x hx => List.mem_of_mem_take hx
      · exact fun x hx => List.mem_of_mem_drop (ih g x hx)

theorem poolChunks_one {n p : Nat} (h2 : n ≤ 4 * p) :
    poolChunks p (List.range n) = (List.range n).map fun t => [t] := by
  unfold poolChunks
  rcases Nat.eq_zero_or_pos n with rfl | h1
  · rfl
  · simp only [List.length_range]
    rw [chunkSize_one h1 h2]
    exact chunksOf_one _ _ (by simp)

theorem poolChunks_together {n p : Nat} (h1 : 1 ≤ p) (h2 : 4 * p < n) :
    ∀ c ∈ poolChunks p (List.range n), 0 ∈ c ↔ 1 ∈ c := by
  intro c hc
  unfold poolChunks at hc
  simp only [List.length_range] at hc
  have hk := chunkSize_many h1 h2
  generalize chunkSize n p = k at hc hk
  match n, h2 with
  | n + 2, _ =>
    have hr : List.range (n + 2) = 0 :: 1 :: (List.range n).map (· + 2) := by
      rw [List.range_succ_eq_map, List.range_succ_eq_map]; simp
    match k, hk with
    | k + 2, _ =>
      rw [chunksOf, if_neg (by simp), hr] at hc
      rcases List.mem_cons.1 hc with rfl | g
      · simp
      · have hm := chunksOf_mem g
        simp only [List.drop_succ_cons] at hm
        constructor <;>
        · intro hx
          have := List.mem_of_mem_drop (hm _ hx)
          simp at this
  | 1, h => omega

/-- The history of a program that takes `n` mirrors and works with them, seen as in `ProcSys`. -/
theorem working_proper {n : Nat} (os : List SOp) {sent : List Nat} (hw : Working sent os)
    (hm : ∀ c ∈ messages os, ∃ t, c = [t] ∧ t < n) :
    Proper n sent os ∧ os.flatMap abs = (calls os).map fun o => .mirror o.1 o.2 := by
  induction os generalizing sent with
  | nil => exact ⟨trivial, rfl⟩
  | cons o os ih =>
    cases o with
    | send ts =>
      obtain ⟨t, rfl, ht⟩ := hm ts List.mem_cons_self
      obtain ⟨a, b⟩ := ih (sent := [t] ++ sent) hw fun c hc => hm c (List.mem_cons_of_mem _ hc)
      exact ⟨⟨t, rfl, ht, a⟩, b⟩
    | use t c =>
      obtain ⟨a, b⟩ := ih hw.2 hm
      exact ⟨⟨hw.1, a⟩, congrArg (List.cons _) b⟩
    | enter t =>
      obtain ⟨a, b⟩ := ih hw.2 hm
      exact ⟨⟨hw.1, a⟩, b⟩
    | leave t exc =>
      obtain ⟨a, b⟩ := ih hw.2 hm
      exact ⟨⟨hw.1, a⟩, congrArg (List.cons _) b⟩
    | _ => exact hw.elim

theorem proper_takes (k n : Nat) (sent : List Nat) (os : List SOp) (h : Proper (n + k) sent os) :
    Proper n sent (List.replicate k .take ++ os) := by
  induction k generalizing n with
  | zero => exact h
  | succ k ih => exact ih (n + 1) (by rw [show n + 1 + k = n + (k + 1) by omega]; exact h)

/-- **C79** With at most four tasks per worker, `Pool(p).map` works: `n` mirrors are taken and cut into
messages by the pool; the tasks, in any interleaving with each other and with the messages still to come,
use their mirrors in their contexts.  Then `wait()` returns with everything received. -/
theorem C79_pool (maxlen : Int) (s0 : SendSys) (h : SendSys.new maxlen = .ok s0) (p n : Nat) (h1 : 1 ≤ n)
    (h2 : n ≤ 4 * p) (os : List SOp) (hm : messages os = poolChunks p (List.range n)) (hw : Working [] os)
    (hp : ∀ t, t < n → ProperProgram (callsOf t (calls os))) (s : SendSys)
    (hs : s = SendSys.run (List.replicate n .take ++ os) s0) :
    ∃ p' n' l, ProcBuf.wait (s.main, s.net) = (.ok (), (p', n')) ∧ n'.queues 0 = [] ∧ p'.nMirrors = 0 ∧
      Replays { cap := maxlen.toNat } (s.net.queues 0) l ∧ Holds p'.base l ∧
      Merge ((List.range n).map fun t => sentBy (callsOf t (calls os))) (s.net.queues 0) := by
  obtain ⟨ha, hb⟩ := working_proper (n := n) os hw (fun c hc => by
    rw [hm, poolChunks_one h2] at hc
    obtain ⟨t, ht, rfl⟩ := List.mem_map.1 hc
    exact ⟨t, rfl, List.mem_range.1 ht⟩)
  obtain ⟨p0, hp0, a, hae, _, hmain, hnet, _⟩ := C79_own maxlen [] s0 h (List.replicate n .take ++ os)
    (proper_takes n 0 [] os (by rw [Nat.zero_add]; exact ha))
  have htk : (List.replicate n SOp.take).flatMap abs = List.replicate n ProcOp.take := by
    clear * -
    induction n with
    | zero => rfl
    | succ n ih => simp only [List.replicate_succ, List.flatMap_cons, ih]; rfl
  rw [List.flatMap_append, htk, hb, sysRun_append] at hae
  have hsys := C24_system maxlen p0 hp0 n h1 (calls os) hp a hae
  have hmg := (C24_queue_interleaves maxlen p0 hp0 n (calls os)).1
  rw [hs, ← hmain, ← hnet]
  obtain ⟨p', n', l, e1, e2, e3, e4, e5⟩ := hsys
  refine ⟨p', n', l, e1, e2, e3, e4, e5, ?_⟩
  rw [hae]
  exact hmg

/-! ## References that share an object -/

namespace SendSys

theorem use_ref (t : Nat) (c : MCall) (s : SendSys) : (use t c s).2.ref = s.ref := by
  cases ho : s.holds t with
  | none => rw [use_none ho]
  | some x => rw [use_some ho]

theorem together_exec {s : SendSys} (hi : SendInv s) {i j : Nat} (h : ∃ o, s.holds i = some o ∧ s.holds j = some o)
    (op : SOp) (hop : Together i j op) : ∃ o, (exec op s).2.holds i = some o ∧ (exec op s).2.holds j = some o := by
  obtain ⟨o, h1, h2⟩ := h
  cases op with
  | take =>
    have a : i < s.ref.length := (List.getElem?_eq_some_iff.1 h1).1
    have b : j < s.ref.length := (List.getElem?_eq_some_iff.1 h2).1
    refine ⟨o, ?_, ?_⟩
    · simp only [exec, onMain, holds, List.getElem?_append_left a]; exact h1
    · simp only [exec, onMain, holds, List.getElem?_append_left b]; exact h2
  | send ts =>
    simp only [exec]
    cases hr : send ts s with
    | mk r s1 =>
      cases r with
      | error e => rw [send_error hr]; exact ⟨o, h1, h2⟩
      | ok u =>
        obtain ⟨_, _, _, _, _, _, a7, a8, a9, _⟩ := send_spec hi ts hr
        by_cases hm : i ∈ ts
        · obtain ⟨o', e, _⟩ := a8 i o hm h1
          exact ⟨o', e, by rw [← (a9 i j o o hm (hop.1 hm) h1 h2).2 rfl]; exact e⟩
        · exact ⟨o, (a7 i hm).trans h1, (a7 j fun hj => hm (hop.2 hj)).trans h2⟩
  | fork t =>
    simp only [exec]
    cases ho : s.holds t with
    | none => exact ⟨o, h1, h2⟩
    | some x =>
      refine ⟨o, ?_, ?_⟩
      · simp only [holds, List.getElem?_set_ne hop.1]; exact h1
      · simp only [holds, List.getElem?_set_ne hop.2]; exact h2
  | use t c => exact ⟨o, by simp only [exec, holds, use_ref]; exact h1, by simp only [exec, holds, use_ref]; exact h2⟩
  | enter t =>
    simp only [exec]
    cases s.holds t <;> exact ⟨o, h1, h2⟩
  | leave t exc =>
    simp only [exec]
    cases s.holds t with
    | none => exact ⟨o, h1, h2⟩
    | some x => exact ⟨o, by simp only [holds, use_ref]; exact h1, by simp only [holds, use_ref]; exact h2⟩
  | receive => exact ⟨o, h1, h2⟩
  | stopAll => exact ⟨o, h1, h2⟩
  | forceStop => exact ⟨o, h1, h2⟩
  | reset =>
    simp only [exec]
    cases hr : onMain ProcBuf.resetStates s with
    | mk r s1 =>
      have hrf : s1.ref = s.ref := by
        have he : s1 = (onMain ProcBuf.resetStates s).2 := by rw [hr]
        rw [he]; rfl
      cases r <;> exact ⟨o, by simp only [holds, hrf]; exact h1, by simp only [holds, hrf]; exact h2⟩
  | buffer c => cases c <;> exact ⟨o, h1, h2⟩

theorem together_run {s : SendSys} (hi : SendInv s) {i j : Nat} (h : ∃ o, s.holds i = some o ∧ s.holds j = some o)
    (os : List SOp) (hos : ∀ o ∈ os, Together i j o) :
    ∃ o, (run os s).holds i = some o ∧ (run os s).holds j = some o := by
  induction os generalizing s with
  | nil => exact h
  | cons o os ih =>
    exact ih (inv_exec hi o) (together_exec hi h o (hos o List.mem_cons_self))
      fun x hx => hos x (List.mem_cons_of_mem _ hx)

end SendSys

/-- **C79** is violated for two references to one object, as after a message that has both: whatever
happens that does not separate them, as long as end signals come from leaving contexts, `wait()` does not
return. -/
theorem C79_shared_violated (maxlen : Int) (room : List Room) (s0 : SendSys)
    (h : SendSys.new maxlen room = .ok s0) (os later : List SOp) (ho : ∀ o ∈ os ++ later, Ordinary o)
    (i j o : Nat) (hne : i ≠ j) (hi : (SendSys.run os s0).holds i = some o)
    (hj : (SendSys.run os s0).holds j = some o) (hl : ∀ x ∈ later, Together i j x) (s : SendSys)
    (hs : s = SendSys.run (os ++ later) s0) : (ProcBuf.wait (s.main, s.net)).1 ≠ .ok () := by
  have hc := SendSys.counted_run (counted_new h) (os ++ later) ho
  rw [← hs] at hc
  obtain ⟨o', a, b⟩ := SendSys.together_run (SendSys.inv_run (SendSys.inv_new h).1 os) ⟨o, hi, hj⟩ later hl
  rw [← SendSys.run_append, ← hs] at a b
  exact counted_shared hc hne a b

/-- Both tasks do their work, and `wait()` waits for a second end signal. -/
example : ∃ s0, SendSys.new 3 = .ok s0 ∧
    (let s := SendSys.run [.take, .take, .send [0, 1], .enter 0, .use 0 (.write (lit "a\n")), .leave 0 none,
      .enter 1, .use 1 (.write (lit "b\n")), .leave 1 none] s0
     s.net.queues 0 = [.str (lit "a\n"), .close] ∧ s.main.nMirrors = 2 ∧
       (ProcBuf.wait (s.main, s.net)).1 = .error .blocked) := ⟨_, rfl, rfl, rfl, rfl⟩

/-- **C79** Once one of two holders of one object has left its context (or called any method that closed
it), the other's calls send nothing: `write` raises `OSError`, and the queue stays what it is. -/
theorem C79_shared_write (maxlen : Int) (s : SendSys) (h : SendReach maxlen s) (i j o : Nat)
    (hi : s.holds i = some o) (hj : s.holds j = some o) (exc : Option ExcObj) (s1 : SendSys)
    (h1 : s1 = (SendSys.exec (.leave i exc) s).2) (hcl : (s1.heap.obj o).mirror.buf.closed = true) (c : MCall) :
    (SendSys.exec (.use j c) s1).1 = closedMRet c ∧ (SendSys.exec (.use j c) s1).2.net = s1.net := by
  obtain ⟨s0, room, os, h0, rfl⟩ := h
  have hr1 : SendReach maxlen s1 := ⟨s0, room, os ++ [.leave i exc], h0, by
    rw [h1, SendSys.run_append]; rfl⟩
  have hj1 : s1.holds j = some o := by
    rw [h1]
    simp only [SendSys.exec, hi]
    simp only [SendSys.holds, SendSys.use_ref]
    exact hj
  have hx := C19_after_close _ _ (hr1.inv.reach o (hr1.inv.ref _ (SendSys.holds_mem hj1))) s1.net hcl [c]
  simp only [Mirror.run, List.map_cons, List.map_nil, List.cons.injEq, and_true] at hx
  simp only [SendSys.exec, SendSys.use_some hj1]
  exact ⟨hx.1, hx.2.1⟩

example : ∃ s0, SendSys.new 3 = .ok s0 ∧
    (SendSys.exec (.use 1 (.write (lit "b\n"))) (SendSys.run [.take, .take, .send [0, 1], .enter 0,
      .use 0 (.write (lit "a\n")), .leave 0 none, .enter 1] s0)).1 = .exc .osError := ⟨_, rfl, rfl⟩

theorem takes_hold {maxlen : Int} {room : List Room} {s0 : SendSys} (h : SendSys.new maxlen room = .ok s0)
    (n : Nat) : (SendSys.run (List.replicate n .take) s0).ref = List.replicate n 0 := by
  obtain ⟨_, p0, _, rfl, _, _⟩ := SendSys.inv_new h
  have key : ∀ n (s : SendSys), s.own = 0 →
      (SendSys.run (List.replicate n .take) s).ref = s.ref ++ List.replicate n 0 := by
    intro n
    induction n with
    | zero => intro s _; simp [SendSys.run]
    | succ n ih =>
      intro s hs
      refine (ih (SendSys.exec .take s).2 hs).trans ?_
      simp [SendSys.exec, SendSys.onMain, hs, List.replicate_succ]
  exact (key n _ rfl).trans (List.nil_append _)

theorem messages_mem {os : List SOp} {ts : List Nat} (h : .send ts ∈ os) : ts ∈ messages os := by
  induction os with
  | nil => cases h
  | cons o os ih =>
    rcases List.mem_cons.1 h with rfl | g
    · exact List.mem_cons_self
    · cases o <;> first | exact ih g | exact List.mem_cons_of_mem _ (ih g)

/-- **C79** is violated for more than four tasks per worker: `Pool(p).map` then puts several references
to the one mirror into one message, the tasks share a copy, only one end signal is sent for it, and
`wait()` does not return, after any number of messages, uses of mirrors in their contexts and receptions. -/
theorem C79_pool_violated (maxlen : Int) (room : List Room) (s0 : SendSys) (h : SendSys.new maxlen room = .ok s0)
    (p n : Nat) (h1 : 1 ≤ p) (h2 : 4 * p < n) (os : List SOp)
    (hm : messages os <+: poolChunks p (List.range n)) (ho : ∀ o ∈ os, Ordinary o) (hf : ∀ t, .fork t ∉ os)
    (s : SendSys) (hs : s = SendSys.run (List.replicate n .take ++ os) s0) :
    (ProcBuf.wait (s.main, s.net)).1 ≠ .ok () := by
  have h0 := takes_hold h n
  refine C79_shared_violated maxlen room s0 h (List.replicate n .take) os ?_ 0 1 0 (by omega) ?_ ?_ ?_ s hs
  · intro o hx
    rcases List.mem_append.1 hx with g | g
    · rw [List.eq_of_mem_replicate g]; trivial
    · exact ho o g
  · rw [SendSys.holds, h0]; exact List.getElem?_replicate_of_lt (by omega)
  · rw [SendSys.holds, h0]; exact List.getElem?_replicate_of_lt (by omega)
  · intro x hx
    cases x with
    | send ts => exact poolChunks_together h1 h2 ts (hm.subset (messages_mem hx))
    | fork t => exact absurd hx (hf t)
    | _ => trivial

/-- Five tasks for one worker: the pool makes chunks of two. -/
example : poolChunks 1 (List.range 5) = [[0, 1], [2, 3], [4]] := by decide

/-- Run the tasks of a pool one after the other: the number of messages in the queue, the number of
mirrors counted, and whether `wait()` returns. -/
def poolTest (p n : Nat) : Option (Nat × Int × Bool) :=
  match SendSys.new 9 with
  | .error _ => none
  | .ok s0 =>
    let s := SendSys.run (poolMap p n ++ (List.range n).flatMap fun t =>
      [.enter t, .use t (.write (lit "a\n")), .leave t none]) s0
    some ((s.net.queues 0).length, s.main.nMirrors,
      match (ProcBuf.wait (s.main, s.net)).1 with | .ok _ => true | .error _ => false)

/-- Five tasks for one worker, and four. -/
example : poolTest 1 5 = some (6, 5, false) ∧ poolTest 1 4 = some (8, 4, true) := by decide +kernel

/-- The first task works before the second mirror has been sent. -/
example : Working [] [.send [0], .enter 0, .use 0 (.write (lit "a")), .send [1], .leave 0 none, .leave 1 none] ∧
    messages [.send [0], .enter 0, .use 0 (.write (lit "a")), .send [1], .leave 0 none, .leave 1 none] =
      poolChunks 4 (List.range 2) := ⟨by simp [Working], by decide⟩

end SyncStream
