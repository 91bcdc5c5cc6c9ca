import Verif.Lemmas.CloseOnce
import Verif.Lemmas.Sched
/-!
# Property C69: closing a mirror that threads share

Threads of any number of processes use the mirrors of their processes, while a thread of the main process receives; the steps are
interleaved in every possible way, and the locks of the mirrors are made on the first use (`MThr.lazyLock`).
-/

namespace SyncStream
open Conc Prog Spec PThr

variable {q : Nat} {ps : List Nat} {t : Nat → Nat} {r : Nat} {proc : Nat → Nat} {ok : Nat → PCall → Prop} {w : PWorld}
  {κ : Conc.Conf PWorld PLock Unit PCall PRet} {tr : List (Ev PCall PRet)}

theorem debts_idle {a : Nat → Int × Int} (h : ∀ p ∈ ps, (a (t p)).2 = 0) : debts t a ps = 0 := by
  induction ps with
  | nil => rfl
  | cons p ps ih =>
    show (a (t p)).2 + debts t a ps = 0
    rw [h p (List.mem_cons_self ..), ih fun p hp => h p (List.mem_cons_of_mem _ hp)]
    rfl

/-- **C69** Whenever no mirror is just being closed and nothing is just being received, every mirror that was closed has sent one
end signal: `n_mirrors` is the number of open mirrors and waiting end signals.  What is missing: mirrors closed by more than one thread,
for which it fails (`C69_twice`). -/
theorem C69_count_partial (h : OneCloser ps t r proc ok) (hj : Joined q w) (hw : EachOnce ps w)
    (he : Exec (procThreads MThr.lazyLock proc ok) (init w fun _ => ()) tr κ) (hi : ∀ p ∈ ps, κ.cur (t p) = none)
    (hr : κ.cur r = none) : EachOnce ps κ.st := by
  obtain ⟨a, h1, ⟨h2, _⟩, _, h4, _⟩ := close_stages MThr.harmless_lazy h hj hw he
  have e := debts_idle (t := t) (a := a) fun p hp => h4 _ (hi p hp)
  rw [e, h4 r hr] at h2
  unfold EachOnce waiting
  rw [(h1 0).1.main]
  unfold balance at h2
  omega

/-- **C69** A mirror whose `close()` has returned without an exception is closed, whatever the other threads of the process do.
What is missing: mirrors closed by more than one thread. -/
theorem C69_closed_partial (h : OneCloser ps t r proc ok) (hj : Joined q w) (hw : EachOnce ps w)
    (he : Exec (procThreads MThr.lazyLock proc ok) (init w fun _ => ()) tr κ) (p : Nat) (hp : p ∈ ps)
    (hc : HasClosed (returned (t p) tr)) : (κ.st.procs p).mirror.buf.closed = true := by
  obtain ⟨a, h1, _, h3, _⟩ := close_stages MThr.harmless_lazy h hj hw he
  have hcl : Closer ps t proc (t p) := by
    show proc (t p) ∈ ps ∧ t p = t (proc (t p))
    rw [h.home p hp]; exact ⟨hp, rfl⟩
  have h5 := (h3 (t p)).2 (h.apart p hp) hcl hc
  have h6 := (h1 (t p)).2
  unfold own at h6
  rw [if_neg (h.apart p hp), if_pos hcl, h.home p hp] at h6
  rw [← h6] at h5
  unfold openM at h5
  split at h5
  · assumption
  · exact absurd h5 (by decide)

/-- The debts are no more than the open mirrors, and equal only one by one. -/
theorem debts_open {a : Nat → Int × Int} {w : PWorld} (h : ∀ p ∈ ps, (a (t p)).2 ≤ openM (w.procs p)) :
    debts t a ps ≤ openMirrors w ps ∧ (openMirrors w ps ≤ debts t a ps → ∀ p ∈ ps, openM (w.procs p) ≤ (a (t p)).2) := by
  induction ps with
  | nil => exact ⟨Int.le_refl _, fun _ _ h => nomatch h⟩
  | cons p ps ih =>
    obtain ⟨h1, h2⟩ := ih fun p hp => h p (List.mem_cons_of_mem _ hp)
    have h3 := h p (List.mem_cons_self ..)
    have e1 : openMirrors w (p :: ps) = openM (w.procs p) + openMirrors w ps := rfl
    have e2 : debts t a (p :: ps) = (a (t p)).2 + debts t a ps := rfl
    refine ⟨by omega, fun hle p' hp' => ?_⟩
    rcases List.mem_cons.1 hp' with rfl | hp'
    · omega
    · exact h2 (by omega) p' hp'

/-- **C69** From the moment on when a `receive()` has returned `False` (then a `wait()` returns), no end signal arrives any more, and
every mirror is closed, but for those where the thread that closes it is still in `close()` (the end signal has been received).  What
is missing: mirrors closed by more than one thread, for which it fails (`C69_violated`). -/
theorem C69_wait_partial (h : OneCloser ps t r proc ok) (hj : Joined q w) (hw : EachOnce ps w)
    (he : Exec (procThreads MThr.lazyLock proc ok) (init w fun _ => ()) tr κ) (hf : HasEnded (returned r tr)) :
    κ.st.main.nMirrors = 0 ∧ Spec.ends (waiting κ.st) = 0 ∧
    ∀ p ∈ ps, (κ.st.procs p).mirror.buf.closed = true ∨ ∃ e prog, κ.cur (t p) = some (.mirror (.close e), prog) := by
  obtain ⟨a, h1, ⟨h2, h2'⟩, h3, h4, h5⟩ := close_stages MThr.harmless_lazy h hj hw he
  have hn : κ.st.main.nMirrors ≤ 0 := by
    have := (h3 r).1 rfl hf
    rwa [← (h1 r).2, own_receiver] at this
  have hd : ∀ p ∈ ps, (a (t p)).2 ≤ openM (κ.st.procs p) := fun p hp => by
    have hcl : Closer ps t proc (t p) := by
      show proc (t p) ∈ ps ∧ t p = t (proc (t p))
      rw [h.home p hp]; exact ⟨hp, rfl⟩
    have h6 := (h1 (t p)).2
    have h7 := h2' (t p)
    unfold own at h6
    unfold At at h7
    rw [if_neg (h.apart p hp), if_pos hcl] at h6 h7
    rw [h.home p hp] at h6
    rw [h6]
    rcases h7 with e | e | e <;> rw [e] <;> decide
  obtain ⟨d1, d2⟩ := debts_open hd
  have hr := at_receiver.1 (h2' r)
  have hE := ends_nonneg (κ.st.net.queues q)
  unfold balance at h2
  refine ⟨by omega, ?_, fun p hp => ?_⟩
  · unfold waiting
    rw [(h1 0).1.main]
    omega
  · have h6 := d2 (by omega) p hp
    by_cases hc : (κ.st.procs p).mirror.buf.closed = true
    · exact .inl hc
    · refine .inr ?_
      have : openM (κ.st.procs p) = 1 := if_neg hc
      cases hcur : κ.cur (t p) with
      | none => have := h4 _ hcur; omega
      | some x =>
        obtain ⟨c, prog⟩ := x
        obtain ⟨hok, hcalm⟩ := h5 _ _ _ hcur
        cases c with
        | mirror c =>
          cases c with
          | close e => exact ⟨e, prog, rfl⟩
          | sendEof => exact (h.others _ _ hok).elim
          | sendError e => exact (h.others _ _ hok).elim
          | _ => have := hcalm trivial; omega
        | take p => exact (h.others _ _ hok).elim
        | receive => exact absurd (h.receives _ hok) (h.apart p hp)
        | stopAll => have := hcalm trivial; omega
        | forceStop => exact (h.others _ _ hok).elim
        | reset => exact (h.others _ _ hok).elim
        | buffer c => have := hcalm trivial; omega

/-! ## Two threads close a mirror -/

/-- Two processes with a mirror each, which have been used; two threads of the first, one of the second and one of the main process. -/
def closeWorld : PWorld :=
  ⟨{ base := { storage := { maxlen := 9 } }, nMirrors := 2 }, fun _ => { mirror := .new 0, lock := some 0, made := 1 },
    { queues := fun _ => [] }⟩

/-- Thread 0 and 1 belong to process 0, thread 2 to process 1, thread 3 to the main process. -/
def closeProc (i : Nat) : Nat := if i < 2 then 0 else i - 1

/-- Threads 0 to 2 write and close, thread 1 only if `both`; thread 3 receives. -/
def closeOk (both : Bool) (i : Nat) (c : PCall) : Prop :=
  (i = 3 ∧ c = .receive) ∨ (i < 3 ∧ ((∃ e, c = .mirror (.close e)) ∧ (i ≠ 1 ∨ both = true) ∨ ∃ d, c = .mirror (.write d)))

/-- Carry out moves and look at the end. -/
def closeRuns (both : Bool) (ms : List (Move PCall)) (check : List (Ev PCall PRet) → Conc.Conf PWorld PLock Unit PCall PRet → Bool) : Bool :=
  (ms.all fun
    | .start 3 .receive => true
    | .start i (.mirror (.close _)) => decide (i < 3 ∧ (i ≠ 1 ∨ both = true))
    | .start i (.mirror (.write _)) => decide (i < 3)
    | .start _ _ => false
    | .go _ => true) &&
  match moves (procThreads MThr.lazyLock closeProc (closeOk both)) 4 ms (init closeWorld fun _ => ())
      (fun | .buf _ _ => true | _ => false) with
  | none => false
  | some (tr, κ) => (κ.cur 0).isNone && (κ.cur 1).isNone && (κ.cur 2).isNone && (κ.cur 3).isNone && check tr κ

theorem closeRuns_sound {both : Bool} {ms : List (Move PCall)} {check : List (Ev PCall PRet) → Conc.Conf PWorld PLock Unit PCall PRet → Bool}
    (h : closeRuns both ms check = true) :
    ∃ tr κ, Exec (procThreads MThr.lazyLock closeProc (closeOk both)) (init closeWorld fun _ => ()) tr κ ∧ (∀ i, κ.cur i = none) ∧
      check tr κ = true := by
  unfold closeRuns at h
  rw [Bool.and_eq_true] at h
  obtain ⟨h0, h⟩ := h
  cases e : moves (procThreads MThr.lazyLock closeProc (closeOk both)) 4 ms (init closeWorld fun _ => ())
      (fun | .buf _ _ => true | _ => false) with
  | none => rw [e] at h; cases h
  | some x =>
    obtain ⟨tr, κ⟩ := x
    rw [e] at h
    simp only [Bool.and_eq_true, Option.isNone_iff_eq_none] at h
    obtain ⟨⟨⟨⟨h1, h2⟩, h3⟩, h4⟩, h5⟩ := h
    refine ⟨tr, κ, ?_, fun i => ?_, h5⟩
    · refine moves_sound (sys := procThreads MThr.lazyLock closeProc (closeOk both)) (ms := ms) (n := 4)
        (re := fun | .buf _ _ => true | _ => false) (fun m hm i c em => ?_) (fun _ _ _ => rfl) e ?_
      · subst em
        have := List.all_eq_true.1 h0 _ hm
        split at this
        · rename_i e; cases e; exact .inl ⟨rfl, rfl⟩
        · rename_i e; cases e; have := of_decide_eq_true this; exact .inr ⟨this.1, .inl ⟨⟨_, rfl⟩, this.2⟩⟩
        · rename_i e; cases e; exact .inr ⟨of_decide_eq_true this, .inr ⟨_, rfl⟩⟩
        · cases this
        · rename_i e; cases e
      · intro l hl
        cases l with
        | buf p k => exact ⟨p, k, rfl⟩
        | _ => cases hl
    · match i with
      | 0 => exact h1
      | 1 => exact h2
      | 2 => exact h3
      | 3 => exact h4
      | i + 4 => exact moves_idle e (Nat.le_add_left 4 i) rfl

/-- What the calls of a thread on a mirror have returned without an exception, or the exceptions. -/
def closeRets (i : Nat) (tr : List (Ev PCall PRet)) : List (Option Exc) :=
  (retsBy i tr).map fun
    | .mirror (.exc e) => some e
    | _ => none

/-- The queue has these messages: the end signal, or a text. -/
def closeQueue (w : PWorld) : List (Option PyStr) :=
  (w.net.queues 0).map fun
    | .str d => some d
    | _ => none

/-- Thread `i` has returned from a single `close()`. -/
def closedBy (i : Nat) (tr : List (Ev PCall PRet)) : Bool :=
  match returned i tr with
  | [(.mirror (.close _), .mirror .unit)] => true
  | _ => false

theorem closedBy_sound {i : Nat} {tr : List (Ev PCall PRet)} (h : closedBy i tr = true) : HasClosed (returned i tr) := by
  unfold closedBy at h
  split at h
  · rename_i e
    rw [e]
    exact ⟨_, List.mem_singleton.2 rfl⟩
  · cases h

/-- The last of two `receive()` has returned `False`. -/
def endedBy (i : Nat) (tr : List (Ev PCall PRet)) : Bool :=
  match returned i tr with
  | [_, (.receive, .main (.bool false))] => true
  | _ => false

theorem endedBy_sound {i : Nat} {tr : List (Ev PCall PRet)} (h : endedBy i tr = true) : HasEnded (returned i tr) := by
  unfold endedBy at h
  split at h
  · rename_i e
    rw [e]
    exact List.mem_cons_of_mem _ (List.mem_singleton.2 rfl)
  · cases h

theorem closeWorld_joined : Joined 0 closeWorld := ⟨rfl, fun _ => rfl, fun _ h => nomatch h⟩
theorem closeWorld_once : EachOnce [0, 1] closeWorld := rfl

/-- Both threads of process 0 find the mirror open, then both send the end signal, and both `close()` return. -/
theorem C69_twice : ∃ tr κ, Exec (procThreads MThr.lazyLock closeProc (closeOk true)) (init closeWorld fun _ => ()) tr κ ∧
    (∀ i, κ.cur i = none) ∧ HasClosed (returned 0 tr) ∧ HasClosed (returned 1 tr) ∧ Spec.ends (waiting κ.st) = 2 ∧
    ¬ EachOnce [0, 1] κ.st := by
  obtain ⟨tr, κ, h1, h2, h3⟩ := closeRuns_sound (both := true) (ms := .start 0 (.mirror (.close none)) :: .start 1 (.mirror (.close none)) ::
    List.replicate 15 (.go 0) ++ List.replicate 15 (.go 1) ++ List.replicate 7 (.go 0) ++ List.replicate 7 (.go 1) ++
    List.replicate 6 (.go 0) ++ List.replicate 6 (.go 1))
    (check := fun tr κ => closedBy 0 tr && closedBy 1 tr && decide (Spec.ends (waiting κ.st) = 2) &&
      decide (κ.st.main.nMirrors = 2) && decide (openMirrors κ.st [0, 1] = 1)) (by decide +kernel)
  simp only [Bool.and_eq_true, decide_eq_true_eq] at h3
  obtain ⟨⟨⟨⟨k1, k2⟩, k3⟩, k4⟩, k5⟩ := h3
  refine ⟨tr, κ, h1, h2, closedBy_sound k1, closedBy_sound k2, k3, ?_⟩
  unfold EachOnce
  rw [k3, k4, k5]
  decide

/-- **C69** violated: with several threads that close a mirror, `wait()` can return while the mirror of another process is open and
nobody closes it: two end signals of process 0 have been counted. -/
theorem C69_violated : ¬ ∀ (q : Nat) (ps : List Nat) (r : Nat) (proc : Nat → Nat) (ok : Nat → PCall → Prop) (w : PWorld)
    (tr : List (Ev PCall PRet)) (κ : Conc.Conf PWorld PLock Unit PCall PRet), ps.Nodup →
    (∀ i c, ok i c → (i = r ∧ c = .receive) ∨
      (i ≠ r ∧ proc i ∈ ps ∧ ((∃ e, c = .mirror (.close e)) ∨ ∃ d, c = .mirror (.write d)))) →
    Joined q w → EachOnce ps w → Exec (procThreads MThr.lazyLock proc ok) (init w fun _ => ()) tr κ → HasEnded (returned r tr) →
    ∀ p ∈ ps, (κ.st.procs p).mirror.buf.closed = true ∨ ∃ i e prog, proc i = p ∧ κ.cur i = some (.mirror (.close e), prog) := by
  intro h
  obtain ⟨tr, κ, h1, h2, h3⟩ := closeRuns_sound (both := true) (ms := .start 0 (.mirror (.close none)) :: .start 1 (.mirror (.close none)) ::
    List.replicate 15 (.go 0) ++ List.replicate 15 (.go 1) ++ List.replicate 7 (.go 0) ++ List.replicate 7 (.go 1) ++
    List.replicate 6 (.go 0) ++ List.replicate 6 (.go 1) ++ .start 3 .receive :: List.replicate 8 (.go 3) ++
    .start 3 .receive :: List.replicate 8 (.go 3))
    (check := fun tr κ => endedBy 3 tr && !(κ.st.procs 1).mirror.buf.closed) (by decide +kernel)
  simp only [Bool.and_eq_true, Bool.not_eq_true'] at h3
  have := h 0 [0, 1] 3 closeProc (closeOk true) closeWorld tr κ (by decide) (fun i c hok => ?_) closeWorld_joined closeWorld_once h1
    (endedBy_sound h3.1) 1 (by decide)
  · rcases this with hc | ⟨i, _, _, _, hc⟩
    · rw [h3.2] at hc; cases hc
    · rw [h2 i] at hc; cases hc
  · rcases hok with ⟨rfl, rfl⟩ | ⟨hi, hc⟩
    · exact .inl ⟨rfl, rfl⟩
    · refine .inr ⟨by omega, ?_, ?_⟩
      · match i, hi with
        | 0, _ => decide
        | 1, _ => decide
        | 2, _ => decide
      · rcases hc with ⟨hc, _⟩ | hc
        · exact .inl hc
        · exact .inr hc

/-- "The second call will do nothing" (`mproc.py:492`) is wrong, too: thread 0 finds the mirror open, thread 1 closes it, and then the
`close()` of thread 0 raises `ValueError` (from `clear()`). -/
theorem C69_raises : ∃ tr κ, Exec (procThreads MThr.lazyLock closeProc (closeOk true)) (init closeWorld fun _ => ()) tr κ ∧
    (∀ i, κ.cur i = none) ∧ HasClosed (returned 1 tr) ∧ closeRets 0 tr = [some .valueError] := by
  obtain ⟨tr, κ, h1, h2, h3⟩ := closeRuns_sound (both := true) (ms := .start 0 (.mirror (.close none)) :: .start 1 (.mirror (.close none)) ::
    List.replicate 5 (.go 0) ++ List.replicate 28 (.go 1) ++ List.replicate 11 (.go 0))
    (check := fun tr _ => closedBy 1 tr && decide (closeRets 0 tr = [some .valueError])) (by decide +kernel)
  simp only [Bool.and_eq_true, decide_eq_true_eq] at h3
  exact ⟨tr, κ, h1, h2, closedBy_sound h3.1, h3.2⟩

/-- The assumptions of the positive theorems. -/
theorem closeOk_one : OneCloser [0, 1] (fun p => 2 * p) 3 closeProc (closeOk false) where
  nodup := by decide
  home p hp := by
    rcases List.mem_cons.1 hp with rfl | hp
    · rfl
    · rcases List.mem_singleton.1 hp with rfl; rfl
  apart p hp := by
    rcases List.mem_cons.1 hp with rfl | hp
    · decide
    · rcases List.mem_singleton.1 hp with rfl; decide
  receives i h := by
    rcases h with ⟨h, _⟩ | ⟨_, ⟨⟨_, h⟩, _⟩ | ⟨_, h⟩⟩
    · exact h
    · cases h
    · cases h
  closes i e h := by
    rcases h with ⟨_, h⟩ | ⟨hi, ⟨_, h1 | h1⟩ | ⟨_, h⟩⟩
    · cases h
    · match i, hi, h1 with
      | 0, _, _ => decide
      | 1, _, h => exact absurd rfl h
      | 2, _, _ => decide
    · cases h1
    · cases h
  others i c h := by
    rcases h with ⟨_, rfl⟩ | ⟨_, ⟨⟨_, rfl⟩, _⟩ | ⟨_, rfl⟩⟩ <;> trivial

/-- Even so, with one thread that closes, a text can be sent after the end signal: thread 0 is about to send the end signal of
process 0 when thread 1 writes, and the text follows the end signal.  `write()` returns, `wait()` returns, and the text is never
received. -/
theorem C69_late : ∃ tr κ, Exec (procThreads MThr.lazyLock closeProc (closeOk false)) (init closeWorld fun _ => ()) tr κ ∧
    (∀ i, κ.cur i = none) ∧ HasEnded (returned 3 tr) ∧ closeRets 1 tr = [none] ∧ closeQueue κ.st = [some (lit "a\n")] := by
  obtain ⟨tr, κ, h1, h2, h3⟩ := closeRuns_sound (both := false) (ms := .start 2 (.mirror (.close none)) :: List.replicate 28 (.go 2) ++
    .start 0 (.mirror (.close none)) :: .start 1 (.mirror (.write (lit "a\n"))) :: List.replicate 15 (.go 0) ++ List.replicate 20 (.go 1) ++ .go 0 ::
    List.replicate 5 (.go 1) ++ List.replicate 12 (.go 0) ++ .start 3 .receive :: List.replicate 8 (.go 3) ++
    .start 3 .receive :: List.replicate 8 (.go 3))
    (check := fun tr κ => endedBy 3 tr && decide (closeRets 1 tr = [none]) && decide (closeQueue κ.st = [some (lit "a\n")])) (by decide +kernel)
  simp only [Bool.and_eq_true, decide_eq_true_eq] at h3
  exact ⟨tr, κ, h1, h2, endedBy_sound h3.1.1, h3.1.2, h3.2⟩

/-- The positive theorems speak of this execution: `wait()` has returned, both mirrors are closed, and one end signal each was
counted. -/
example : ∃ tr κ, Exec (procThreads MThr.lazyLock closeProc (closeOk false)) (init closeWorld fun _ => ()) tr κ ∧
    HasEnded (returned 3 tr) ∧ EachOnce [0, 1] κ.st ∧ κ.st.main.nMirrors = 0 ∧
    ∀ p ∈ [0, 1], (κ.st.procs p).mirror.buf.closed = true := by
  obtain ⟨tr, κ, h1, h2, h3, _⟩ := C69_late
  have h4 := C69_wait_partial closeOk_one closeWorld_joined closeWorld_once h1 h3
  refine ⟨tr, κ, h1, h3, C69_count_partial closeOk_one closeWorld_joined closeWorld_once h1 (fun _ _ => h2 _) (h2 _), h4.1,
    fun p hp => (h4.2.2 p hp).resolve_right ?_⟩
  rintro ⟨e, prog, hc⟩
  rw [h2] at hc
  cases hc

/-- An execution in which the thread that closes is stopped between the end signal and the closing: `wait()` has returned, and the
mirror is open. -/
example : closeRuns false (.start 2 (.mirror (.close none)) :: List.replicate 28 (.go 2) ++ .start 0 (.mirror (.close none)) ::
    List.replicate 16 (.go 0) ++ .start 3 .receive :: List.replicate 8 (.go 3) ++ .start 3 .receive :: List.replicate 8 (.go 3) ++
    List.replicate 12 (.go 0)) (fun tr κ => endedBy 3 tr && closedBy 0 tr && (κ.st.procs 0).mirror.buf.closed) = true := by
  decide +kernel

end SyncStream
