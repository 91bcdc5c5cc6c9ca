import Verif.Lemmas.Orderly
import Verif.Lemmas.Threads
import Verif.Lemmas.Sched
import Verif.Lemmas.NotLin
import Verif.Spec.ThreadLog
import Verif.Props.LineBuffer
/-!
# Properties C12-C14, C57, C58: one buffer used by several threads
-/

namespace SyncStream

open Spec LineBuf Conc

/-! ## From the sequential object to the log -/

/-- Calls of C12 executed one after the other are steps of the log. -/
theorem threads_log {ok : Nat → TCall → Prop} (hok : ∀ i c, ok i c → ∃ c', c = .call c') {l : Log} (h0 : Ok l)
    {tr : List (Ev TCall Ret)} {a : AConf (LineBuf × (Nat → Unit)) TCall Ret}
    (hx : AExec (seqSpec (threads ok)) ⟨(rep l, fun _ => ()), fun _ => .idle⟩ tr a) :
    ∃ m, AExec TStep ⟨l, fun _ => .idle⟩ tr ⟨m, a.stat⟩ ∧ a.st.1 = rep m ∧ Ok m := by
  generalize ha : (⟨(rep l, fun _ => ()), fun _ => .idle⟩ : AConf (LineBuf × (Nat → Unit)) TCall Ret) = a0 at hx
  induction hx with
  | nil => subst ha; exact ⟨l, .nil _, rfl, h0⟩
  | snoc a' a'' tr e h1 h2 ih =>
    obtain ⟨m, ih1, ih2, ih3⟩ := ih
    cases h2 with
    | inv i c hi => exact ⟨m, .snoc _ _ _ _ _ ih1 (.inv _ _ _ hi), ih2, ih3⟩
    | ret i r hi => exact ⟨m, .snoc _ _ _ _ _ ih1 (.ret _ _ _ hi), ih2, ih3⟩
    | effect i c r st hi hsp =>
      obtain ⟨o, e1, _, e3⟩ := hsp
      obtain ⟨c', rfl⟩ := hok i c e3
      obtain ⟨m', s1, s2, s3, _⟩ := exec_refines c' m ih3
      have e4 := (Prog.seq_bind_ok (Thr.prog_seq c' a'.st.1)).symm.trans e1
      rw [ih2] at e4
      have er : (exec c' (rep m)).1 = r := by
        have := congrArg Prod.fst e4
        injection this with this
        exact congrArg Prod.fst this
      have es : (exec c' (rep m)).2 = st.1 := congrArg Prod.snd e4
      refine ⟨m', .snoc _ _ _ _ none ih1 (.effect _ _ _ _ _ hi (.call _ _ _ (er ▸ s1))), ?_, s3⟩
      exact es.symm.trans s2

theorem atomic_call (_ : Nat) (c : TCall) (h : Thr.Atomic c) : ∃ c', c = .call c' := by
  cases c with
  | call c => exact ⟨c, rfl⟩
  | deliver => cases h

/-! ## C12 -/

/-- **C12** Any number of threads, each making whatever `write`, `read`, `new_line`, `flush`,
`readable`, `writable` and `closed` calls it likes on one open buffer (new, or after any calls `cs`),
the primitive steps interleaved in any way: the results are those of the log on which every call takes
effect in one moment between its start and its end; and whenever no call is running, the contents are
those of the log (`read()` would return `m.view`). -/
theorem C12_linearizable (maxlen : Int) (b0 : LineBuf) (hn : LineBuf.new maxlen = .ok b0) (cs : List Call)
    (l : Log) (hl : Log.Steps { cap := maxlen.toNat } cs (run cs b0).1 l) (ho : l.closed = false)
    (tr : List (Ev TCall Ret)) (κ : Conf LineBuf Unit Unit TCall Ret)
    (hx : Exec (threads fun _ c => Thr.Atomic c) (init (run cs b0).2 fun _ => ()) tr κ) :
    ∃ m stat, AExec TStep ⟨l, fun _ => .idle⟩ tr ⟨m, stat⟩ ∧ m.closed = false ∧
      ((∀ i, κ.cur i = none) → κ.st.storage.items = lastN m.cap m.done ∧ κ.st.lastLine.buf = m.part ∧
        (exec (.read none) κ.st).1 = .items m.view) := by
  obtain ⟨hm, rfl⟩ := new_ok hn
  have h0 : opened maxlen.toNat [] [] = rep ({ cap := maxlen.toNat } : Log) := by simp [rep]
  have ok0 : Ok ({ cap := maxlen.toNat } : Log) := ⟨by show 1 ≤ maxlen.toNat; omega, noBreak_nil, by simp⟩
  obtain ⟨l', h1, h2, h3, _⟩ := run_refines cs _ ok0
  rw [← h0] at h1 h2
  obtain ⟨-, rfl⟩ := C01_log_deterministic hl h1
  rw [h2] at hx
  obtain ⟨a, h4, h5⟩ := exec_rel (Thr.orderly _) Thr.disciplined (s := rep l) (by rw [rep_open ho]; rfl)
    (fun _ => trivial) hx
  obtain ⟨m, h6, h7, h8⟩ := threads_log atomic_call h3 h4
  have hopen : m.closed = false := by
    have := h5.Ig
    rw [h7] at this
    cases hcl : m.closed with
    | true => rw [rep_closed hcl] at this; cases this
    | false => rfl
  refine ⟨m, a.stat, h6, hopen, fun hq => ?_⟩
  obtain ⟨q1, _, _⟩ := h5.quiet hq
  have e : κ.st = rep m := by rw [← h7]; exact q1 ()
  refine ⟨by rw [e, rep_open hopen]; rfl, by rw [e, rep_open hopen]; rfl, ?_⟩
  obtain ⟨m', s1, _⟩ := exec_refines (.read none) m h8
  rw [e]
  exact (step_unique s1 (.readAll m hopen)).1

/-- Two threads write and one reads at the same time: all three have found the buffer open when the
first one writes. -/
example : ((moves (threads fun _ c => Thr.Atomic c) 3
      ([.start 0 (.call (.write (lit "a\nb\nc"))), .start 1 (.call (.write (lit "x\ny"))),
        .start 2 (.call (.read none))] ++ List.replicate 3 (.go 2) ++ List.replicate 3 (.go 1) ++
        List.replicate 11 (.go 0) ++ List.replicate 8 (.go 2) ++ List.replicate 8 (.go 1) ++
        [.start 2 (.call (.read none))] ++ List.replicate 11 (.go 2))
      (init (opened 9 [] []) fun _ => ())).map (·.1)) =
    some [.inv 0 (.call (.write (lit "a\nb\nc"))), .inv 1 (.call (.write (lit "x\ny"))),
      .inv 2 (.call (.read none)), .ret 0 (.nat 1), .ret 2 (.items [.str (lit "a"), .str (lit "b"), .str (lit "c")]),
      .ret 1 (.nat 1), .inv 2 (.call (.read none)),
      .ret 2 (.items [.str (lit "a"), .str (lit "b"), .str (lit "cx"), .str (lit "y")])] := rfl

/-! ## Observations that the atomic log does not allow -/

/-- The calls computed on the buffer. -/
def tcompute (b : LineBuf) (_ : Nat) : TCall → Ret × LineBuf
  | .call c => exec c b
  | .deliver x => (.unit, { b with storage := b.storage.append x })

/-- Steps of the log are what is computed on the buffers that represent the logs. -/
theorem tstep_compute {l l' : Log} {i : Nat} {c : TCall} {r : Ret} (h : TStep l i c r l') (ok : Ok l) :
    tcompute (rep l) i c = (r, rep l') ∧ Ok l' := by
  cases h with
  | call c r l' h =>
    obtain ⟨l1, s1, s2, s3, _⟩ := exec_refines c l ok
    obtain ⟨rfl, rfl⟩ := step_unique h s1
    exact ⟨Prod.ext rfl s2, s3⟩
  | deliver x h =>
    refine ⟨?_, ⟨ok.cap, ok.part, fun hc => by rw [h] at hc; cases hc⟩⟩
    rw [rep_open h, rep_open (l := { l with done := l.done ++ [x] }) h]
    simp only [tcompute, opened]
    rw [Deque.append_eq _ _ (length_lastN_le _ _), lastN_lastN_append]

theorem log_compute {l : Log} (h0 : Ok l) {tr : List (Ev TCall Ret)} {a : AConf Log TCall Ret}
    (hx : AExec TStep ⟨l, fun _ => .idle⟩ tr a) :
    AExec (fun b i c r b' => tcompute b i c = (r, b')) ⟨rep l, fun _ => .idle⟩ tr ⟨rep a.st, a.stat⟩ ∧ Ok a.st := by
  generalize ha : (⟨l, fun _ => .idle⟩ : AConf Log TCall Ret) = a0 at hx
  induction hx with
  | nil => subst ha; exact ⟨.nil _, h0⟩
  | snoc a' a'' tr e h1 h2 ih =>
    obtain ⟨ih1, ih2⟩ := ih
    cases h2 with
    | inv i c hi => exact ⟨.snoc _ _ _ _ _ ih1 (.inv _ _ _ hi), ih2⟩
    | ret i r hi => exact ⟨.snoc _ _ _ _ _ ih1 (.ret _ _ _ hi), ih2⟩
    | effect i c r st hi hsp =>
      obtain ⟨e1, e2⟩ := tstep_compute hsp ih2
      exact ⟨.snoc _ _ _ _ none ih1 (.effect _ _ _ _ _ hi e1), e2⟩

/-- A coarse comparison of results; equal ones are the same. -/
def sameRet : Ret → Ret → Bool
  | .items a, .items b => a.length == b.length
  | .nat a, .nat b => a == b
  | .exc .osError, .exc .valueError => false
  | .exc .valueError, .exc .osError => false
  | .exc _, .exc _ => true
  | .exc _, _ => false
  | _, .exc _ => false
  | _, _ => true

theorem sameRet_refl (r : Ret) : sameRet r r = true := by
  cases r <;> simp [sameRet]

/-- If nothing can be computed for an observation, the log does not allow it. -/
theorem impossible {l : Log} (h0 : Ok l) (n : Nat) {tr : List (Ev TCall Ret)} (hn : ∀ i c, Ev.inv i c ∈ tr → i < n)
    (hr : reach tcompute sameRet n tr [⟨rep l, fun _ => .idle⟩] = []) :
    ¬ ∃ a, AExec TStep ⟨l, fun _ => .idle⟩ tr a := by
  rintro ⟨a, hx⟩
  have := (mem_reach (fun _ _ _ _ _ h => h) sameRet_refl hn (log_compute h0 hx).1).1
  rw [hr] at this
  cases this

/-- The claim of linearizability for the calls `P`, in the form of C12. -/
def Linearizable (P : TCall → Prop) : Prop :=
  ∀ (maxlen : Int) (b0 : LineBuf), LineBuf.new maxlen = .ok b0 → ∀ (cs : List Call) (l : Log),
    Log.Steps { cap := maxlen.toNat } cs (run cs b0).1 l → l.closed = false →
    ∀ (tr : List (Ev TCall Ret)) (κ : Conf LineBuf Unit Unit TCall Ret),
      Exec (threads fun _ c => P c) (init (run cs b0).2 fun _ => ()) tr κ →
      ∃ a, AExec TStep ⟨l, fun _ => .idle⟩ tr a

theorem atomic_linearizable : Linearizable Thr.Atomic := fun m b0 hn cs l hl ho tr κ hx => by
  obtain ⟨m, stat, h, _⟩ := C12_linearizable m b0 hn cs l hl ho tr κ hx
  exact ⟨_, h⟩

/-- Only the threads below `n` start calls. -/
def below (n : Nat) (tr : List (Ev TCall Ret)) : Bool :=
  tr.all fun
    | .inv i _ => decide (i < n)
    | .ret _ _ => true

theorem below_inv {n : Nat} {tr : List (Ev TCall Ret)} (h : below n tr = true) (i : Nat) (c : TCall)
    (hi : Ev.inv i c ∈ tr) : i < n := by
  have := List.all_eq_true.1 h _ hi
  simpa using this

/-- A schedule whose observation the log does not allow. -/
theorem not_linearizable {P : TCall → Prop} (maxlen : Int) (cs : List Call) (n : Nat)
    (ms : List (Move TCall)) (tr : List (Ev TCall Ret))
    (hP : ∀ m ∈ ms, ∀ i c, m = .start i c → P c) (hmax : 1 ≤ maxlen)
    (ho : (run cs (opened maxlen.toNat [] [])).2.lastLine.closed = false)
    (hm : (moves (threads fun _ c => P c) n ms (init (run cs (opened maxlen.toNat [] [])).2 fun _ => ())).map
      (·.1) = some tr)
    (hb : below n tr = true)
    (hr : reach tcompute sameRet n tr [⟨(run cs (opened maxlen.toNat [] [])).2, fun _ => .idle⟩] = []) :
    ¬ Linearizable P := by
  intro h
  have hn : LineBuf.new maxlen = .ok (opened maxlen.toNat [] []) := by
    simp only [LineBuf.new, show ¬ maxlen < 1 by omega, if_false]; rfl
  have h0 : opened maxlen.toNat [] [] = rep ({ cap := maxlen.toNat } : Log) := by simp [rep]
  have ok0 : Ok ({ cap := maxlen.toNat } : Log) := ⟨by show 1 ≤ maxlen.toNat; omega, noBreak_nil, by simp⟩
  obtain ⟨l, h1, h2, h3, _⟩ := run_refines cs _ ok0
  rw [← h0] at h1 h2
  have hcl : l.closed = false := by
    rw [h2] at ho
    cases hcl : l.closed with
    | true => rw [rep_closed hcl] at ho; cases ho
    | false => rfl
  cases hk : moves (threads fun _ c => P c) n ms (init (run cs (opened maxlen.toNat [] [])).2 fun _ => ()) with
  | none => rw [hk] at hm; cases hm
  | some x =>
    rw [hk] at hm
    cases hm
    rw [h2] at hr
    exact impossible h3 n (below_inv hb) hr
      (h maxlen _ hn cs l h1 hcl x.1 x.2 (moves_sound (fun m hm i c e => hP m hm i c e) (fun _ _ _ => rfl) hk))

/-! ## C13 -/

/-- Thread 0 clears; between its section and the clearing of the storage thread 1 writes "a\nb";
then thread 0 reads. -/
def clearMoves : List (Move TCall) :=
  [.start 0 (.call .clear), .start 1 (.call (.write (lit "a\nb")))] ++ List.replicate 4 (.go 0) ++
    List.replicate 11 (.go 1) ++ List.replicate 2 (.go 0) ++ [.start 0 (.call (.read none))] ++
    List.replicate 10 (.go 0)

/-- The line "a" is gone, the unfinished line "b" is there. -/
def clearSeen : List (Ev TCall Ret) :=
  [.inv 0 (.call .clear), .inv 1 (.call (.write (lit "a\nb"))), .ret 1 (.nat 1), .ret 0 .unit,
    .inv 0 (.call (.read none)), .ret 0 (.items [.str (lit "b")])]

/-- **C13** is violated: with `clear` among the calls, C12 is false. -/
theorem C13_violated : ¬ Linearizable fun c => Thr.Atomic c ∨ c = .call .clear :=
  not_linearizable 9 [] 2 clearMoves clearSeen (by simp [clearMoves, Thr.Atomic]) (by decide) rfl rfl rfl rfl

/-! ## C14 -/

/-- Thread 0 reads, thread 1 delivers the item `x`. -/
def ReadDeliver (x : Item) (i : Nat) (c : TCall) : Prop :=
  (i = 0 ∧ c = .call (.read none)) ∨ (i = 1 ∧ c = .deliver x)

/-- The item is delivered while `read` has the oldest item in its hands. -/
def deliverMoves (k : Nat) (x : Item) : List (Move TCall) :=
  [.start 0 (.call (.read none)), .start 1 (.deliver x)] ++ List.replicate k (.go 0) ++
    List.replicate 2 (.go 1) ++ List.replicate (13 - k) (.go 0)

/-- An error that was raised somewhere. -/
def boom : ExcObj := { isWarning := false, formatted := [lit "ValueError: boom\n"] }

/-- **C14** is violated: it is not so that for every buffer (after any history of calls) and every
schedule of a reading thread and a delivering thread, once an error has been delivered and no call is
running, the error is in the buffer. -/
theorem C14_violated : ¬ ∀ (maxlen : Int) (b : LineBuf), Reach maxlen b → b.lastLine.closed = false →
    ∀ (e : ExcObj) (tr : List (Ev TCall Ret)) (κ : Conf LineBuf Unit Unit TCall Ret),
      Exec (threads (ReadDeliver (.msg (GMsg.new (.exc e))))) (init b fun _ => ()) tr κ →
      .ret 1 .unit ∈ tr → (∀ i, κ.cur i = none) → .msg (GMsg.new (.exc e)) ∈ κ.st.storage.items := by
  intro h
  let x : Item := .msg (GMsg.new (.exc boom))
  have hm : ∀ m ∈ deliverMoves 9 x, ∀ i c, m = .start i c → ReadDeliver x i c := by
    simp [deliverMoves, ReadDeliver, x]
  have e1 : (moves (threads (ReadDeliver x)) 2 (deliverMoves 9 x)
      (init (opened 1 [.str (lit "x")] (lit "y")) fun _ => ())).map (fun p => (p.1, p.2.st.storage.items)) =
    some ([.inv 0 (.call (.read none)), .inv 1 (.deliver x), .ret 1 .unit, .ret 0 (.items [.str (lit "y")])],
      [.str (lit "x")]) := rfl
  have e2 : (moves (threads (ReadDeliver x)) 2 (deliverMoves 9 x)
      (init (opened 1 [.str (lit "x")] (lit "y")) fun _ => ())).map
        (fun p => ((p.2.cur 0).isNone, (p.2.cur 1).isNone)) = some (true, true) := rfl
  cases hk : moves (threads (ReadDeliver x)) 2 (deliverMoves 9 x)
      (init (opened 1 [.str (lit "x")] (lit "y")) fun _ => ()) with
  | none => rw [hk] at e1; cases e1
  | some p =>
    obtain ⟨tr, κ⟩ := p
    rw [hk] at e1 e2
    simp only [Option.map_some, Option.some.injEq, Prod.mk.injEq, Option.isNone_iff_eq_none] at e1 e2
    have := h 1 _ ⟨_, [.write (lit "x\ny")], rfl, rfl⟩ rfl boom tr κ (moves_sound hm (fun _ _ _ => rfl) hk)
      (by rw [e1.1]; simp) (fun i => match i with
        | 0 => e2.1
        | 1 => e2.2
        | i + 2 => moves_idle hk (by omega) rfl)
    rw [e1.2] at this
    simp at this

/-- **C14** is violated, also in the results: `read` of a buffer with `maxlen = 1` returns two items
(the delivered one and the unfinished line). -/
theorem C14_read_too_long : ¬ Linearizable fun c => c = .call (.read none) ∨ c = .deliver (.msg (GMsg.new (.exc boom))) :=
  not_linearizable 1 [.write (lit "x\ny")] 2 (deliverMoves 8 (.msg (GMsg.new (.exc boom))))
    [.inv 0 (.call (.read none)), .inv 1 (.deliver (.msg (GMsg.new (.exc boom)))), .ret 1 .unit,
      .ret 0 (.items [.msg (GMsg.new (.exc boom)), .str (lit "y")])]
    (by simp [deliverMoves]) (by decide) rfl rfl rfl rfl

/-! ## C57 -/

/-- **C57** is violated: `len()` is not linearizable together with `read(size)`.  The buffer holds one
line and has room for two, so `len()` is 2 (C07) at all times; while `read(1)` has the line in its hands,
another thread gets 1. -/
theorem C57_violated : ¬ Linearizable fun c => Thr.Atomic c ∨ c = .call .len :=
  not_linearizable 2 [.write (lit "x\n")] 2
    ([.start 0 (.call (.read (some 1))), .start 1 (.call .len)] ++ List.replicate 9 (.go 0) ++
      List.replicate 2 (.go 1) ++ List.replicate 3 (.go 0) ++ List.replicate 4 (.go 1))
    [.inv 0 (.call (.read (some 1))), .inv 1 (.call .len), .ret 0 (.items [.str (lit "x")]), .ret 1 (.nat 1)]
    (by simp [Thr.Atomic]) (by decide) rfl rfl rfl rfl

/-! ## C58 -/

/-- **C58** is violated: a `write` that has found the buffer open raises `ValueError` if another thread
closes the buffer before the `write` goes on; neither order of the two calls gives that. -/
theorem C58_violated : ¬ Linearizable fun c => Thr.Atomic c ∨ c = .call .close :=
  not_linearizable 2 [] 2
    ([.start 0 (.call (.write (lit "a"))), .start 1 (.call .close)] ++ List.replicate 3 (.go 0) ++
      List.replicate 12 (.go 1) ++ List.replicate 4 (.go 0))
    [.inv 0 (.call (.write (lit "a"))), .inv 1 (.call .close), .ret 1 .unit, .ret 0 (.exc .valueError)]
    (by simp [Thr.Atomic]) (by decide) rfl rfl rfl rfl

/-! ## C59 -/

/-- Calls that never raise on an open buffer. -/
def Harmless (c : TCall) : Prop := c = .call .clear ∨ (∃ d, c = .call (.write d)) ∨ ∃ n, c = .call (.read n)

/-- **C59**, one after the other: `clear`, `write` and `read` on an open buffer raise nothing. -/
theorem C59_alone (maxlen : Int) (b : LineBuf) (h : Reach maxlen b) (ho : b.lastLine.closed = false) (c : Call)
    (hc : Harmless (.call c)) (e : Exc) : (exec c b).1 ≠ .exc e := by
  obtain ⟨l, rfl, ok, _, _⟩ := reach_rep h
  obtain ⟨l', s1, _⟩ := exec_refines c l ok
  have hcl : l.closed = false := by
    cases hcl : l.closed with
    | true => rw [rep_closed hcl] at ho; cases ho
    | false => rfl
  intro he
  rw [he] at s1
  rcases hc with hc | ⟨d, hc⟩ | ⟨n, hc⟩ <;> cases hc <;> cases s1 <;> simp_all

/-- **C59** is violated: `read` raises `IndexError` if `clear` empties the storage between the moment when
`read` looks at its size and the moment when it takes the oldest item. -/
theorem C59_violated : ¬ ∀ (maxlen : Int) (b : LineBuf), Reach maxlen b → b.lastLine.closed = false →
    ∀ (tr : List (Ev TCall Ret)) (κ : Conf LineBuf Unit Unit TCall Ret),
      Exec (threads fun _ c => Harmless c) (init b fun _ => ()) tr κ →
      ∀ i e, .ret i (.exc e) ∉ tr := by
  intro h
  have e1 : (moves (threads fun _ c => Harmless c) 2
      ([.start 0 (.call .clear)] ++ List.replicate 4 (.go 0) ++ [.start 1 (.call (.write (lit "y")))] ++
        List.replicate 7 (.go 1) ++ [.start 1 (.call (.read none))] ++ List.replicate 7 (.go 1) ++
        List.replicate 2 (.go 0) ++ List.replicate 3 (.go 1))
      (init (opened 1 [.str (lit "x")] []) fun _ => ())).map (·.1) =
    some [.inv 0 (.call .clear), .inv 1 (.call (.write (lit "y"))), .ret 1 (.nat 1), .inv 1 (.call (.read none)),
      .ret 0 .unit, .ret 1 (.exc .indexError)] := rfl
  obtain ⟨⟨tr, κ⟩, hk, rfl⟩ := Option.map_eq_some_iff.1 e1
  refine h 1 _ ⟨_, [.write (lit "x\n")], rfl, rfl⟩ rfl _ κ (moves_sound ?_ (fun _ _ _ => rfl) hk) 1 .indexError
    (by simp)
  simp [threads, Harmless]

end SyncStream
