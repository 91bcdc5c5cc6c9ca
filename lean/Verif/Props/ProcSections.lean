import Verif.Lemmas.ProcFlow
/-!
# All calls of a mirror among threads that share it (C84)

`Spec.PSec` are the moments: what is done while the lock of the mirror is held, a look at its state, and a message put into the queue.
`Spec.pmoments` are the moments of each call.
-/

namespace SyncStream
open Spec LineBuf Conc PFlow

/-- **C84** Threads of many processes make any calls on the mirrors of their processes (but the setters), others receive in the main
process, stop the mirrors or call `force_stop`.  If every mirror has its lock, then in every race there is an order of moments in which
everything happens: each call consists of the moments of `pmoments`, in the order given there, between its start and its return, and
its result is the one these moments give.  Missing (hence `_partial`): the lock exists; the setters of `timeout` and `aggressive`. -/
theorem C84_history_partial {proc : Nat → Nat} {ok : Nat → PCall → Prop} (hok : ∀ i c, ok i c → HasMoments c) {w : PWorld}
    (hlock : ∀ p, (w.procs p).lock ≠ none) {tr : List (Ev PCall PRet)}
    {κ : Conc.Conf PWorld PLock Unit PCall PRet} (hx : Exec (procThreads MThr.lazyLock proc ok) (init w fun _ => ()) tr κ) :
    ∃ (h : List (HEvent PCall PRet PSec PRet)) (rest : Nat → Option (PCall × Ask PSec PRet (PRet × Unit))) (t : PShared), seen h = tr ∧
      Serves (fun s i x a t => x.exec (proc i) s = (a, t)) (.of w) (opsOf h) t ∧
      (∀ i, ClientRun (fun _ c => pmoments c) i () (own i h) () (rest i)) ∧ t.net = κ.st.net ∧
      ((∀ i, κ.cur i = none) → t = .of κ.st ∧ ∀ i, rest i = none) :=
  PThr.moments_history hok hlock hx

namespace PFlow

theorem hasMoments {c : PCall} (h : TakesNothing c) : HasMoments c := by
  cases c with
  | mirror c => cases c <;> first | exact h.elim | trivial
  | _ => exact h

theorem good_init {k : Nat} {maxlen : Int} {w : PWorld} (hs : Started maxlen k w.main) (hop : ∀ p, (w.procs p).mirror.buf.closed = false)
    (hm : MirrorsOf w) : Good (fun p => (w.procs p).mirror.aggressive) w.main.mirror.queue (.of w) := by
  obtain ⟨e1, e2, _⟩ := started_rep hs
  exact ⟨fun p => mreach_open (hm.reach p) (hop p), fun p => ⟨rfl, hm.empty p⟩, fun p => (mreach_norm (hm.reach p)).2.1, rfl, _, e2, rfl, e1⟩

theorem mem_ops {i : Nat} {x : PSec} {a : PRet} {h : List (HEvent PCall PRet PSec PRet)} (hm : (i, x, a) ∈ opsOf h) : HEvent.op i x a ∈ h := by
  induction h with
  | nil => cases hm
  | cons e h ih =>
    cases e with
    | op j y b =>
      rcases List.mem_cons.1 hm with e | hm
      · cases e; exact List.mem_cons_self
      · exact List.mem_cons_of_mem _ (ih hm)
    | inv j c => exact List.mem_cons_of_mem _ (ih hm)
    | ret j r => exact List.mem_cons_of_mem _ (ih hm)

theorem mem_seen {i : Nat} {c : PCall} {h : List (HEvent PCall PRet PSec PRet)} (hm : HEvent.inv i c ∈ h) : Ev.inv i c ∈ seen h := by
  induction h with
  | nil => cases hm
  | cons e h ih =>
    rcases List.mem_cons.1 hm with e | hm'
    · cases e; exact List.mem_cons_self
    · cases e with
      | op j y b => exact ih hm'
      | inv j c => exact List.mem_cons_of_mem _ (ih hm')
      | ret j r => exact List.mem_cons_of_mem _ (ih hm')

theorem run_calls {cl : Unit → PCall → Ask PSec PRet (PRet × Unit)} {i : Nat} {o o' : Unit} {h : List (HEvent PCall PRet PSec PRet)}
    {rest : Option (PCall × Ask PSec PRet (PRet × Unit))} (hr : ClientRun cl i o h o' rest) {x : PSec} {a : PRet} {j : Nat}
    (hm : HEvent.op j x a ∈ h) : ∃ c, HEvent.inv i c ∈ h := by
  cases hr with
  | nil => cases hm
  | call => exact ⟨_, List.mem_cons_self⟩
  | within => exact ⟨_, List.mem_cons_self⟩

variable {proc : Nat → Nat} {ok : Nat → PCall → Prop} {N : Nat}

/-- The history of an execution, with what is known of its moments. -/
theorem facts (hok : ∀ i c, ok i c → i < N ∧ TakesNothing c) {w : PWorld}
    (hlock : ∀ p, (w.procs p).lock ≠ none) {tr : List (Ev PCall PRet)}
    {κ : Conc.Conf PWorld PLock Unit PCall PRet} (hx : Exec (procThreads MThr.lazyLock proc ok) (init w fun _ => ()) tr κ) :
    ∃ (h : List (HEvent PCall PRet PSec PRet)) (rest : Nat → Option (PCall × Ask PSec PRet (PRet × Unit))) (t : PShared), seen h = tr ∧
      Serves (Acts proc) (.of w) (opsOf h) t ∧
      (∀ i, ClientRun (fun _ c => pmoments c) i () (own i h) () (rest i)) ∧ t.net = κ.st.net ∧
      ((∀ i, κ.cur i = none) → t = .of κ.st) ∧ (∀ y ∈ opsOf h, y.1 < N ∧ PSecOk y.2.1) ∧ ∀ i c, HEvent.inv i c ∈ h → TakesNothing c := by
  obtain ⟨h, rest, t, h1, h2, h3, h4, h5⟩ := PThr.moments_history (fun i c hc => hasMoments (hok i c hc).2) hlock hx
  have h6 : ∀ i c, HEvent.inv i c ∈ h → i < N ∧ TakesNothing c := fun i c hc => hok i c (exec_calls_ok hx (h1 ▸ mem_seen hc))
  refine ⟨h, rest, t, h1, h2, h3, h4, fun hi => (h5 hi).1, fun ⟨i, x, a⟩ hy => ?_, fun i c hc => (h6 i c hc).2⟩
  have hm : HEvent.op i x a ∈ own i h := by
    unfold own
    exact List.mem_filter.2 ⟨mem_ops hy, by simp [HEvent.who]⟩
  obtain ⟨c, hc⟩ := run_calls (h3 i) hm
  exact ⟨(h6 i c (List.mem_of_mem_filter hc)).1, (h3 i).within_ops (okc := TakesNothing) (P := PSecOk) (fun _ c hc => within_ok hc)
    (fun c hc => (h6 i c (List.mem_of_mem_filter hc)).2) i x a hm⟩

end PFlow

/-! ## What is sent, received and kept -/

/-- **C84** Threads of many processes make any calls on the mirrors of their processes that take nothing away (all but `clear`, `close`,
`read(size)` and the setters), others receive, stop the mirrors or call `force_stop`.  If every mirror has its lock, then in every race:

* What was in the queue and what has been sent (`sent`) is what has been received (`got`) and what is still in the queue.
* What a thread has put into the queue directly are the messages of its calls that have not failed, each once, in the order of the calls.
* For every process, the text sent from the buffer of its mirror is what it held back at the beginning and then what its threads have
  added (`ws`: the texts each thread has written, each as a whole and in its order, interleaved in some way, with line breaks by the
  calls that end a line), up to a rest; whenever no call is running, the rest is what the mirror holds back.
* Whenever no call is running the main buffer is the log to which the received messages have arrived.

Missing: the lock exists; the calls that take something away, among which `close` loses text of the others (`C84_violated`). -/
theorem C84_texts_partial {proc : Nat → Nat} {ok : Nat → PCall → Prop} {N k : Nat} {maxlen : Int}
    (hok : ∀ i c, ok i c → i < N ∧ TakesNothing c) {w : PWorld} (hs : Started maxlen k w.main) (hlock : ∀ p, (w.procs p).lock ≠ none)
    (hop : ∀ p, (w.procs p).mirror.buf.closed = false) (hm : MirrorsOf w) {tr : List (Ev PCall PRet)}
    {κ : Conc.Conf PWorld PLock Unit PCall PRet} (hx : Exec (procThreads MThr.lazyLock proc ok) (init w fun _ => ()) tr κ) :
    ∃ (eff : Nat → List PyStr) (sent : List (Nat × Bool × QMsg)) (got : List QMsg) (l : Log),
      (∀ i, Contrib AddsText i (eventsBy i tr) (eff i)) ∧ (∀ i, Contrib PutsMsg i (eventsBy i tr) (directBy i sent)) ∧
      (∀ y ∈ sent, y.2.1 = false → ∃ d, y.2.2 = .str d) ∧
      got ++ κ.st.net.queues w.main.mirror.queue = w.net.queues w.main.mirror.queue ++ sent.map (·.2.2) ∧
      Replays { cap := maxlen.toNat } got l ∧ ((∀ i, κ.cur i = none) → Holds κ.st.main.base l) ∧
      ∀ p, ∃ ws, Merge (writtenIn proc p N eff) ws ∧ textFrom proc p sent <+: (w.procs p).mirror.buf.buf ++ ws.flatten ∧
        ((∀ i, κ.cur i = none) → textFrom proc p sent ++ (κ.st.procs p).mirror.buf.buf = (w.procs p).mirror.buf.buf ++ ws.flatten) := by
  obtain ⟨h, rest, t, h1, h2, h3, h4, h5, h6, h7⟩ := facts hok hlock hx
  have hg := good_init hs hop hm
  obtain ⟨e1, e2, _⟩ := started_rep hs
  obtain ⟨sent, got, hf⟩ := hg.serves h2 fun y hy => (h6 y hy).2
  have hc : ∀ i, _ := fun i => contrib_own (proc := proc) (ag := fun p => (w.procs p).mirror.aggressive) (h3 i) (h7 i) hf.ans
  refine ⟨fun i => piecesBy proc (fun p => (w.procs p).mirror.aggressive) i (opsOf h), sent, got, _, fun i => h1 ▸ (hc i).1, fun i => ?_, hf.strs,
    by rw [← h4]; exact hf.queue, replays_foldl _ _ noBreak_nil, fun hi => ?_, fun p => ⟨_, merge_pieces p _ fun y hy => (h6 y hy).1, ?_, fun hi => ?_⟩⟩
  · rw [hf.direct]
    exact h1 ▸ (hc i).2
  · have := hf.log _ e2 rfl e1
    rw [h5 hi] at this
    have this : κ.st.main.base = _ := this
    rw [this]
    exact holds_rep (foldl_arrive_ok _ _ e2 rfl)
  · exact ⟨_, hf.text p⟩
  · have := hf.text p
    rw [h5 hi] at this
    exact this

/-- **C84** `send_eof`, `send_error` and `send_warning` come after the text.  A thread makes such a call, and it does not fail; when it
begins, the threads have made the calls in `tr1`.  Then the message of the call is in the queue (or has been received), and before it all
of the text that its process held back or that any thread of its process has added in `tr1` (`ws`).  Missing: as above. -/
theorem C84_before_partial {proc : Nat → Nat} {ok : Nat → PCall → Prop} {N k : Nat} {maxlen : Int}
    (hok : ∀ i c, ok i c → i < N ∧ TakesNothing c) {w : PWorld} (hs : Started maxlen k w.main) (hlock : ∀ p, (w.procs p).lock ≠ none)
    (hop : ∀ p, (w.procs p).mirror.buf.closed = false) (hm : MirrorsOf w) {tr1 tr2 tr3 : List (Ev PCall PRet)} {i : Nat} {c : PCall} {r : PRet}
    {κ : Conc.Conf PWorld PLock Unit PCall PRet}
    (hx : Exec (procThreads MThr.lazyLock proc ok) (init w fun _ => ()) (tr1 ++ .inv i c :: tr2 ++ .ret i r :: tr3) κ)
    (h2 : ∀ e ∈ tr2, ¬ ofThread i e) (hc : Announces c) (hr : succeeded r = true) :
    ∃ (eff : Nat → List PyStr) (ws : List PyStr) (m : QMsg) (sent1 sent2 : List (Nat × Bool × QMsg)) (got : List QMsg),
      (∀ j, Contrib AddsText j (eventsBy j tr1) (eff j)) ∧ Merge (writtenIn proc (proc i) N eff) ws ∧ messageOf c = some m ∧
      got ++ κ.st.net.queues w.main.mirror.queue = w.net.queues w.main.mirror.queue ++ (sent1 ++ (i, true, m) :: sent2).map (·.2.2) ∧
      (∀ j, Contrib PutsMsg j (eventsBy j (tr1 ++ .inv i c :: tr2 ++ .ret i r :: tr3)) (directBy j (sent1 ++ (i, true, m) :: sent2))) ∧
      (w.procs (proc i)).mirror.buf.buf ++ ws.flatten <+: textFrom proc (proc i) sent1 := by
  obtain ⟨h, rest, t, g1, g2, g3, g4, g5, g6, g7⟩ := facts hok hlock hx
  have hg := good_init hs hop hm
  cases c with
  | mirror c =>
    obtain ⟨m, hmsg⟩ : ∃ m, messageOf (.mirror c) = some m := by
      cases c <;> first | exact hc.elim | exact ⟨_, rfl⟩
    obtain ⟨ha, hb, hd, l, o1, o2, rfl, k1, k2, k3, k4, k5, k6⟩ := history_returns (g3 i) g1 h2
    obtain ⟨sent0, got0, hf0⟩ := hg.serves g2 fun y hy => (g6 y hy).2
    have eops : opsOf (ha ++ .inv i (.mirror c) :: hb ++ .ret i r :: hd) = opsOf ha ++ (opsOf hb ++ opsOf hd) := by
      rw [opsOf_append, opsOf_append, List.append_assoc]; rfl
    have hfil : (opsOf hb).filter (·.1 = i) = l.map fun y => (i, y.1, y.2) := by
      rw [← opsOf_own, k4, opsOf_asOps]
    have hans : ∀ y ∈ l, PAns y := fun y hy => by
      refine hf0.ans (i, y.1, y.2) ?_
      rw [eops]
      refine List.mem_append_right _ (List.mem_append_left _ (List.mem_of_mem_filter (p := (·.1 = i)) ?_))
      rw [hfil]
      exact List.mem_map.2 ⟨y, hy, rfl⟩
    obtain ⟨lm, qm, rfl, e1, e2, e3⟩ := inProc_asks k5 hans
    have hq : ∃ x, r = .mirror x ∧ result qm = some x := by
      cases qm with
      | done x => cases e1; exact ⟨x, rfl, rfl⟩
      | ask x k => rw [inProc] at e1; cases e1
    obtain ⟨x, rfl, hq⟩ := hq
    obtain ⟨l1, y, l2, l3, rfl, hy⟩ := call_ordered c hc m hmsg lm qm e2 e3 x hq (by cases x <;> first | rfl | cases hr)
    simp only [List.map_append, List.map_cons, List.map_map] at hfil
    obtain ⟨A, X, eX, _, hX⟩ := filter_split hfil
    obtain ⟨B, D, rfl, _, _⟩ := filter_split hX
    have e : opsOf (ha ++ .inv i (.mirror c) :: hb ++ .ret i (.mirror x) :: hd) =
        (opsOf ha ++ A) ++ (i, .mirror y.1, .mirror y.2) :: (B ++ (i, .mirror (.put m), .mirror .unit) :: (D ++ opsOf hd)) := by
      rw [eops, eX]
      simp
    rw [e] at g2
    obtain ⟨sent1, sent2, got, hf, hpre⟩ := announced hy g2 hg fun z hz => (g6 z (e ▸ hz)).2
    rw [← e] at hf
    have hsub : ∀ j c, HEvent.inv j c ∈ ha → TakesNothing c := fun j c hc => g7 j c (by simp [hc])
    have hca : ∀ j, ∃ o' rest', ClientRun (fun _ c => pmoments c) j () (own j ha) o' rest' := fun j => run_prefix (g3 j) (by
      rw [List.append_assoc, own_append])
    refine ⟨fun j => piecesBy proc (fun p => (w.procs p).mirror.aggressive) j (opsOf ha), _, m, sent1, sent2, got, fun j => ?_,
      merge_pieces _ _ fun y hy => (g6 y (by rw [eops]; exact List.mem_append_left _ hy)).1, hmsg, by rw [← g4]; exact hf.queue, fun j => ?_, ?_⟩
    · obtain ⟨o', rest', hj⟩ := hca j
      rw [← k1]
      exact (contrib_own hj (hsub j) fun y hy => hf.ans y (by rw [eops]; exact List.mem_append_left _ hy)).1
    · rw [hf.direct, ← g1]
      exact (contrib_own (proc := proc) (ag := fun p => (w.procs p).mirror.aggressive) (g3 j) (g7 j) hf.ans).2
    · rw [piecesIn_append, List.flatten_append, ← List.append_assoc] at hpre
      exact (List.prefix_append _ _).trans hpre
  | _ => exact hc.elim

/-! ## Closing -/

/-- Thread 0 closes the mirror, thread 1 writes. -/
def closeAndWrite (i : Nat) (c : PCall) : Prop := i < 2 ∧ (TakesNothing c ∨ c = .mirror (.close none))

/-- Carry out moves of the two threads and look at the end. -/
def closes (ms : List (Move PCall)) : Bool :=
  match moves (procThreads MThr.lazyLock (fun _ => 0) closeAndWrite) 2 ms (init used fun _ => ()) (fun | .buf _ _ => true | _ => false) with
  | none => false
  | some (tr, κ) => (κ.cur 0).isNone && (κ.cur 1).isNone && (κ.st.procs 0).mirror.buf.buf.isEmpty &&
    (match κ.st.net.queues 0 with
      | [.close] => true
      | _ => false) &&
    match tr with
    | [.inv 0 (.mirror (.close none)), .inv 1 (.mirror (.write b)), .ret 1 (.mirror (.nat 1)), .ret 0 (.mirror .unit)] => b == lit "b"
    | _ => false

theorem closes_sound {ms : List (Move PCall)} (h : closes ms = true) (hms : ∀ m ∈ ms, ∀ i c, m = .start i c → closeAndWrite i c) :
    ∃ κ, Exec (procThreads MThr.lazyLock (fun _ => 0) closeAndWrite) (init used fun _ => ())
      [.inv 0 (.mirror (.close none)), .inv 1 (.mirror (.write (lit "b"))), .ret 1 (.mirror (.nat 1)), .ret 0 (.mirror .unit)] κ ∧
      (∀ i, κ.cur i = none) ∧ κ.st.net.queues 0 = [.close] ∧ (κ.st.procs 0).mirror.buf.buf = [] := by
  unfold closes at h
  split at h
  · cases h
  · rename_i tr κ e
    simp only [Bool.and_eq_true, Option.isNone_iff_eq_none, List.isEmpty_iff] at h
    obtain ⟨⟨⟨⟨h0, h1⟩, h2⟩, h3⟩, h4⟩ := h
    have hx := moves_sound hms (fun _ _ _ => rfl) e fun l hl => by
      cases l with
      | buf p k => exact ⟨p, k, rfl⟩
      | _ => cases hl
    have hi : ∀ i, κ.cur i = none := fun i => by
      match i with
      | 0 => exact h0
      | 1 => exact h1
      | i + 2 => exact moves_idle e (Nat.le_add_left 2 i) rfl
    split at h4
    · rw [beq_iff_eq] at h4
      subst h4
      refine ⟨κ, hx, hi, ?_, h2⟩
      split at h3
      · assumption
      · cases h3
    · cases h4

/-- Thread 0 has ended the stream in `close()` and is about to empty the buffer; thread 1 writes `"b"`, and the call returns; thread 0
empties and closes the buffer: `"b"` is lost. -/
theorem C84_lost : ∃ κ, Exec (procThreads MThr.lazyLock (fun _ => 0) closeAndWrite) (init used fun _ => ())
    [.inv 0 (.mirror (.close none)), .inv 1 (.mirror (.write (lit "b"))), .ret 1 (.mirror (.nat 1)), .ret 0 (.mirror .unit)] κ ∧
    (∀ i, κ.cur i = none) ∧ κ.st.net.queues 0 = [.close] ∧ (κ.st.procs 0).mirror.buf.buf = [] :=
  closes_sound (ms := .start 0 (.mirror (.close none)) :: List.replicate 16 (.go 0) ++ .start 1 (.mirror (.write (lit "b"))) ::
    List.replicate 16 (.go 1) ++ List.replicate 12 (.go 0)) (by decide +kernel) fun m hm i c e => by
      subst e
      simp at hm
      rcases hm with ⟨rfl, rfl⟩ | ⟨rfl, rfl⟩
      · exact ⟨by omega, .inr rfl⟩
      · exact ⟨by omega, .inl trivial⟩

/-- **C84** violated: with `close` among the calls it is not true that whenever no call is running, the text sent and the text held back
are what the threads have written, although every mirror has its lock. -/
theorem C84_violated : ¬ ∀ (proc : Nat → Nat) (ok : Nat → PCall → Prop) (N k : Nat) (maxlen : Int) (w : PWorld)
    (tr : List (Ev PCall PRet)) (κ : Conc.Conf PWorld PLock Unit PCall PRet),
    (∀ i c, ok i c → i < N ∧ (TakesNothing c ∨ c = .mirror (.close none))) → Started maxlen k w.main → (∀ p, (w.procs p).lock ≠ none) →
    (∀ p, (w.procs p).mirror.buf.closed = false) → MirrorsOf w →
    Exec (procThreads MThr.lazyLock proc ok) (init w fun _ => ()) tr κ → (∀ i, κ.cur i = none) →
    ∃ (eff : Nat → List PyStr) (sent : List (Nat × Bool × QMsg)) (got : List QMsg), (∀ i, Contrib AddsText i (eventsBy i tr) (eff i)) ∧
      ((∀ i, Ev.inv i .receive ∉ tr) → got = []) ∧
      got ++ κ.st.net.queues w.main.mirror.queue = w.net.queues w.main.mirror.queue ++ sent.map (·.2.2) ∧
      ∀ p, ∃ ws, Merge (writtenIn proc p N eff) ws ∧
        textFrom proc p sent ++ (κ.st.procs p).mirror.buf.buf = (w.procs p).mirror.buf.buf ++ ws.flatten := by
  intro h
  obtain ⟨κ, hx, hi, hq, hb⟩ := C84_lost
  obtain ⟨eff, sent, got, h1, h2, h3, h4⟩ := h (fun _ => 0) closeAndWrite 2 1 9 used _ κ (fun _ _ h => h) ⟨_, rfl, rfl⟩ (fun _ => nofun) (fun _ => rfl)
    ⟨fun _ => .new false none, fun _ _ => rfl⟩ hx hi
  obtain rfl := h2 (by simp)
  obtain ⟨ws, h5, h6⟩ := h4 0
  have h7 : eff 1 = [lit "b"] := by
    have := h1 1
    simp only [eventsBy, List.filter] at this
    generalize eff 1 = x at this
    cases this with
    | call _ _ l _ l' ha hc =>
      cases hc
      cases (show l = [lit "b"] from ha)
      rfl
  have h8 : lit "b" ∈ ws := (merge_sublist h5 _ (List.mem_of_getElem? (writtenIn_get (i := 1) (by omega) rfl))).subset (by rw [h7]; simp)
  have h9 : (98 : Nat) ∈ textFrom (fun _ => 0) 0 sent := by
    rw [hb, List.append_nil] at h6
    rw [h6]
    exact List.mem_append_right _ (List.mem_flatten.2 ⟨_, h8, by decide⟩)
  have h10 : ∀ m ∈ sent.map (·.2.2), m = .close := by
    have h3 : κ.st.net.queues 0 = sent.map (·.2.2) := h3
    rw [← h3, hq]
    simp
  unfold textFrom textOf at h9
  obtain ⟨d, h11, _⟩ := List.mem_flatten.1 h9
  obtain ⟨m, h12, h13⟩ := List.mem_filterMap.1 h11
  obtain ⟨y, h14, rfl⟩ := List.mem_map.1 h12
  rw [h10 y.2.2 (List.mem_map.2 ⟨y, (List.mem_filter.1 h14).1, rfl⟩)] at h13
  cases h13

/-! ## Examples -/

/-- Carry out moves of two threads of process 0 that share the mirror `used`, and look at the queue and what is held back. -/
def leaves (ms : List (Move PCall)) (n : Nat) (queue : List (Option PyStr)) (held : PyStr) : Bool :=
  match moves (procThreads MThr.lazyLock (fun _ => 0) fun _ _ => True) 3 ms (init used fun _ => ()) (fun | .buf _ _ => true | _ => false) with
  | none => false
  | some (tr, κ) => (κ.cur 0).isNone && (κ.cur 1).isNone && tr.length == n &&
    ((κ.st.net.queues 0).map fun | .str d => some d | _ => none) == queue && (κ.st.procs 0).mirror.buf.buf == held

/-- Thread 1 has written `"b"`; thread 0 calls `send_eof()`, which sends the line; before it sends the end, thread 1 writes `"c"`.  The
text written before the call is in front of the end, `"c"` is held back. -/
example : leaves (.start 1 (.mirror (.write (lit "b"))) :: List.replicate 16 (.go 1) ++ .start 0 (.mirror .sendEof) :: List.replicate 25 (.go 0) ++
    .start 1 (.mirror (.write (lit "c"))) :: List.replicate 16 (.go 1) ++ List.replicate 2 (.go 0)) 6 [some (lit "b\n"), none] (lit "c") = true := by
  decide +kernel

end SyncStream
