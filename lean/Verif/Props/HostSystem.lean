import Verif.Lemmas.HostSystem
/-!
# Property C76: the host mode as a whole, step by step

Any number of processes use mirrors and readers; the service serves their requests in threads, with the primitive steps interleaved in any way.
-/

namespace SyncStream
open Spec LineBuf HostBuf Conc

/-- One operation of the service, without interruption. -/
theorem performs_atOnce (env : HEnv) {ok : Nat → HOp → Prop} {s t : HostBuf} {i : Nat} {o : HOp} {r : HRet}
    (h : Performs (hostThreads env ok) s i o r t) : AtOnce env s i o r t := by
  have h4 := (Prog.seq_bind_ok (HThr.prog_seq env o s)).symm.trans h
  have e1 := congrArg Prod.fst h4
  have e2 : HostBuf.step env o s = t := congrArg Prod.snd h4
  injection e1 with e1
  exact ⟨(congrArg Prod.fst e1).symm, e2.symm⟩

theorem serves_mono {A C R : Type} {act act' : A → Nat → C → R → A → Prop} (h : ∀ s i q a t, act s i q a t → act' s i q a t) {s t : A}
    {l : List (Nat × C × R)} (hs : Serves act s l t) : Serves act' s l t := by
  induction hs with
  | nil => exact .nil _
  | cons s t u i q a l h1 h2 ih => exact .cons _ _ _ _ _ _ _ (h _ _ _ _ _ h1) ih

theorem sent_within {α : Type} {P : HOp → Prop} (hP : ∀ r, P (.req r)) (p : Ask Req (Except Exc Resp) α) : ∀ os, (p.sent os).Within P := by
  induction p with
  | done a => exact fun _ => trivial
  | ask r k ih =>
    intro os
    cases ho : os.headD .ok with
    | ok => simp only [Ask.sent, ho]; exact ⟨hP _, fun x => ih _ _⟩
    | lost e => simp only [Ask.sent, ho]; exact ih _ _
    | noReply e => simp only [Ask.sent, ho]; exact ⟨hP _, fun x => ih _ _⟩

theorem hostClient_within (m : HMirror) (c : HSCall) : (hostClient m c).Within fun o => match o with | .buffer _ => False | _ => True := by
  cases c with
  | mirror c os => exact HMAsk.within_bind' (sent_within (fun _ => trivial) _ _) fun _ => trivial
  | reader c os => exact HMAsk.within_bind' (sent_within (fun _ => trivial) _ _) fun _ => trivial
  | stopAll => exact ⟨trivial, fun _ => trivial⟩
  | reset => exact ⟨trivial, fun _ => trivial⟩

/-- An execution and a history in which the service performs every operation in one moment. -/
theorem host_history (env : HEnv) (ok : Nat → HSCall → Prop) (h0 : HostBuf) (obj : Nat → HMirror) (tr : List (Ev HSCall HSRet))
    (κ : Conf HostBuf HLock HMirror HSCall HSRet) (hx : Exec (hostSystem env ok) (init h0 obj) tr κ) :
    ∃ (h : List (HEvent HSCall HSRet HOp HRet)) (rest : Nat → Option (HSCall × Ask HOp HRet (HSRet × HMirror))) (t : HostBuf),
      seen h = tr ∧ Serves (AtOnce env) h0 (opsOf h) t ∧ (∀ i, ClientRun hostClient i (obj i) (own i h) (κ.obj i) (rest i)) ∧
      (∀ i, rest i = none ↔ κ.cur i = none) ∧ ((∀ i, κ.cur i = none) → κ.st = t) := by
  obtain ⟨h, rest, t, h1, h2, h3, h4, h5⟩ := exec_clients (HThr.orderly env _)
    ((HThr.disciplined env).le (fun _ o => match o with | .buffer _ => False | _ => True) fun _ o ho => by cases o <;> exact ho)
    (fun i o c _ => hostClient_within o c) trivial hx
  refine ⟨h, rest, t, h1, serves_mono (fun _ _ _ _ _ h => performs_atOnce env h) h2, h3, h4, fun hq => ?_⟩
  have e1 : κ.st.base = t.base := h5 hq .config
  have e2 : κ.st.state = t.state := h5 hq .state
  cases hs : κ.st
  cases ha : t
  simp_all

/-- **C76** Any number of processes use mirrors, readers and the buffer's own `stop_all_mirrors` and `reset_states`; requests and answers
get lost in any way; the service serves any number of requests at a time, step by step.  There is one history of all calls and of the
operations of the service, each operation in one moment during the call that asked for it, with the observed calls and results: (1) the
operations in a call are those that its method asks for, the
answers and, when nobody is in a call, the state of the buffer are those of a service that performs the operations one after the other;
(2) to every process that only uses its mirror and is between two calls, everything looks as the sequential model has it: the results of its
calls, its mirror and the requests it made are those of `HMirror.run` with an oracle that names, for each request, what the service does for
others before it arrives, and whether it or its answer is lost. -/
theorem C76_sequential (env : HEnv) (h0 : HostBuf) (obj : Nat → HMirror) (tr : List (Ev HSCall HSRet))
    (κ : Conf HostBuf HLock HMirror HSCall HSRet) (hx : Exec (hostSystem env fun _ _ => True) (init h0 obj) tr κ) :
    ∃ (h : List (HEvent HSCall HSRet HOp HRet)) (t : HostBuf), seen h = tr ∧ Serves (AtOnce env) h0 (opsOf h) t ∧
      ((∀ i, κ.cur i = none) → κ.st = t) ∧ (∀ i, ∃ rest, ClientRun hostClient i (obj i) (own i h) (κ.obj i) rest) ∧
      ∀ i (cs : List (HMCall × List Outcome)), κ.cur i = none → callsBy i tr = cs.map (fun x => .mirror x.1 x.2) →
        ∃ fates before after s sent rs, opsOf h = before ++ after ∧ Woven i fates before ∧ mine i after = [] ∧
          (mine i before).map (·.1) = sent.map (fun r => .req r.wire) ∧
          (∀ f ∈ fates, f.outcome = .ok ∨ ∃ x ∈ cs, f.outcome ∈ x.2) ∧
          retsBy i tr = rs.map .mirror ∧
          HMirror.run env (cs.map (·.1)) (obj i, { service := h0, fates := fates }) = (rs, (κ.obj i, { service := s, sent := sent })) ∧
          HostBuf.run env (asked after) s = t := by
  obtain ⟨h, rest, t, h1, h2, h3, h4, h5⟩ := host_history env _ h0 obj tr κ hx
  refine ⟨h, t, h1, h2, h5, fun i => ⟨rest i, h3 i⟩, fun i cs hi hc => ?_⟩
  obtain ⟨v1, v2, v3⟩ := own_view (i := i) h
  obtain ⟨fates, L1, L2, s', new, rs, e, j1, j2, j3, j4, j5, j6, j7⟩ := run_onNet (env := env) (h3 i) ((h4 i).2 hi) (cs := cs)
    (by rw [v1, h1, hc]) h2 v3.symm
  refine ⟨fates, L1, L2, s', new, rs, e, j3, j1, j4, j5, by rw [← j6, v2, h1], ?_, serves_run j2⟩
  have := j7 [] []
  rwa [List.append_nil, List.nil_append] at this

/-- **C76** A reader's call that returns, and whose request and answer were not lost, returns what it would return if the service had stood still
in the state it had at one moment between the beginning of the call and its end. -/
theorem C76_reader (env : HEnv) (h0 : HostBuf) (obj : Nat → HMirror) (tr : List (Ev HSCall HSRet))
    (κ : Conf HostBuf HLock HMirror HSCall HSRet) (hx : Exec (hostSystem env fun _ _ => True) (init h0 obj) tr κ) :
    ∃ (h : List (HEvent HSCall HSRet HOp HRet)) (t : HostBuf), seen h = tr ∧ Serves (AtOnce env) h0 (opsOf h) t ∧
      ((∀ i, κ.cur i = none) → κ.st = t) ∧
      ∀ i c (r : HSRet) a b d, tr = a ++ .inv i (.reader c []) :: b ++ .ret i r :: d → (∀ e ∈ b, ¬ ofThread i e) →
        ∃ past future b' b'' s, h = past ++ future ∧ seen past = a ++ .inv i (.reader c []) :: b' ∧ b = b' ++ b'' ∧
          Serves (AtOnce env) h0 (opsOf past) s ∧ ∀ reader, r = .reader (c.run env { reader := reader, net := { service := s } }).1 := by
  obtain ⟨h, rest, t, h1, h2, h3, -, h5⟩ := host_history env _ h0 obj tr κ hx
  refine ⟨h, t, h1, h2, h5, fun i c r a b d e hb => ?_⟩
  obtain ⟨p, q, f, l, m1, m2, rfl, g1, g2, g3, g4, g5, -⟩ := history_returns (h3 i) (h1.trans e) hb
  obtain ⟨x, k1, k2⟩ := asks_bind_done _ _ g5
  cases k2
  have ea : c.exec.sent [] = .ask (.req c.req.wire) fun x => .done (c.answer x.received) := rfl
  rw [ea] at k1
  cases k1 with
  | cons _ y _ _ _ k1 =>
  cases k1
  have hq : own i q = [HEvent.op i (.req c.req.wire) y] := g4
  obtain ⟨q1, q2, rfl⟩ := List.append_of_mem (List.mem_of_mem_filter (hq ▸ List.mem_singleton_self _ : HEvent.op i (.req c.req.wire) y ∈ own i q))
  have eq : p ++ .inv i (.reader c []) :: (q1 ++ .op i (.req c.req.wire) y :: q2) ++ .ret i (.reader (c.answer y.received)) :: f =
      (p ++ .inv i (.reader c []) :: q1) ++ (.op i (.req c.req.wire) y :: q2 ++ .ret i (.reader (c.answer y.received)) :: f) := by simp
  rw [eq, opsOf_append] at h2
  obtain ⟨s, k3, k4⟩ := h2.split
  refine ⟨p ++ .inv i (.reader c []) :: q1, _, seen q1, seen q2, s, eq, ?_, ?_, k3, fun reader => ?_⟩
  · rw [seen_append, g1]; rfl
  · rw [← g2, seen_append]; rfl
  · cases k4 with
    | cons _ _ _ _ _ _ _ k5 k6 =>
    have e1 := (reader_onNet env c { reader := reader, net := { service := s } }).1
    refine congrArg HSRet.reader (Eq.trans ?_ e1.symm)
    rw [k5.1]
    rfl

theorem within_mono {C R α : Type} {P Q : C → Prop} (h : ∀ c, P c → Q c) {p : Ask C R α} (hp : p.Within P) : p.Within Q := by
  induction p with
  | done a => trivial
  | ask c k ih => exact ⟨h _ hp.1, fun r => ih r (hp.2 r)⟩

theorem mem_seen {C' R' C R : Type} {h : List (HEvent C' R' C R)} {i : Nat} {c : C'} (hm : HEvent.inv i c ∈ h) : Ev.inv i c ∈ seen h := by
  induction h with
  | nil => cases hm
  | cons e h ih =>
    rcases List.mem_cons.1 hm with rfl | hm'
    · exact List.mem_cons_self
    · cases e with
      | op => exact ih hm'
      | inv => exact List.mem_cons_of_mem _ (ih hm')
      | ret => exact List.mem_cons_of_mem _ (ih hm')

theorem mem_opsOf {C' R' C R : Type} {h : List (HEvent C' R' C R)} {x : Nat × C × R} (hm : x ∈ opsOf h) : HEvent.op x.1 x.2.1 x.2.2 ∈ h := by
  induction h with
  | nil => cases hm
  | cons e h ih =>
    cases e with
    | inv => exact List.mem_cons_of_mem _ (ih hm)
    | ret => exact List.mem_cons_of_mem _ (ih hm)
    | op i q a =>
      rcases List.mem_cons.1 (hm : x ∈ (i, q, a) :: opsOf h) with rfl | hm
      · exact List.mem_cons_self
      · exact List.mem_cons_of_mem _ (ih hm)

theorem mem_mine {C R : Type} {i : Nat} {l : List (Nat × C × R)} {x : C × R} (h : x ∈ mine i l) : (i, x) ∈ l := by
  obtain ⟨y, h1, h2⟩ := List.mem_filterMap.1 h
  obtain ⟨j, y⟩ := y
  by_cases e : j = i
  · simp only [e, if_true] at h2
    cases h2
    rw [← e]; exact h1
  · simp [e] at h2

theorem mem_calls {C R : Type} {i : Nat} {c : C} {tr : List (Ev C R)} (h : c ∈ callsBy i tr) : Ev.inv i c ∈ tr := by
  obtain ⟨e, h1, h2⟩ := List.mem_filterMap.1 h
  cases e with
  | ret => cases h2
  | inv j c' =>
    by_cases e : j = i
    · simp only [e, if_true] at h2
      cases h2
      rw [← e]; exact h1
    · simp [e] at h2

/-- **C76** A new buffer; `n` processes call any methods of their mirrors, and read; no request is lost and nobody stops the mirrors or clears the
buffer.  When all calls have ended, every mirror has returned, and is, what it would be alone with the service; and the buffer is the log of
all messages that the mirrors would have sent alone — each as JSON transports it, those of each mirror in their order, none lost, doubled or
changed. -/
theorem C76_delivery (env : HEnv) (maxlen : Int) (h0 : HostBuf) (hnew : HostBuf.new maxlen = .ok h0) (n : Nat) (obj : Nat → HMirror)
    (tr : List (Ev HSCall HSRet)) (κ : Conf HostBuf HLock HMirror HSCall HSRet)
    (hx : Exec (hostSystem env fun i c => i < n ∧ HSCall.Peaceful c) (init h0 obj) tr κ) (hq : ∀ i, κ.cur i = none) :
    ∃ (W : Nat → List HMsg) (ms : List HMsg) (log : Log),
      (∀ i, mirrorRets i tr = (HMirror.run env (mirrorCalls i tr) (obj i, { service := h0 })).1 ∧
        κ.obj i = (HMirror.run env (mirrorCalls i tr) (obj i, { service := h0 })).2.1 ∧
        Posts (HMirror.run env (mirrorCalls i tr) (obj i, { service := h0 })).2.2.sent (W i)) ∧
      Merge ((List.range n).map fun i => (W i).map HMsg.wire) ms ∧
      HReplays { cap := maxlen.toNat } ms log ∧
      (LineBuf.read none κ.st.base).1 = .ok log.view ∧ κ.st.base.storage.items = lastN maxlen.toNat log.done ∧ κ.st.base.lastLine.buf = log.part := by
  obtain ⟨h, rest, t, h1, h2, h3, h4, h5⟩ := host_history env _ h0 obj tr κ hx
  obtain ⟨-, rfl, okl⟩ := new_hb hnew
  have hr0 : HRep ⟨{ cap := maxlen.toNat }, false⟩ (hb { cap := maxlen.toNat } [(lit "closed", .bool false), (lit "maxlen", .int maxlen)]) :=
    ⟨_, rfl, okl, rfl, (fun j hj => nomatch hj), rfl⟩
  have hcalm : ∀ x ∈ opsOf h, x.1 < n ∧ x.2.1.Calm := by
    rintro ⟨j, q, a⟩ hm
    refine (h3 j).within_ops (okc := fun c => j < n ∧ HSCall.Peaceful c) (P := fun q => j < n ∧ q.Calm)
      (fun o c hc => within_mono (fun _ h => ⟨hc.1, h⟩) (peaceful_within o c hc.2)) (fun c hc => ?_) j q a ?_
    · exact exec_calls_ok hx (h1 ▸ mem_seen (List.mem_of_mem_filter hc))
    · exact List.mem_filter.2 ⟨mem_opsOf hm, by simp [HEvent.who]⟩
  obtain ⟨k1, log, k2, ⟨st, k3, k4, k5, k6, k7⟩, k8⟩ := calm_serves h2 (fun x hx => (hcalm x hx).2) hr0
  have each : ∀ i, ∃ s' new ms, HMirror.run env (mirrorCalls i tr) (obj i, { service := hb { cap := maxlen.toNat } [(lit "closed", .bool false), (lit "maxlen", .int maxlen)] }) =
        (mirrorRets i tr, (κ.obj i, { service := s', sent := new })) ∧
      Posts new ms ∧ (mine i (opsOf h)).filterMap (fun x => x.1.msg?) = ms.map HMsg.wire := by
    intro i
    obtain ⟨v1, v2, v3⟩ := own_view (i := i) h
    obtain ⟨s', new, ms, g1, g2, g3⟩ := calm_run (env := env) (h3 i) ((h4 i).2 (hq i))
      (fun c hc => (exec_calls_ok hx (mem_calls (by rw [v1, h1] at hc; exact hc))).2)
      (fun x hx => k1 (i, x) (mem_mine (by rw [v3] at hx; exact hx))) [] hr0
    refine ⟨s', new, ms, ?_, g2, by rw [← v3]; exact g3⟩
    unfold mirrorCalls mirrorRets at g1 ⊢
    rw [v1, v2, h1] at g1
    exact g1
  choose S N W w1 w2 w3 using each
  refine ⟨W, _, log, fun i => ?_, ?_, k2, ?_⟩
  · rw [w1 i]; exact ⟨rfl, rfl, w2 i⟩
  · have := merge_mine HOp.msg? n (opsOf h) fun x hx => (hcalm x hx).1
    simpa only [w3] using this
  · rw [h5 hq, show t = _ from k3]
    refine ⟨congrArg Prod.fst (read_rep none log k4 k5), ?_, ?_⟩
    · simp only [hb, rep_open k5, opened]; rw [k8]
    · simp only [hb, rep_open k5, opened]

/-- Two mirrors and a reader: both mirrors have asked for the flag before either sends its text; the reader reads between the two texts. -/
def twoMirrors : List (Move HSCall) :=
  [.start 0 (.mirror (.write (lit "a\nb")) []), .start 1 (.mirror (.write (lit "c\n")) []), .start 2 (.reader (.read none) [])] ++
    (List.replicate 5 (.go 0) ++ List.replicate 5 (.go 1) ++ List.replicate 13 (.go 0) ++ List.replicate 13 (.go 2) ++ List.replicate 13 (.go 1))

/-- The texts among entries. -/
def textsIn (l : List Item) : List PyStr := l.map fun | .str s => s | _ => lit "no text"

/-- The texts among what readers got. -/
def textsRead (l : List HSRet) : List PyStr := (l.map fun | .reader (.items l) => textsIn l | _ => [lit "no entries"]).flatten

/-- The end of `twoMirrors`. -/
def twoCheck (p : List (Ev HSCall HSRet) × Conf HostBuf HLock HMirror HSCall HSRet) : Bool :=
  (p.2.cur 0).isNone && (p.2.cur 1).isNone && (p.2.cur 2).isNone && textsRead (retsBy 2 p.1) == [lit "a", lit "b"] &&
    textsIn p.2.st.base.storage.items == [lit "a", lit "bc"]

/-- The hypotheses of `C76_delivery` hold in this execution; the reader has got the first text; the second continues its unfinished line. -/
example : ∃ h0 tr κ, HostBuf.new 9 = .ok h0 ∧ Exec (hostSystem sampleEnv fun i c => i < 3 ∧ HSCall.Peaceful c) (init h0 fun _ => {}) tr κ ∧
    (∀ i, κ.cur i = none) ∧ textsRead (retsBy 2 tr) = [lit "a", lit "b"] ∧ textsIn κ.st.base.storage.items = [lit "a", lit "bc"] := by
  have hn : HostBuf.new 9 = .ok (hb { cap := 9 } [(lit "closed", .bool false), (lit "maxlen", .int 9)]) := rfl
  have obs : (moves (hostSystem sampleEnv fun i c => i < 3 ∧ HSCall.Peaceful c) 3 twoMirrors
      (init (hb { cap := 9 } [(lit "closed", .bool false), (lit "maxlen", .int 9)]) fun _ => {})).any twoCheck = true := by decide +kernel
  obtain ⟨⟨tr, κ⟩, hm, e⟩ := (Option.any_eq_true _ _).1 obs
  simp only [twoCheck, Bool.and_eq_true, Option.isNone_iff_eq_none, beq_iff_eq] at e
  obtain ⟨⟨⟨⟨e0, e1⟩, e2⟩, e3⟩, e4⟩ := e
  refine ⟨_, tr, κ, hn, moves_sound ?_ (fun _ _ _ => rfl) hm, fun i => ?_, e3, e4⟩
  · intro m hmem i c hc
    subst hc
    rcases List.mem_append.1 hmem with h | h
    · simp only [List.mem_cons, Move.start.injEq, List.not_mem_nil, or_false] at h
      rcases h with ⟨rfl, rfl⟩ | ⟨rfl, rfl⟩ | ⟨rfl, rfl⟩
      · exact ⟨by omega, rfl⟩
      · exact ⟨by omega, rfl⟩
      · exact ⟨by omega, trivial⟩
    · simp at h
  · match i with
    | 0 => exact e0
    | 1 => exact e1
    | 2 => exact e2
    | i + 3 => exact moves_idle hm (by omega) rfl

/-- A stop between the check of a mirror and its text; and a text whose answer is lost and which is sent again by a second call. -/
def lossy : List (Move HSCall) :=
  [.start 0 (.mirror (.write (lit "a\n")) [])] ++ List.replicate 5 (.go 0) ++ [.start 1 .stopAll] ++ List.replicate 4 (.go 1) ++
    List.replicate 13 (.go 0) ++ [.start 1 .reset] ++ List.replicate 5 (.go 1) ++
    [.start 0 (.mirror (.write (lit "b\n")) [.ok, .noReply .connectionError])] ++ List.replicate 18 (.go 0) ++
    [.start 0 (.mirror (.sendData (lit "b\n")) [])] ++ List.replicate 13 (.go 0)

/-- The end of `lossy`. -/
def lossyCheck (p : List (Ev HSCall HSRet) × Conf HostBuf HLock HMirror HSCall HSRet) : Bool :=
  (p.2.cur 0).isNone && (p.2.cur 1).isNone &&
    (retsBy 0 p.1).map (fun | .mirror (.nat n) => n | .mirror .unit => 100 | .mirror (.exc .connectionError) => 101 | _ => 102) == [2, 101, 100] &&
    textsIn p.2.st.base.storage.items == [lit "a", lit "b", lit "b"]

/-- An execution of `C76_sequential`: the first text is delivered, the second twice, although its mirror was told of the failure. -/
example : (moves (hostSystem sampleEnv fun _ _ => True) 2 lossy
    (init (hb { cap := 9 } [(lit "closed", .bool false), (lit "maxlen", .int 9)]) fun _ => {})).any lossyCheck = true := by decide +kernel

end SyncStream
