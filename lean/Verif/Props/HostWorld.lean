import Verif.Lemmas.HostWorld
import Verif.Lemmas.Sched
import Verif.Props.HostMirrorShared
/-!
# Property C87: the host mode as a whole, with mirrors that threads share

Any number of processes, in each of them any number of threads that share a mirror; readers; the owner of the buffer; and the service, whose
threads serve the requests step by step.
-/

namespace SyncStream
open Spec LineBuf HostBuf Conc Mixed

/-- An execution and a history in which the service performs every operation in one moment. -/
theorem world_history (env : HEnv) (proc : Nat → Nat) (ok : Nat → HSCall → Prop) (s : Nat → HMProc) (h0 : HostBuf) (tr : List (Ev HSCall HSRet))
    (κ : Conf ((Nat → HMProc) × HostBuf) (Nat × Nat ⊕ HLock) Unit HSCall HSRet)
    (hx : Exec (hostWorld env proc ok) (init (s, h0) fun _ => ()) tr κ) :
    ∃ h v t, VRun proc worldCall ok (fun _ => True) s h v ∧ seen h = tr ∧ Serves (AtOnce env) h0 (opsOf h) t ∧ v.st = κ.st.1 ∧
      (∀ i, v.cur i = none ↔ κ.cur i = none) ∧ ((∀ i, κ.cur i = none) → κ.st.2 = t) := by
  obtain ⟨h, v, t, h1, h2, h3, h4, h5, h6⟩ := Mixed.atOnce (HThr.orderly env _)
    ((HThr.disciplined env).le (fun _ o => match o with | .buffer _ => False | _ => True) fun _ o ho => by cases o <;> exact ho)
    (fun i c _ => worldCall_within c) trivial hx
  refine ⟨h, v, t, h1, h2, serves_mono (fun _ _ _ _ _ h => performs_atOnce env h) h3, h4, h5, fun hq => ?_⟩
  have e1 : κ.st.2.base = t.base := h6 hq .config
  have e2 : κ.st.2.state = t.state := h6 hq .state
  cases hs : κ.st.2
  cases ha : t
  simp_all

/-- The whole from the side of one process. -/
theorem world_share {env : HEnv} {proc : Nat → Nat} {ok : Nat → HSCall → Prop} {s : Nat → HMProc} {h0 t : HostBuf}
    {h : List (HEvent HSCall HSRet HOp HRet)} {v : VConf HMProc Nat HOp HRet HSCall HSRet} (hr : VRun proc worldCall ok (fun _ => True) s h v)
    (hs : Serves (AtOnce env) h0 (opsOf h) t) (p : Nat) :
    ∃ W after κp, Fates proc p h W after ∧
      Exec (hostMirrorThreads env (okHere proc ok p)) (init (s p, { service := h0, fates := W.map (·.1) }) fun _ => ()) (mirrorEvents proc p (seen h)) κp ∧
      κp.st.1 = v.st p ∧ κp.st.2.fates = [] ∧ HostBuf.run env after κp.st.2.service = t ∧
      (sortOps proc p h).own = κp.st.2.sent.map (fun r => .req r.wire) ∧ (∀ r ∈ κp.st.2.sent, r.Polite) ∧ ∀ i, v.cur i = none → κp.cur i = none := by
  obtain ⟨W, after, cp, h1⟩ := World.project (env := env) (p := p) hr hs
  obtain ⟨κp, h2, h3⟩ := h1.exec []
  rw [List.append_nil] at h2
  refine ⟨W, after, κp, h1.fates, h2, h3.st, h3.fates, h3.service, h1.fates.own.trans h3.sent.symm, h3.polite, fun i hi => ?_⟩
  have := h1.thr i
  rw [hi] at this
  rw [h3.cur]
  generalize cp i = y at this
  cases this
  rfl

/-- **C87** Any number of processes, each with a mirror that any number of its threads share; readers; the owner's `stop_all_mirrors` and
`reset_states`; requests and answers get lost in any way, the mirrors' locks are made when first used, and the service serves any number of
requests at a time, step by step.  There is one history of all calls and of the operations of the service, each operation in one moment,
with the observed calls and results, in which the answers and, when nobody is in a call, the state of the buffer are those of a
service that performs the operations one after the other; and for every process `p`, what its threads do with its mirror is an execution
of `hostMirrorThreads` — the model in which the threads of one process share a mirror and an oracle decides on their requests — with the
same calls, results, mirror and requests; the oracle tells, for each request, what the service does for all others before it arrives. -/
theorem C87_one_service (env : HEnv) (proc : Nat → Nat) (ok : Nat → HSCall → Prop) (s : Nat → HMProc) (h0 : HostBuf) (tr : List (Ev HSCall HSRet))
    (κ : Conf ((Nat → HMProc) × HostBuf) (Nat × Nat ⊕ HLock) Unit HSCall HSRet)
    (hx : Exec (hostWorld env proc ok) (init (s, h0) fun _ => ()) tr κ) :
    ∃ (h : List (HEvent HSCall HSRet HOp HRet)) (t : HostBuf), seen h = tr ∧ Serves (AtOnce env) h0 (opsOf h) t ∧
      ((∀ i, κ.cur i = none) → κ.st.2 = t) ∧
      ∀ p, ∃ W after κp, Fates proc p h W after ∧
        Exec (hostMirrorThreads env (okHere proc ok p)) (init (s p, { service := h0, fates := W.map (·.1) }) fun _ => ()) (mirrorEvents proc p tr) κp ∧
        κp.st.1 = κ.st.1 p ∧ κp.st.2.fates = [] ∧ HostBuf.run env after κp.st.2.service = t ∧
        (sortOps proc p h).own = κp.st.2.sent.map (fun r => .req r.wire) ∧ ∀ i, κ.cur i = none → κp.cur i = none := by
  obtain ⟨h, v, t, h1, h2, h3, h4, h5, h6⟩ := world_history env proc ok s h0 tr κ hx
  refine ⟨h, t, h2, h3, h6, fun p => ?_⟩
  obtain ⟨W, after, κp, k1, k2, k3, k4, k5, k6, -, k7⟩ := world_share h1 h3 p
  exact ⟨W, after, κp, k1, h2 ▸ k2, by rw [k3, h4], k4, k5, k6, fun i hi => k7 i ((h5 i).2 hi)⟩

/-- A call that has returned, in the history. -/
theorem world_returned {env : HEnv} {proc : Nat → Nat} {ok : Nat → HSCall → Prop} {s : Nat → HMProc} {h0 t : HostBuf}
    {h : List (HEvent HSCall HSRet HOp HRet)} {v : VConf HMProc Nat HOp HRet HSCall HSRet} (hr : VRun proc worldCall ok (fun _ => True) s h v)
    (hs : Serves (AtOnce env) h0 (opsOf h) t) {i : Nat} {c : HSCall} {r : HSRet} {a b d : List (Ev HSCall HSRet)}
    (e : seen h = a ++ .inv i c :: b ++ .ret i r :: d) (hb : ∀ e ∈ b, ¬ ofThread i e) :
    ∃ past mid future l, h = past ++ .inv i c :: mid ++ .ret i r :: future ∧ seen past = a ∧ seen mid = b ∧ seen future = d ∧
      own i mid = asOps i l ∧ World.Runs (worldCall c) l (.ret (r, ())) := by
  obtain ⟨x, y, z, rfl, g1, g3, g2⟩ := seen_split e
  have ey : y = .ret i r := by cases y <;> cases g3; rfl
  subst ey
  obtain ⟨c', past, mid, l, rfl, g4, g5⟩ := (World.call_runs hr).2 i _ _ _ rfl
  rw [seen_append] at g1
  obtain ⟨e1, e2, e3⟩ := World.last_unique (P := ofThread i) g1 (rfl : i = i) (rfl : i = i) (World.own_none g4) hb
  cases e2
  exact ⟨past, mid, z, l, rfl, e1, e3, g2, g4, g5⟩

/-- A call that asks for one operation, at the moment of this operation. -/
theorem world_single {env : HEnv} {proc : Nat → Nat} {ok : Nat → HSCall → Prop} {s : Nat → HMProc} {h0 t : HostBuf}
    {h : List (HEvent HSCall HSRet HOp HRet)} {v : VConf HMProc Nat HOp HRet HSCall HSRet} (hr : VRun proc worldCall ok (fun _ => True) s h v)
    (hs : Serves (AtOnce env) h0 (opsOf h) t) {i : Nat} {c : HSCall} {r : HSRet} {a b d : List (Ev HSCall HSRet)} {q : HOp} {f : HRet → HSRet}
    (hq : worldCall c = .ask q fun x => .ret (f x, ()))
    (e : seen h = a ++ .inv i c :: b ++ .ret i r :: d) (hb : ∀ e ∈ b, ¬ ofThread i e) :
    ∃ past x future b' b'' s, h = past ++ .op i q x :: future ∧ seen past = a ++ .inv i c :: b' ∧ b = b' ++ b'' ∧
      Serves (AtOnce env) h0 (opsOf past) s ∧ x = HThr.result env q s ∧ r = f x := by
  obtain ⟨past, mid, fut, l, rfl, g1, g2, g3, g4, g5⟩ := world_returned hr hs e hb
  obtain ⟨y, rfl, e2⟩ := World.single_runs hq g5
  cases e2
  obtain ⟨q1, q2, rfl⟩ := List.append_of_mem (List.mem_of_mem_filter (g4 ▸ List.mem_singleton_self _ : HEvent.op i q y ∈ own i mid))
  have eq : past ++ .inv i c :: (q1 ++ .op i q y :: q2) ++ .ret i (f y) :: fut =
      (past ++ .inv i c :: q1) ++ .op i q y :: (q2 ++ .ret i (f y) :: fut) := by simp
  rw [eq, opsOf_append] at hs
  obtain ⟨s, k3, k4⟩ := hs.split
  refine ⟨past ++ .inv i c :: q1, y, _, seen q1, seen q2, s, eq, ?_, ?_, k3, ?_, rfl⟩
  · rw [seen_append, g1]; rfl
  · rw [← g2, seen_append]; rfl
  · cases k4 with
    | cons _ _ _ _ _ _ _ k5 k6 => exact k5.1

/-- **C87** A reader's call that returns, and whose request and answer were not lost, returns what it would return if the service had stood still
in the state it had at one moment between the beginning of the call and its end; and the owner's `stop_all_mirrors` and `reset_states` are
performed in one moment between beginning and end — all in the one history of `C87_one_service`. -/
theorem C87_moment (env : HEnv) (proc : Nat → Nat) (ok : Nat → HSCall → Prop) (s : Nat → HMProc) (h0 : HostBuf) (tr : List (Ev HSCall HSRet))
    (κ : Conf ((Nat → HMProc) × HostBuf) (Nat × Nat ⊕ HLock) Unit HSCall HSRet)
    (hx : Exec (hostWorld env proc ok) (init (s, h0) fun _ => ()) tr κ) :
    ∃ (h : List (HEvent HSCall HSRet HOp HRet)) (t : HostBuf), seen h = tr ∧ Serves (AtOnce env) h0 (opsOf h) t ∧
      ((∀ i, κ.cur i = none) → κ.st.2 = t) ∧
      (∀ i c (r : HSRet) a b d, tr = a ++ .inv i (.reader c []) :: b ++ .ret i r :: d → (∀ e ∈ b, ¬ ofThread i e) →
        ∃ past future b' b'' s, h = past ++ future ∧ seen past = a ++ .inv i (.reader c []) :: b' ∧ b = b' ++ b'' ∧
          Serves (AtOnce env) h0 (opsOf past) s ∧ ∀ reader, r = .reader (c.run env { reader := reader, net := { service := s } }).1) ∧
      ∀ i c q (r : HSRet) a b d, (c = .stopAll ∧ q = .stopAll) ∨ (c = .reset ∧ q = .reset) → tr = a ++ .inv i c :: b ++ .ret i r :: d →
        (∀ e ∈ b, ¬ ofThread i e) →
        ∃ past x future b' b'', h = past ++ .op i q x :: future ∧ seen past = a ++ .inv i c :: b' ∧ b = b' ++ b'' := by
  obtain ⟨h, v, t, h1, h2, h3, h4, h5, h6⟩ := world_history env proc ok s h0 tr κ hx
  refine ⟨h, t, h2, h3, h6, fun i c r a b d e hb => ?_, fun i c q r a b d hc e hb => ?_⟩
  · obtain ⟨past, x, fut, b', b'', s, g1, g2, g3, g4, g5, g6⟩ := world_single h1 h3 (c := .reader c []) (q := .req c.req.wire)
      (f := fun x => .reader (c.answer x.received)) rfl (h2.trans e) hb
    refine ⟨past, _, b', b'', s, g1, g2, g3, g4, fun reader => ?_⟩
    have e1 := (reader_onNet env c { reader := reader, net := { service := s } }).1
    rw [g6]
    refine congrArg HSRet.reader (Eq.trans ?_ e1.symm)
    rw [g5]
    rfl
  · have hw : worldCall c = .ask q fun x => .ret ((fun _ => HSRet.local) x, ()) := by
      rcases hc with ⟨rfl, rfl⟩ | ⟨rfl, rfl⟩ <;> rfl
    obtain ⟨past, x, fut, b', b'', s, g1, g2, g3, -⟩ := world_single h1 h3 hw (h2.trans e) hb
    exact ⟨past, x, fut, b', b'', g1, g2, g3⟩

/-! ## What arrives -/

theorem world_calm (c : HSCall) (hc : HSCall.Peaceful c) : (worldCall c).Within HOp.Calm := by
  cases c with
  | mirror c os =>
    refine Mixed.within_bind (Mixed.within_sent (fun r hr => ?_) _ (HMixed.prog_polite c) os) fun _ => trivial
    rcases hr with rfl | ⟨x, rfl⟩
    · exact trivial
    · exact ⟨x.wire, congrArg Body.json (wire_post x)⟩
  | reader c os =>
    have hq : (HOp.req c.req.wire).Calm := by cases c <;> first | exact trivial | exact hc.elim
    refine Mixed.within_bind (Mixed.within_ofAsk ?_) fun _ => trivial
    unfold RdCall.exec
    cases ho : os.headD .ok with
    | ok => simp only [Ask.sent, ho]; exact ⟨hq, fun _ => trivial⟩
    | lost e => simp only [Ask.sent, ho]; exact trivial
    | noReply e => simp only [Ask.sent, ho]; exact ⟨hq, fun _ => trivial⟩
  | stopAll => exact hc.elim
  | reset => exact hc.elim

/-- Only mirrors bring messages. -/
theorem world_no_msg (c : HSCall) (hc : ∀ c' os, c ≠ .mirror c' os) : (worldCall c).Within fun q => q.msg? = none := by
  cases c with
  | mirror c os => exact absurd rfl (hc c os)
  | reader c os =>
    have hq : (HOp.req c.req.wire).msg? = none := msg?_none (by cases c <;> exact nofun)
    refine Mixed.within_bind (Mixed.within_ofAsk ?_) fun _ => trivial
    unfold RdCall.exec
    cases ho : os.headD .ok with
    | ok => simp only [Ask.sent, ho]; exact ⟨hq, fun _ => trivial⟩
    | lost e => simp only [Ask.sent, ho]; exact trivial
    | noReply e => simp only [Ask.sent, ho]; exact ⟨hq, fun _ => trivial⟩
  | stopAll => exact ⟨msg?_none nofun, fun _ => trivial⟩
  | reset => exact ⟨msg?_none nofun, fun _ => trivial⟩

theorem polite_posts : ∀ {rs : List Req}, (∀ r ∈ rs, r.Polite) →
    ∃ ms, Posts rs ms ∧ (rs.map fun r => HOp.req r.wire).filterMap HOp.msg? = ms.map HMsg.wire
  | [], _ => ⟨[], .nil, rfl⟩
  | r :: rs, h => by
    obtain ⟨ms, h1, h2⟩ := polite_posts fun x hx => h x (List.mem_cons_of_mem _ hx)
    rcases h r List.mem_cons_self with rfl | ⟨m, rfl⟩
    · refine ⟨ms, .check _ _ h1, ?_⟩
      have e : (HOp.req (Req.wire (.stateGet (some (lit "closed"))))).msg? = none := msg?_none fun b h => by cases h
      rw [List.map_cons, List.filterMap_cons_none e]
      exact h2
    · refine ⟨m :: ms, .msg _ _ _ h1, ?_⟩
      have e : HOp.req (Req.wire (.post (.json m.post))) = .req (.post (.json m.wire.post)) :=
        congrArg (fun j => HOp.req (.post (.json j))) (wire_post m)
      rw [List.map_cons, e, List.filterMap_cons_some (msg?_post m.wire), h2]
      rfl

theorem world_delivery (env : HEnv) (maxlen : Int) (h0 : HostBuf) (hnew : HostBuf.new maxlen = .ok h0) (n : Nat) (proc : Nat → Nat) (ok : Nat → HSCall → Prop)
    (hok : ∀ i c, ok i c → proc i < n ∧ HSCall.Peaceful c) (s : Nat → HMProc) (tr : List (Ev HSCall HSRet))
    (κ : Conf ((Nat → HMProc) × HostBuf) (Nat × Nat ⊕ HLock) Unit HSCall HSRet)
    (hx : Exec (hostWorld env proc ok) (init (s, h0) fun _ => ()) tr κ) (hq : ∀ i, κ.cur i = none) :
    ∃ (sent : Nat → List Req) (W : Nat → List HMsg) (ms : List HMsg) (log : Log),
      (∀ p, Posts (sent p) (W p) ∧ ∃ F κp, (∀ f ∈ F, f.outcome = .ok ∧ ∀ q ∈ f.before, q.Calm) ∧
        Exec (hostMirrorThreads env (okHere proc ok p)) (init (s p, { service := h0, fates := F }) fun _ => ()) (mirrorEvents proc p tr) κp ∧
        (∀ i, κp.cur i = none) ∧ κp.st.1 = κ.st.1 p ∧ κp.st.2.sent = sent p) ∧
      Merge ((List.range n).map fun p => (W p).map HMsg.wire) ms ∧
      HReplays { cap := maxlen.toNat } ms log ∧
      (LineBuf.read none κ.st.2.base).1 = .ok log.view ∧ κ.st.2.base.storage.items = lastN maxlen.toNat log.done ∧
      κ.st.2.base.lastLine.buf = log.part := by
  obtain ⟨h, v, t, h1, h2, h3, h4, h5, h6⟩ := world_history env proc ok s h0 tr κ hx
  obtain ⟨-, rfl, okl⟩ := new_hb hnew
  have hr0 : HRep ⟨{ cap := maxlen.toNat }, false⟩ (hb { cap := maxlen.toNat } [(lit "closed", .bool false), (lit "maxlen", .int maxlen)]) :=
    ⟨_, rfl, okl, rfl, (fun j hj => nomatch hj), rfl⟩
  have hcalm : ∀ x ∈ opsOf h, proc x.1 < n ∧ x.2.1.Calm := fun x hx => by
    obtain ⟨c, k1, k2⟩ := (World.ops_within (P := fun _ c q => q.Calm) (fun i c hi => world_calm c (hok i c hi).2) h1).2 x hx
    exact ⟨(hok _ _ k1).1, k2⟩
  obtain ⟨k1, log, k2, ⟨st, k3, k4, k5, k6, k7⟩, k8⟩ := calm_serves h3 (fun x hx => (hcalm x hx).2) hr0
  have each : ∀ p, ∃ sent ms, Posts sent ms ∧ (sortOps proc p h).own.filterMap HOp.msg? = ms.map HMsg.wire ∧ ∃ F κp, (∀ f ∈ F, f.outcome = .ok ∧ ∀ q ∈ f.before, q.Calm) ∧
        Exec (hostMirrorThreads env (okHere proc ok p)) (init (s p, { service := hb { cap := maxlen.toNat } [(lit "closed", .bool false), (lit "maxlen", .int maxlen)], fates := F }) fun _ => ()) (mirrorEvents proc p tr) κp ∧
        (∀ i, κp.cur i = none) ∧ κp.st.1 = κ.st.1 p ∧ κp.st.2.sent = sent := by
    intro p
    obtain ⟨W, after, κp, f1, f2, f3, f4, f5, f6, f7, f8⟩ := world_share h1 h3 p
    obtain ⟨ms, g1, g2⟩ := polite_posts f7
    refine ⟨_, ms, g1, by rw [f6]; exact g2, W.map (·.1), κp, ?_, h2 ▸ f2, fun i => f8 i ((h5 i).2 (hq i)), by rw [f3, h4], rfl⟩
    intro f hf
    obtain ⟨x, hx', rfl⟩ := List.mem_map.1 hf
    refine ⟨?_, fun q hq' => ?_⟩
    rcases f1.from_ x hx' with e | ⟨i, c, os, -, e1, e2⟩
    · exact e
    · have := (hok _ _ (exec_calls_ok hx (h2 ▸ mem_seen e1))).2
      rw [show os = [] from this] at e2
      cases e2
    have hin : q ∈ asked (opsOf h) := by
      rw [f1.all]
      exact List.mem_append_left _ (List.mem_flatMap.2 ⟨x, hx', List.mem_append_left _ hq'⟩)
    obtain ⟨y, hy, rfl⟩ := List.mem_map.1 hin
    exact (hcalm y hy).2
  choose S W w1 w2 w3 using each
  refine ⟨S, W, _, log, fun p => ⟨w1 p, w3 p⟩, ?_, k2, ?_⟩
  · have := merge_mine HOp.msg? n ((opsOf h).map fun x => (proc x.1, x.2)) fun x hx => by
      obtain ⟨y, hy, rfl⟩ := List.mem_map.1 hx
      exact (hcalm y hy).1
    rw [List.filterMap_map] at this
    simpa only [World.own_messages (fun i c _ hc => world_no_msg c hc) h1, w2, Function.comp_def] using this
  · rw [h6 hq, show t = _ from k3]
    refine ⟨congrArg Prod.fst (read_rep none log k4 k5), ?_, ?_⟩
    · simp only [hb, rep_open k5, opened]; rw [k8]
    · simp only [hb, rep_open k5, opened]


/-- **C87** A new buffer; the threads of `n` processes call any methods of the mirrors of their processes, and read; no request is lost and nobody stops the
mirrors or clears the buffer.  When all calls have ended, the buffer is the log of all messages that the threads of each process
have sent through its mirror, in the order in which the mirror sent them, each as JSON transports it, those of the processes interleaved in
some way — none lost, doubled or changed; and the threads of each process have seen and left their mirror as in an execution of
`hostMirrorThreads` in which no request is lost. -/
theorem C87_delivery (env : HEnv) (maxlen : Int) (h0 : HostBuf) (hnew : HostBuf.new maxlen = .ok h0) (n : Nat) (proc : Nat → Nat) (ok : Nat → HSCall → Prop)
    (hok : ∀ i c, ok i c → proc i < n ∧ HSCall.Peaceful c) (s : Nat → HMProc) (tr : List (Ev HSCall HSRet))
    (κ : Conf ((Nat → HMProc) × HostBuf) (Nat × Nat ⊕ HLock) Unit HSCall HSRet)
    (hx : Exec (hostWorld env proc ok) (init (s, h0) fun _ => ()) tr κ) (hq : ∀ i, κ.cur i = none) :
    ∃ (sent : Nat → List Req) (W : Nat → List HMsg) (ms : List HMsg) (log : Log),
      (∀ p, Posts (sent p) (W p) ∧ ∃ F κp, (∀ f ∈ F, f.outcome = .ok) ∧
        Exec (hostMirrorThreads env (okHere proc ok p)) (init (s p, { service := h0, fates := F }) fun _ => ()) (mirrorEvents proc p tr) κp ∧
        (∀ i, κp.cur i = none) ∧ κp.st.1 = κ.st.1 p ∧ κp.st.2.sent = sent p) ∧
      Merge ((List.range n).map fun p => (W p).map HMsg.wire) ms ∧
      HReplays { cap := maxlen.toNat } ms log ∧
      (LineBuf.read none κ.st.2.base).1 = .ok log.view ∧ κ.st.2.base.storage.items = lastN maxlen.toNat log.done ∧
      κ.st.2.base.lastLine.buf = log.part := by
  obtain ⟨sent, W, ms, log, h1, h2⟩ := world_delivery env maxlen h0 hnew n proc ok hok s tr κ hx hq
  refine ⟨sent, W, ms, log, fun p => ?_, h2⟩
  obtain ⟨g1, F, κp, g2, g3⟩ := h1 p
  exact ⟨g1, F, κp, fun f hf => (g2 f hf).1, g3⟩

/-! ## Writers -/

/-- No request is lost, and nobody stops the mirrors. -/
structure CalmNet (n : HNet) : Prop where
  fates : ∀ f ∈ n.fates, f.outcome = .ok ∧ ∀ q ∈ f.before, q.Calm
  service : ∃ l, HRep ⟨l, false⟩ n.service

theorem calm_ops {env : HEnv} : ∀ {L : List HOp} {s : HostBuf}, (∀ q ∈ L, q.Calm) → (∃ l, HRep ⟨l, false⟩ s) → ∃ l, HRep ⟨l, false⟩ (HostBuf.run env L s)
  | [], _, _, hs => hs
  | q :: L, s, hq, ⟨l, hs⟩ => by
    obtain ⟨-, l1, -, g3, -⟩ := calm_step (env := env) (i := 0) (hq q List.mem_cons_self) hs ⟨rfl, rfl⟩
    exact calm_ops (L := L) (s := HostBuf.step env q s) (fun x hx => hq x (List.mem_cons_of_mem _ hx)) ⟨l1, g3⟩

/-- Such a service answers well. -/
theorem calm_request {env : HEnv} {n : HNet} (hn : CalmNet n) {r : Req} (hr : r.Polite) :
    ∃ n', CalmNet n' ∧ HNet.request env r n =
      (if r.isGet = true then (found (.bool false)).received else (done 201).received, n') := by
  obtain ⟨hf, hs⟩ := hn
  have h0 : (n.fates.headD {}).outcome = .ok ∧ ∀ q ∈ (n.fates.headD {}).before, q.Calm := by
    cases hfs : n.fates with
    | nil => exact ⟨rfl, nofun⟩
    | cons f fs => exact hf f (by rw [hfs]; exact List.mem_cons_self)
  obtain ⟨l, hl⟩ := calm_ops (env := env) h0.2 hs
  generalize hs' : HostBuf.run env (n.fates.headD {}).before n.service = s' at hl
  have e1 : HNet.request env r n = (HRet.received (HThr.result env (.req r.wire) s'),
      { n with fates := n.fates.tail, service := HostBuf.step env (.req r.wire) s', sent := n.sent ++ [r] }) := by
    unfold HNet.request
    extract_lets f n1
    rw [show f.outcome = .ok from h0.1]
    rw [← hs']
    rfl
  have same : HThr.result env (.req r.wire) s' = (if r.isGet = true then found (.bool false) else done 201) ∧
      ∃ lg', HRep ⟨lg', false⟩ (HostBuf.step env (.req r.wire) s') := by
    rcases hr with rfl | ⟨m, rfl⟩
    · obtain ⟨g1, l1, -, g3, -⟩ := calm_step (env := env) (i := 0) (q := .req (.stateGet (some (lit "closed")))) trivial hl ⟨rfl, rfl⟩
      exact ⟨(g1.1 rfl).trans (if_pos rfl).symm, l1, g3⟩
    · have ew : (Req.post (.json m.post)).wire = .post (.json m.wire.post) := by
        show Req.post (.json (Json.wire m.post)) = _
        rw [wire_post]
      rw [ew]
      obtain ⟨g1, l1, -, g3, -⟩ := calm_step (env := env) (i := 0) (q := .req (.post (.json m.wire.post))) ⟨_, rfl⟩ hl ⟨rfl, rfl⟩
      exact ⟨(g1.2 _ rfl).trans (if_neg (by simp [Req.isGet])).symm, l1, g3⟩
  refine ⟨{ n with fates := n.fates.tail, service := HostBuf.step env (.req r.wire) s', sent := n.sent ++ [r] },
    ⟨fun f hf' => hf f (List.mem_of_mem_tail hf'), same.2⟩, ?_⟩
  rw [e1, same.1]
  split <;> rfl

theorem calm_check {env : HEnv} {n : HNet} (hn : CalmNet n) : ∃ n', CalmNet n' ∧ HNet.check env n = (.ok (), n') := by
  obtain ⟨n', h1, h2⟩ := calm_request (env := env) hn (r := .stateGet (some (lit "closed"))) (.inl rfl)
  rw [if_pos (show (Req.stateGet (some (lit "closed"))).isGet = true from rfl)] at h2
  refine ⟨n', h1, ?_⟩
  unfold HNet.check
  rw [Py.bind_ok h2]
  rfl

theorem calm_text {env : HEnv} {n : HNet} (hn : CalmNet n) (d : PyStr) : ∃ n', CalmNet n' ∧ HMirror.netText env d n = (.ok (), n') := by
  obtain ⟨n', h1, h2⟩ := calm_request (env := env) hn (r := .post (.json (HMirror.strMsg d))) (.inr ⟨.text d, rfl⟩)
  rw [if_neg (by simp [Req.isGet])] at h2
  refine ⟨n', h1, ?_⟩
  unfold HMirror.netText HNet.expectOk
  rw [Py.bind_ok h2]
  rfl

/-- A write on an open mirror succeeds. -/
theorem calm_write {env : HEnv} {m : HMirror} (h : HMReach env m) (ho : m.buf.closed = false) {n : HNet} (hn : CalmNet n) (d : PyStr) :
    ∃ k m' n', HMirror.write env d (m, n) = (.ok k, (m', n')) ∧ m'.buf.closed = false ∧ CalmNet n' := by
  have hm := hmreach_open h ho
  rw [hm, HMirror.write_open, HMirror.writeCore_open]
  obtain ⟨n1, h1, h2⟩ := calm_check (env := env) hn
  rw [show HMirror.netCheck env true n = HNet.check env n from rfl, h2]
  dsimp only
  split
  · obtain ⟨n2, h3, h4⟩ := calm_text (env := env) h1 d
    rw [h4]
    exact ⟨_, _, n2, rfl, rfl, h3⟩
  · split
    · exact ⟨_, _, n1, rfl, rfl, h1⟩
    · obtain ⟨n2, h3, h4⟩ := calm_text (env := env) h1 (m.buf.buf ++ d)
      rw [h4]
      exact ⟨_, _, n2, rfl, rfl, h3⟩

theorem calm_writes {env : HEnv} : ∀ {cs : List HMCall} {m : HMirror} {n : HNet}, (∀ c ∈ cs, ∃ d, c = .write d) → HMReach env m → m.buf.closed = false →
    CalmNet n → ∀ r ∈ (HMirror.run env cs (m, n)).1, ∃ k, r = .nat k
  | [], _, _, _, _, _, _ => nofun
  | c :: cs, m, n, hc, hm, ho, hn => by
    obtain ⟨d, rfl⟩ := hc c List.mem_cons_self
    obtain ⟨k, m', n', h1, h2, h3⟩ := calm_write hm ho hn d
    have e : HMirror.exec env (.write d) (m, n) = (.nat k, (m', n')) := by
      show (let (r, s') := HMirror.write env d (m, n); (HMRet.of HMRet.nat r, s')) = _
      rw [h1]
      rfl
    have hm' : HMReach env m' := by
      have := HMReach.call (.write d) m n hm
      rwa [e] at this
    intro r hr
    have e2 : (HMirror.run env (.write d :: cs) (m, n)).1 = .nat k :: (HMirror.run env cs (m', n')).1 := by
      simp only [HMirror.run, e]
    rw [e2] at hr
    rcases List.mem_cons.1 hr with rfl | hr
    · exact ⟨k, rfl⟩
    · exact calm_writes (fun x hx => hc x (List.mem_cons_of_mem _ hx)) hm' h2 h3 r hr

/-- **C68** (in the host mode as a whole) A new buffer; threads of `n` processes write through the mirrors of their processes, each of which is open and has its lock;
others read; no request is lost.  Then no write fails; and when all calls have ended, for every process the texts that its mirror has
posted and the text it holds back are the texts that its threads have written, interleaved in some way, each write as a whole; and the
buffer is the log of the messages of all mirrors, those of each in their order, none lost, doubled or changed but by JSON.
Missing: the locks exist. -/
theorem C68_system_partial (env : HEnv) (maxlen : Int) (h0 : HostBuf) (hnew : HostBuf.new maxlen = .ok h0) (n N : Nat) (proc : Nat → Nat)
    (ok : Nat → HSCall → Prop) (hok : ∀ i c, ok i c → i < N ∧ proc i < n ∧
      ((∃ d, c = .mirror (.write d) []) ∨ ∃ r os, c = .reader r os ∧ HSCall.Peaceful c))
    (s : Nat → HMProc) (hs : ∀ p, (s p).lock ≠ none ∧ (s p).mirror.buf.closed = false ∧ HMReach env (s p).mirror ∧
      ((s p).mirror.aggressive = true → (s p).mirror.buf.buf = []))
    (tr : List (Ev HSCall HSRet)) (κ : Conf ((Nat → HMProc) × HostBuf) (Nat × Nat ⊕ HLock) Unit HSCall HSRet)
    (hx : Exec (hostWorld env proc ok) (init (s, h0) fun _ => ()) tr κ) (hq : ∀ i, κ.cur i = none) :
    ∃ (sent : Nat → List Req) (W : Nat → List HMsg) (ms : List HMsg) (log : Log),
      (∀ p, Posts (sent p) (W p) ∧ (∀ i r, .ret i r ∈ mirrorEvents proc p tr → ∃ k, r = .nat k) ∧
        ∃ ws, Merge ((List.range N).map fun i => (callsBy i (mirrorEvents proc p tr)).map textWritten) ws ∧
          (textsOf (sent p)).flatten ++ (κ.st.1 p).mirror.buf.buf = (s p).mirror.buf.buf ++ ws.flatten) ∧
      Merge ((List.range n).map fun p => (W p).map HMsg.wire) ms ∧
      HReplays { cap := maxlen.toNat } ms log ∧
      (LineBuf.read none κ.st.2.base).1 = .ok log.view ∧ κ.st.2.base.storage.items = lastN maxlen.toNat log.done ∧
      κ.st.2.base.lastLine.buf = log.part := by
  obtain ⟨sent, W, ms, log, h1, h2⟩ := world_delivery env maxlen h0 hnew n proc ok (fun i c h => by
    obtain ⟨-, h1, ⟨d, rfl⟩ | ⟨r, os, rfl, h2⟩⟩ := hok i c h
    · exact ⟨h1, rfl⟩
    · exact ⟨h1, h2⟩) s tr κ hx hq
  refine ⟨sent, W, ms, log, fun p => ?_, h2⟩
  obtain ⟨g1, F, κp, g2, g3, g4, g5, g6⟩ := h1 p
  have hokp : ∀ i c, okHere proc ok p i c → i < N ∧ ∃ d, c = .write d := by
    rintro i c ⟨-, os, hc⟩
    obtain ⟨k1, -, ⟨d, e⟩ | ⟨r, os', e, -⟩⟩ := hok i _ hc
    · cases e; exact ⟨k1, d, rfl⟩
    · cases e
  obtain ⟨a1, a2, a3, a4⟩ := hs p
  have hready : HostReady (s p, { service := h0, fates := F }) := ⟨a1, a2⟩
  have hf : ∀ i r, Ev.ret i r ∈ mirrorEvents proc p tr → ∃ k, r = .nat k := by
    obtain ⟨L, j1, j2⟩ := C68_order_partial (fun i c h => by obtain ⟨d, rfl⟩ := (hokp i c h).2; trivial) hready g3 g4
    have hcalls : ∀ c ∈ L.map (·.2.1), ∃ d, c = .write d := by
      intro c hc
      obtain ⟨x, hx', rfl⟩ := List.mem_map.1 hc
      have : x.2.1 ∈ callsBy x.1 (mirrorEvents proc p tr) := by
        rw [(j1 x.1).1]
        exact List.mem_map.2 ⟨x, List.mem_filter.2 ⟨hx', by simp⟩, rfl⟩
      exact (hokp _ _ (exec_calls_ok g3 (mem_calls this))).2
    obtain ⟨-, e0, okl⟩ := new_hb hnew
    have hn : CalmNet { service := h0, fates := F } := ⟨g2, _, by rw [e0]; exact ⟨_, rfl, okl, rfl, (fun j hj => nomatch hj), rfl⟩⟩
    have hall := calm_writes (env := env) hcalls a3 a2 hn
    rw [show HMirror.run env (L.map (·.2.1)) ((s p).mirror, { service := h0, fates := F }) = _ from j2] at hall
    intro i r hr
    have : r ∈ retsBy i (mirrorEvents proc p tr) := List.mem_filterMap.2 ⟨_, hr, by simp⟩
    rw [(j1 i).2] at this
    obtain ⟨x, hx', rfl⟩ := List.mem_map.1 this
    exact hall _ (List.mem_map.2 ⟨x, (List.mem_filter.1 hx').1, rfl⟩)
  obtain ⟨ws, b1, b2⟩ := C68_writers_partial hokp hready a3 a4 g3 g4 hf
  refine ⟨g1, hf, ws, b1, ?_⟩
  rw [← g6, ← g5]
  exact b2

/-! ## An execution -/

/-- Threads 0 and 1 belong to process 0 and share its mirror; thread 2, of process 1, writes through its own mirror; thread 3 reads.  Thread 1 waits
for the lock of the mirror while thread 0 has asked for the flag; then thread 2 writes, before the text of thread 0 is sent; the reader
reads before thread 1 goes on. -/
def sharedWorld : List (Move HSCall) :=
  [.start 0 (.mirror (.write (lit "a\nb")) []), .start 1 (.mirror (.write (lit "c\n")) []), .start 2 (.mirror (.write (lit "x\n")) []),
    .start 3 (.reader (.read none) [])] ++
    (List.replicate 20 (.go 0) ++ List.replicate 2 (.go 1) ++ List.replicate 42 (.go 2) ++ List.replicate 22 (.go 0) ++
      List.replicate 13 (.go 3) ++ List.replicate 40 (.go 1))

/-- The end of `sharedWorld`. -/
def sharedCheck (p : List (Ev HSCall HSRet) × Conf ((Nat → HMProc) × HostBuf) (Nat × Nat ⊕ HLock) Unit HSCall HSRet) : Bool :=
  (p.2.cur 0).isNone && (p.2.cur 1).isNone && (p.2.cur 2).isNone && (p.2.cur 3).isNone &&
    textsRead (retsBy 3 p.1) == [lit "x", lit "a", lit "b"] && textsIn p.2.st.2.base.storage.items == [lit "x", lit "a", lit "bc"]

/-- The hypotheses of `C87_delivery` and of `C68_system_partial` hold in this execution. -/
example : ∃ h0 tr κ, HostBuf.new 9 = .ok h0 ∧
    Exec (hostWorld sampleEnv (fun i => i / 2) fun i c => i < 4 ∧ i / 2 < 2 ∧ ((∃ d, c = .mirror (.write d) []) ∨ ∃ r os, c = .reader r os ∧ HSCall.Peaceful c))
      (init (fun _ => { lock := some 0, made := 1 }, h0) fun _ => ()) tr κ ∧
    (∀ i, κ.cur i = none) ∧ textsRead (retsBy 3 tr) = [lit "x", lit "a", lit "b"] ∧
    textsIn κ.st.2.base.storage.items = [lit "x", lit "a", lit "bc"] := by
  have hn : HostBuf.new 9 = .ok (hb { cap := 9 } [(lit "closed", .bool false), (lit "maxlen", .int 9)]) := rfl
  have obs : (moves (hostWorld sampleEnv (fun i => i / 2) fun i c => i < 4 ∧ i / 2 < 2 ∧
        ((∃ d, c = .mirror (.write d) []) ∨ ∃ r os, c = .reader r os ∧ HSCall.Peaceful c)) 4 sharedWorld
      (init (fun _ => { lock := some 0, made := 1 }, hb { cap := 9 } [(lit "closed", .bool false), (lit "maxlen", .int 9)]) fun _ => ())
      fun l => l.isLeft).any sharedCheck = true := by decide +kernel
  obtain ⟨⟨tr, κ⟩, hm, e⟩ := (Option.any_eq_true _ _).1 obs
  simp only [sharedCheck, Bool.and_eq_true, Option.isNone_iff_eq_none, beq_iff_eq] at e
  obtain ⟨⟨⟨⟨⟨e0, e1⟩, e2⟩, e3⟩, e4⟩, e5⟩ := e
  refine ⟨_, tr, κ, hn, moves_sound ?_ (fun _ _ _ => rfl) hm ?_, fun i => ?_, e4, e5⟩
  · intro m hmem i c hc
    subst hc
    rcases List.mem_append.1 hmem with h | h
    · simp only [List.mem_cons, Move.start.injEq, List.not_mem_nil, or_false] at h
      rcases h with ⟨rfl, rfl⟩ | ⟨rfl, rfl⟩ | ⟨rfl, rfl⟩ | ⟨rfl, rfl⟩
      · exact ⟨by omega, by omega, .inl ⟨_, rfl⟩⟩
      · exact ⟨by omega, by omega, .inl ⟨_, rfl⟩⟩
      · exact ⟨by omega, by omega, .inl ⟨_, rfl⟩⟩
      · exact ⟨by omega, by omega, .inr ⟨_, _, rfl, trivial⟩⟩
    · simp at h
  · intro l hl
    cases l with
    | inl x => trivial
    | inr m => cases hl
  · match i with
    | 0 => exact e0
    | 1 => exact e1
    | 2 => exact e2
    | 3 => exact e3
    | i + 4 => exact moves_idle hm (by omega) rfl

end SyncStream
