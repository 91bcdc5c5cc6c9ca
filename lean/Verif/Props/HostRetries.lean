import Verif.Lemmas.HostRetries
import Verif.Props.HostSystem
import Verif.Props.Retries
/-!
# Property C82: the host mode as a whole, with the attempts of `urllib3`

Any number of processes use mirrors and readers; every request is attempted as `urllib3` does it, attempts fail in any way, requests that
were given up may still be processed later; and the service serves all of them in threads, with the primitive steps interleaved in any way.
-/

namespace SyncStream
open Spec LineBuf HostBuf Conc

theorem retryClient_within (m : HMirror) (c : HTCall) : (retryClient m c).Within fun o => match o with | .buffer _ => False | _ => True := by
  have all : ∀ {α : Type} (p : Ask Req (Except Exc Resp) α), p.Within fun _ => True := by
    intro α p
    induction p with
    | done a => trivial
    | ask r k ih => exact ⟨trivial, ih⟩
  cases c with
  | mirror c ts => exact HMAsk.within_bind' (tried_within (Q := fun _ => True) (fun _ _ => trivial) _ (all _) _) fun _ => trivial
  | reader c ts => exact HMAsk.within_bind' (tried_within (Q := fun _ => True) (fun _ _ => trivial) _ (all _) _) fun _ => trivial
  | late r => exact ⟨trivial, fun _ => trivial⟩
  | stopAll => exact ⟨trivial, fun _ => trivial⟩
  | reset => exact ⟨trivial, fun _ => trivial⟩

/-- An execution and a history in which the service performs every operation in one moment. -/
theorem retry_history (env : HEnv) (ok : Nat → HTCall → Prop) (h0 : HostBuf) (obj : Nat → HMirror) (tr : List (Ev HTCall HSRet))
    (κ : Conf HostBuf HLock HMirror HTCall HSRet) (hx : Exec (retrySystem env ok) (init h0 obj) tr κ) :
    ∃ (h : List (HEvent HTCall HSRet HOp HRet)) (rest : Nat → Option (HTCall × Ask HOp HRet (HSRet × HMirror))) (t : HostBuf),
      seen h = tr ∧ Serves (AtOnce env) h0 (opsOf h) t ∧ (∀ i, ClientRun retryClient i (obj i) (own i h) (κ.obj i) (rest i)) ∧
      (∀ i, rest i = none ↔ κ.cur i = none) ∧ ((∀ i, κ.cur i = none) → κ.st = t) := by
  obtain ⟨h, rest, t, h1, h2, h3, h4, h5⟩ := exec_clients (HThr.orderly env _)
    ((HThr.disciplined env).le (fun _ o => match o with | .buffer _ => False | _ => True) fun _ o ho => by cases o <;> exact ho)
    (fun i o c _ => retryClient_within o c) trivial hx
  refine ⟨h, rest, t, h1, serves_mono (fun _ _ _ _ _ h => performs_atOnce env h) h2, h3, h4, fun hq => ?_⟩
  have e1 : κ.st.base = t.base := h5 hq .config
  have e2 : κ.st.state = t.state := h5 hq .state
  cases hs : κ.st
  cases ha : t
  simp_all

/-- **C82** There is one history of all calls and of the operations of the service, each operation in one moment during the call that asked
for it, with the observed calls and results: (1) the operations
in a call are those that its method asks for, the answers and, when nobody is in a call, the state of the buffer are those of a service
that performs the operations one after the other; (2) to every process that only uses its mirror and is between two calls, everything
looks as `Model/Retries.lean` has it: the results of its calls, its mirror, and the requests of it that are processed, are those of one
client whose attempts end as said, with what the service does for others before each attempt that arrives. -/
theorem C82_sequential (env : HEnv) (h0 : HostBuf) (obj : Nat → HMirror) (tr : List (Ev HTCall HSRet))
    (κ : Conf HostBuf HLock HMirror HTCall HSRet) (hx : Exec (retrySystem env fun _ _ => True) (init h0 obj) tr κ) :
    ∃ (h : List (HEvent HTCall HSRet HOp HRet)) (t : HostBuf), seen h = tr ∧ Serves (AtOnce env) h0 (opsOf h) t ∧
      ((∀ i, κ.cur i = none) → κ.st = t) ∧ (∀ i, ∃ rest, ClientRun retryClient i (obj i) (own i h) (κ.obj i) rest) ∧
      ∀ i (cs : List (HMCall × List Attempt)), κ.cur i = none → callsBy i tr = cs.map (fun x => .mirror x.1 x.2) →
        ∃ tries before after s sent rs, opsOf h = before ++ after ∧ Attempted i tries before ∧ mine i after = [] ∧
          (mine i before).map (·.1) = sent.map (fun r => .req r.wire) ∧
          (∀ u ∈ tries, u.what = .answered ∨ ∃ x ∈ cs, u.what ∈ x.2) ∧
          retsBy i tr = rs.map .mirror ∧
          TNet.mirrorRun env (cs.map (·.1)) (obj i) { service := h0, tries := tries } =
            (rs, κ.obj i, { service := s, tries := [], sent := sent, made := tries }) ∧
          HostBuf.run env (asked after) s = t := by
  obtain ⟨h, rest, t, h1, h2, h3, h4, h5⟩ := retry_history env _ h0 obj tr κ hx
  refine ⟨h, t, h1, h2, h5, fun i => ⟨rest i, h3 i⟩, fun i cs hi hc => ?_⟩
  obtain ⟨v1, v2, v3⟩ := own_view (i := i) h
  obtain ⟨tries, L1, L2, s', new, rs, e, j1, j2, j3, j4, j5, j6, j7⟩ := run_onTries (env := env) (h3 i) ((h4 i).2 hi) (cs := cs)
    (by rw [v1, h1, hc]) h2 v3.symm
  refine ⟨tries, L1, L2, s', new, rs, e, j3, j1, j4, j5, by rw [← j6, v2, h1], ?_, serves_run j2⟩
  have := j7 [] [] []
  rwa [List.append_nil, List.nil_append] at this

/-- **C82** To a process that only uses its mirror, is between two calls, and whose buffer was new once, not even the attempts show: the
results of its calls and its mirror are those of `HMirror.run`, with an oracle that names, for each request, what the service does for
others before it arrives, and whether it or its answer is lost; and the POST requests processed for it are those of `HMirror.run`. -/
theorem C82_mirror (env : HEnv) (maxlen : Int) (h0 : HostBuf) (hr : HReach env maxlen h0) (obj : Nat → HMirror) (tr : List (Ev HTCall HSRet))
    (κ : Conf HostBuf HLock HMirror HTCall HSRet) (hx : Exec (retrySystem env fun _ _ => True) (init h0 obj) tr κ) :
    ∃ (h : List (HEvent HTCall HSRet HOp HRet)) (t : HostBuf), seen h = tr ∧ Serves (AtOnce env) h0 (opsOf h) t ∧
      ((∀ i, κ.cur i = none) → κ.st = t) ∧
      ∀ i (cs : List (HMCall × List Attempt)), κ.cur i = none → callsBy i tr = cs.map (fun x => .mirror x.1 x.2) →
        ∃ (fates : List Fate) (before after : List (Nat × HOp × HRet)) (s : HostBuf) (sent processed : List Req) (rs : List HMRet),
          opsOf h = before ++ after ∧ mine i after = [] ∧
          fates.flatMap (·.before) = asked (notMine i before) ∧
          (mine i before).map (·.1) = processed.map (fun r => .req r.wire) ∧ processed.filter isPost = sent.filter isPost ∧
          retsBy i tr = rs.map .mirror ∧
          HMirror.run env (cs.map (·.1)) (obj i, { service := h0, fates := fates }) = (rs, (κ.obj i, { service := s, sent := sent })) ∧
          HostBuf.run env (asked after) s = t := by
  obtain ⟨h, t, h1, h2, h3, -, h4⟩ := C82_sequential env h0 obj tr κ hx
  refine ⟨h, t, h1, h2, h3, fun i cs hi hc => ?_⟩
  obtain ⟨tries, before, after, s, sent, rs, g1, g2, g3, g4, -, g6, g7, g8⟩ := h4 i cs hi hc
  obtain ⟨fates, used, new, sent', k1, k2, k3, k4, -, k6⟩ := C80_mirror env maxlen (cs.map (·.1)) (obj i) { service := h0, tries := tries } hr
  rw [g7] at k1 k2 k6
  have e1 : tries = used := k1.trans (List.nil_append _)
  have e2 : sent = new := k2.trans (List.nil_append _)
  subst e1 e2
  refine ⟨fates, before, after, s, sent', sent, rs, g1, g3, k3.symm.trans g2.others, g4, k4, g6, ?_, g8⟩
  have := k6 [] []
  rwa [List.append_nil, List.nil_append] at this

/-- **C82** A reader's call that returns, returns what it would return if the service had stood still in the state it had at one moment
between the beginning of the call and its end; or it raises the exception of one of its attempts. -/
theorem C82_reader (env : HEnv) (h0 : HostBuf) (obj : Nat → HMirror) (tr : List (Ev HTCall HSRet))
    (κ : Conf HostBuf HLock HMirror HTCall HSRet) (hx : Exec (retrySystem env fun _ _ => True) (init h0 obj) tr κ) :
    ∃ (h : List (HEvent HTCall HSRet HOp HRet)) (t : HostBuf), seen h = tr ∧ Serves (AtOnce env) h0 (opsOf h) t ∧
      ((∀ i, κ.cur i = none) → κ.st = t) ∧
      ∀ i c ts (r : HSRet) a b d, tr = a ++ .inv i (.reader c ts) :: b ++ .ret i r :: d → (∀ e ∈ b, ¬ ofThread i e) →
        (∃ w ∈ ts, ∃ e, error? w = some e ∧ r = .reader (.exc e)) ∨
        ∃ past future b' b'' s, h = past ++ future ∧ seen past = a ++ .inv i (.reader c ts) :: b' ∧ b = b' ++ b'' ∧
          Serves (AtOnce env) h0 (opsOf past) s ∧ ∀ reader, r = .reader (c.run env { reader := reader, net := { service := s } }).1 := by
  obtain ⟨h, rest, t, h1, h2, h3, -, h5⟩ := retry_history env _ h0 obj tr κ hx
  refine ⟨h, t, h1, h2, h5, fun i c ts r a b d e hb => ?_⟩
  obtain ⟨p, q, f, l, m1, m2, rfl, g1, g2, g3, g4, g5, -⟩ := history_returns (h3 i) (h1.trans e) hb
  obtain ⟨x, k1, k2⟩ := asks_bind_done _ _ g5
  cases k2
  rcases urlopen_ends (f := c.answer) (fun _ _ => rfl) ts (k1 : Asks (Ask.urlopen c.req (fun x ts => .done (c.answer x)) ts {}) l (.done x)) with
    ⟨w, g6, e1, g7, rfl⟩ | ⟨l1, y, rfl, rfl⟩
  · exact .inl ⟨w, g6, e1, g7, rfl⟩
  · right
    have hq : HEvent.op i (.req c.req.wire) y ∈ own i q := by
      rw [g4]; exact List.mem_map.2 ⟨_, List.mem_append_right _ (List.mem_singleton_self _), rfl⟩
    obtain ⟨q1, q2, rfl⟩ := List.append_of_mem (List.mem_of_mem_filter hq)
    have eq : p ++ .inv i (.reader c ts) :: (q1 ++ .op i (.req c.req.wire) y :: q2) ++ .ret i (.reader (c.answer y.received)) :: f =
        (p ++ .inv i (.reader c ts) :: q1) ++ (.op i (.req c.req.wire) y :: q2 ++ .ret i (.reader (c.answer y.received)) :: f) := by simp
    rw [eq, opsOf_append] at h2
    obtain ⟨s, k3, k4⟩ := h2.split
    refine ⟨p ++ .inv i (.reader c ts) :: q1, _, seen q1, seen q2, s, eq, ?_, ?_, k3, fun reader => ?_⟩
    · rw [seen_append, g1]; rfl
    · rw [← g2, seen_append]; rfl
    · cases k4 with
      | cons _ _ _ _ _ _ _ k5 k6 =>
      have e1 := (reader_onNet env c { reader := reader, net := { service := s } }).1
      refine congrArg HSRet.reader (Eq.trans ?_ e1.symm)
      rw [k5.1]
      rfl

/-- **C82** The owner's `stop_all_mirrors` and `reset_states`, and a request that arrives late, are one operation each, in one moment between the
beginning of the call and its end. -/
theorem C82_owner (env : HEnv) (h0 : HostBuf) (obj : Nat → HMirror) (tr : List (Ev HTCall HSRet))
    (κ : Conf HostBuf HLock HMirror HTCall HSRet) (hx : Exec (retrySystem env fun _ _ => True) (init h0 obj) tr κ) :
    ∃ (h : List (HEvent HTCall HSRet HOp HRet)) (t : HostBuf), seen h = tr ∧ Serves (AtOnce env) h0 (opsOf h) t ∧
      ((∀ i, κ.cur i = none) → κ.st = t) ∧
      ∀ i c o (r : HSRet) a b d, (c = .stopAll ∧ o = .stopAll ∨ c = .reset ∧ o = .reset ∨ ∃ q, c = .late q ∧ o = .req q.wire) →
        tr = a ++ .inv i c :: b ++ .ret i r :: d → (∀ e ∈ b, ¬ ofThread i e) →
        ∃ p q f y, h = p ++ .inv i c :: q ++ .ret i r :: f ∧ seen p = a ∧ seen q = b ∧ own i q = [.op i o y] := by
  obtain ⟨h, rest, t, h1, h2, h3, -, h5⟩ := retry_history env _ h0 obj tr κ hx
  refine ⟨h, t, h1, h2, h5, fun i c o r a b d hc e hb => ?_⟩
  obtain ⟨p, q, f, l, m1, m2, rfl, g1, g2, g3, g4, g5, -⟩ := history_returns (h3 i) (h1.trans e) hb
  have : ∃ y, l = [(o, y)] := by
    rcases hc with ⟨rfl, rfl⟩ | ⟨rfl, rfl⟩ | ⟨q, rfl, rfl⟩
    · cases g5 with | cons _ y _ _ _ g5 => cases g5; exact ⟨y, rfl⟩
    · cases g5 with | cons _ y _ _ _ g5 => cases g5; exact ⟨y, rfl⟩
    · cases g5 with | cons _ y _ _ _ g5 => cases g5; exact ⟨y, rfl⟩
  obtain ⟨y, rfl⟩ := this
  exact ⟨p, q, f, y, rfl, g1, g2, g4⟩

/-- **C82** A new buffer; `n` processes call any methods of their mirrors, and read; attempts fail in any way, and messages and questions may
arrive too late; nobody stops the mirrors or clears the buffer.  When all calls have ended: every mirror has returned, and is, what it would
be alone with a service to which its requests, or the answers to them, are lost as an oracle says — and never are, unless the mirror has
raised the exception of an attempt; and the buffer is the log of the messages that the mirrors would have brought to such a service, and of
those that arrived too late — each as JSON transports it, those of each mirror in their order, none lost, doubled or changed. -/
theorem C82_delivery (env : HEnv) (maxlen : Int) (h0 : HostBuf) (hnew : HostBuf.new maxlen = .ok h0) (n : Nat) (obj : Nat → HMirror)
    (tr : List (Ev HTCall HSRet)) (κ : Conf HostBuf HLock HMirror HTCall HSRet)
    (hx : Exec (retrySystem env fun i c => i < n ∧ HTCall.Calm c) (init h0 obj) tr κ) (hq : ∀ i, κ.cur i = none) :
    ∃ (F : Nat → List Outcome) (W L V : Nat → List HMsg) (ms : List HMsg) (log : Log),
      (∀ i, ((∀ o ∈ F i, o = .ok) ∨ GaveUp i tr) ∧
        mirrorRets i tr = (HMirror.run env (mirrorAsks i tr) (obj i, { service := h0, fates := (F i).map (Fate.mk []) })).1 ∧
        κ.obj i = (HMirror.run env (mirrorAsks i tr) (obj i, { service := h0, fates := (F i).map (Fate.mk []) })).2.1 ∧
        Posts (HMirror.run env (mirrorAsks i tr) (obj i, { service := h0, fates := (F i).map (Fate.mk []) })).2.2.sent (W i) ∧
        Lates (callsBy i tr) (L i) ∧ Merge [(W i).map HMsg.wire, (L i).map HMsg.wire] (V i)) ∧
      Merge ((List.range n).map V) ms ∧
      HReplays { cap := maxlen.toNat } ms log ∧
      (LineBuf.read none κ.st.base).1 = .ok log.view ∧ κ.st.base.storage.items = lastN maxlen.toNat log.done ∧ κ.st.base.lastLine.buf = log.part := by
  obtain ⟨h, rest, t, h1, h2, h3, h4, h5⟩ := retry_history env _ h0 obj tr κ hx
  obtain ⟨-, rfl, okl⟩ := new_hb hnew
  have hr0 : HRep ⟨{ cap := maxlen.toNat }, false⟩ (hb { cap := maxlen.toNat } [(lit "closed", .bool false), (lit "maxlen", .int maxlen)]) :=
    ⟨_, rfl, okl, rfl, (fun j hj => nomatch hj), rfl⟩
  have hcalm : ∀ x ∈ opsOf h, x.1 < n ∧ x.2.1.Calm := by
    rintro ⟨j, q, a⟩ hm
    refine (h3 j).within_ops (okc := fun c => j < n ∧ HTCall.Calm c) (P := fun q => j < n ∧ q.Calm)
      (fun o c hc => within_mono (fun _ h => ⟨hc.1, h⟩) (calm_within o c hc.2)) (fun c hc => ?_) j q a ?_
    · exact exec_calls_ok hx (h1 ▸ mem_seen (List.mem_of_mem_filter hc))
    · exact List.mem_filter.2 ⟨mem_opsOf hm, by simp [HEvent.who]⟩
  obtain ⟨k1, log, k2, ⟨st, k3, k4, k5, k6, k7⟩, k8⟩ := calm_serves h2 (fun x hx => (hcalm x hx).2) hr0
  have each : ∀ i, ∃ (os : List Outcome) (s' : HostBuf) (new : List Req) (ms lates : List HMsg), ((∀ o ∈ os, o = .ok) ∨ GaveUp i tr) ∧
      HMirror.run env (mirrorAsks i tr)
        (obj i, { service := hb { cap := maxlen.toNat } [(lit "closed", .bool false), (lit "maxlen", .int maxlen)], fates := os.map (Fate.mk []) }) =
        (mirrorRets i tr, (κ.obj i, { service := s', sent := new })) ∧
      Posts new ms ∧ Lates (callsBy i tr) lates ∧
      Merge [ms.map HMsg.wire, lates.map HMsg.wire] ((mine i (opsOf h)).filterMap (fun x => x.1.msg?)) := by
    intro i
    obtain ⟨v1, v2, v3⟩ := own_view (i := i) h
    obtain ⟨os, new, ms, lates, g1, g2, g3, g4, g5⟩ := run_calm (env := env) (h3 i) ((h4 i).2 (hq i))
      (fun c hc => (exec_calls_ok hx (mem_calls (by rw [v1, h1] at hc; exact hc))).2)
      (fun x hx => k1 (i, x) (mem_mine (by rw [v3] at hx; exact hx)))
    obtain ⟨s', g5⟩ := g5 [] hr0
    unfold GaveUp mirrorRets at g1
    unfold mirrorAsks mirrorRets at g5
    rw [v1] at g1 g3 g5
    rw [v2] at g1 g5
    rw [v3] at g4
    rw [h1] at g1 g3 g5
    exact ⟨os, s', new, ms, lates, g1, g5, g2, g3, g4⟩
  choose F S N W L w0 w1 w2 w3 w4 using each
  refine ⟨F, W, L, fun i => (mine i (opsOf h)).filterMap (fun x => x.1.msg?), _, log, fun i => ?_, ?_, k2, ?_⟩
  · rw [w1 i]; exact ⟨w0 i, rfl, rfl, w2 i, w3 i, w4 i⟩
  · exact merge_mine HOp.msg? n (opsOf h) fun x hx => (hcalm x hx).1
  · rw [h5 hq, show t = _ from k3]
    refine ⟨congrArg Prod.fst (read_rep none log k4 k5), ?_, ?_⟩
    · simp only [hb, rep_open k5, opened]; rw [k8]
    · simp only [hb, rep_open k5, opened]

/-- **C82** If no mirror has raised the exception of an attempt, the failed attempts do not show: every mirror has returned, and is, what
it would be alone with a service that answers at once, and the buffer has all its messages, once. -/
theorem C82_exactly_once (env : HEnv) (maxlen : Int) (h0 : HostBuf) (hnew : HostBuf.new maxlen = .ok h0) (n : Nat) (obj : Nat → HMirror)
    (tr : List (Ev HTCall HSRet)) (κ : Conf HostBuf HLock HMirror HTCall HSRet)
    (hx : Exec (retrySystem env fun i c => i < n ∧ HTCall.Calm c) (init h0 obj) tr κ) (hq : ∀ i, κ.cur i = none)
    (hl : ∀ i c, c ∈ callsBy i tr → ∀ b, c ≠ .late (.post b)) (hg : ∀ i, ¬ GaveUp i tr) :
    ∃ (W : Nat → List HMsg) (ms : List HMsg) (log : Log),
      (∀ i, mirrorRets i tr = (HMirror.run env (mirrorAsks i tr) (obj i, { service := h0 })).1 ∧
        κ.obj i = (HMirror.run env (mirrorAsks i tr) (obj i, { service := h0 })).2.1 ∧
        Posts (HMirror.run env (mirrorAsks i tr) (obj i, { service := h0 })).2.2.sent (W i)) ∧
      Merge ((List.range n).map fun i => (W i).map HMsg.wire) ms ∧
      HReplays { cap := maxlen.toNat } ms log ∧
      (LineBuf.read none κ.st.base).1 = .ok log.view ∧ κ.st.base.storage.items = lastN maxlen.toNat log.done ∧ κ.st.base.lastLine.buf = log.part := by
  obtain ⟨F, W, L, V, ms, log, h1, h2, h3, h4⟩ := C82_delivery env maxlen h0 hnew n obj tr κ hx hq
  have hV : ∀ i, V i = (W i).map HMsg.wire := by
    intro i
    obtain ⟨-, -, -, -, g5, g6⟩ := h1 i
    have : L i = [] := by
      have hl := hl i
      generalize callsBy i tr = cs at g5 hl
      generalize L i = l at g5
      induction g5 with
      | nil => rfl
      | msg m cs ms _ _ => exact absurd rfl (hl _ List.mem_cons_self _)
      | other c cs ms _ _ ih => exact ih fun c hc => hl c (List.mem_cons_of_mem _ hc)
    rw [this] at g6
    exact merge_alone g6
  refine ⟨W, ms, log, fun i => ?_, by rw [← (funext hV : V = fun i => (W i).map HMsg.wire)]; exact h2, h3, h4⟩
  obtain ⟨g1, g2, g3, g4, -, -⟩ := h1 i
  obtain ⟨fs', k1, k2⟩ := run_ok (env := env) (mirrorAsks i tr) (g1.resolve_right (hg i)) (obj i) h0 []
  rw [k1] at g2 g3 g4
  exact ⟨g2, g3, g4⟩

/-- Two mirrors and a reader: for the first mirror the flag is asked for three times and the text is sent twice; between the two attempts of
the reader the second mirror sends its text. -/
def retriedMirrors : List (Move HTCall) :=
  [.start 0 (.mirror (.write (lit "a\nb")) [.noReply .connectionError, .lost .connectionError, .answered, .refused true .connectionError]),
    .start 1 (.mirror (.write (lit "c\n")) [.refused false .connectionError]), .start 2 (.reader (.read none) [.noReply .connectionError])] ++
    (List.replicate 5 (.go 0) ++ List.replicate 5 (.go 1) ++ List.replicate 18 (.go 0) ++ List.replicate 12 (.go 2) ++ List.replicate 13 (.go 1) ++
      List.replicate 11 (.go 2))

/-- The end of `retriedMirrors`. -/
def retriedCheck (p : List (Ev HTCall HSRet) × Conf HostBuf HLock HMirror HTCall HSRet) : Bool :=
  (p.2.cur 0).isNone && (p.2.cur 1).isNone && (p.2.cur 2).isNone && textsRead (retsBy 2 p.1) == [lit "a", lit "bc"] &&
    textsIn p.2.st.base.storage.items == [lit "a", lit "bc"] &&
    (List.range 3).all fun i => (mirrorRets i p.1).all fun | .exc _ => false | _ => true

/-- The hypotheses of `C82_exactly_once` hold in this execution; both texts are there once. -/
example : ∃ h0 tr κ, HostBuf.new 9 = .ok h0 ∧ Exec (retrySystem sampleEnv fun i c => i < 3 ∧ HTCall.Calm c) (init h0 fun _ => {}) tr κ ∧
    (∀ i, κ.cur i = none) ∧ (∀ i < 3, ¬ GaveUp i tr) ∧ textsRead (retsBy 2 tr) = [lit "a", lit "bc"] ∧
    textsIn κ.st.base.storage.items = [lit "a", lit "bc"] := by
  have hn : HostBuf.new 9 = .ok (hb { cap := 9 } [(lit "closed", .bool false), (lit "maxlen", .int 9)]) := rfl
  have obs : (moves (retrySystem sampleEnv fun i c => i < 3 ∧ HTCall.Calm c) 3 retriedMirrors
      (init (hb { cap := 9 } [(lit "closed", .bool false), (lit "maxlen", .int 9)]) fun _ => {})).any retriedCheck = true := by decide +kernel
  obtain ⟨⟨tr, κ⟩, hm, e⟩ := (Option.any_eq_true _ _).1 obs
  simp only [retriedCheck, Bool.and_eq_true, Option.isNone_iff_eq_none, beq_iff_eq, List.all_eq_true, List.mem_range] at e
  obtain ⟨⟨⟨⟨⟨e0, e1⟩, e2⟩, e3⟩, e4⟩, e5⟩ := e
  refine ⟨_, tr, κ, hn, moves_sound ?_ (fun _ _ _ => rfl) hm, fun i => ?_, ?_, e3, e4⟩
  · intro m hmem i c hc
    subst hc
    rcases List.mem_append.1 hmem with h | h
    · simp only [List.mem_cons, Move.start.injEq, List.not_mem_nil, or_false] at h
      rcases h with ⟨rfl, rfl⟩ | ⟨rfl, rfl⟩ | ⟨rfl, rfl⟩
      · exact ⟨by omega, trivial⟩
      · exact ⟨by omega, trivial⟩
      · exact ⟨by omega, trivial⟩
    · simp at h
  · match i with
    | 0 => exact e0
    | 1 => exact e1
    | 2 => exact e2
    | i + 3 => exact moves_idle hm (by omega) rfl
  · rintro i hi ⟨c, ts, w, e, -, -, -, h⟩
    cases e5 i hi _ h

/-- A text whose answer is lost, with the exception raised by its mirror, and one that arrives too late. -/
def lateText : List (Move HTCall) :=
  [.start 0 (.mirror (.write (lit "c\n")) [.answered, .noReply .connectionError])] ++ List.replicate 18 (.go 0) ++
    [.start 1 (.late (.post (.json (HMsg.post (.text (lit "d\n"))))))] ++ List.replicate 13 (.go 1)

/-- The end of `lateText`. -/
def lateCheck (p : List (Ev HTCall HSRet) × Conf HostBuf HLock HMirror HTCall HSRet) : Bool :=
  (p.2.cur 0).isNone && (p.2.cur 1).isNone && ((mirrorRets 0 p.1).all fun | .exc .connectionError => true | _ => false) &&
    textsIn p.2.st.base.storage.items == [lit "c", lit "d"]

/-- An execution of `C82_delivery`: a mirror has given up, but its text has been processed. -/
example : (moves (retrySystem sampleEnv fun i c => i < 2 ∧ HTCall.Calm c) 2 lateText
    (init (hb { cap := 9 } [(lit "closed", .bool false), (lit "maxlen", .int 9)]) fun _ => {})).any lateCheck = true := by decide +kernel

end SyncStream
