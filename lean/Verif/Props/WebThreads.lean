import Verif.Props.HostMirrorShared
import Verif.Lemmas.WebFirst
import Verif.Lemmas.Erase
/-!
# Property C88: responses and connection pools when threads share a mirror or a reader
-/

namespace SyncStream
open Conc Spec

theorem Gone.backOnce {must : Prop} {r : Nat} {log : List WebEv} (h : Gone must r log) : BackOnce r log := by
  obtain ⟨p, st, h⟩ := h
  exact ⟨p, st, h.imp And.right id⟩

theorem Gone.readOnce {r : Nat} {log : List WebEv} (h : Gone True r log) : ReadOnce r log := by
  obtain ⟨p, st, h⟩ := h
  exact ⟨p, st, h.resolve_left fun h => h.1 trivial⟩

theorem rinv_nil (must : Prop) : RespInv must (fun _ => .none) {} := owned_nil rfl

theorem mirror_resp (env : HEnv) (ok : Nat → HMCall → Prop) (i : Nat) (o : Unit) (c : HMCall) :
    ((webMirrorThreads env ok).call i o c).Follows (respProtocol (·.2) False) (fun r y => ∀ v, r = .ok v → y = .none) .none :=
  .bind ((web_follows env (HMixed.prog c)).mono fun v y hy => by
    subst hy
    cases v with
    | ok x => exact fun _ _ => rfl
    | error e => exact nofun)

theorem reader_resp (env : HEnv) (ok : Nat → WTCall → Prop) (i : Nat) (o : Unit) (c : WTCall) :
    ((webReaderThreads env ok).call i o c).Follows (respProtocol (·.web) True) (fun r y => ∀ v, r = .ok v → y = .none) .none :=
  .bind ((WRThr.prog_follows env c).mono fun v y hy => by
    subst hy
    cases v with
    | ok x => exact fun _ _ => rfl
    | error e => exact nofun)

/-! ## Nothing else changes -/

/-- **C88**: responses and pools change nothing else.  Every race of threads that share a mirror is, without the responses and pools, one
of `hostMirrorThreads`, with the same calls and results, the same mirror and service, and the same locks held. -/
theorem C88_same {env : HEnv} {ok : Nat → HMCall → Prop} {s : HMProc × HNet} {w : WebT} {tr : List (Ev HMCall HMRet)}
    {κ : Conf ((HMProc × HNet) × WebT) Nat Unit HMCall HMRet} (h : Exec (webMirrorThreads env ok) (init (s, w) fun _ => ()) tr κ) :
    ∃ κ', Exec (hostMirrorThreads env ok) (init s fun _ => ()) tr κ' ∧ κ'.st = κ.st.1 ∧ κ'.held = κ.held ∧
      ∀ i, (κ'.cur i).map Prod.fst = (κ.cur i).map Prod.fst := by
  obtain ⟨κ', h1, h2⟩ := exec_erases (π := Prod.fst) (sys' := hostMirrorThreads env ok) (fun _ _ h => h) (fun _ h => h) (fun i o c => by
    show Prog.Erases Prod.fst (((HMixed.prog c).web env).bind fun x => .ret (x, ())) ((HMThr.prog env c).bind fun x => .ret (x, ()))
    rw [← HMixed.alone_prog]
    exact (web_erases env _).bind fun x => .ret _) h
  refine ⟨κ', h1, h2.st, h2.held, fun i => ?_⟩
  cases e : κ.cur i with
  | none => rw [h2.idle i e]; rfl
  | some x =>
    obtain ⟨q, hq, _⟩ := h2.cur i x.1 x.2 e
    rw [hq]
    rfl

/-! ## Responses -/

/-- **C88** for mirrors: in every race, at every moment, a response has been given back (read at most once, released once, closed once, in
this order, by the call that got it) or belongs to a running call, and a call has one at most.  When no call is running, all have been given
back. -/
theorem C88_mirror_responses {env : HEnv} {ok : Nat → HMCall → Prop} {s : HMProc × HNet} {tr : List (Ev HMCall HMRet)}
    {κ : Conf ((HMProc × HNet) × WebT) Nat Unit HMCall HMRet} (h : Exec (webMirrorThreads env ok) (init (s, {}) fun _ => ()) tr κ) :
    (∃ own : Nat → Option Nat, (∀ i, κ.cur i = none → own i = none) ∧ (∀ i j r, own i = some r → own j = some r → i = j) ∧
      ∀ e ∈ κ.st.2.log, ∀ r, respOf e = some r → BackOnce r κ.st.2.log ∨ ∃ i, own i = some r) ∧
    ((∀ i, κ.cur i = none) → GivenBack κ.st.2.log) := by
  obtain ⟨own, h1, h2, h3⟩ := exec_responses (web := Prod.snd) (fun i o c _ => mirror_resp env ok i o c) (rinv_nil False) h
  refine ⟨⟨own, h1, h2, fun e he r hr => (h3 e he r hr).imp_left Gone.backOnce⟩, fun hi e he r hr => ?_⟩
  rcases h3 e he r hr with h4 | ⟨i, h4⟩
  · exact h4.backOnce
  · rw [h1 i (hi i)] at h4; cases h4

/-- **C88** for readers: the same, in contexts and outside, whatever the threads do; and a response that has been given back has been read
before. -/
theorem C88_reader_responses {env : HEnv} {ok : Nat → WTCall → Prop} {n : HNet} {tr : List (Ev WTCall WTRet)}
    {κ : Conf RProc Unit Unit WTCall WTRet} (h : Exec (webReaderThreads env ok) (init { net := n } fun _ => ()) tr κ) :
    (∃ own : Nat → Option Nat, (∀ i, κ.cur i = none → own i = none) ∧ (∀ i j r, own i = some r → own j = some r → i = j) ∧
      ∀ e ∈ κ.st.web.log, ∀ r, respOf e = some r → ReadOnce r κ.st.web.log ∨ ∃ i, own i = some r) ∧
    ((∀ i, κ.cur i = none) → ∀ e ∈ κ.st.web.log, ∀ r, respOf e = some r → ReadOnce r κ.st.web.log) := by
  obtain ⟨own, h1, h2, h3⟩ := exec_responses (web := RProc.web) (fun i o c _ => reader_resp env ok i o c) (rinv_nil True) h
  refine ⟨⟨own, h1, h2, fun e he r hr => (h3 e he r hr).imp_left Gone.readOnce⟩, fun hi e he r hr => ?_⟩
  rcases h3 e he r hr with h4 | ⟨i, h4⟩
  · exact h4.readOnce
  · rw [h1 i (hi i)] at h4; cases h4

/-! ## Pools of readers -/

/-- **C88** for a reader outside contexts: in every race every pool belongs to a running call or has been made, used at most once and
cleared once, in this order; no pool is cleared while a response that came through it is open. -/
theorem C88_reader_pools {env : HEnv} {ok : Nat → WTCall → Prop} (hok : ∀ i c, ok i c → ∃ d, c = .call d) {n : HNet}
    {tr : List (Ev WTCall WTRet)} {κ : Conf RProc Unit Unit WTCall WTRet}
    (h : Exec (webReaderThreads env ok) (init { net := n } fun _ => ()) tr κ) :
    (∃ own : Nat → Option Nat, (∀ i, κ.cur i = none → own i = none) ∧ (∀ i j p, own i = some p → own j = some p → i = j) ∧
      ∀ e ∈ κ.st.web.log, ∀ p, poolOf e = some p → UsedUp p κ.st.web.log ∨ ∃ i, own i = some p) ∧
    ClearedClosed κ.st.web.log ∧ κ.st.web.http = none := by
  obtain ⟨a, h1, h2, h3⟩ := exec_protocol (P := poolProtocol) (Inv := fun a s => PInv a s.web) (x0 := .idle)
    (fun a s t i y hx hI hT => by
      obtain ⟨h1, h2⟩ := pool_keeps (fun j => (hx j).2) hI hT.1
      exact ⟨fun j => ⟨hT.2, h1 j⟩, h2⟩)
    (fun i o c hc => by
      obtain ⟨d, rfl⟩ := hok i c hc
      refine .bind (.bind ((WRThr.call_pool env d).mono fun v y hy => ?_))
      cases v with
      | ok x => exact fun _ _ => hy x rfl
      | error e => exact nofun)
    ⟨rfl, trivial⟩ ⟨owned_nil rfl, fun a p b hab => by
      have : ([] : List WebEv) = a ++ WebEv.cleared p :: b := hab
      simp at this⟩ h
  refine ⟨⟨fun i => (a i).pool, fun i hi => by dsimp only; rw [h3 i hi]; rfl, h2.owned.apart, fun e he p hp => ?_⟩, h2.clear, (h1 0).1⟩
  by_cases hc : ∃ i, (a i).pool = some p
  · exact .inr hc
  · exact .inl (h2.owned.gone p (h2.owned.lt e he p hp) fun i hi => hc ⟨i, hi⟩)

/-- **C88** inside a context, as far as it goes: once a context has been entered, and as long as no thread leaves it, no pool is made or
cleared, whatever else the threads do, entering again included; every request goes through the pool of the context.  What is missing: threads
that enter at the same time (`C88_enter_violated`), and leaving while others work (`C88_exit_violated`). -/
theorem C88_context_partial {env : HEnv} {ok : Nat → WTCall → Prop} (hok : ∀ i c, ok i c → c ≠ .exit) {s : RProc} {p : Nat}
    (hs : s.web.http = some p) {tr : List (Ev WTCall WTRet)} {κ : Conf RProc Unit Unit WTCall WTRet}
    (h : Exec (webReaderThreads env ok) (init s fun _ => ()) tr κ) :
    κ.st.web.http = some p ∧ ∃ es, κ.st.web.log = s.web.log ++ es ∧ ∀ e ∈ es, ∀ q, poolOf e = some q → ∃ r st, e = .opened r p st := by
  have h1 := exec_through (web := RProc.web) (p := p) (s0 := s) (fun i o c hc => .bind ((WRThr.prog_through env p s.web (hok i c hc)).mono
    fun v y _ => by cases v <;> trivial)) hs h
  exact ⟨h1.http, h1.log⟩

/-! ## The pool of a mirror -/

theorem SolePool.more {p : Nat} {l es : List WebEv} (h : SolePool p l) (hes : ∀ e ∈ es, ∀ q, poolOf e = some q → ∃ r st, e = .opened r p st) :
    SolePool p (l ++ es) := by
  refine ⟨List.mem_append_left _ h.made, fun e he q hq => ?_⟩
  rcases List.mem_append.mp he with he | he
  · exact h.only e he q hq
  · obtain ⟨r, st, rfl⟩ := hes e he q hq
    cases hq
    exact ⟨rfl, nofun⟩

theorem SolePool.ended {p : Nat} {l : List WebEv} (h : SolePool p l) : PoolsEnded (l ++ [.cleared p]) := by
  intro q hq
  have : q = p := by
    rcases List.mem_append.mp hq with hq | hq
    · exact (h.only _ hq q rfl).1
    · cases List.mem_singleton.mp hq
  subst this
  exact ⟨l, [], rfl, fun hm => (h.only _ hm q rfl).2 rfl, nofun⟩

theorem clearedClosed_last {p : Nat} {l : List WebEv} (h : SolePool p l) (hb : GivenBack l) : ClearedClosed (l ++ [.cleared p]) := by
  have key : ClearedClosed l := fun a q b hab => by
    have hm : WebEv.cleared q ∈ l := by rw [hab]; simp
    obtain ⟨rfl, h2⟩ := h.only _ hm q rfl
    exact absurd rfl h2
  refine clearedClosed_snoc key rfl fun q _ r st hr => ?_
  obtain ⟨p', st', h1⟩ := hb _ hr r rfl
  have : WebEv.closed r ∈ aboutResp r l := by rcases h1 with h1 | h1 <;> rw [h1] <;> simp
  exact (List.mem_filter.mp this).1

theorem givenBack_cleared {p : Nat} {l : List WebEv} (h : GivenBack l) : GivenBack (l ++ [.cleared p]) := by
  intro e he r hr
  have same : aboutResp r (l ++ [.cleared p]) = aboutResp r l := by
    show about respOf r _ = about respOf r _
    rw [about_append, about_quiet (m := [.cleared p]) fun e he h => (by rw [List.mem_singleton.mp he] at h; cases h), List.append_nil]
  rw [same]
  rcases List.mem_append.mp he with he | he
  · exact h e he r hr
  · rw [List.mem_singleton.mp he] at hr; cases hr

/-- **C88** for the pool of a mirror, as far as it goes.  One thread uses the mirror first (the first execution); when it has ended, other
threads begin (the second one).  If there is a pool by then, it remains the only one: it is made once and never cleared while the mirror is
in use, all requests go through it.  When all calls have ended and the mirror is collected, this pool is cleared, once, after the last
response that came through it has been given back.  What is missing: threads that use the mirror for the first time at the same time
(`C88_first_use_violated`). -/
theorem C88_one_pool_partial {env : HEnv} {ok1 ok : Nat → HMCall → Prop} (hok : ∀ i c, ok1 i c → i = 0) {s : HMProc × HNet}
    {tr1 tr : List (Ev HMCall HMRet)} {κ1 κ : Conf ((HMProc × HNet) × WebT) Nat Unit HMCall HMRet}
    (h1 : Exec (webMirrorThreads env ok1) (init (s, {}) fun _ => ()) tr1 κ1) (hi1 : ∀ i, κ1.cur i = none) (hp : κ1.st.2.http ≠ none)
    (h : Exec (webMirrorThreads env ok) (init κ1.st fun _ => ()) tr κ) :
    ∃ p, κ.st.2.http = some p ∧ .made p ∈ κ.st.2.log ∧ (∀ e ∈ κ.st.2.log, ∀ q, poolOf e = some q → q = p ∧ e ≠ .cleared p) ∧
      ((∀ i, κ.cur i = none) → GivenBack κ.st.2.collected ∧ PoolsEnded κ.st.2.collected ∧ ClearedClosed κ.st.2.collected) := by
  rcases exec_first hok (w := {}) ⟨rfl, rfl, nofun⟩ h1 (hi1 0) with h2 | ⟨p, h2⟩
  · exact absurd h2.http hp
  have h3 : RespInv False (fun _ => .none) κ1.st.2 := by
    obtain ⟨a, _, h3, h4⟩ := exec_protocol (P := respProtocol Prod.snd False) (Inv := fun a s => RespInv False a s.2) (x0 := .none)
      (fun a s t i y hok hI hT => resp_keeps hok hI hT) (fun i o c _ => mirror_resp env ok1 i o c) trivial (rinv_nil False) h1
    have : a = fun _ => .none := funext fun i => h4 i (hi1 i)
    rw [this] at h3
    exact h3
  have h4 := exec_through (web := Prod.snd) (p := p) (s0 := κ1.st) (fun i o c _ => .bind ((web_through env p κ1.st.2 (HMixed.prog c)).mono
    fun v y _ => by cases v <;> trivial)) h2.http h
  obtain ⟨es, h5, h6⟩ := h4.log
  have h7 : SolePool p κ.st.2.log := h5 ▸ h2.only.more h6
  refine ⟨p, h4.http, h7.made, h7.only, fun hi => ?_⟩
  obtain ⟨own, g1, _, g3⟩ := exec_responses (web := Prod.snd) (fun i o c _ => mirror_resp env ok i o c) h3 h
  have h8 : GivenBack κ.st.2.log := fun e he r hr => by
    rcases g3 e he r hr with g | ⟨i, g⟩
    · exact g.backOnce
    · rw [g1 i (hi i)] at g; cases g
  have h9 : κ.st.2.collected = κ.st.2.log ++ [.cleared p] := by
    show κ.st.2.log ++ κ.st.2.finalizers.reverse.map .cleared = _
    rw [h4.finalizers, h2.finalizers]
    rfl
  rw [h9]
  exact ⟨givenBack_cleared h8, h7.ended, clearedClosed_last h7 h8⟩

/-! ## What goes wrong -/

/-- `n` steps of thread `i`. -/
def walks {C : Type} (i n : Nat) : List (Move C) := List.replicate n (.go i)

/-- Three threads check the states with a new mirror.  Two of them see that there is no pool and make one each; the third one uses the pool
of the second one; then the first one stores its own. -/
def threeFirst : List (Move HMCall) :=
  .start 0 .checkStates :: .start 1 .checkStates :: walks 0 7 ++ walks 1 8 ++ .start 2 .checkStates :: walks 2 12 ++ walks 0 3 ++ walks 1 2 ++ walks 0 6 ++
    walks 1 6

/-- **C88** violated for the first use of a mirror (`host.py:149-162`): all calls have ended and the mirror has been collected, a pool that
was used has never been cleared, and another one has been cleared twice (`self.__http_` is looked up again for the finalizer). -/
theorem C88_first_use_violated : ∃ tr κ, Exec (webMirrorThreads sampleEnv fun _ _ => True) (init (hostUsed, {}) fun _ => ()) tr κ ∧
    (∀ i, κ.cur i = none) ∧ (∃ r st, WebEv.opened r 1 st ∈ κ.st.2.collected) ∧ WebEv.cleared 1 ∉ κ.st.2.collected ∧
    κ.st.2.collected.count (.cleared 0) = 2 ∧ ¬PoolsEnded κ.st.2.collected := by
  have obs : (moves (webMirrorThreads sampleEnv fun _ _ => True) 3 threeFirst (init (hostUsed, {}) fun _ => ()) (fun _ => true)).elim false
      (fun x => (x.2.cur 0).isNone && (x.2.cur 1).isNone && (x.2.cur 2).isNone && decide (x.2.st.2.collected =
        [.made 0, .made 1, .opened 0 1 200, .read 0, .released 0, .closed 0, .opened 1 0 200, .read 1, .released 1, .closed 1,
          .opened 2 0 200, .read 2, .released 2, .closed 2, .cleared 0, .cleared 0])) = true := by decide +kernel
  cases hm : moves (webMirrorThreads sampleEnv fun _ _ => True) 3 threeFirst (init (hostUsed, {}) fun _ => ()) (fun _ => true) with
  | none => rw [hm] at obs; cases obs
  | some x =>
    obtain ⟨tr, κ⟩ := x
    rw [hm] at obs
    simp only [Option.elim, Bool.and_eq_true, Option.isNone_iff_eq_none, decide_eq_true_eq] at obs
    obtain ⟨⟨⟨h0, h1⟩, h2⟩, h3⟩ := obs
    have hn : WebEv.cleared 1 ∉ κ.st.2.collected := by rw [h3]; decide
    refine ⟨tr, κ, moves_sound (fun _ _ _ _ _ => trivial) (fun _ _ _ => rfl) hm fun _ _ => trivial, fun i => ?_, ⟨0, 200, by rw [h3]; decide⟩, hn,
      by rw [h3]; decide, fun hp => ?_⟩
    · match i with
      | 0 => exact h0
      | 1 => exact h1
      | 2 => exact h2
      | i + 3 => exact moves_idle hm (Nat.le_add_left 3 i) rfl
    · obtain ⟨a, b, hab, _⟩ := hp 1 (by rw [h3]; decide)
      exact hn (by rw [hab]; simp)

/-- What a schedule of two threads with a new reader leaves, and that both have ended. -/
def readerLog (ms : List (Move WTCall)) (log : List WebEv) : Bool :=
  (moves (webReaderThreads sampleEnv fun _ _ => True) 2 ms (init { net := hostUsed.2 } fun _ => ())).elim false fun x =>
    (x.2.cur 0).isNone && (x.2.cur 1).isNone && decide (x.2.st.web.log = log)

theorem readerLog_exec {ms : List (Move WTCall)} {log : List WebEv} (h : readerLog ms log = true) :
    ∃ tr κ, Exec (webReaderThreads sampleEnv fun _ _ => True) (init { net := hostUsed.2 } fun _ => ()) tr κ ∧ (∀ i, κ.cur i = none) ∧
      κ.st.web.log = log := by
  unfold readerLog at h
  cases hm : moves (webReaderThreads sampleEnv fun _ _ => True) 2 ms (init { net := hostUsed.2 } fun _ => ()) with
  | none => rw [hm] at h; cases h
  | some x =>
    obtain ⟨tr, κ⟩ := x
    rw [hm] at h
    simp only [Option.elim, Bool.and_eq_true, Option.isNone_iff_eq_none, decide_eq_true_eq] at h
    refine ⟨tr, κ, moves_sound (fun _ _ _ _ _ => trivial) (fun _ _ _ => rfl) hm, fun i => ?_, h.2⟩
    match i with
    | 0 => exact h.1.1
    | 1 => exact h.1.2
    | i + 2 => exact moves_idle hm (Nat.le_add_left 2 i) rfl

/-- **C88** violated when two threads enter the context of a reader at the same time (`host.py:838-864`): both make a pool, both leave the
context, and the pool that was overwritten is never cleared. -/
theorem C88_enter_violated : ∃ tr κ, Exec (webReaderThreads sampleEnv fun _ _ => True) (init { net := hostUsed.2 } fun _ => ()) tr κ ∧
    (∀ i, κ.cur i = none) ∧ κ.st.web.log = [.made 0, .made 1, .cleared 1] ∧ ¬PoolsEnded κ.st.web.log := by
  have h : readerLog (.start 0 .enter :: .start 1 .enter :: walks 0 2 ++ walks 1 2 ++ walks 0 4 ++ walks 1 4 ++
      .start 0 .exit :: .start 1 .exit :: walks 0 5 ++ walks 1 8) [.made 0, .made 1, .cleared 1] = true := by decide +kernel
  obtain ⟨tr, κ, h1, h2, h3⟩ := readerLog_exec h
  refine ⟨tr, κ, h1, h2, h3, fun hp => ?_⟩
  obtain ⟨a, b, hab, _⟩ := hp 0 (by rw [h3]; decide)
  have hn : WebEv.cleared 0 ∉ κ.st.web.log := by rw [h3]; decide
  exact hn (by rw [hab]; simp)

/-- **C88** violated when a thread leaves the context of a reader while another one works with it (`host.py:853-864`): the pool is cleared
while the response of the other thread is open. -/
theorem C88_exit_violated : ∃ tr κ, Exec (webReaderThreads sampleEnv fun _ _ => True) (init { net := hostUsed.2 } fun _ => ()) tr κ ∧
    (∀ i, κ.cur i = none) ∧ κ.st.web.log = [.made 0, .opened 0 0 200, .cleared 0, .read 0, .released 0, .closed 0] ∧
    ¬ClearedClosed κ.st.web.log := by
  have h : readerLog (.start 0 .enter :: walks 0 6 ++ .start 1 (.call .len) :: walks 1 3 ++ .start 0 .exit :: walks 0 8 ++ walks 1 4)
      [.made 0, .opened 0 0 200, .cleared 0, .read 0, .released 0, .closed 0] = true := by decide +kernel
  obtain ⟨tr, κ, h1, h2, h3⟩ := readerLog_exec h
  refine ⟨tr, κ, h1, h2, h3, fun hc => ?_⟩
  rw [h3] at hc
  have := hc [.made 0, .opened 0 0 200] 0 [.read 0, .released 0, .closed 0] rfl 0 200 (by decide)
  revert this
  decide

/-! ## Examples -/

/-- Two threads use a reader outside contexts at the same time: two responses are open, each pool is cleared after its own. -/
example : readerLog (.start 0 (.call .len) :: .start 1 (.call .maxlen) :: walks 0 3 ++ walks 1 3 ++ walks 0 5 ++ walks 1 5)
    [.made 0, .opened 0 0 200, .made 1, .opened 1 1 200, .read 0, .released 0, .closed 0, .cleared 0, .read 1, .released 1, .closed 1,
      .cleared 1] = true := by decide +kernel

example : UsedUp 1 [.made 0, .opened 0 0 200, .made 1, .opened 1 1 200, .read 0, .cleared 1] ∧
    ¬UsedUp 0 [.made 0, .opened 0 0 200, .made 1, .opened 1 1 200, .read 0, .cleared 1] := by
  refine ⟨.inr ⟨1, 200, by decide⟩, fun h => ?_⟩
  have e : aboutPool 0 [.made 0, .opened 0 0 200, .made 1, .opened 1 1 200, .read 0, .cleared 1] = [.made 0, .opened 0 0 200] := by decide
  rcases h with h | ⟨r, st, h⟩ <;> rw [e] at h <;> cases h

/-- What a schedule of two threads with a new mirror leaves. -/
def mirrorLog (ms : List (Move HMCall)) (log : List WebEv) : Bool :=
  (moves (webMirrorThreads sampleEnv fun _ _ => True) 2 ms (init (hostUsed, {}) fun _ => ()) (fun _ => true)).elim false fun x =>
    (x.2.cur 0).isNone && (x.2.cur 1).isNone && decide (x.2.st.2.collected = log)

/-- A first use, then two threads at the same time: one pool, cleared once. -/
example : mirrorLog (.start 0 .checkStates :: walks 0 16 ++ .start 0 .checkStates :: .start 1 (.sendData (lit "a")) :: walks 0 9 ++ walks 1 9 ++
      walks 0 3 ++ walks 1 2)
    [.made 0, .opened 0 0 200, .read 0, .released 0, .closed 0, .opened 1 0 200, .read 1, .opened 2 0 201, .released 2, .released 1, .closed 1,
      .closed 2, .cleared 0] = true := by decide +kernel

end SyncStream
