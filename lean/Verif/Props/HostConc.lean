import Verif.Lemmas.HostConc
import Verif.Lemmas.Sched
import Verif.Lemmas.NotLin
import Verif.Spec.HostShared
import Verif.Props.HostMirror
/-!
# Properties C60, C61: a host service that serves many requests at a time
-/

namespace SyncStream

open Spec LineBuf HostBuf Conc

/-! ## C60 -/

/-- An operation in one moment, as the sequential model has it. -/
def HostBuf.AtOnce (env : HEnv) (h : HostBuf) (_ : Nat) (o : HOp) (r : HRet) (h' : HostBuf) : Prop :=
  r = HThr.result env o h ∧ h' = HostBuf.step env o h

theorem seq_atOnce (env : HEnv) {ok : Nat → HOp → Prop} {a a' : HostBuf × (Nat → Unit)} {i : Nat} {o : HOp} {r : HRet}
    (h : seqSpec (hostThreads env ok) a i o r a') : AtOnce env a.1 i o r a'.1 ∧ ok i o := by
  obtain ⟨x, h1, _, h3⟩ := h
  have h4 := (Prog.seq_bind_ok (HThr.prog_seq env o a.1)).symm.trans h1
  have e1 := congrArg Prod.fst h4
  have e2 : HostBuf.step env o a.1 = a'.1 := congrArg Prod.snd h4
  injection e1 with e1
  exact ⟨⟨(congrArg Prod.fst e1).symm, e2.symm⟩, h3⟩

theorem atOnce_exec (env : HEnv) {ok : Nat → HOp → Prop} {h : HostBuf} {tr : List (Ev HOp HRet)}
    {a : AConf (HostBuf × (Nat → Unit)) HOp HRet}
    (hx : AExec (seqSpec (hostThreads env ok)) ⟨(h, fun _ => ()), fun _ => .idle⟩ tr a) :
    AExec (fun h i o r h' => AtOnce env h i o r h' ∧ ok i o) ⟨h, fun _ => .idle⟩ tr ⟨a.st.1, a.stat⟩ := by
  generalize ha : (⟨(h, fun _ => ()), fun _ => .idle⟩ : AConf (HostBuf × (Nat → Unit)) HOp HRet) = a0 at hx
  induction hx with
  | nil => subst ha; exact .nil _
  | snoc a' a'' tr e h1 h2 ih =>
    cases h2 with
    | inv i c hi => exact .snoc _ _ _ _ _ ih (.inv _ _ _ hi)
    | ret i r hi => exact .snoc _ _ _ _ _ ih (.ret _ _ _ hi)
    | effect i c r st hi hsp =>
      exact .snoc _ _ _ _ none ih (.effect _ _ _ _ _ hi (seq_atOnce env hsp))

theorem aexec_mono {A C R : Type} {spec spec' : A → Nat → C → R → A → Prop}
    (h : ∀ a i c r a', spec a i c r a' → spec' a i c r a') {a b : AConf A C R} {tr : List (Ev C R)}
    (hx : AExec spec a tr b) : AExec spec' a tr b := by
  induction hx with
  | nil => exact .nil _
  | snoc a' a'' tr e h1 h2 ih =>
    refine .snoc _ _ _ _ _ ih ?_
    cases h2 with
    | inv i c hi => exact .inv _ _ _ hi
    | ret i r hi => exact .ret _ _ _ hi
    | effect i c r st hi hsp => exact .effect _ _ _ _ _ hi (h _ _ _ _ _ hsp)

/-- With fewer operations allowed. -/
theorem Conc.Disciplined.le {σ L O C R : Type} [DecidableEq L] {P : Parts σ L} {S : C → L} {sys : Sys σ L O C R}
    {okObj : Nat → O → Prop} (hd : Disciplined P S sys okObj) (ok : Nat → C → Prop)
    (h : ∀ i c, ok i c → sys.ok i c) : Disciplined P S { sys with ok := ok } okObj :=
  fun i o c ho hc => hd i o c ho (h i c hc)

theorem host_exec (env : HEnv) (ok : Nat → HOp → Prop) (hok : ∀ i o, ok i o → HThr.NotLocal o) (h : HostBuf)
    (tr : List (Ev HOp HRet)) (κ : Conf HostBuf HLock Unit HOp HRet)
    (hx : Exec (hostThreads env ok) (init h fun _ => ()) tr κ) :
    ∃ h' stat, AExec (fun h i o r h' => AtOnce env h i o r h' ∧ ok i o) ⟨h, fun _ => .idle⟩ tr ⟨h', stat⟩ ∧
      ((∀ i, κ.cur i = none) → κ.st = h') := by
  obtain ⟨a, h1, h2⟩ := exec_rel (HThr.orderly env ok) ((HThr.disciplined env).le ok hok) (s := h) trivial
    (fun _ => trivial) hx
  refine ⟨a.st.1, a.stat, atOnce_exec env h1, fun hq => ?_⟩
  obtain ⟨q1, _, _⟩ := h2.quiet hq
  have e1 : κ.st.base = a.st.1.base := q1 .config
  have e2 : κ.st.state = a.st.1.state := q1 .state
  cases hs : κ.st
  cases ha : a.st.1
  simp_all

/-- **C60** Any number of threads serve whatever requests arrive, while others call `stop_all_mirrors` and
`reset_states`, the primitive steps interleaved in any way: all answers are those of a service that
processes each request in one moment between its arrival and its answer, as the sequential model does;
and whenever nothing is being processed, the buffer is in the state of that service. -/
theorem C60_linearizable (env : HEnv) (h : HostBuf) (tr : List (Ev HOp HRet))
    (κ : Conf HostBuf HLock Unit HOp HRet)
    (hx : Exec (hostThreads env fun _ o => HThr.NotLocal o) (init h fun _ => ()) tr κ) :
    ∃ h' stat, AExec (AtOnce env) ⟨h, fun _ => .idle⟩ tr ⟨h', stat⟩ ∧
      ((∀ i, κ.cur i = none) → κ.st = h') := by
  obtain ⟨h', stat, h1, h2⟩ := host_exec env _ (fun _ _ h => h) h tr κ hx
  exact ⟨h', stat, aexec_mono (fun _ _ _ _ _ h => h.1) h1, h2⟩

/-- The buffer `h` is the service `s`. -/
def HRep (s : HShared) (h : HostBuf) : Prop :=
  ∃ st, h = hb s.log st ∧ Ok s.log ∧ s.log.closed = false ∧ NoRaw s.log.done ∧
    Json.lookup (lit "closed") st = some (.bool s.stopped)

theorem serializeAll_shown {items : List Item} (h : NoRaw items) :
    serializeAll items = .ok (items.map shownJson) := by
  induction items with
  | nil => rfl
  | cons i rest ih =>
    have ih := ih fun j hj => h j (List.mem_cons_of_mem _ hj)
    cases i with
    | str s => simp [serializeAll, ih, shownJson, Functor.map, Except.map]
    | msg m => simp [serializeAll, ih, shownJson, Functor.map, Except.map]
    | raw j => exact absurd List.mem_cons_self (h j)

theorem noRaw_lastN {items : List Item} (h : NoRaw items) (n : Nat) : NoRaw (lastN n items) :=
  fun j hj => h j (List.mem_of_mem_drop hj)

theorem arrives_noRaw {l l' : Log} {m : HMsg} (h : HArrives l m l') (hn : NoRaw l.done) : NoRaw l'.done := by
  intro j hj
  cases h with
  | text d ls r _ =>
    rcases List.mem_append.1 hj with hj | hj
    · exact hn j hj
    · obtain ⟨x, _, hx⟩ := List.mem_map.1 hj; cases hx
  | error | warning =>
    rcases List.mem_append.1 hj with hj | hj
    · exact all_noRaw hn j hj
    · simp at hj
  | close => exact all_noRaw hn j hj

theorem post_body (m : HMsg) : HMsg.post m = SyncStream.HMsg.body m := by cases m <;> rfl

theorem hrep_step (env : HEnv) {s : HShared} {h h' : HostBuf} {i : Nat} {o : HOp} {r : HRet}
    (hm : HShared.Meant o) (hr : HRep s h) (ha : AtOnce env h i o r h') :
    ∃ s', HShared.Step env.int s i o r s' ∧ HRep s' h' := by
  obtain ⟨st, rfl, ok, ho, hn, hc⟩ := hr
  obtain ⟨rfl, rfl⟩ := ha
  have hview : NoRaw s.log.view := noRaw_lastN (all_noRaw hn) _
  cases o with
  | buffer c => exact hm.elim
  | stopAll => exact ⟨_, .stop s i, _, rfl, ok, ho, hn, by rw [lookup_set, if_pos rfl]⟩
  | reset => exact ⟨_, .reset s i, _, rfl, ok, ho, hn, rfl⟩
  | req q =>
    cases q with
    | statePost b =>
      cases (show b = .json stopBody from hm)
      have e1 : strip ((stopBody.get (lit "state") (.str [])).strOf env.ext) = lit "closed" :=
        show strip (lit "closed") = lit "closed" by decide
      have e2 : strip (asciiLower ((stopBody.get (lit "value") .null).strOf env.ext)) = lit "true" :=
        show strip (asciiLower (lit "true")) = lit "true" by decide
      have e : handle env (.statePost (.json stopBody)) (hb s.log st) =
          ({ status := 201, body := some success }, hb s.log (PyDict.set st (lit "closed") (.bool true))) := by
        have h1 : HostBuf.statePost env stopBody (hb s.log st) = (.ok (), hb s.log (PyDict.set st (lit "closed") (.bool true))) := by
          simp only [HostBuf.statePost, e1, e2]
          rw [if_neg (by decide), if_pos trivial]
          rfl
        simp only [handle, answerPost, jsonArgs, show stopBody.isMapping = true from rfl, if_true, h1]
        rfl
      refine ⟨{ s with stopped := true }, ?_, PyDict.set st (lit "closed") (.bool true), ?_, ok, ho, hn, ?_⟩
      · simp only [HThr.result, e]; exact .stopPost s i
      · simp only [step, e]
      · rw [lookup_set, if_pos rfl]
    | stateDelete => exact ⟨_, .stateDelete s i, _, rfl, ok, ho, hn, rfl⟩
    | delete =>
      have e : handle env .delete (hb s.log st) =
          ({ status := 200, body := some success }, hb { s.log with done := [], part := [] } st) := by
        simp only [handle, onBase_hb LineBuf.clear s.log _ st _ (clear_rep s.log ho)]; rfl
      refine ⟨{ s with log := { s.log with done := [], part := [] } }, ?_, st, ?_, ?_, ho, ?_, hc⟩
      · simp only [HThr.result, e]; exact .clear s i
      · simp only [step, e]
      · exact ⟨ok.cap, noBreak_nil, fun h => by rw [show s.log.closed = true from h] at ho; cases ho⟩
      · exact fun j hj => nomatch hj
    | post b =>
      obtain ⟨m, rfl⟩ := hm
      rw [post_body]
      have e := handle_msg env m s.log ok ho st
      obtain ⟨h1, h2, h3⟩ := kindLog_ok (HMsg.kind m) s.log ok ho
      refine ⟨{ s with log := (kindLog s.log (HMsg.kind m)).2 }, ?_, st, ?_, h1, h2, ?_, hc⟩
      · simp only [HThr.result, e]
        rw [← post_body]
        exact .msg s i m _ (arrives_kind m s.log ok).2
      · simp only [step, e]
      · exact arrives_noRaw (arrives_kind m s.log ok).2 hn
    | get n =>
      refine ⟨s, ?_, st, ?_, ok, ho, hn, hc⟩
      · cases n with
        | none =>
          have e := handle_get_hb env none none s.log ok ho st _ (serializeAll_shown hview) (.inl ⟨rfl, rfl⟩)
          simp only [HThr.result, e]
          exact .readAll s i
        | some n =>
          cases hk : env.int n with
          | none =>
            have e : (handle env (.get (some n)) (hb s.log st)).1 = { status := 500, body := none } := by
              simp only [handle, HostBuf.get, hk]; rfl
            simp only [HThr.result, e]
            exact .readBad s i n hk
          | some k =>
            by_cases hp : 0 < k
            · have e := handle_get_hb env (some n) (some k) s.log ok ho st
                ((lastN k.toNat s.log.view).map shownJson)
                (by dsimp only; rw [if_pos hp]; exact serializeAll_shown (noRaw_lastN hview _)) (.inr ⟨n, k, rfl, hk, rfl⟩)
              simp only [HThr.result, e]
              exact .readSize s i n k hk hp
            · have e := handle_get_hb env (some n) (some k) s.log ok ho st []
                (by dsimp only; rw [if_neg hp]; rfl) (.inr ⟨n, k, rfl, hk, rfl⟩)
              simp only [HThr.result, e]
              exact .readNonPos s i n k hk (by omega)
      · exact handle_get_state env _ rfl s.log ok st
    | stateGet n =>
      refine ⟨s, ?_, st, handle_get_state env _ rfl s.log ok st, ok, ho, hn, hc⟩
      rcases hm with rfl | rfl
      · have e : (handle env (.stateGet (some (lit "curlen"))) (hb s.log st)).1 =
            { status := 200, body := some (successData (.int (min s.log.cap ((lastN s.log.cap s.log.done).length + 1) : Nat))) } := by
          have h1 := onBase_hb LineBuf.len s.log s.log st _ (len_rep s.log ok)
          have h2 : HostBuf.stateGet (some (lit "curlen")) (hb s.log st) =
              (.ok (.int (min s.log.cap ((lastN s.log.cap s.log.done).length + 1) : Nat)), hb s.log st) := by
            have e3 : strip (((some (lit "curlen")) : Option PyStr).getD []) = lit "curlen" := by decide
            simp only [HostBuf.stateGet, e3]
            rw [if_neg (by decide), if_pos trivial]
            exact Py.bind_ok h1
          simp only [handle, h2]; rfl
        simp only [HThr.result, e]
        exact .curlen s i
      · have e : (handle env (.stateGet (some (lit "closed"))) (hb s.log st)).1 =
            { status := 200, body := some (successData (.bool s.stopped)) } := by
          have h2 : HostBuf.stateGet (some (lit "closed")) (hb s.log st) = (.ok (.bool s.stopped), hb s.log st) := by
            have e3 : strip (((some (lit "closed")) : Option PyStr).getD []) = lit "closed" := by decide
            simp only [HostBuf.stateGet, e3]
            rw [if_neg (by decide), if_neg (by decide)]
            simp only [Py.gets_apply, Json.get, hb, hc, Option.getD]
          simp only [handle, h2]; rfl
        simp only [HThr.result, e]
        exact .closed s i

theorem meant_notLocal {o : HOp} (h : HShared.Meant o) : HThr.NotLocal o := by
  cases o with
  | buffer c => exact h
  | _ => trivial

theorem host_log (env : HEnv) (maxlen : Int) (h0 : HostBuf) (hnew : HostBuf.new maxlen = .ok h0)
    (ok : Nat → HOp → Prop) (hok : ∀ i o, ok i o → HShared.Meant o)
    (tr : List (Ev HOp HRet)) (κ : Conf HostBuf HLock Unit HOp HRet)
    (hx : Exec (hostThreads env ok) (init h0 fun _ => ()) tr κ) :
    ∃ s stat, AExec (fun s i o r s' => HShared.Step env.int s i o r s' ∧ ok i o)
        ⟨{ log := { cap := maxlen.toNat } }, fun _ => .idle⟩ tr ⟨s, stat⟩ ∧
      ((∀ i, κ.cur i = none) → (LineBuf.read none κ.st.base).1 = .ok s.log.view ∧
        κ.st.base.storage.items = lastN maxlen.toNat s.log.done ∧ κ.st.base.lastLine.buf = s.log.part ∧
        Json.lookup (lit "closed") κ.st.state = some (.bool s.stopped)) := by
  obtain ⟨hm, rfl, okl⟩ := new_hb hnew
  obtain ⟨h', stat, h1, h2⟩ := host_exec env _ (fun i o h => meant_notLocal (hok i o h)) _ tr κ hx
  have key : ∀ {a : AConf HostBuf HOp HRet} {tr : List (Ev HOp HRet)},
      AExec (fun h i o r h' => AtOnce env h i o r h' ∧ ok i o)
        ⟨hb { cap := maxlen.toNat } [(lit "closed", .bool false), (lit "maxlen", .int maxlen)], fun _ => .idle⟩ tr a →
      ∃ s, AExec (fun s i o r s' => HShared.Step env.int s i o r s' ∧ ok i o) ⟨{ log := { cap := maxlen.toNat } }, fun _ => .idle⟩ tr ⟨s, a.stat⟩ ∧
        HRep s a.st ∧ s.log.cap = maxlen.toNat := by
    intro a tr hx
    generalize ha : (AConf.mk (C := HOp) (R := HRet) (hb { cap := maxlen.toNat } [(lit "closed", .bool false),
      (lit "maxlen", .int maxlen)]) fun _ => .idle) = a0 at hx
    induction hx with
    | nil => subst ha; exact ⟨_, .nil _, ⟨_, rfl, okl, rfl, (fun j hj => nomatch hj), rfl⟩, rfl⟩
    | snoc a' a'' tr e g1 g2 ih =>
      obtain ⟨s, i1, i2, i3⟩ := ih
      cases g2 with
      | inv i c hi => exact ⟨s, .snoc _ _ _ _ _ i1 (.inv _ _ _ hi), i2, i3⟩
      | ret i r hi => exact ⟨s, .snoc _ _ _ _ _ i1 (.ret _ _ _ hi), i2, i3⟩
      | effect i c r st hi hsp =>
        obtain ⟨s', j1, j2⟩ := hrep_step env (hok _ _ hsp.2) i2 hsp.1
        refine ⟨s', .snoc _ _ _ _ none i1 (.effect _ _ _ _ _ hi ⟨j1, hsp.2⟩), j2, ?_⟩
        cases j1 with
        | msg m l h => cases h <;> exact i3
        | _ => exact i3
  obtain ⟨s, k1, ⟨st, k2, k3, k4, k5, k6⟩, k7⟩ := key h1
  refine ⟨s, stat, k1, fun hq => ?_⟩
  rw [h2 hq, show h' = _ from k2]
  refine ⟨?_, ?_, ?_, k6⟩
  · exact congrArg Prod.fst (read_rep none s.log k3 k4)
  · simp only [hb, rep_open k4, opened, k7]
  · simp only [hb, rep_open k4, opened]

/-- **C60** for the requests of mirrors and readers (messages, reading, clearing, the length, the stop
flag), in terms of a log: all answers are those of one log and one flag which every request uses in one
moment between its arrival and its answer; and whenever nothing is being processed, the buffer has
the contents of that log. -/
theorem C60_log (env : HEnv) (maxlen : Int) (h0 : HostBuf) (hnew : HostBuf.new maxlen = .ok h0)
    (tr : List (Ev HOp HRet)) (κ : Conf HostBuf HLock Unit HOp HRet)
    (hx : Exec (hostThreads env fun _ o => HShared.Meant o) (init h0 fun _ => ()) tr κ) :
    ∃ s stat, AExec (HShared.Step env.int) ⟨{ log := { cap := maxlen.toNat } }, fun _ => .idle⟩ tr ⟨s, stat⟩ ∧
      ((∀ i, κ.cur i = none) → (LineBuf.read none κ.st.base).1 = .ok s.log.view ∧
        κ.st.base.storage.items = lastN maxlen.toNat s.log.done ∧ κ.st.base.lastLine.buf = s.log.part ∧
        Json.lookup (lit "closed") κ.st.state = some (.bool s.stopped)) := by
  obtain ⟨s, stat, h1, h2⟩ := host_log env maxlen h0 hnew _ (fun _ _ h => h) tr κ hx
  exact ⟨s, stat, aexec_mono (fun _ _ _ _ _ h => h.1) h1, h2⟩

/-- A text, an error and a reader at the same time: all three have arrived before the first one
is processed. -/
example : ((moves (hostThreads sampleEnv fun _ o => HShared.Meant o) 3
      ([.start 0 (.req (.post (.json (HMsg.post (.error ⟨.str (lit "error"), [.str (lit "E")]⟩))))),
        .start 1 (.req (.post (.json (HMsg.post (.text (lit "c\n")))))), .start 2 (.req (.get none))] ++
        List.replicate 11 (.go 0) ++ List.replicate 13 (.go 1) ++ List.replicate 11 (.go 2))
      (init (hb { cap := 9, part := lit "b" } [(lit "closed", .bool false)]) fun _ => ())).map fun p =>
        (p.1.length, (p.2.cur 0).isNone, (p.2.cur 1).isNone, (p.2.cur 2).isNone,
          p.2.st.base.storage.items.map fun | .str s => s | _ => lit "msg")) =
    some (6, true, true, true, [lit "b", lit "msg", lit "c"]) := by decide +kernel

/-! ## C61 -/

/-- Thread 0 reads locally, thread 1 serves the request of a mirror that reports the error `g`. -/
def ReadPost (g : GMsg) (i : Nat) (o : HOp) : Prop :=
  (∃ n, i = 0 ∧ o = .buffer (.read n)) ∨ (i = 1 ∧ o = .req (.post (.json (HMsg.post (.error g)))))

/-- The error arrives while `read(1)` has the only record in its hands. -/
def readPostMoves (g : GMsg) : List (Move HOp) :=
  [.start 1 (.req (.post (.json (HMsg.post (.error g))))), .start 0 (.buffer (.read (some 1)))] ++
    List.replicate 4 (.go 1) ++ List.replicate 9 (.go 0) ++ List.replicate 3 (.go 1) ++ List.replicate 3 (.go 0)

/-- Thread 1 answers with success. -/
def isDone : Ev HOp HRet → Bool
  | .ret 1 (.resp ⟨201, some (.obj [(a, .str b)])⟩) => a = lit "message" && b = lit "success"
  | _ => false

theorem isDone_eq {e : Ev HOp HRet} (h : isDone e = true) : e = .ret 1 (done 201) := by
  unfold isDone at h
  split at h
  · simp only [Bool.and_eq_true, decide_eq_true_eq] at h
    rw [h.1, h.2]; rfl
  · cases h

/-- A message. -/
def isMsg : Item → Bool
  | .msg _ => true
  | _ => false

/-- **C61** is violated: it is not so that for every service (after any history) and every schedule of a
thread that reads locally and a thread that serves the request of a mirror reporting an error, once the
request has been answered with success and nothing is running, the error is in the buffer. -/
theorem C61_violated : ¬ ∀ (env : HEnv) (m : Int) (h : HostBuf), HReach env m h → h.base.lastLine.closed = false →
    ∀ (g : GMsg) (tr : List (Ev HOp HRet)) (κ : Conf HostBuf HLock Unit HOp HRet),
      Exec (hostThreads env (ReadPost g)) (init h fun _ => ()) tr κ →
      .ret 1 (done 201) ∈ tr → (∀ i, κ.cur i = none) → .msg g ∈ κ.st.base.storage.items := by
  intro h
  let g : GMsg := ⟨.str (lit "error"), [.str (lit "E")]⟩
  let x : HostBuf := HostBuf.run sampleEnv [.req (.post (.json (HMsg.post (.text (lit "x\n")))))]
    (hb { cap := 1 } [(lit "closed", .bool false), (lit "maxlen", .int 1)])
  have hm : ∀ m ∈ readPostMoves g, ∀ i c, m = .start i c → ReadPost g i c := by
    simp [readPostMoves, ReadPost]
  have e1 : (moves (hostThreads sampleEnv (ReadPost g)) 2 (readPostMoves g) (init x fun _ => ())).map (fun p =>
      (p.1.any isDone, p.2.st.base.storage.items.any isMsg, (p.2.cur 0).isNone, (p.2.cur 1).isNone)) =
    some (true, false, true, true) := by decide +kernel
  cases hk : moves (hostThreads sampleEnv (ReadPost g)) 2 (readPostMoves g) (init x fun _ => ()) with
  | none => rw [hk] at e1; cases e1
  | some p =>
    obtain ⟨tr, κ⟩ := p
    rw [hk] at e1
    simp only [Option.map_some, Option.some.injEq, Prod.mk.injEq, Option.isNone_iff_eq_none] at e1
    obtain ⟨d1, d2, d3, d4⟩ := e1
    obtain ⟨e, he, hd⟩ := List.any_eq_true.1 d1
    have := h sampleEnv 1 x ⟨_, _, rfl, rfl⟩ rfl g tr κ (moves_sound hm (fun _ _ _ => rfl) hk)
      (isDone_eq hd ▸ he) (fun i => match i with
        | 0 => d3
        | 1 => d4
        | i + 2 => moves_idle hk (by omega) rfl)
    have : κ.st.base.storage.items.any isMsg = true := List.any_eq_true.2 ⟨_, this, rfl⟩
    rw [d2] at this
    cases this

/-- **C61** The part that holds: if nobody uses the buffer locally (and nobody asks to clear it), an error
whose report by thread 1 has been answered is in the log that C60 speaks of, and the buffer shows the
last `maxlen` entries of that log. -/
theorem C61_partial (env : HEnv) (maxlen : Int) (h0 : HostBuf) (hnew : HostBuf.new maxlen = .ok h0) (g : GMsg)
    (tr : List (Ev HOp HRet)) (κ : Conf HostBuf HLock Unit HOp HRet)
    (hx : Exec (hostThreads env fun i o => HShared.Meant o ∧ o ≠ .req .delete ∧
        (i = 1 → o = .req (.post (.json (HMsg.post (.error g))))))
      (init h0 fun _ => ()) tr κ) (ha : .ret 1 (done 201) ∈ tr) :
    ∃ s stat, AExec (HShared.Step env.int) ⟨{ log := { cap := maxlen.toNat } }, fun _ => .idle⟩ tr ⟨s, stat⟩ ∧
      .msg g ∈ s.log.done ∧
      ((∀ i, κ.cur i = none) → (LineBuf.read none κ.st.base).1 = .ok s.log.view ∧
        κ.st.base.storage.items = lastN maxlen.toNat s.log.done) := by
  obtain ⟨s, stat, h1, h2⟩ := host_log env maxlen h0 hnew _ (fun _ _ h => h.1) tr κ hx
  refine ⟨s, stat, aexec_mono (fun _ _ _ _ _ h => h.1) h1, ?_, fun hq => ⟨(h2 hq).1, (h2 hq).2.1⟩⟩
  have key : ∀ {a : AConf HShared HOp HRet} {tr : List (Ev HOp HRet)},
      AExec (fun s i o r s' => HShared.Step env.int s i o r s' ∧ HShared.Meant o ∧ o ≠ .req .delete ∧
          (i = 1 → o = .req (.post (.json (HMsg.post (.error g))))))
        ⟨{ log := { cap := maxlen.toNat } }, fun _ => .idle⟩ tr a →
      ((∃ r, a.stat 1 = .done r) ∨ ∃ r, .ret 1 r ∈ tr) → .msg g ∈ a.st.log.done := by
    intro a tr hx
    generalize ha : (AConf.mk (C := HOp) (R := HRet) (HShared.mk { cap := maxlen.toNat } false) fun _ => .idle) = a0 at hx
    induction hx with
    | nil =>
      subst ha
      rintro (⟨r, h⟩ | ⟨r, h⟩)
      · cases h
      · cases h
    | snoc a' a'' tr e g1 g2 ih =>
      intro hd
      cases g2 with
      | inv i c hi =>
        refine ih ?_
        rcases hd with ⟨r, h⟩ | ⟨r, h⟩
        · by_cases h1 : i = 1
          · subst h1; simp at h
          · simp only [upd_other _ _ (Ne.symm h1)] at h; exact .inl ⟨r, h⟩
        · refine .inr ⟨r, ?_⟩; simpa using h
      | ret i r hi =>
        refine ih ?_
        by_cases h1 : i = 1
        · subst h1; exact .inl ⟨r, hi⟩
        · rcases hd with ⟨r', h⟩ | ⟨r', h⟩
          · simp only [upd_other _ _ (Ne.symm h1)] at h; exact .inl ⟨r', h⟩
          · refine .inr ⟨r', ?_⟩
            simp only [Option.toList, List.mem_append, List.mem_singleton] at h
            rcases h with h | h
            · exact h
            · cases h; exact absurd rfl h1
      | effect i c r st hi hsp =>
        obtain ⟨hs, -, hnd, hone⟩ := hsp
        have keep : .msg g ∈ a'.st.log.done → .msg g ∈ st.log.done := fun hin => by
          cases hs with
          | msg m l h =>
            cases h with
            | text => exact List.mem_append_left _ hin
            | error | warning => exact List.mem_append_left _ (List.mem_append_left _ hin)
            | close => exact List.mem_append_left _ hin
          | clear => exact absurd rfl hnd
          | _ => exact hin
        by_cases h1 : i = 1
        · have := hone h1
          subst this
          generalize ho : HOp.req (.post (.json (HMsg.post (.error g)))) = o at hs
          cases hs with
          | msg m l h =>
            have hm : HMsg.error g = m := by
              injection ho with ho; injection ho with ho; injection ho with ho
              cases m with
              | error m' =>
                simp only [HMsg.post, Json.obj.injEq, List.cons.injEq, Prod.mk.injEq, true_and, and_true] at ho
                obtain ⟨t, d⟩ := g
                obtain ⟨t', d'⟩ := m'
                simpa [GMsg.serialize] using ho
              | text d => exact absurd ho (by simp [HMsg.post, lit])
              | warning m' => exact absurd ho (by simp [HMsg.post, lit])
              | close => exact absurd ho (by simp [HMsg.post])
            subst hm
            cases h
            exact List.mem_append_right _ (List.mem_singleton_self _)
          | _ => cases ho
        · refine keep (ih ?_)
          rcases hd with ⟨r', h⟩ | ⟨r', h⟩
          · simp only [upd_other _ _ (Ne.symm h1)] at h; exact .inl ⟨r', h⟩
          · refine .inr ⟨r', ?_⟩; simpa using h
  exact key h1 (.inr ⟨_, ha⟩)

/-- The assumptions can be met: the error is reported while a text is waiting to be processed. -/
example : ((moves (hostThreads sampleEnv fun _ o => HShared.Meant o) 2
      ([.start 0 (.req (.post (.json (HMsg.post (.text (lit "a\n")))))),
        .start 1 (.req (.post (.json (HMsg.post (.error ⟨.str (lit "error"), [.str (lit "E")]⟩)))))] ++
        List.replicate 11 (.go 1) ++ List.replicate 13 (.go 0))
      (init (hb { cap := 9, part := lit "b" } [(lit "closed", .bool false)]) fun _ => ())).map fun p =>
        (p.1.any isDone, p.2.st.base.storage.items.map isMsg)) = some (true, [false, true, false]) := by decide +kernel

end SyncStream
