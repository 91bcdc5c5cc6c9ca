import Verif.Props.HostStop
import Verif.Props.ProcSys
/-!
# What a `LineHostReader` reports and does: C07, C10, C40, C43, C44

Also C62: the main buffers refuse to be written.
-/

namespace SyncStream
open Spec LineBuf HostBuf

/-- A request for a state that the service answers with `j`. -/
theorem getStates_spec (env : HEnv) (name : PyStr) (rn : RNet) (hf : rn.net.fates = []) (j : Json)
    (hh : handle env (.stateGet (some name)) rn.net.service =
      ({ status := 200, body := some (successData j) }, rn.net.service)) :
    (Reader.withHttp (Reader.getStates env name) rn).1 = .ok j.wire ∧
    (Reader.withHttp (Reader.getStates env name) rn).2.net.service = rn.net.service := by
  obtain ⟨p, s, h1, h2, h3⟩ := withHttp_spec (Reader.getStates env name) rn
  rw [h2, h3]
  rw [← h1] at hf hh ⊢
  have hr : HNet.request env (.stateGet (some name)) s.net =
      (.ok { status := 200, body := some (Json.wire (successData j)) },
      { s.net with sent := s.net.sent ++ [.stateGet (some name)] }) := by
    simp only [HNet.request, hf, List.headD_nil, HostBuf.run, List.foldl_nil, Req.wire, hh, Option.map_some,
      List.tail_nil]
  have hq : Reader.request env p (.stateGet (some name)) s =
      (.ok { status := 200, body := some (Json.wire (successData j)) },
      { s with pools := s.pools ++ [.used p]
               net := { s.net with sent := s.net.sent ++ [.stateGet (some name)] } }) := by
    unfold Reader.request
    rw [Py.bind_ok (show Py.modify _ s = (.ok (), _) from rfl), Py.onPart_apply]
    dsimp only
    rw [hr]
  have hd : (Json.wire (successData j)).getItem (lit "data") = .ok j.wire := by
    have e1 : Json.wireStr (lit "message") = lit "message" := by decide +kernel
    have e2 : Json.wireStr (lit "data") = lit "data" := by decide +kernel
    simp only [successData, Json.wire, Json.wirePairs, e1, e2]
    rfl
  unfold Reader.getStates
  rw [Py.bind_ok hq]
  simp only [Reader.dataOf, hd]
  exact ⟨rfl, rfl⟩

theorem handle_len (env : HEnv) {m : Int} {h : HostBuf} (hr : HReach env m h) {n : Nat}
    (hn : (LineBuf.len h.base).1 = .ok n) :
    handle env (.stateGet (some (lit "curlen"))) h =
      ({ status := 200, body := some (successData (.int n)) }, h) := by
  have e1 : strip (lit "curlen") = lit "curlen" := by decide +kernel
  have e2 : ¬ (lit "curlen" = ([] : PyStr)) := by decide +kernel
  have h1 : onBase LineBuf.len h = (.ok n, h) := by
    rcases h with ⟨b, st⟩
    exact Prod.ext hn rfl
  have h2 : stateGet (some (lit "curlen")) h = (.ok (.int n), h) := by
    simp only [stateGet, Option.getD_some, e1, e2, if_false, if_true]
    rw [Py.bind_ok h1]
    rfl
  simp only [handle, h2]
  rfl

/-! ## C07 -/

/-- **C07** `len` of a reader is the number of items the buffer shows, or one more: it is right if there is an
unfinished line or the buffer is full. -/
theorem C07_reader_partial (env : HEnv) (m : Int) (h : HostBuf) (hr : HReach env m h) (r : List Item)
    (hrd : (LineBuf.read none h.base).1 = .ok r) (rn : RNet) (hf : rn.net.fates = []) (hs : rn.net.service = h) :
    (Reader.len env rn).1 =
      .ok (.int ((if h.base.lastLine.buf ≠ [] ∨ r.length = m.toNat then r.length else r.length + 1 : Nat))) ∧
    (Reader.len env rn).2.net.service = h := by
  have hlen : ∃ n, (LineBuf.len h.base).1 = .ok n := by
    obtain ⟨l, st, rfl, ok, _, _⟩ := hreach_hb hr
    exact ⟨_, congrArg Prod.fst (len_rep l ok)⟩
  obtain ⟨n, hn⟩ := hlen
  have := C07_host_len_partial env m h hr r n hrd hn
  subst hs
  rw [← this]
  exact getStates_spec env _ rn hf _ (handle_len env hr hn)

/-- **C07** is false for a reader: of a new service it reports length 1. -/
theorem C07_reader_violated (env : HEnv) : ¬ ∀ (m : Int) (h : HostBuf), HReach env m h →
    ∀ (rn : RNet) (r : List Item), rn.net.fates = [] → rn.net.service = h →
      (LineBuf.read none h.base).1 = .ok r → (Reader.len env rn).1 = .ok (.int r.length) := by
  intro h
  have := h 5 _ ⟨_, [], rfl, rfl⟩ { net := { service := _ } } [] rfl rfl rfl
  cases this

/-- Two records and an unfinished line. -/
example : ∃ h : HostBuf, HReach sampleEnv 5 h ∧
    (match (Reader.len sampleEnv { net := { service := h } }).1 with | .ok (.int n) => n | _ => 0) = 3 :=
  ⟨_, ⟨_, [.req (.post (.json (HMsg.body (.text (lit "a\nb\nc")))))], rfl, rfl⟩, by decide +kernel⟩

/-! ## C43 -/

/-- **C43** As long as the states have not been reset, a reader reports the `maxlen` the service was created
with. -/
theorem C43_reader_partial (env : HEnv) (m : Int) (h0 : HostBuf) (hn : HostBuf.new m = .ok h0)
    (os : List HOp) (hr : ∀ o ∈ os, o.isReset = false) (rn : RNet) (hf : rn.net.fates = [])
    (hs : rn.net.service = HostBuf.run env os h0) :
    (Reader.maxlen env rn).1 = .ok (.int m) ∧ (Reader.maxlen env rn).2.net.service = rn.net.service := by
  have h1 := C43_maxlen_partial env m h0 hn os hr
  rw [← hs] at h1
  have e1 : strip (lit "maxlen") = lit "maxlen" := by decide +kernel
  have e2 : ¬ (lit "maxlen" = ([] : PyStr)) := by decide +kernel
  have e3 : ¬ (lit "maxlen" = lit "curlen") := by decide +kernel
  have h2 : handle env (.stateGet (some (lit "maxlen"))) rn.net.service =
      ({ status := 200,
         body := some (successData ((Json.lookup (lit "maxlen") rn.net.service.state).getD .null)) },
        rn.net.service) := by
    simp only [handle, stateGet, Option.getD_some, e1, e2, e3, if_false, Py.gets_apply, Json.get]
    rfl
  have h3 : (Json.lookup (lit "maxlen") rn.net.service.state).getD .null = .int m := by
    unfold reported at h1
    rw [h2] at h1
    injection h1
  rw [h3] at h2
  exact getStates_spec env _ rn hf _ h2

/-- **C43** is false for a reader: after it has reset the states it reports `None`. -/
theorem C43_reader_violated (env : HEnv) : ¬ ∀ (m : Int) (h : HostBuf), HReach env m h → ∀ rn : RNet,
    rn.net.fates = [] → rn.net.service = h →
    (Reader.maxlen env (Reader.resetStates env rn).2).1 = .ok (.int m) := by
  intro h
  have := h 5 _ ⟨_, [], rfl, rfl⟩ { net := { service := _ } } rfl rfl
  cases this

example : (match HostBuf.new 5 with
    | .ok h => (match (Reader.maxlen sampleEnv { net := { service := HostBuf.run sampleEnv [.stopAll] h } }).1 with
      | .ok (.int n) => n
      | _ => 0)
    | _ => 0) = 5 := by decide +kernel

/-! ## C44 -/

/-- **C44** `closed` of a reader is true if and only if the service tells its mirrors to stop. -/
theorem C44_reader_closed (env : HEnv) (rn : RNet) (hf : rn.net.fates = []) :
    ∃ j, (Reader.closed env rn).1 = .ok j ∧ (j = .bool true ↔ Stopped rn.net.service) ∧
      (Reader.closed env rn).2.net.service = rn.net.service := by
  obtain ⟨h1, h2⟩ := getStates_spec env _ rn hf _ (handle_closed env rn.net.service)
  refine ⟨_, h1, ?_, h2⟩
  rw [wire_true]
  unfold Stopped
  cases Json.lookup (lit "closed") rn.net.service.state with
  | none => exact ⟨nofun, nofun⟩
  | some j => simp

/-- **C44** Every operation that is meant to resume the mirrors does so: after a reset (local or by a request), and
after a request that sets `closed` to something whose `str` is not `true`, the service does not tell its
mirrors to stop. -/
theorem C44_resumes (env : HEnv) (h : HostBuf) (o : HOp) (hr : o.resumes env) : ¬ Stopped (step env o h) := by
  cases o with
  | reset => exact nofun
  | stopAll => exact hr.elim
  | buffer c => exact hr.elim
  | req r =>
    cases r with
    | stateDelete => exact nofun
    | statePost b =>
      cases b with
      | notJson => exact hr.elim
      | malformed => exact hr.elim
      | json j =>
        obtain ⟨h1, h2⟩ := hr
        rw [← saysTrue_iff] at h2
        have hm : j.isMapping = true := by
          cases j with
          | obj l => rfl
          | _ => exact absurd (show (strip (lit "") = lit "closed") from h1) (by decide +kernel)
        have hne : ¬ (lit "closed" = ([] : PyStr)) := by decide +kernel
        simp only [step, handle, answerPost, jsonArgs, hm, if_true, statePost, h1, hne, if_false]
        show ¬ (Json.lookup (lit "closed") (PyDict.set h.state (lit "closed") _) = _)
        rw [lookup_set, if_pos rfl]
        simp [h2]
    | _ => exact hr.elim

/-- A post of `"False"` resumes, a post of `" TRUE"` does not. -/
example : HOp.resumes sampleEnv (.req (.statePost (.json (.obj [(lit "state", .str (lit "closed")),
      (lit "value", .str (lit "False"))])))) ∧
    ¬ HOp.resumes sampleEnv (.req (.statePost (.json (.obj [(lit "state", .str (lit "closed")),
      (lit "value", .str (lit " TRUE"))])))) := by
  simp only [HOp.resumes, ← saysTrue_iff]
  decide +kernel

/-! ## C10 -/

/-- **C10** (host mode) `LineHostReader.clear()` on an open service returns `True` and leaves a service like a new
one, with the states it had. -/
theorem C10_host_clear (env : HEnv) (m : Int) (h h0 : HostBuf) (hr : HReach env m h)
    (ho : h.base.lastLine.closed = false) (hn : HostBuf.new m = .ok h0) (rn : RNet)
    (hf : rn.net.fates = []) (hs : rn.net.service = h) :
    (Reader.clear env rn).1 = .ok true ∧
    (Reader.clear env rn).2.net.service = { h0 with state := h.state } := by
  obtain ⟨l, st, rfl, ok, hc, _⟩ := hreach_hb hr
  have hlo : l.closed = false := by
    cases hc : l.closed with
    | false => rfl
    | true => rw [show (hb l st).base = rep l from rfl, rep_closed hc] at ho; cases ho
  obtain ⟨_, rfl, _⟩ := new_hb hn
  obtain ⟨p, s, h1, h2, h3⟩ := withHttp_spec (fun p => do
    Reader.successful (← Reader.request env p .delete)) rn
  have hl : ({ l with done := [], part := [] } : Log) = { cap := m.toNat } := by
    rcases l with ⟨a, b, c, d⟩
    cases hlo; cases hc; rfl
  have hh : handle env (Req.wire .delete) s.net.service =
      ({ status := 200, body := some success }, hb { cap := m.toNat } st) := by
    have : onBase LineBuf.clear (hb l st) = (.ok (), hb { cap := m.toNat } st) :=
      (onBase_hb LineBuf.clear l _ st _ (clear_rep l hlo)).trans (by rw [hl])
    rw [h1, hs]
    simp only [Req.wire, handle, this]
    rfl
  obtain ⟨g1, g2⟩ := successful_spec env p _ s (by rw [h1]; exact hf) 200 (by decide) _ hh
  exact ⟨h2.trans g1, (congrArg HNet.service h3).trans g2⟩

example : (match HostBuf.new 5 with
    | .ok h =>
      let h1 := HostBuf.run sampleEnv [.req (.post (.json (HMsg.body (.text (lit "a\nb\nc"))))), .stopAll] h
      let h2 := (Reader.clear sampleEnv { net := { service := h1 } }).2.net.service
      (h1.base.storage.items.length, h2.base.storage.items.length, h2.base.lastLine.buf.length, h2.state.length)
    | _ => (0, 0, 0, 0)) = (2, 0, 0, 2) := by decide +kernel

/-! ## C40 -/

/-- **C40** Local calls do not change anything, apart from `new_line`, `clear` and `close`; in particular the
public `write` does not. -/
theorem C40_local_pure (env : HEnv) (m : Int) (h : HostBuf) (hr : HReach env m h) (c : Call)
    (hc : c ≠ .newLine ∧ c ≠ .clear ∧ c ≠ .close ∧ (c = .flush → h.base.lastLine.closed = false)) :
    step env (.buffer c) h = h := by
  obtain ⟨l, st, rfl, ok, _, _⟩ := hreach_hb hr
  cases c with
  | write d => rfl
  | newLine => exact absurd rfl hc.1
  | clear => exact absurd rfl hc.2.1
  | close => exact absurd rfl hc.2.2.1
  | read n => exact congrArg (fun b => HostBuf.mk b st) (read_rep_state n l ok)
  | flush =>
    have := hc.2.2.2 rfl
    have hlo : l.closed = false := by
      cases hc : l.closed with
      | false => rfl
      | true => rw [show (hb l st).base = rep l from rfl, rep_closed hc] at this; cases this
    show HostBuf.mk (LineBuf.exec .flush (rep l)).2 st = HostBuf.mk (rep l) st
    rw [rep_open hlo]
    rfl
  | _ => rfl

/-! ## C62 -/

/-- **C62** (host mode) The public `write` raises `NotImplementedError`, whatever is written, and changes
nothing. -/
theorem C62_host (d : PyStr) (h : HostBuf) :
    (HostBuf.write d h).1 = .error .notImplemented ∧ ∀ env, step env (.buffer (.write d)) h = h :=
  ⟨rfl, fun _ => rfl⟩

/-- **C62** (process mode) The public `write` raises `NotImplementedError`, whatever is written, and changes
nothing: neither the buffer nor what it shares with the mirrors. -/
theorem C62_process (d : PyStr) (s : ProcSys) :
    (ProcSys.onMain (ProcBuf.write d) s).1 = .error .notImplemented ∧ ProcSys.step (.buffer (.write d)) s = s :=
  ⟨rfl, rfl⟩

/-- A buffer with content keeps it. -/
example : (match HostBuf.new 5 with
    | .ok h =>
      let h1 := HostBuf.run sampleEnv [.req (.post (.json (HMsg.body (.text (lit "a\nb"))))),
        .buffer (.write (lit "c\n"))] h
      (h1.base.storage.items.length, h1.base.lastLine.buf)
    | _ => (0, [])) = (1, lit "b") := by decide +kernel

end SyncStream
