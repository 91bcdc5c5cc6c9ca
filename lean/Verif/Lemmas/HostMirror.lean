import Verif.Lemmas.HostService
import Verif.Lemmas.Proc
/-!
# Closed forms of the host mirror's methods
-/

namespace SyncStream
open Spec HostBuf

/-! ## The wire -/

theorem wireStr_id {s : PyStr} (h : NoSurrogate s) : Json.wireStr s = s := by
  fun_induction Json.wireStr s with
  | case1 hi lo rest hc _ => exact absurd ⟨hc.1, by omega⟩ (h hi List.mem_cons_self)
  | case2 hi lo rest _ ih => rw [ih fun c hc => h c (List.mem_cons_of_mem _ hc)]
  | case3 s _ => rfl

theorem noSurrogate_append {a b : PyStr} (ha : NoSurrogate a) (hb : NoSurrogate b) :
    NoSurrogate (a ++ b) := by
  intro c hc
  rcases List.mem_append.1 hc with h | h
  · exact ha c h
  · exact hb c h

theorem noSurrogate_nil : NoSurrogate [] := fun _ h => by cases h

/-- All texts in a message are free of surrogates. -/
def CleanMsg (m : GMsg) : Prop :=
  Json.wire m.type = m.type ∧ Json.wireList m.data = m.data

theorem wire_serialize {m : GMsg} (h : CleanMsg m) : Json.wire m.serialize = m.serialize := by
  have e1 : Json.wireStr (lit "/is_syncsdata") = lit "/is_syncsdata" := by decide +kernel
  have e2 : Json.wireStr (lit "/type") = lit "/type" := by decide +kernel
  have e3 : Json.wireStr (lit "GroupedMessage") = lit "GroupedMessage" := by decide +kernel
  have e4 : Json.wireStr (lit "type") = lit "type" := by decide +kernel
  have e5 : Json.wireStr (lit "data") = lit "data" := by decide +kernel
  simp only [GMsg.serialize, Json.wire, Json.wirePairs, e1, e2, e3, e4, e5, h.1, h.2]

theorem wire_strMsg {d : PyStr} (h : NoSurrogate d) :
    Json.wire (HMirror.strMsg d) = HMirror.strMsg d := by
  have e1 : Json.wireStr (lit "str") = lit "str" := by decide +kernel
  have e3 : Json.wireStr (lit "value") = lit "value" := by decide +kernel
  have e4 : Json.wireStr (lit "type") = lit "type" := by decide +kernel
  have e5 : Json.wireStr (lit "data") = lit "data" := by decide +kernel
  simp only [HMirror.strMsg, Json.wire, Json.wirePairs, e1, e3, e4, e5, wireStr_id h]

theorem wire_objMsg {t : PyStr} {m : GMsg} (ht : NoSurrogate t) (h : CleanMsg m) :
    Json.wire (HMirror.objMsg t m) = HMirror.objMsg t m := by
  have e4 : Json.wireStr (lit "type") = lit "type" := by decide +kernel
  have e5 : Json.wireStr (lit "data") = lit "data" := by decide +kernel
  simp only [HMirror.objMsg, Json.wire, Json.wirePairs, e4, e5, wireStr_id ht, wire_serialize h]

theorem wire_closeMsg : Json.wire HMirror.closeMsg = HMirror.closeMsg := by
  have e4 : Json.wireStr (lit "type") = lit "type" := by decide +kernel
  have e5 : Json.wireStr (lit "close") = lit "close" := by decide +kernel
  simp only [HMirror.closeMsg, Json.wire, Json.wirePairs, e4, e5]

/-! ## Requests as seen by the network -/

/-- The exception of `Resp.fail`. -/
def Resp.failExc (r : Resp) : Exc := if r.body.isNone then .jsonDecodeError else .connectionError

theorem Resp.fail_apply {σ α : Type} (r : Resp) (s : σ) :
    (r.fail : Py σ α) s = (.error r.failExc, s) := by
  unfold Resp.fail Resp.failExc
  cases r.body <;> rfl

/-- What the answer to the request for the state means. -/
def Resp.verdict (r : Resp) : Except Exc Unit :=
  if r.status < 400 then
    match r.body with
    | none => .error .jsonDecodeError
    | some j =>
      match j.get (lit "data") .null with
      | .bool true => .error .stopIteration
      | _ => .ok ()
  else .error r.failExc

theorem Resp.verdict_apply {σ : Type} (r : Resp) (s : σ) :
    (if r.status < 400 then
      match r.body with
      | none => Py.raise .jsonDecodeError
      | some j =>
        match j.get (lit "data") .null with
        | .bool true => Py.raise .stopIteration
        | _ => pure ()
    else r.fail : Py σ Unit) s = (r.verdict, s) := by
  unfold Resp.verdict
  split
  · cases r.body with
    | none => rfl
    | some j =>
      dsimp only
      generalize j.get (lit "data") .null = v
      cases v with
      | bool b => cases b <;> rfl
      | _ => rfl
  · exact Resp.fail_apply r s

namespace HNet

/-- A request that must succeed. -/
def expectOk (env : HEnv) (r : Req) : Py HNet Unit := do
  let resp ← HNet.request env r
  if resp.status < 400 then return ()
  else resp.fail

/-- The request for the state. -/
def check (env : HEnv) : Py HNet Unit := do
  let resp ← HNet.request env (.stateGet (some (lit "closed")))
  if resp.status < 400 then
    match resp.body with
    | none => Py.raise .jsonDecodeError
    | some j =>
      match j.get (lit "data") .null with
      | .bool true => Py.raise .stopIteration
      | _ => return ()
  else resp.fail

/-- Every outcome of a request: processed (whatever the answer or the exception), or lost. -/
theorem request_spec (env : HEnv) (r : Req) (n : HNet) :
    (HNet.request env r n).2.sent = n.sent ++ [r] ∨
    ((HNet.request env r n).2.sent = n.sent ∧ ∃ e, (HNet.request env r n).1 = .error e) := by
  unfold HNet.request
  extract_lets f n'
  cases f.outcome with
  | ok => exact .inl rfl
  | lost e => exact .inr ⟨rfl, e, rfl⟩
  | noReply e => exact .inl rfl

/-- A successful POST has been processed; a failed one has been processed or not. -/
theorem expectOk_spec (env : HEnv) (r : Req) (n : HNet) :
    ((expectOk env r n).2.sent = n.sent ++ [r]) ∨
    ((expectOk env r n).2.sent = n.sent ∧ ∃ e, (expectOk env r n).1 = .error e) := by
  have h := request_spec env r n
  unfold expectOk
  rw [Py.bind_apply]
  cases hx : HNet.request env r n with
  | mk x n' =>
    rw [hx] at h
    cases x with
    | error e =>
      rcases h with h | ⟨h, _⟩
      · exact .inl h
      · exact .inr ⟨h, e, rfl⟩
    | ok resp =>
      rcases h with h | ⟨_, e, h⟩
      · left
        dsimp only
        split
        · exact h
        · rw [Resp.fail_apply]; exact h
      · cases h

theorem check_sent (env : HEnv) (n : HNet) :
    (check env n).2.sent = n.sent ∨
    (check env n).2.sent = n.sent ++ [.stateGet (some (lit "closed"))] := by
  have h := request_spec env (.stateGet (some (lit "closed"))) n
  unfold check
  rw [Py.bind_apply]
  cases hx : HNet.request env (.stateGet (some (lit "closed"))) n with
  | mk x n' =>
    rw [hx] at h
    have h' : n'.sent = n.sent ∨ n'.sent = n.sent ++ [.stateGet (some (lit "closed"))] := by
      rcases h with h | h
      · exact .inr h
      · exact .inl h.1
    cases x with
    | error e => exact h'
    | ok resp =>
      dsimp only
      rw [Resp.verdict_apply]
      exact h'

end HNet

namespace HMirror

/-- The mirror with an open buffer holding `p`. -/
def withBuf (m : HMirror) (p : PyStr) : HMirror :=
  { m with buf := { buf := p, pos := p.length, closed := false } }

/-- The mirror with a closed buffer. -/
def closedM (m : HMirror) : HMirror := { m with buf := { buf := [], pos := 0, closed := true } }

@[simp] theorem withBuf_withBuf (m : HMirror) (p q : PyStr) : (m.withBuf p).withBuf q = m.withBuf q := rfl
@[simp] theorem withBuf_aggressive (m : HMirror) (p : PyStr) : (m.withBuf p).aggressive = m.aggressive := rfl
@[simp] theorem withBuf_buf (m : HMirror) (p : PyStr) : (m.withBuf p).buf.buf = p := rfl
@[simp] theorem withBuf_closed (m : HMirror) (p : PyStr) : (m.withBuf p).buf.closed = false := rfl

theorem onBuf_write (m : HMirror) (p d : PyStr) (n : HNet) :
    onBuf (StringIO.write d) (m.withBuf p, n) = (.ok d.length, (m.withBuf (p ++ d), n)) := by
  simp only [onBuf, withBuf, Py.onPart_apply, LineBuf.write_end]

theorem onBuf_getvalue (m : HMirror) (p : PyStr) (n : HNet) :
    onBuf StringIO.getvalue (m.withBuf p, n) = (.ok p, (m.withBuf p, n)) := by
  simp [onBuf, withBuf, StringIO.getvalue, StringIO.check, Py.bind_apply]

theorem onBuf_tell (m : HMirror) (p : PyStr) (n : HNet) :
    onBuf StringIO.tell (m.withBuf p, n) = (.ok p.length, (m.withBuf p, n)) := by
  simp [onBuf, withBuf, StringIO.tell, StringIO.check, Py.bind_apply]

theorem onBuf_seek_truncate {α : Type} (m : HMirror) (p : PyStr) (n : HNet) (k : Unit → Py HMNet α) :
    (onBuf StringIO.seek0 >>= fun _ => onBuf StringIO.truncate0 >>= k) (m.withBuf p, n) =
      k () (m.withBuf [], n) := by
  simp [onBuf, withBuf, StringIO.seek0, StringIO.truncate0, StringIO.check, Py.bind_apply]

theorem clear_open (m : HMirror) (p : PyStr) (n : HNet) :
    clear (m.withBuf p, n) = (.ok (), (m.withBuf [], n)) := by
  simp [clear, onBuf, withBuf, StringIO.seek0, StringIO.truncate0, StringIO.check, Py.bind_apply]

theorem closed_open (m : HMirror) (p : PyStr) (n : HNet) :
    closed (m.withBuf p, n) = (.ok false, (m.withBuf p, n)) := by simp [closed]

theorem closed_closed (m : HMirror) (n : HNet) :
    closed (m.closedM, n) = (.ok true, (m.closedM, n)) := by simp [closed, closedM]

theorem expectOk_apply (env : HEnv) (r : Req) (m : HMirror) (n : HNet) :
    expectOk env r (m, n) = ((HNet.expectOk env r n).1, (m, (HNet.expectOk env r n).2)) := by
  simp only [expectOk, HNet.expectOk, Py.bind_apply, request, Py.onPart_apply]
  cases HNet.request env r n with
  | mk x n' =>
    cases x with
    | error e => rfl
    | ok resp =>
      dsimp only
      split
      · rfl
      · rw [Resp.fail_apply, Resp.fail_apply]

/-- A text posted. -/
def netText (env : HEnv) (d : PyStr) (n : HNet) : Except Exc Unit × HNet :=
  HNet.expectOk env (.post (.json (strMsg d))) n

theorem sendData_open (env : HEnv) (m : HMirror) (p d : PyStr) (n : HNet) :
    sendData env d (m.withBuf p, n) =
      ((netText env d n).1, (m.withBuf p, (netText env d n).2)) := by
  unfold sendData
  rw [Py.bind_ok (closed_open m p n)]
  exact expectOk_apply _ _ _ _

theorem checkStates_open (env : HEnv) (m : HMirror) (p : PyStr) (n : HNet) :
    checkStates env (m.withBuf p, n) =
      ((HNet.check env n).1, (m.withBuf p, (HNet.check env n).2)) := by
  unfold checkStates
  rw [Py.bind_ok (closed_open m p n)]
  simp only [HNet.check, Py.bind_apply, request, Py.onPart_apply, Bool.false_eq_true, if_false]
  cases HNet.request env (.stateGet (some (lit "closed"))) n with
  | mk x n' =>
    cases x with
    | error e => rfl
    | ok resp =>
      dsimp only
      rw [Resp.verdict_apply]
      exact Resp.verdict_apply _ _

/-- The check before a write. -/
def netCheck (env : HEnv) (check : Bool) (n : HNet) : Except Exc Unit × HNet :=
  if check then HNet.check env n else (.ok (), n)

/-- What `__write` does to an open mirror. -/
theorem writeCore_open (env : HEnv) (check : Bool) (m : HMirror) (p d : PyStr) (n : HNet) :
    writeCore env d check (m.withBuf p, n) =
      match netCheck env check n with
      | (.error e, n1) => (.error e, (m.withBuf p, n1))
      | (.ok _, n1) =>
        if m.aggressive then
          ((netText env d n1).1.map fun _ => d.length, (m.withBuf p, (netText env d n1).2))
        else if NoBreak d then (.ok d.length, (m.withBuf (p ++ d), n1))
        else
          match netText env (p ++ d) n1 with
          | (.ok _, n') => (.ok d.length, (m.withBuf [], n'))
          | (.error e, n') => (.error e, (m.withBuf (p ++ d), n')) := by
  unfold writeCore
  have hc : (if check then checkStates env else pure () : Py HMNet Unit) (m.withBuf p, n) =
      ((netCheck env check n).1, (m.withBuf p, (netCheck env check n).2)) := by
    cases check with
    | true => exact checkStates_open env m p n
    | false => rfl
  cases hk : netCheck env check n with
  | mk x n1 =>
    rw [hk] at hc
    cases x with
    | error e => rw [Py.bind_error hc]
    | ok u =>
      rw [Py.bind_ok hc]
      dsimp only
      rw [Py.bind_ok (show Py.gets (fun s : HMNet => s.1.aggressive) (m.withBuf p, n1) =
        (.ok m.aggressive, (m.withBuf p, n1)) from rfl)]
      by_cases ha : m.aggressive = true
      · simp only [ha, if_true]
        cases hp : (netText env d n1).1 with
        | ok u =>
          rw [Py.bind_ok (show sendData env d (m.withBuf p, n1) = (.ok (),
            (m.withBuf p, (netText env d n1).2)) by rw [sendData_open, hp])]
          simp [Except.map]
        | error e =>
          rw [Py.bind_error (show sendData env d (m.withBuf p, n1) = (.error e,
            (m.withBuf p, (netText env d n1).2)) by rw [sendData_open, hp])]
          simp [Except.map]
      simp only [ha, Bool.false_eq_true, if_false]
      have ht := triggers_iff d
      by_cases hb : NoBreak d
      · have : ¬ ((splitlines d).length > 1 ∨ ((splitlines d).length = 1 ∧
            (splitlines d).head? = some []) ∨ isEndLineBreak d = true) := by
          rw [ht]; exact fun h => h hb
        simp only [this, if_false, hb, if_true]
        by_cases hd : d = []
        · subst hd; simp [splitlines_eq]
        · simp only [splitlines_noBreak hb hd, if_true]
          exact onBuf_write m p d n1
      · have := ht.2 hb
        simp only [this, if_true, hb, if_false]
        rw [Py.bind_ok (onBuf_write m p d n1), Py.bind_ok (onBuf_getvalue m _ n1)]
        cases hp : netText env (p ++ d) n1 with
        | mk r n' =>
          cases r with
          | ok u =>
            rw [Py.bind_ok (show sendData env (p ++ d) (m.withBuf (p ++ d), n1) = (.ok (),
              (m.withBuf (p ++ d), n')) by rw [sendData_open, hp])]
            rw [onBuf_seek_truncate]
            rfl
          | error e =>
            rw [Py.bind_error (show sendData env (p ++ d) (m.withBuf (p ++ d), n1) = (.error e,
              (m.withBuf (p ++ d), n')) by rw [sendData_open, hp])]

theorem write_open (env : HEnv) (m : HMirror) (p d : PyStr) (n : HNet) :
    write env d (m.withBuf p, n) = writeCore env d true (m.withBuf p, n) := by
  unfold write
  rw [Py.bind_ok (show writable (m.withBuf p, n) = (.ok true, (m.withBuf p, n)) by simp [writable])]
  simp

theorem write_closed (env : HEnv) (m : HMirror) (d : PyStr) (n : HNet) :
    write env d (m.closedM, n) = (.error .osError, (m.closedM, n)) := by
  simp [write, writable, closedM, Py.bind_apply]

theorem read_open (m : HMirror) (p : PyStr) (n : HNet) :
    read (m.withBuf p, n) = (.ok p, (m.withBuf p, n)) := by
  unfold read
  rw [Py.bind_ok (show readable (m.withBuf p, n) = (.ok true, (m.withBuf p, n)) by simp [readable])]
  simpa using onBuf_getvalue m p n

theorem newLine_open (env : HEnv) (check : Bool) (m : HMirror) (p : PyStr) (n : HNet) :
    newLine env check (m.withBuf p, n) =
      if p = [] then (.ok (), (m.withBuf p, n))
      else ((writeCore env (lit "\n") check (m.withBuf p, n)).1.map fun _ => (),
        (writeCore env (lit "\n") check (m.withBuf p, n)).2) := by
  unfold newLine
  rw [Py.bind_ok (onBuf_tell m p n)]
  by_cases hp : p = []
  · simp [hp]
  · have : p.length > 0 := List.length_pos_iff.2 hp
    simp only [this, if_true, hp, if_false, Py.bind_apply]
    cases hw : writeCore env (lit "\n") check (m.withBuf p, n) with
    | mk r s => cases r <;> simp [Except.map]

/-- `new_line()` of an open mirror that is not aggressive (or has nothing buffered). -/
theorem newLine_open' (env : HEnv) (check : Bool) (m : HMirror) (p : PyStr) (n : HNet)
    (ha : m.aggressive = true → p = []) :
    newLine env check (m.withBuf p, n) =
      if p = [] then (.ok (), (m.withBuf p, n))
      else match netCheck env check n with
        | (.error e, n1) => (.error e, (m.withBuf p, n1))
        | (.ok _, n1) => match netText env (p ++ lit "\n") n1 with
          | (.ok _, n') => (.ok (), (m.withBuf [], n'))
          | (.error e, n') => (.error e, (m.withBuf (p ++ lit "\n"), n')) := by
  rw [newLine_open, writeCore_open]
  by_cases hp : p = []
  · simp [hp]
  · have ha' : m.aggressive = false := by
      cases h : m.aggressive with
      | false => rfl
      | true => exact absurd (ha h) hp
    simp only [hp, if_false, ha', Bool.false_eq_true, Mirror.not_noBreak_newline]
    cases netCheck env check n with
    | mk x n1 =>
      cases x with
      | error e => rfl
      | ok u =>
        dsimp only
        cases netText env (p ++ lit "\n") n1 with
        | mk r n' => cases r <;> simp [Except.map]

/-- "return if closed; new_line(); POST". -/
def sendAfter (env : HEnv) (check : Bool) (j : Json) : Py HMNet Unit := do
  if ← closed then return ()
  else
    newLine env check
    expectOk env (.post (.json j))

theorem sendEof_eq (env : HEnv) : sendEof env = sendAfter env true closeMsg := rfl
theorem sendError_eq (env : HEnv) (e : ExcObj) :
    sendError env e = sendAfter env (!e.isStop) (objMsg (lit "error") (GMsg.new (.exc e))) := rfl
theorem sendWarning_eq (env : HEnv) (e : ExcObj) :
    sendWarning env e = sendAfter env true (objMsg (lit "warning") (GMsg.new (.exc e))) := rfl

theorem sendAfter_open (env : HEnv) (check : Bool) (j : Json) (m : HMirror) (p : PyStr) (n : HNet) :
    sendAfter env check j (m.withBuf p, n) =
      match newLine env check (m.withBuf p, n) with
      | (.ok _, s) => ((HNet.expectOk env (.post (.json j)) s.2).1,
          (s.1, (HNet.expectOk env (.post (.json j)) s.2).2))
      | (.error e, s) => (.error e, s) := by
  unfold sendAfter
  rw [Py.bind_ok (closed_open m p n)]
  simp only [Bool.false_eq_true, if_false, Py.bind_apply]
  cases newLine env check (m.withBuf p, n) with
  | mk r s =>
    cases r with
    | error e => rfl
    | ok u => exact expectOk_apply _ _ _ _

theorem sendAfter_closed (env : HEnv) (check : Bool) (j : Json) (m : HMirror) (n : HNet) :
    sendAfter env check j (m.closedM, n) = (.ok (), (m.closedM, n)) := by
  unfold sendAfter
  rw [Py.bind_ok (closed_closed m n)]
  rfl

/-- What `close(exc)` sends at the end, and whether it checks the state. -/
def endBody : Option ExcObj → Json
  | none => closeMsg
  | some e => objMsg (lit "error") (GMsg.new (.exc e))

/-- See `endBody`. -/
def endCheck : Option ExcObj → Bool
  | none => true
  | some e => !e.isStop

theorem clear_close (m : HMirror) (p : PyStr) (n : HNet) :
    (clear >>= fun _ => onBuf StringIO.close) (m.withBuf p, n) = (.ok (), (m.closedM, n)) := by
  rw [Py.bind_ok (clear_open m p n)]
  simp [onBuf, StringIO.close, withBuf, closedM]

theorem close_open (env : HEnv) (exc : Option ExcObj) (m : HMirror) (p : PyStr) (n : HNet) :
    close env exc (m.withBuf p, n) =
      match sendAfter env (endCheck exc) (endBody exc) (m.withBuf p, n) with
      | (.error e, s) => (.error e, s)
      | (.ok _, s) => (clear >>= fun _ => onBuf StringIO.close) s := by
  unfold close
  rw [Py.bind_ok (closed_open m p n)]
  simp only [Bool.false_eq_true, if_false]
  have key : ∀ (c : Bool) (j : Json), (sendAfter env c j >>= fun _ => clear >>= fun _ => onBuf StringIO.close)
      (m.withBuf p, n) =
      match sendAfter env c j (m.withBuf p, n) with
      | (.error e, s) => (.error e, s)
      | (.ok _, s) => (clear >>= fun _ => onBuf StringIO.close) s := by
    intro c j
    rw [Py.bind_apply]
    cases sendAfter env c j (m.withBuf p, n) with
    | mk r s => cases r <;> rfl
  cases exc with
  | none => exact key true closeMsg
  | some e => exact key (!e.isStop) _

theorem close_closed (env : HEnv) (exc : Option ExcObj) (m : HMirror) (n : HNet) :
    close env exc (m.closedM, n) = (.ok (), (m.closedM, n)) := by
  unfold close
  rw [Py.bind_ok (closed_closed m n)]
  rfl

/-! ## Every reachable mirror is in normal form -/

/-- Open with position at the end, or closed. -/
def Norm (m : HMirror) : Prop := (∃ p, m = m.withBuf p) ∨ m = m.closedM

theorem norm_withBuf (m : HMirror) (p : PyStr) : Norm (m.withBuf p) := .inl ⟨p, rfl⟩
theorem norm_closedM (m : HMirror) : Norm m.closedM := .inr rfl

theorem writeCore_norm (env : HEnv) (check : Bool) (m : HMirror) (p d : PyStr) (n : HNet) :
    ∃ p' n', (writeCore env d check (m.withBuf p, n)).2 = (m.withBuf p', n') := by
  rw [writeCore_open]
  cases netCheck env check n with
  | mk x n1 =>
    cases x with
    | error e => exact ⟨_, _, rfl⟩
    | ok u =>
      dsimp only
      split
      · exact ⟨_, _, rfl⟩
      split
      · exact ⟨_, _, rfl⟩
      cases netText env (p ++ d) n1 with
      | mk r n' => cases r <;> exact ⟨_, _, rfl⟩

theorem newLine_norm (env : HEnv) (check : Bool) (m : HMirror) (p : PyStr) (n : HNet) :
    ∃ p' n', (newLine env check (m.withBuf p, n)).2 = (m.withBuf p', n') := by
  rw [newLine_open]
  split
  · exact ⟨_, _, rfl⟩
  · exact writeCore_norm _ _ _ _ _ _

theorem sendAfter_norm (env : HEnv) (check : Bool) (j : Json) (m : HMirror) (p : PyStr) (n : HNet) :
    ∃ p' n', (sendAfter env check j (m.withBuf p, n)).2 = (m.withBuf p', n') := by
  rw [sendAfter_open]
  obtain ⟨p', n', h⟩ := newLine_norm env check m p n
  cases hn : newLine env check (m.withBuf p, n) with
  | mk r s =>
    rw [hn] at h
    dsimp only at h
    subst h
    cases r <;> exact ⟨_, _, rfl⟩

theorem exec_norm (env : HEnv) (c : HMCall) (m : HMirror) (n : HNet) (h : Norm m) :
    Norm (exec env c (m, n)).2.1 := by
  rcases h with ⟨p, h⟩ | h
  · rw [h]
    cases c with
    | write d =>
      obtain ⟨p', n', h'⟩ := writeCore_norm env true m p d n
      simp only [exec, write_open, h']
      exact norm_withBuf _ _
    | newLine k =>
      obtain ⟨p', n', h'⟩ := newLine_norm env k m p n
      simp only [exec, h']
      exact norm_withBuf _ _
    | read => simp only [exec, read_open]; exact norm_withBuf _ _
    | clear => simp only [exec, clear_open]; exact norm_withBuf _ _
    | flush =>
      have : flush (m.withBuf p, n) = (.ok (), (m.withBuf p, n)) := by
        simp [flush, onBuf, StringIO.flush, StringIO.check, withBuf]
      simp only [exec, this]; exact norm_withBuf _ _
    | sendData d => simp only [exec, sendData_open]; exact norm_withBuf _ _
    | sendEof =>
      obtain ⟨p', n', h'⟩ := sendAfter_norm env true closeMsg m p n
      simp only [exec, sendEof_eq, h']; exact norm_withBuf _ _
    | sendError e =>
      obtain ⟨p', n', h'⟩ := sendAfter_norm env (!e.isStop) (objMsg (lit "error") (GMsg.new (.exc e))) m p n
      simp only [exec, sendError_eq, h']; exact norm_withBuf _ _
    | sendWarning e =>
      obtain ⟨p', n', h'⟩ := sendAfter_norm env true (objMsg (lit "warning") (GMsg.new (.exc e))) m p n
      simp only [exec, sendWarning_eq, h']; exact norm_withBuf _ _
    | checkStates => simp only [exec, checkStates_open]; exact norm_withBuf _ _
    | close exc =>
      simp only [exec, close_open]
      obtain ⟨p', n', h'⟩ := sendAfter_norm env (endCheck exc) (endBody exc) m p n
      cases hn : sendAfter env (endCheck exc) (endBody exc) (m.withBuf p, n) with
      | mk r s =>
        rw [hn] at h'
        dsimp only at h'
        subst h'
        cases r with
        | error e => exact norm_withBuf _ _
        | ok u => dsimp only; rw [clear_close]; exact norm_closedM _
    | closed | readable | writable => exact norm_withBuf _ _
    | setAggressive a => exact .inl ⟨p, rfl⟩
  · rw [h]
    cases c with
    | write d => simp only [exec, write_closed]; exact norm_closedM _
    | newLine k =>
      have : newLine env k (m.closedM, n) = (.error .valueError, (m.closedM, n)) := by
        simp [newLine, onBuf, StringIO.tell, StringIO.check, closedM, Py.bind_apply]
      simp only [exec, this]; exact norm_closedM _
    | read =>
      have : read (m.closedM, n) = (.error .osError, (m.closedM, n)) := by
        simp [read, readable, closedM, Py.bind_apply]
      simp only [exec, this]; exact norm_closedM _
    | clear =>
      have : clear (m.closedM, n) = (.error .valueError, (m.closedM, n)) := by
        simp [clear, onBuf, StringIO.seek0, StringIO.check, closedM, Py.bind_apply]
      simp only [exec, this]; exact norm_closedM _
    | flush =>
      have : flush (m.closedM, n) = (.error .valueError, (m.closedM, n)) := by
        simp [flush, onBuf, StringIO.flush, StringIO.check, closedM]
      simp only [exec, this]; exact norm_closedM _
    | sendData d =>
      have : sendData env d (m.closedM, n) = (.ok (), (m.closedM, n)) := by
        unfold sendData; rw [Py.bind_ok (closed_closed m n)]; rfl
      simp only [exec, this]; exact norm_closedM _
    | sendEof => simp only [exec, sendEof_eq, sendAfter_closed]; exact norm_closedM _
    | sendError e => simp only [exec, sendError_eq, sendAfter_closed]; exact norm_closedM _
    | sendWarning e => simp only [exec, sendWarning_eq, sendAfter_closed]; exact norm_closedM _
    | checkStates =>
      have : checkStates env (m.closedM, n) = (.ok (), (m.closedM, n)) := by
        unfold checkStates; rw [Py.bind_ok (closed_closed m n)]; rfl
      simp only [exec, this]; exact norm_closedM _
    | close exc => simp only [exec, close_closed]; exact norm_closedM _
    | closed | readable | writable => exact norm_closedM _
    | setAggressive a => exact .inr rfl

end HMirror
end SyncStream
