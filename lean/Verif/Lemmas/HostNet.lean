import Verif.Lemmas.HostMirror
import Verif.Props.HostService
/-!
# A host mirror, a service and a reader without failures
-/

namespace SyncStream
open Spec LineBuf HostBuf

/-! ## The log of the service -/

theorem feed_noBreak (l : Log) {p : PyStr} (hp : NoBreak p) :
    feed l p = { l with part := l.part ++ p } := by
  simp [feed, segFrom_noBreak _ _ hp]

theorem feed_append (l : Log) {p : PyStr} (hp : NoBreak p) (d : PyStr) :
    feed (feed l p) d = feed l (p ++ d) := by
  rw [feed_noBreak l hp]
  simp [feed, segFrom_prefix _ _ _ hp]

theorem feed_nil (l : Log) : feed l [] = l := by
  rw [feed_noBreak l noBreak_nil]; simp

theorem segFrom_newline (x : PyStr) : segFrom x (lit "\n") = ([x], []) := by
  have := segFrom_break x 10 [] (by decide +kernel) (by rintro ⟨h, _⟩; cases h)
  rw [segFrom_nil] at this
  exact this

/-- Completing the pending line by a line break or by an end signal is the same. -/
theorem finish_newline (l : Log) {p : PyStr} (hp : NoBreak p) (hne : p ≠ []) :
    (feed l (p ++ lit "\n")).finish = (feed l p).finish := by
  have hx : l.part ++ p ≠ [] := by simp [hne]
  rw [← feed_append l hp, feed_noBreak l hp]
  simp [feed, segFrom_newline, Log.finish, Log.all, hne]

theorem feeds_ok (ds : List PyStr) {l : Log} (ok : Ok l) (ho : l.closed = false) :
    Ok (ds.foldl feed l) ∧ (ds.foldl feed l).closed = false ∧ (ds.foldl feed l).cap = l.cap := by
  induction ds generalizing l with
  | nil => exact ⟨ok, ho, rfl⟩
  | cons d ds ih => exact ih (feed_ok d ok ho) ho

/-- The local buffer after writes. -/
theorem run_writes_rep (ds : List PyStr) (l : Log) (ok : Ok l) (ho : l.closed = false) :
    (LineBuf.run (ds.map .write) (rep l)).2 = rep (ds.foldl feed l) := by
  induction ds generalizing l with
  | nil => rfl
  | cons d ds ih =>
    simp only [List.map_cons, LineBuf.run, LineBuf.exec, write_rep d l ok ho, List.foldl_cons]
    exact ih (feed l d) (feed_ok d ok ho) ho

theorem LineBuf.run_append (a b : List Call) (x : LineBuf) :
    (LineBuf.run (a ++ b) x).2 = (LineBuf.run b (LineBuf.run a x).2).2 := by
  induction a generalizing x with
  | nil => rfl
  | cons c a ih => simp only [List.cons_append, LineBuf.run, ih]

theorem HMirror.run_append (env : HEnv) (a b : List HMCall) (s : HMNet) :
    HMirror.run env (a ++ b) s =
      ((HMirror.run env a s).1 ++ (HMirror.run env b (HMirror.run env a s).2).1,
        (HMirror.run env b (HMirror.run env a s).2).2) := by
  induction a generalizing s with
  | nil => rfl
  | cons c a ih => simp only [List.cons_append, HMirror.run, ih]

/-! ## Requests without failures -/

/-- A service with log `l` and states `st`, and a network without failures. -/
def srv (l : Log) (st : PyDict) (sent : List Req) : HNet := { service := hb l st, sent := sent }

/-- The message survives the way through JSON. -/
def HMsg.Clean (x : HMsg) : Prop := Json.wire (HMsg.body x) = HMsg.body x

theorem HMsg.clean_text {d : PyStr} (h : NoSurrogate d) : HMsg.Clean (.text d) := wire_strMsg h
theorem HMsg.clean_error {g : GMsg} (h : CleanMsg g) : HMsg.Clean (.error g) :=
  wire_objMsg (by decide +kernel) h
theorem HMsg.clean_warning {g : GMsg} (h : CleanMsg g) : HMsg.Clean (.warning g) :=
  wire_objMsg (by decide +kernel) h
theorem HMsg.clean_close : HMsg.Clean .close := wire_closeMsg

theorem expectOk_srv (env : HEnv) (x : HMsg) (hx : HMsg.Clean x) (l : Log) (ok : Ok l)
    (ho : l.closed = false) (st : PyDict) (sent : List Req) :
    HNet.expectOk env (.post (.json (HMsg.body x))) (srv l st sent) =
      (.ok (), srv (kindLog l (HMsg.kind x)).2 st (sent ++ [.post (.json (HMsg.body x))])) := by
  have h : HNet.request env (.post (.json (HMsg.body x))) (srv l st sent) =
      (.ok { status := 201, body := some (Json.wire success) },
        srv (kindLog l (HMsg.kind x)).2 st (sent ++ [.post (.json (HMsg.body x))])) := by
    simp only [HNet.request, srv, List.headD_nil, HostBuf.run, List.foldl_nil, Req.wire,
      show Json.wire (HMsg.body x) = HMsg.body x from hx, handle_msg env x l ok ho st, Option.map_some,
      List.tail_nil]
  unfold HNet.expectOk
  rw [Py.bind_ok h]
  rfl

/-- The state `closed` is not `True`. -/
def NotStopped (st : PyDict) : Prop := Json.lookup (lit "closed") st ≠ some (.bool true)

theorem wire_true {v : Json} : Json.wire v = .bool true ↔ v = .bool true := by
  cases v <;> simp [Json.wire]

/-- The answer to the request for the state. -/
theorem handle_closed (env : HEnv) (h : HostBuf) :
    handle env (.stateGet (some (lit "closed"))) h =
      ({ status := 200, body := some (successData ((Json.lookup (lit "closed") h.state).getD .null)) }, h) := by
  have e1 : strip (lit "closed") = lit "closed" := by decide +kernel
  have e2 : ¬ (lit "closed" = ([] : PyStr)) := by decide +kernel
  have e3 : ¬ (lit "closed" = lit "curlen") := by decide +kernel
  simp only [handle, stateGet, Option.getD_some, e1, e2, e3, if_false, Py.gets_apply, Json.get]
  rfl

instance (j : Json) : Decidable (j = .bool true) :=
  match j with
  | .bool true => .isTrue rfl
  | .bool false => .isFalse (by intro h; cases h)
  | .null => .isFalse (by intro h; cases h)
  | .int _ => .isFalse (by intro h; cases h)
  | .flt _ _ => .isFalse (by intro h; cases h)
  | .str _ => .isFalse (by intro h; cases h)
  | .arr _ => .isFalse (by intro h; cases h)
  | .obj _ => .isFalse (by intro h; cases h)

theorem verdict_closed (v : Json) :
    Resp.verdict { status := 200, body := some (Json.wire (successData v)) } =
      if v = .bool true then .error .stopIteration else .ok () := by
  have e1 : Json.wireStr (lit "message") = lit "message" := by decide +kernel
  have e2 : Json.wireStr (lit "data") = lit "data" := by decide +kernel
  have h : (Json.wire (successData v)).get (lit "data") .null = Json.wire v := by
    simp only [successData, Json.wire, Json.wirePairs, e1, e2]
    rfl
  simp only [Resp.verdict, h, show (200 : Nat) < 400 by decide, if_true]
  by_cases hv : v = .bool true
  · subst hv; rfl
  · rw [if_neg hv]
    have : ¬ Json.wire v = .bool true := fun e => hv (wire_true.1 e)
    generalize Json.wire v = w at this
    cases w with
    | bool b => cases b <;> simp_all
    | _ => rfl

theorem check_srv (env : HEnv) (l : Log) (st : PyDict) (hs : NotStopped st) (sent : List Req) :
    HNet.check env (srv l st sent) =
      (.ok (), srv l st (sent ++ [.stateGet (some (lit "closed"))])) := by
  have h : HNet.request env (.stateGet (some (lit "closed"))) (srv l st sent) =
      (.ok { status := 200,
             body := some (Json.wire (successData ((Json.lookup (lit "closed") st).getD .null))) },
        srv l st (sent ++ [.stateGet (some (lit "closed"))])) := by
    simp only [HNet.request, srv, List.headD_nil, HostBuf.run, List.foldl_nil, Req.wire,
      handle_closed, Option.map_some, List.tail_nil]
    rfl
  unfold HNet.check
  rw [Py.bind_ok h, Resp.verdict_apply, verdict_closed, if_neg]
  intro e
  apply hs
  cases hv : Json.lookup (lit "closed") st with
  | none => rw [hv] at e; cases e
  | some v => rw [hv] at e; exact congrArg some e

namespace HMirror

/-- Requests of a write that is sent. -/
def checked (sent : List Req) : List Req := sent ++ [.stateGet (some (lit "closed"))]

theorem netCheck_srv (env : HEnv) (l : Log) (st : PyDict) (hs : NotStopped st) (sent : List Req) :
    netCheck env true (srv l st sent) = (.ok (), srv l st (checked sent)) := check_srv env l st hs sent

theorem netText_srv (env : HEnv) (d : PyStr) (hd : NoSurrogate d) (l : Log) (ok : Ok l)
    (ho : l.closed = false) (st : PyDict) (sent : List Req) :
    netText env d (srv l st sent) = (.ok (), srv (feed l d) st (sent ++ [.post (.json (strMsg d))])) :=
  expectOk_srv env (.text d) (HMsg.clean_text hd) l ok ho st sent

/-- The writes of a mirror in either mode: what has been sent and what is pending are together what
has been written. -/
theorem writes_srv (env : HEnv) (st : PyDict) (hs : NotStopped st) (ds : List PyStr) (m : HMirror) :
    ∀ (p : PyStr) (l : Log) (sent : List Req), (m.aggressive = true → p = []) → NoBreak p → NoSurrogate p →
      Ok l → l.closed = false → (∀ d ∈ ds, NoSurrogate d) →
      ∃ p' l' sent', run env (ds.map .write) (m.withBuf p, srv l st sent) =
          (ds.map fun d => .nat d.length, (m.withBuf p', srv l' st sent')) ∧
        (m.aggressive = true → p' = []) ∧ NoBreak p' ∧ NoSurrogate p' ∧ Ok l' ∧ l'.closed = false ∧
        feed l' p' = ds.foldl feed (feed l p) := by
  induction ds with
  | nil => intro p l sent h1 h2 h3 h4 h5 _; exact ⟨p, l, sent, rfl, h1, h2, h3, h4, h5, rfl⟩
  | cons d ds ih =>
    intro p l sent h1 h2 h3 h4 h5 h6
    have hd := h6 d List.mem_cons_self
    have step : ∃ p1 l1 sent1, exec env (.write d) (m.withBuf p, srv l st sent) =
        (.nat d.length, (m.withBuf p1, srv l1 st sent1)) ∧ (m.aggressive = true → p1 = []) ∧
        NoBreak p1 ∧ NoSurrogate p1 ∧ Ok l1 ∧ l1.closed = false ∧
        feed l1 p1 = feed (feed l p) d := by
      simp only [exec, write_open, writeCore_open, netCheck_srv env l st hs sent]
      by_cases ha : m.aggressive = true
      · simp only [ha, if_true, netText_srv env d hd l h4 h5 st]
        rw [h1 ha] at h2 h3 ⊢
        refine ⟨[], feed l d, _, rfl, fun _ => rfl, h2, h3, feed_ok d h4 h5, h5, ?_⟩
        rw [feed_nil, feed_nil]
      · simp only [ha, Bool.false_eq_true, if_false]
        by_cases hb : NoBreak d
        · simp only [hb, if_true]
          exact ⟨p ++ d, l, _, rfl, (fun h => by cases h), noBreak_append.2 ⟨h2, hb⟩,
            noSurrogate_append h3 hd, h4, h5, (feed_append l h2 d).symm⟩
        · simp only [hb, if_false, netText_srv env (p ++ d) (noSurrogate_append h3 hd) l h4 h5 st]
          refine ⟨[], feed l (p ++ d), _, rfl, (fun h => by cases h), noBreak_nil, noSurrogate_nil,
            feed_ok _ h4 h5, h5, ?_⟩
          rw [feed_nil, feed_append l h2 d]
    obtain ⟨p1, l1, sent1, g1, g2, g3, g4, g5, g6, g7⟩ := step
    obtain ⟨p', l', sent', k1, k2, k3, k4, k5, k6, k7⟩ := ih p1 l1 sent1 g2 g3 g4 g5 g6
      fun d hd => h6 d (List.mem_cons_of_mem _ hd)
    refine ⟨p', l', sent', ?_, k2, k3, k4, k5, k6, ?_⟩
    · simp only [List.map_cons, run, g1, k1]
    · rw [k7, g7]; rfl

/-- The requests a `new_line()` makes. -/
def lineReqs (check : Bool) (p : PyStr) : List Req :=
  if p = [] then [] else
    (if check then [.stateGet (some (lit "closed"))] else []) ++ [.post (.json (strMsg (p ++ lit "\n")))]

theorem newLine_srv (env : HEnv) (check : Bool) (st : PyDict) (hs : check = true → NotStopped st) (m : HMirror) (p : PyStr)
    (hp : NoSurrogate p) (ha : m.aggressive = true → p = []) (l : Log) (ok : Ok l)
    (ho : l.closed = false) (sent : List Req) :
    newLine env check (m.withBuf p, srv l st sent) =
      (.ok (), (m.withBuf [], srv (if p = [] then l else feed l (p ++ lit "\n")) st
        (sent ++ lineReqs check p))) := by
  rw [newLine_open' env check m p _ ha]
  by_cases hp0 : p = []
  · subst hp0; simp [lineReqs]
  · have hn : netCheck env check (srv l st sent) =
        (.ok (), srv l st (sent ++ if check then [.stateGet (some (lit "closed"))] else [])) := by
      cases check with
      | false => simp [netCheck]
      | true => exact netCheck_srv env l st (hs rfl) sent
    simp only [hp0, if_false, hn]
    rw [netText_srv env _ (noSurrogate_append hp (by decide +kernel)) l ok ho]
    simp [lineReqs, hp0]

theorem sendAfter_srv (env : HEnv) (check : Bool) (x : HMsg) (hx : HMsg.Clean x) (st : PyDict)
    (hs : check = true → NotStopped st) (m : HMirror) (p : PyStr) (hp : NoSurrogate p)
    (ha : m.aggressive = true → p = []) (l : Log) (ok : Ok l) (ho : l.closed = false) (sent : List Req) :
    sendAfter env check (HMsg.body x) (m.withBuf p, srv l st sent) =
      (.ok (), (m.withBuf [], srv
        (kindLog (if p = [] then l else feed l (p ++ lit "\n")) (HMsg.kind x)).2 st
        (sent ++ lineReqs check p ++ [.post (.json (HMsg.body x))]))) := by
  rw [sendAfter_open, newLine_srv env check st hs m p hp ha l ok ho sent]
  have ok1 : Ok (if p = [] then l else feed l (p ++ lit "\n")) := by
    split
    · exact ok
    · exact feed_ok _ ok ho
  have ho1 : (if p = [] then l else feed l (p ++ lit "\n")).closed = false := by
    split
    · exact ho
    · exact ho
  simp only
  rw [expectOk_srv env x hx _ ok1 ho1]

/-- The end signal of `close`. -/
def endHMsg : Option ExcObj → HMsg
  | none => .close
  | some e => .error (GMsg.new (.exc e))

theorem endBody_eq (exc : Option ExcObj) : endBody exc = HMsg.body (endHMsg exc) := by cases exc <;> rfl

theorem close_srv (env : HEnv) (exc : Option ExcObj) (hx : HMsg.Clean (endHMsg exc)) (st : PyDict)
    (hs : endCheck exc = true → NotStopped st) (m : HMirror) (p : PyStr) (hp : NoSurrogate p)
    (ha : m.aggressive = true → p = []) (l : Log) (ok : Ok l) (ho : l.closed = false) (sent : List Req) :
    close env exc (m.withBuf p, srv l st sent) =
      (.ok (), (m.closedM, srv
        (kindLog (if p = [] then l else feed l (p ++ lit "\n")) (HMsg.kind (endHMsg exc))).2 st
        (sent ++ lineReqs (endCheck exc) p ++ [.post (.json (HMsg.body (endHMsg exc)))]))) := by
  rw [close_open, endBody_eq, sendAfter_srv env _ _ hx st hs m p hp ha l ok ho sent]
  exact clear_close m [] _

end HMirror

/-! ## The reader -/

/-- The item survives the way from the service to a reader. -/
def Item.Clean : Item → Prop
  | .str s => NoSurrogate s
  | .msg g => CleanMsg g
  | .raw _ => False

theorem serialize_clean {items : List Item} (h : ∀ i ∈ items, i.Clean) :
    ∃ js, serializeAll items = .ok js ∧ Reader.deserializeAll (Json.wireList js) = .ok items := by
  induction items with
  | nil => exact ⟨[], rfl, rfl⟩
  | cons i rest ih =>
    obtain ⟨js, h1, h2⟩ := ih fun i hi => h i (List.mem_cons_of_mem _ hi)
    have hi := h i List.mem_cons_self
    cases i with
    | str s =>
      refine ⟨.str s :: js, by simp [serializeAll, h1, Functor.map, Except.map], ?_⟩
      have : Json.wireStr s = s := wireStr_id hi
      simp [Json.wireList, Json.wire, this, Reader.deserializeAll, h2, Functor.map, Except.map]
    | msg g =>
      refine ⟨g.serialize :: js, by simp [serializeAll, h1, Functor.map, Except.map], ?_⟩
      have e : Json.wire g.serialize = g.serialize := wire_serialize hi
      have d : GMsg.deserialize g.serialize = .ok (.msg g) := rfl
      simp only [Json.wireList, e]
      show (do
        let i ← GMsg.deserialize g.serialize
        return i :: (← Reader.deserializeAll (Json.wireList js)) : Except Exc (List Item)) = _
      rw [d, h2]
      rfl
    | raw j => exact absurd hi id

theorem wire_data (v : Json) : (Json.wire (successData v)).getItem (lit "data") = .ok (Json.wire v) := by
  have e1 : Json.wireStr (lit "message") = lit "message" := by decide +kernel
  have e2 : Json.wireStr (lit "data") = lit "data" := by decide +kernel
  simp only [successData, Json.wire, Json.wirePairs, e1, e2]
  rfl

/-- What `read(size)` should return for a log. -/
def sized (size : Option Int) (view : List Item) : List Item :=
  match size with
  | none => view
  | some n => if 0 < n then lastN n.toNat view else []

theorem reader_withHttp_ok {α : Type} (f : Nat → Py RNet α) (rn : RNet) (a : α)
    (h : ∀ p rn', rn'.net = rn.net → (f p rn').1 = .ok a) : (Reader.withHttp f rn).1 = .ok a := by
  unfold Reader.withHttp
  rw [Py.bind_ok (Py.gets_apply _ _)]
  cases hh : rn.reader.http with
  | some p => exact h p rn rfl
  | none => exact h _ _ rfl

/-- A reader reads what the log shows. -/
theorem reader_read (env : HEnv) (hint : ∀ k : Nat, env.int (Json.natStr k) = some (k : Int))
    (size : Option Int) (l : Log) (ok : Ok l) (ho : l.closed = false) (st : PyDict) (sent : List Req)
    (hc : ∀ i ∈ l.view, i.Clean) (rn : RNet) (hn : rn.net = srv l st sent) :
    (Reader.read env size rn).1 = .ok (sized size l.view) := by
  refine reader_withHttp_ok _ rn _ fun p rn' hrn => ?_
  have hsz : ∀ i ∈ sized size l.view, i.Clean := by
    intro i hi
    cases size with
    | none => exact hc i hi
    | some n =>
      simp only [sized] at hi
      split at hi
      · exact hc i (mem_of_mem_lastN hi)
      · cases hi
  obtain ⟨js, hjs, hdj⟩ := serialize_clean hsz
  have hh : handle env (.get (Reader.query size)) (hb l st) =
      ({ status := 200, body := some (successData (.arr js)) }, hb l st) := by
    cases size with
    | none => exact handle_get_hb env none none l ok ho st js hjs (.inl ⟨rfl, rfl⟩)
    | some n =>
      by_cases hn : 0 < n
      · refine handle_get_hb env _ (some n) l ok ho st js hjs (.inr ⟨_, n, rfl, ?_, rfl⟩)
        rw [hint]; congr 1; omega
      · refine handle_get_hb env _ (some 0) l ok ho st js ?_ (.inr ⟨_, 0, rfl, ?_, rfl⟩)
        · simp only [sized, hn, if_false] at hjs
          exact hjs
        · rw [hint, show n.toNat = 0 by omega]; rfl
  have hreq : Reader.request env p (.get (Reader.query size)) rn' =
      (.ok { status := 200, body := some (Json.wire (successData (.arr js))) },
        { rn' with pools := rn'.pools ++ [.used p],
                   net := srv l st (sent ++ [.get (Reader.query size)]) }) := by
    unfold Reader.request
    rw [Py.bind_ok (Py.modify_apply _ _)]
    simp only [Py.onPart_apply, hrn, hn, HNet.request, srv, List.headD_nil, HostBuf.run, List.foldl_nil,
      Req.wire, hh, Option.map_some, List.tail_nil]
  rw [Py.bind_ok hreq]
  simp only [show (200 : Nat) < 400 by decide, if_true]
  have hd : ∀ s, Reader.dataOf { status := 200, body := some (Json.wire (successData (.arr js))) } s =
      (.ok (.arr (Json.wireList js)), s) := by
    intro s
    simp only [Reader.dataOf, wire_data]
    rfl
  exact (congrArg Prod.fst (Py.bind_ok (hd _))).trans hdj

end SyncStream
