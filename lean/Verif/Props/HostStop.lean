import Verif.Props.HostMirror
/-!
# Properties C44, C22 (host mode) and C52
-/

namespace SyncStream
open Spec LineBuf HostBuf

/-! ## C44 -/

/-- The text is `true`, in upper or lower case letters, with or without white space around it. -/
def SaysTrue (s : PyStr) : Prop :=
  ∃ (a b : PyStr) (t r u e : Nat), s = a ++ [t, r, u, e] ++ b ∧ (∀ c ∈ a, isSpace c) ∧ (∀ c ∈ b, isSpace c) ∧
    (t = 84 ∨ t = 116) ∧ (r = 82 ∨ r = 114) ∧ (u = 85 ∨ u = 117) ∧ (e = 69 ∨ e = 101)

theorem mem_takeWhile_space {l : PyStr} {c : Nat} (h : c ∈ l.takeWhile isSpace) : isSpace c := by
  induction l with
  | nil => cases h
  | cons x l ih =>
    rw [List.takeWhile_cons] at h
    split at h
    · rcases List.mem_cons.1 h with rfl | h
      · assumption
      · exact ih h
    · cases h

theorem strip_between (s : PyStr) :
    ∃ a b, s = a ++ strip s ++ b ∧ (∀ c ∈ a, isSpace c) ∧ (∀ c ∈ b, isSpace c) := by
  refine ⟨s.takeWhile isSpace, ((lstrip s).reverse.takeWhile isSpace).reverse, ?_, ?_, ?_⟩
  · have h1 : s = s.takeWhile isSpace ++ lstrip s := List.takeWhile_append_dropWhile.symm
    have h2 : lstrip s = strip s ++ ((lstrip s).reverse.takeWhile isSpace).reverse := by
      have := congrArg List.reverse (List.takeWhile_append_dropWhile (p := isSpace) (l := (lstrip s).reverse))
      rw [List.reverse_append, List.reverse_reverse] at this
      exact this.symm
    rw [List.append_assoc, ← h2]
    exact h1
  · exact fun c hc => mem_takeWhile_space hc
  · exact fun c hc => mem_takeWhile_space (List.mem_reverse.1 hc)

theorem dropWhile_spaces {a l : PyStr} {x : Nat} (h : ∀ c ∈ a, isSpace c) (hx : isSpace x = false) :
    (a ++ x :: l).dropWhile isSpace = x :: l := by
  induction a with
  | nil => simp [hx]
  | cons c a ih =>
    simp only [List.cons_append, List.dropWhile_cons, h c List.mem_cons_self, if_true]
    exact ih fun c hc => h c (List.mem_cons_of_mem _ hc)

theorem asciiLower_space (c : Nat) : isSpace (if 65 ≤ c ∧ c ≤ 90 then c + 32 else c) = isSpace c := by
  split
  · rename_i h
    obtain ⟨h1, h2⟩ := h
    have : c = 65 ∨ c = 66 ∨ c = 67 ∨ c = 68 ∨ c = 69 ∨ c = 70 ∨ c = 71 ∨ c = 72 ∨ c = 73 ∨ c = 74 ∨ c = 75 ∨ c = 76 ∨ c = 77 ∨
      c = 78 ∨ c = 79 ∨ c = 80 ∨ c = 81 ∨ c = 82 ∨ c = 83 ∨ c = 84 ∨ c = 85 ∨ c = 86 ∨ c = 87 ∨ c = 88 ∨ c = 89 ∨ c = 90 := by omega
    rcases this with rfl | rfl | rfl | rfl | rfl | rfl | rfl | rfl | rfl | rfl | rfl | rfl | rfl | rfl | rfl | rfl | rfl | rfl | rfl | rfl |
      rfl | rfl | rfl | rfl | rfl | rfl <;> rfl
  · rfl

theorem saysTrue_iff (s : PyStr) : strip (asciiLower s) = lit "true" ↔ SaysTrue s := by
  have htrue : lit "true" = [116, 114, 117, 101] := by decide +kernel
  have low : ∀ (c k : Nat), 97 ≤ k → k ≤ 122 → ((if 65 ≤ c ∧ c ≤ 90 then c + 32 else c) = k ↔ c = k - 32 ∨ c = k) := by
    intro c k h1 h2
    split <;> omega
  constructor
  · intro h
    obtain ⟨a, b, h1, h2, h3⟩ := strip_between (asciiLower s)
    rw [h, htrue] at h1
    unfold asciiLower at h1
    obtain ⟨x, b', rfl, hx, rfl⟩ := List.map_eq_append_iff.1 h1
    obtain ⟨a', y, rfl, rfl, hy⟩ := List.map_eq_append_iff.1 hx
    obtain ⟨t, y, rfl, ht, hy⟩ := List.map_eq_cons_iff.1 hy
    obtain ⟨r, y, rfl, hr, hy⟩ := List.map_eq_cons_iff.1 hy
    obtain ⟨u, y, rfl, hu, hy⟩ := List.map_eq_cons_iff.1 hy
    obtain ⟨e, y, rfl, he, hy⟩ := List.map_eq_cons_iff.1 hy
    obtain rfl := List.map_eq_nil_iff.1 hy
    refine ⟨a', b', t, r, u, e, rfl, fun c hc => ?_, fun c hc => ?_, (low _ _ (by omega) (by omega)).1 ht,
      (low _ _ (by omega) (by omega)).1 hr, (low _ _ (by omega) (by omega)).1 hu, (low _ _ (by omega) (by omega)).1 he⟩
    · rw [← asciiLower_space]; exact h2 _ (List.mem_map_of_mem hc)
    · rw [← asciiLower_space]; exact h3 _ (List.mem_map_of_mem hc)
  · rintro ⟨a, b, t, r, u, e, rfl, ha, hb, ht, hr, hu, he⟩
    have e1 : asciiLower (a ++ [t, r, u, e] ++ b) = asciiLower a ++ 116 :: ([114, 117, 101] ++ asciiLower b) := by
      unfold asciiLower
      simp only [List.map_append, List.map_cons, List.map_nil, (low t 116 (by omega) (by omega)).2 ht,
        (low r 114 (by omega) (by omega)).2 hr, (low u 117 (by omega) (by omega)).2 hu, (low e 101 (by omega) (by omega)).2 he]
      simp
    have sp : ∀ l : PyStr, (∀ c ∈ l, isSpace c) → ∀ c ∈ asciiLower l, isSpace c := by
      intro l hl c hc
      unfold asciiLower at hc
      obtain ⟨d, hd, rfl⟩ := List.mem_map.1 hc
      rw [asciiLower_space]; exact hl d hd
    rw [e1, htrue]
    unfold strip lstrip rstrip
    rw [dropWhile_spaces (sp a ha) (by decide)]
    have e2 : (116 :: ([114, 117, 101] ++ asciiLower b) : PyStr).reverse = (asciiLower b).reverse ++ 101 :: [117, 114, 116] := by simp
    rw [e2, dropWhile_spaces (fun c hc => sp b hb c (List.mem_reverse.1 hc)) (by decide)]
    rfl

/-- The service tells its mirrors to stop. -/
def Stopped (h : HostBuf) : Prop := Json.lookup (lit "closed") h.state = some (.bool true)

/-- The operations that let the mirrors go on: `reset_states()`, the DELETE request for the states, and a
request that sets `closed` to anything but (a text or value whose `str` is) `true`. -/
def HOp.resumes (env : HEnv) : HOp → Prop
  | .reset => True
  | .req .stateDelete => True
  | .req (.statePost (.json j)) =>
    strip ((j.get (lit "state") (.str [])).strOf env.ext) = lit "closed" ∧
    ¬ SaysTrue ((j.get (lit "value") .null).strOf env.ext)
  | _ => False

/-- Operations that do not concern the states leave them alone. -/
theorem step_states (env : HEnv) (o : HOp) (h : HostBuf) :
    (step env o h).state = h.state ∨ o = .reset ∨ o = .stopAll ∨ o = .req .stateDelete ∨
      ∃ b, o = .req (.statePost b) := by
  have hbase : ∀ {α : Type} (m : Py LineBuf α) (h : HostBuf), (onBase m h).2.state = h.state :=
    fun _ _ => rfl
  cases o with
  | reset => exact .inr (.inl rfl)
  | stopAll => exact .inr (.inr (.inl rfl))
  | buffer c => left; cases c <;> rfl
  | req r =>
    cases r with
    | stateDelete => exact .inr (.inr (.inr (.inl rfl)))
    | statePost b => exact .inr (.inr (.inr (.inr ⟨b, rfl⟩)))
    | get n =>
      left
      have hrs : ∀ size, (readSerialized size h).2.state = h.state := by
        intro size
        simp only [readSerialized, Py.bind_apply]
        cases hx : onBase (LineBuf.read size) h with
        | mk r s =>
          have := hbase (LineBuf.read size) h
          rw [hx] at this
          cases r <;> exact this
      simp only [step, handle, HostBuf.get]
      cases n with
      | none => exact hrs none
      | some s =>
        cases hi : env.int s with
        | none => simp only [hi]; rfl
        | some i => simp only [hi]; exact hrs (some i)
    | delete => left; rfl
    | stateGet n =>
      left
      simp only [step, handle, stateGet]
      split
      · rfl
      split
      · rfl
      · rfl
    | post b =>
      left
      simp only [step, handle, answerPost]
      cases jsonArgs b with
      | error e => rfl
      | ok a =>
        cases a with
        | none => rfl
        | some args =>
          dsimp only
          rw [post_kind]
          cases kind env args with
          | text d =>
            simp only [postKind, Py.bind_apply]
            cases hx : onBase (LineBuf.write d) h with
            | mk r s =>
              have := hbase (LineBuf.write d) h
              rw [hx] at this
              cases r <;> exact this
          | item j =>
            simp only [postKind, Py.bind_apply]
            cases hx : onBase LineBuf.newLine h with
            | mk r s =>
              have h1 := hbase LineBuf.newLine h
              rw [hx] at h1
              cases r with
              | error e => exact h1
              | ok u =>
                dsimp only
                cases GMsg.deserialize j with
                | error e => exact h1
                | ok i => exact h1
          | eol => rfl
          | nothing => rfl
          | bad => rfl

theorem stopped_step (env : HEnv) (o : HOp) (h : HostBuf) (hs : Stopped h) (hr : ¬ o.resumes env) :
    Stopped (step env o h) := by
  rcases step_states env o h with he | rfl | rfl | rfl | ⟨b, rfl⟩
  · unfold Stopped; rw [he]; exact hs
  · exact absurd trivial hr
  · show Json.lookup (lit "closed") (PyDict.set h.state (lit "closed") (.bool true)) = _
    rw [lookup_set, if_pos rfl]
  · exact absurd trivial hr
  · simp only [step, handle, answerPost]
    cases b with
    | notJson => exact hs
    | malformed => exact hs
    | json j =>
      simp only [jsonArgs]
      split
      · exact hs
      · exact hs
      · rename_i args ha
        have : args = j := by
          split at ha <;> cases ha
          rfl
        subst this
        dsimp only
        simp only [statePost]
        split
        · exact hs
        split
        · rename_i h1 h2
          show Json.lookup (lit "closed") (PyDict.set h.state _ _) = _
          rw [lookup_set, h2, if_pos rfl]
          have : strip (asciiLower ((args.get (lit "value") .null).strOf env.ext)) = lit "true" := by
            apply Classical.byContradiction
            intro hc
            exact hr ⟨h2, fun h => hc ((saysTrue_iff _).2 h)⟩
          rw [this]; rfl
        · exact hs

/-- `if self.__http_: f(…) else: with SafePoolManager(…): f(…)` -/
theorem withHttp_spec {α : Type} (f : Nat → Py RNet α) (rn : RNet) :
    ∃ p s, s.net = rn.net ∧ (Reader.withHttp f rn).1 = (f p s).1 ∧
      (Reader.withHttp f rn).2.net = (f p s).2.net := by
  cases h : rn.reader.http with
  | some p =>
    have : Reader.withHttp f rn = f p rn := by
      unfold Reader.withHttp
      rw [Py.bind_ok (Py.gets_apply _ _), h]
    exact ⟨p, rn, rfl, by rw [this], by rw [this]⟩
  | none =>
    have : Reader.withHttp f rn = ((f rn.nextPool (Reader.newPool rn).2).1,
        (Reader.clearPool rn.nextPool (f rn.nextPool (Reader.newPool rn).2).2).2) := by
      unfold Reader.withHttp
      rw [Py.bind_ok (Py.gets_apply _ _), h]
      rfl
    exact ⟨rn.nextPool, (Reader.newPool rn).2, rfl, by rw [this], by rw [this]; rfl⟩

/-- A request of a reader, and then whether it was successful. -/
theorem successful_spec (env : HEnv) (p : Nat) (r : Req) (s : RNet) (hf : s.net.fates = [])
    (status : Nat) (hst : status < 400) (h' : HostBuf)
    (hh : handle env r.wire s.net.service = ({ status := status, body := some success }, h')) :
    ((Reader.request env p r >>= fun resp => Reader.successful resp) s).1 = .ok true ∧
    ((Reader.request env p r >>= fun resp => Reader.successful resp) s).2.net.service = h' := by
  have hr : HNet.request env r s.net = (.ok { status := status, body := some (Json.wire success) },
      { s.net with service := h', sent := s.net.sent ++ [r] }) := by
    simp only [HNet.request, hf, List.headD_nil, HostBuf.run, List.foldl_nil, hh, Option.map_some, List.tail_nil]
  have hq : Reader.request env p r s = (.ok { status := status, body := some (Json.wire success) },
      { s with pools := s.pools ++ [.used p], net := { s.net with service := h', sent := s.net.sent ++ [r] } }) := by
    unfold Reader.request
    rw [Py.bind_ok (show Py.modify _ s = (.ok (), _) from rfl), Py.onPart_apply]
    dsimp only
    rw [hr]
  rw [Py.bind_ok hq]
  have hw : Json.wire success = success := rfl
  simp only [Reader.successful, hst, if_true, hw]
  exact ⟨rfl, rfl⟩

/-- **C44** `stop_all_mirrors()`, called locally, stops the mirrors, whatever the state of the service; so does
`LineHostReader.stop_all_mirrors()`, and it returns `True`, unless its request fails. -/
theorem C44_stop (env : HEnv) (h : HostBuf) :
    Stopped (step env .stopAll h) ∧
    ∀ (rn : RNet), rn.net.fates = [] →
      (Reader.stopAll env rn).1 = .ok true ∧ Stopped (Reader.stopAll env rn).2.net.service := by
  constructor
  · show Json.lookup (lit "closed") (PyDict.set h.state (lit "closed") (.bool true)) = _
    rw [lookup_set, if_pos rfl]
  · intro rn hf
    obtain ⟨p, s, h1, h2, h3⟩ := withHttp_spec (fun p => do
      Reader.successful (← Reader.request env p (.statePost (.json
        (.obj [(lit "state", .str (lit "closed")), (lit "value", .str (lit "true"))]))))) rn
    have hh : handle env (Req.wire (.statePost (.json
        (.obj [(lit "state", .str (lit "closed")), (lit "value", .str (lit "true"))])))) s.net.service =
        ({ status := 201, body := some success },
          { s.net.service with state := PyDict.set s.net.service.state (lit "closed") (.bool true) }) := by
      have e1 : Json.wireStr (lit "state") = lit "state" := by decide +kernel
      have e2 : Json.wireStr (lit "closed") = lit "closed" := by decide +kernel
      have e3 : Json.wireStr (lit "value") = lit "value" := by decide +kernel
      have e4 : Json.wireStr (lit "true") = lit "true" := by decide +kernel
      have e5 : strip (lit "closed") = lit "closed" := by decide +kernel
      have e6 : ¬ (lit "closed" = ([] : PyStr)) := by decide +kernel
      have e7 : strip (asciiLower (lit "true")) = lit "true" := by decide +kernel
      have g1 : Json.get (.obj [(lit "state", .str (lit "closed")), (lit "value", .str (lit "true"))])
        (lit "state") (.str []) = .str (lit "closed") := rfl
      have g2 : Json.get (.obj [(lit "state", .str (lit "closed")), (lit "value", .str (lit "true"))])
        (lit "value") .null = .str (lit "true") := rfl
      simp only [Req.wire, Json.wire, Json.wirePairs, e1, e2, e3, e4, handle, answerPost, jsonArgs,
        Json.isMapping, if_true, statePost, g1, g2, Json.strOf, e5, e6, e7, if_false]
      rfl
    obtain ⟨g1, g2⟩ := successful_spec env p _ s (by rw [h1]; exact hf) 201 (by decide) _ hh
    refine ⟨h2.trans g1, ?_⟩
    show Stopped (Reader.withHttp _ rn).2.net.service
    rw [h3, g2]
    show Json.lookup (lit "closed") (PyDict.set _ (lit "closed") (.bool true)) = _
    rw [lookup_set, if_pos rfl]

/-- **C44** The mirrors stay stopped, whatever the service does, until something resumes them. -/
theorem C44_stays (env : HEnv) (h : HostBuf) (hs : Stopped h) (os : List HOp)
    (hr : ∀ o ∈ os, ¬ o.resumes env) : Stopped (HostBuf.run env os h) := by
  induction os generalizing h with
  | nil => exact hs
  | cons o os ih =>
    exact ih (step env o h) (stopped_step env o h hs (hr o List.mem_cons_self))
      fun o h => hr o (List.mem_cons_of_mem _ h)

theorem check_stopped (env : HEnv) (n : HNet) (hs : Stopped n.service)
    (hr : ∀ o ∈ (n.fates.headD {}).before, ¬ o.resumes env) :
    (∃ e, (HNet.check env n).1 = .error e) ∧
    ((n.fates.headD {}).outcome = .ok → (HNet.check env n).1 = .error .stopIteration) := by
  have h1 := C44_stays env n.service hs _ hr
  have h2 := handle_closed env (HostBuf.run env (n.fates.headD {}).before n.service)
  unfold Stopped at h1
  rw [h1, Option.getD_some] at h2
  cases ho : (n.fates.headD {}).outcome with
  | lost e =>
    refine ⟨⟨e, ?_⟩, fun h => by cases h⟩
    simp only [HNet.check, HNet.request, Py.bind_apply, ho]
  | noReply e =>
    refine ⟨⟨e, ?_⟩, fun h => by cases h⟩
    simp only [HNet.check, HNet.request, Py.bind_apply, Req.wire, h2, ho]
  | ok =>
    have : (HNet.check env n).1 = .error .stopIteration := by
      have hq : ∃ n', HNet.request env (.stateGet (some (lit "closed"))) n =
          (.ok { status := 200, body := some (Json.wire (successData (.bool true))) }, n') := by
        simp only [HNet.request, Req.wire, h2, ho]
        exact ⟨_, rfl⟩
      obtain ⟨n', hq⟩ := hq
      refine (congrArg Prod.fst (Py.bind_ok hq)).trans ?_
      refine (congrArg Prod.fst (Resp.verdict_apply _ n')).trans ?_
      exact verdict_closed (.bool true)
    exact ⟨⟨_, this⟩, fun _ => this⟩

/-- **C44** Every `write` of every open mirror of a stopped service raises, without sending text and without
changing the mirror; it raises `StopIteration`, unless the request itself fails. -/
theorem C44_write_raises (env : HEnv) (m : HMirror) (hm : HMReach env m) (ho : m.buf.closed = false)
    (n : HNet) (hs : Stopped n.service) (hr : ∀ o ∈ (n.fates.headD {}).before, ¬ o.resumes env) (d : PyStr) :
    ∃ e n', HMirror.write env d (m, n) = (.error e, (m, n')) ∧
      ((n.fates.headD {}).outcome = .ok → e = .stopIteration) ∧
      (n'.sent = n.sent ∨ n'.sent = n.sent ++ [.stateGet (some (lit "closed"))]) := by
  have hm' := hmreach_open hm ho
  obtain ⟨⟨e, h1⟩, h2⟩ := check_stopped env n hs hr
  refine ⟨e, (HNet.check env n).2, ?_, fun h => ?_, HNet.check_sent env n⟩
  · rw [hm', HMirror.write_open, HMirror.writeCore_open]
    rw [show HMirror.netCheck env true n = (.error e, (HNet.check env n).2) from Prod.ext h1 rfl]
  · have h3 := (h2 h).symm.trans h1
    injection h3 with h3
    exact h3.symm

/-- The messages that deliver pending text and an error. -/
def farewell (pending : PyStr) (e : ExcObj) : List HMsg :=
  (if pending = [] then [] else [.text (pending ++ lit "\n")]) ++ [.error (GMsg.new (.exc e))]

/-- **C44** **C22** (host mode) Leaving the context by `StopIteration` sends the pending text, completed, and then
the error, and nothing else, although the service has stopped its mirrors; the service processes both (what
they do to it: C27). -/
theorem C44_leaving_delivers (env : HEnv) (maxlen : Int) (h : HostBuf) (hr : HReach env maxlen h)
    (hopen : h.base.lastLine.closed = false)
    (m : HMirror) (hm : HMReach env m) (ho : m.buf.closed = false) (hagg : m.aggressive = false)
    (hpend : NoSurrogate m.buf.buf) (e : ExcObj) (hstop : e.isStop = true)
    (he : ∀ s ∈ e.formatted, NoSurrogate s) :
    HMirror.close env (some e) (m, { service := h }) = (.ok (), (m.closedM,
      { service := HostBuf.run env ((farewell m.buf.buf e).map fun x => .req (.post (.json (HMsg.body x)))) h
        sent := (farewell m.buf.buf e).map fun x => .post (.json (HMsg.body x)) })) := by
  obtain ⟨l, st, rfl, ok, _, _⟩ := hreach_hb hr
  have hlo : l.closed = false := by
    cases hc : l.closed with
    | false => rfl
    | true => rw [show (hb l st).base = rep l from rfl, rep_closed hc] at hopen; cases hopen
  have hm' := hmreach_open hm ho
  rw [show HMirror.close env (some e) (m, { service := hb l st }) =
    HMirror.close env (some e) (m.withBuf m.buf.buf, { service := hb l st }) by rw [← hm']]
  generalize m.buf.buf = p at *
  have hcl := HMirror.close_srv env (some e) (HMsg.clean_error (cleanMsg_exc he)) st
    (fun h => by simp [HMirror.endCheck, hstop] at h) m p hpend (by rw [hagg]; intro h; cases h) l ok hlo []
  rw [show ({ service := hb l st } : HNet) = srv l st [] from rfl, hcl]
  have hchk : HMirror.endCheck (some e) = false := by simp [HMirror.endCheck, hstop]
  have hrun : ∀ (xs : List HMsg) (l : Log), Ok l → l.closed = false →
      HostBuf.run env (xs.map fun x => HOp.req (.post (.json (HMsg.body x)))) (hb l st) =
        hb (xs.foldl (fun l x => (kindLog l (HMsg.kind x)).2) l) st := by
    intro xs
    induction xs with
    | nil => intro l _ _; rfl
    | cons x xs ih =>
      intro l ok ho
      obtain ⟨k1, k2, _⟩ := kindLog_ok (HMsg.kind x) l ok ho
      rw [List.foldl_cons, ← ih _ k1 k2]
      show HostBuf.run env _ (handle env _ (hb l st)).2 = _
      rw [handle_msg env x l ok ho st]
  rw [hrun _ l ok hlo, hchk]
  by_cases hp : p = []
  · simp [farewell, hp, HMirror.lineReqs, srv, HMirror.endHMsg]
  · simp only [farewell, hp, HMirror.lineReqs, srv, HMirror.endHMsg]
    rfl

theorem netText_ok (env : HEnv) (d : PyStr) (l : Log) (ok : Ok l) (ho : l.closed = false) (st : PyDict)
    (sent : List Req) : ∃ n', HMirror.netText env d (srv l st sent) = (.ok (), n') := by
  have hw : Json.wire (HMirror.strMsg d) = HMsg.body (.text (Json.wireStr d)) := by
    have e1 : Json.wireStr (lit "str") = lit "str" := by decide +kernel
    have e3 : Json.wireStr (lit "value") = lit "value" := by decide +kernel
    have e4 : Json.wireStr (lit "type") = lit "type" := by decide +kernel
    have e5 : Json.wireStr (lit "data") = lit "data" := by decide +kernel
    simp only [HMirror.strMsg, Json.wire, Json.wirePairs, e1, e3, e4, e5]
    rfl
  have h : ∃ n', HNet.request env (.post (.json (HMirror.strMsg d))) (srv l st sent) =
      (.ok { status := 201, body := some (Json.wire success) }, n') := by
    simp only [HNet.request, srv, List.headD_nil, HostBuf.run, List.foldl_nil, Req.wire, hw,
      handle_msg env _ l ok ho st, Option.map_some, List.tail_nil]
    exact ⟨_, rfl⟩
  obtain ⟨n', h⟩ := h
  refine ⟨n', ?_⟩
  unfold HMirror.netText HNet.expectOk
  rw [Py.bind_ok h]
  rfl

/-- **C44** After `reset_states()` (local, or by a `LineHostReader`) the writes of every open mirror succeed
again. -/
theorem C44_resume (env : HEnv) (maxlen : Int) (h : HostBuf) (hr : HReach env maxlen h)
    (hopen : h.base.lastLine.closed = false) (m : HMirror) (hm : HMReach env m) (ho : m.buf.closed = false)
    (d : PyStr) :
    (HMirror.write env d (m, { service := step env .reset h })).1 = .ok d.length ∧
    ∀ (rn : RNet), rn.net.fates = [] → rn.net.service = h →
      (Reader.resetStates env rn).1 = .ok true ∧
      (HMirror.write env d (m, { service := (Reader.resetStates env rn).2.net.service })).1 = .ok d.length := by
  obtain ⟨l, st, rfl, ok, _, _⟩ := hreach_hb hr
  have hlo : l.closed = false := by
    cases hc : l.closed with
    | false => rfl
    | true => rw [show (hb l st).base = rep l from rfl, rep_closed hc] at hopen; cases hopen
  have hm' := hmreach_open hm ho
  have hwrite : (HMirror.write env d (m, { service := hb l [(lit "closed", .bool false)] })).1 = .ok d.length := by
    have hns : NotStopped [(lit "closed", .bool false)] := fun h => by cases h
    rw [hm', HMirror.write_open, HMirror.writeCore_open,
      show ({ service := hb l [(lit "closed", .bool false)] } : HNet) = srv l [(lit "closed", .bool false)] [] from rfl,
      HMirror.netCheck_srv env l _ hns []]
    dsimp only
    split
    · obtain ⟨n', hn⟩ := netText_ok env d l ok hlo [(lit "closed", .bool false)] (HMirror.checked [])
      rw [hn]; rfl
    · split
      · rfl
      · obtain ⟨n', hn⟩ := netText_ok env (m.buf.buf ++ d) l ok hlo [(lit "closed", .bool false)] (HMirror.checked [])
        rw [hn]
  refine ⟨hwrite, fun rn hf hsv => ?_⟩
  obtain ⟨p, s, h1, h2, h3⟩ := withHttp_spec (fun p => do
    Reader.successful (← Reader.request env p .stateDelete)) rn
  have hh : handle env (Req.wire .stateDelete) s.net.service =
      ({ status := 200, body := some success }, hb l [(lit "closed", .bool false)]) := by
    rw [h1, hsv]; rfl
  obtain ⟨g1, g2⟩ := successful_spec env p _ s (by rw [h1]; exact hf) 200 (by decide) _ hh
  refine ⟨h2.trans g1, ?_⟩
  have : (Reader.resetStates env rn).2.net.service = hb l [(lit "closed", .bool false)] := by
    show (Reader.withHttp _ rn).2.net.service = _
    rw [h3, g2]
  rw [this]
  exact hwrite

/-- Two mirrors, stopped by a reader between two writes: the second write raises, the text `"ab"` of the first
one arrives when the context is left. -/
example : ∃ h0 : HostBuf, HostBuf.new 3 = .ok h0 ∧
    let s1 := HMirror.write sampleEnv (lit "ab") ({}, { service := h0 })
    let r := Reader.stopAll sampleEnv { net := s1.2.2 }
    let s2 := HMirror.write sampleEnv (lit "c\n") (s1.2.1, r.2.net)
    (match s2.1 with | .error e => e == .stopIteration | .ok _ => false) = true ∧
    let s3 := HMirror.close sampleEnv (some { isStop := true, formatted := [lit "StopIteration\n"] }) s2.2
    (match (LineBuf.read none s3.2.2.service.base).1 with
      | .ok [.str x, .msg { data := [.str y], .. }] => x == lit "ab" && y == lit "StopIteration"
      | _ => false) = true :=
  ⟨_, rfl, by decide +kernel, by decide +kernel⟩

/-! ## C22 (host mode) -/

/-- **C22** (host mode) is false for an ordinary exit and for other exceptions: if the service has stopped its
mirrors while a partial line is pending, `close()` raises and no end signal is sent. -/
theorem C22_host_violated : ¬ ∀ (env : HEnv) (m : HMirror) (n : HNet) (exc : Option ExcObj), HMReach env m →
    m.buf.closed = false → n.fates = [] → (∃ h0, HReach env 3 h0 ∧ n.service = h0) →
    ∃ s, HMirror.close env exc (m, n) = (.ok (), s) := by
  intro h
  have h1 : ∃ h0, HostBuf.new 3 = .ok h0 ∧ HMReach sampleEnv
      (HMirror.exec sampleEnv (.write (lit "a")) ({}, { service := h0 })).2.1 ∧
      (HMirror.exec sampleEnv (.write (lit "a")) ({}, { service := h0 })).2.1.buf.closed = false ∧
      (match (HMirror.close sampleEnv none ((HMirror.exec sampleEnv (.write (lit "a")) ({}, { service := h0 })).2.1,
        { service := HostBuf.run sampleEnv [.stopAll] h0 })).1 with | .ok _ => true | .error _ => false) = false :=
    ⟨_, rfl, .call _ _ _ (.new false), by decide +kernel, by decide +kernel⟩
  obtain ⟨h0, hn, hm, ho, hc⟩ := h1
  obtain ⟨s, hs⟩ := h sampleEnv _ { service := HostBuf.run sampleEnv [.stopAll] h0 } none hm ho rfl
    ⟨_, ⟨h0, [.stopAll], hn, rfl⟩, rfl⟩
  rw [hs] at hc
  cases hc

/-! ## C52 -/

/-- What is done with a reader. -/
inductive RCall where
  | enter
  | exit
  | len
  | maxlen
  | closed
  | clear
  | resetStates
  | stopAll
  | read (size : Option Int)

/-- A call, its outcome left out. -/
def RCall.exec (env : HEnv) : RCall → RNet → RNet
  | .enter, s => (Reader.enter s).2
  | .exit, s => (Reader.exit s).2
  | .len, s => (Reader.len env s).2
  | .maxlen, s => (Reader.maxlen env s).2
  | .closed, s => (Reader.closed env s).2
  | .clear, s => (Reader.clear env s).2
  | .resetStates, s => (Reader.resetStates env s).2
  | .stopAll, s => (Reader.stopAll env s).2
  | .read size, s => (Reader.read env size s).2

/-- The calls that ask the service. -/
def RCall.uses : RCall → Bool
  | .enter => false
  | .exit => false
  | _ => true

/-- Calls, one after the other. -/
def RCall.run (env : HEnv) (cs : List RCall) (s : RNet) : RNet := cs.foldl (fun s c => c.exec env s) s

theorem withHttp_pools {α : Type} (env : HEnv) (r : Req) (g : Resp → Py RNet α) (hg : ∀ resp s, (g resp s).2 = s)
    (s : RNet) :
    (Reader.withHttp (fun p => Reader.request env p r >>= g) s).2.reader = s.reader ∧
    match s.reader.http with
    | some p => (Reader.withHttp (fun p => Reader.request env p r >>= g) s).2.pools = s.pools ++ [.used p] ∧
        (Reader.withHttp (fun p => Reader.request env p r >>= g) s).2.nextPool = s.nextPool
    | none => (Reader.withHttp (fun p => Reader.request env p r >>= g) s).2.pools =
          s.pools ++ [.created s.nextPool, .used s.nextPool, .cleared s.nextPool] ∧
        (Reader.withHttp (fun p => Reader.request env p r >>= g) s).2.nextPool = s.nextPool + 1 := by
  have hreq : ∀ (p : Nat) (s : RNet), ∃ n', ((Reader.request env p r >>= g) s).2 =
      { s with pools := s.pools ++ [.used p], net := n' } := by
    intro p s
    have hq : Reader.request env p r s = ((HNet.request env r s.net).1,
        { s with pools := s.pools ++ [.used p], net := (HNet.request env r s.net).2 }) := rfl
    rw [Py.bind_apply, hq]
    cases (HNet.request env r s.net).1 with
    | error e => exact ⟨_, rfl⟩
    | ok resp => exact ⟨_, hg _ _⟩
  cases h : s.reader.http with
  | some p =>
    have : Reader.withHttp (fun p => Reader.request env p r >>= g) s = (Reader.request env p r >>= g) s := by
      unfold Reader.withHttp
      rw [Py.bind_ok (Py.gets_apply _ _), h]
    obtain ⟨n', hn⟩ := hreq p s
    rw [this, hn]
    exact ⟨rfl, rfl, rfl⟩
  | none =>
    have : (Reader.withHttp (fun p => Reader.request env p r >>= g) s).2 =
        (Reader.clearPool s.nextPool ((Reader.request env s.nextPool r >>= g) (Reader.newPool s).2).2).2 := by
      unfold Reader.withHttp
      rw [Py.bind_ok (Py.gets_apply _ _), h]
      rfl
    obtain ⟨n', hn⟩ := hreq s.nextPool (Reader.newPool s).2
    rw [this, hn]
    refine ⟨rfl, ?_, rfl⟩
    show s.pools ++ [.created s.nextPool] ++ [.used s.nextPool] ++ [.cleared s.nextPool] = _
    simp

theorem fail_state {α : Type} (r : Resp) (s : RNet) : ((r.fail : Py RNet α) s).2 = s := by
  rw [Resp.fail_apply]

theorem use_pools (env : HEnv) (c : RCall) (hc : c.uses = true) (s : RNet) :
    (c.exec env s).reader = s.reader ∧
    match s.reader.http with
    | some p => (c.exec env s).pools = s.pools ++ [.used p] ∧ (c.exec env s).nextPool = s.nextPool
    | none => (c.exec env s).pools =
          s.pools ++ [.created s.nextPool, .used s.nextPool, .cleared s.nextPool] ∧
        (c.exec env s).nextPool = s.nextPool + 1 := by
  have hstates : ∀ (resp : Resp) (s : RNet),
      ((if resp.status < 400 then Reader.dataOf resp else resp.fail : Py RNet Json) s).2 = s := by
    intro resp s
    split
    · unfold Reader.dataOf; cases resp.body <;> rfl
    · exact fail_state resp s
  have hsucc : ∀ (resp : Resp) (s : RNet), (Reader.successful resp s).2 = s := by
    intro resp s
    unfold Reader.successful
    split
    · cases resp.body <;> rfl
    · exact fail_state resp s
  cases c with
  | enter => cases hc
  | exit => cases hc
  | len => exact withHttp_pools env _ _ hstates s
  | maxlen => exact withHttp_pools env _ _ hstates s
  | closed => exact withHttp_pools env _ _ hstates s
  | clear => exact withHttp_pools env _ _ hsucc s
  | resetStates => exact withHttp_pools env _ _ hsucc s
  | stopAll => exact withHttp_pools env _ _ hsucc s
  | read size =>
    refine withHttp_pools env _ _ (fun resp s => ?_) s
    split
    · refine (congrArg Prod.snd (Py.bind_apply _ _ _)).trans ?_
      have : (Reader.dataOf resp s).2 = s := by unfold Reader.dataOf; cases resp.body <;> rfl
      cases hd : Reader.dataOf resp s with
      | mk x s' =>
        rw [hd] at this
        cases x <;> exact this
    · exact fail_state resp s

/-- **C52** A context that is not nested: whatever is asked in it, and whatever fails, one pool is made when it is
entered, all requests use it, and it is cleared at the end, not before. -/
theorem C52_context_partial (env : HEnv) (n : HNet) (cs : List RCall) (hc : ∀ c ∈ cs, c.uses = true) :
    (RCall.run env ([.enter] ++ cs ++ [.exit]) { net := n }).pools =
      [.created 0] ++ cs.map (fun _ => .used 0) ++ [.cleared 0] := by
  have key : ∀ (cs : List RCall) (s : RNet), (∀ c ∈ cs, c.uses = true) → s.reader = { http := some 0, stack := 1 } →
      (RCall.run env cs s).pools = s.pools ++ cs.map (fun _ => .used 0) ∧
      (RCall.run env cs s).reader = { http := some 0, stack := 1 } := by
    intro cs
    induction cs with
    | nil => intro s _ h; exact ⟨by simp [RCall.run], h⟩
    | cons c cs ih =>
      intro s hc h
      have hu := use_pools env c (hc c List.mem_cons_self) s
      rw [h] at hu
      obtain ⟨h1, h2⟩ := ih (c.exec env s) (fun c h => hc c (List.mem_cons_of_mem _ h)) hu.1
      refine ⟨?_, h2⟩
      show (RCall.run env cs (c.exec env s)).pools = _
      rw [h1, hu.2.1]; simp
  obtain ⟨h1, h2⟩ := key cs (RCall.exec env .enter { net := n }) hc rfl
  have hrun : RCall.run env ([.enter] ++ cs ++ [.exit]) { net := n } =
      RCall.exec env .exit (RCall.run env cs (RCall.exec env .enter { net := n })) := by
    simp [RCall.run]
  rw [hrun]
  generalize RCall.run env cs (RCall.exec env .enter { net := n }) = s at h1 h2
  obtain ⟨r, n', k, ps⟩ := s
  dsimp only at h1 h2
  subst h1; subst h2
  rfl

/-- **C52** Outside of a context every call makes its own pool and clears it, also if it fails. -/
theorem C52_temporary_partial (env : HEnv) (n : HNet) (cs : List RCall) (hc : ∀ c ∈ cs, c.uses = true) :
    (RCall.run env cs { net := n }).pools =
      ((List.range cs.length).map fun i => [PoolEv.created i, .used i, .cleared i]).flatten := by
  have key : ∀ (cs : List RCall) (s : RNet), (∀ c ∈ cs, c.uses = true) → s.reader.http = none →
      (RCall.run env cs s).pools = s.pools ++
        ((List.range' s.nextPool cs.length).map fun i => [PoolEv.created i, .used i, .cleared i]).flatten := by
    intro cs
    induction cs with
    | nil => intro s _ h; simp [RCall.run]
    | cons c cs ih =>
      intro s hc h
      have hu := use_pools env c (hc c List.mem_cons_self) s
      rw [h] at hu
      have h1 := ih (c.exec env s) (fun c h => hc c (List.mem_cons_of_mem _ h)) (by rw [hu.1]; exact h)
      show (RCall.run env cs (c.exec env s)).pools = _
      rw [h1, hu.2.1, hu.2.2, List.length_cons, List.range'_succ]
      simp
  rw [key cs { net := n } hc rfl, List.range_eq_range']
  rfl

/-- Two requests in a context, one of them failing. -/
example : ∃ h0 : HostBuf, HostBuf.new 1 = .ok h0 ∧
    (RCall.run sampleEnv [.enter, .read none, .len, .exit]
      { net := { service := h0, fates := [{ outcome := .lost .connectionError }] } }).pools =
      [.created 0, .used 0, .used 0, .cleared 0] :=
  ⟨_, rfl, by decide +kernel⟩

/-- **C52** is false: leaving an inner context of the same reader clears the pool of the outer one. -/
theorem C52_nested_violated (env : HEnv) : ¬ ∀ (n : HNet) (cs : List RCall),
    (∀ pre, pre <+: cs → pre ≠ [] → (pre.filter (fun c => c matches .exit)).length <
      (pre.filter (fun c => c matches .enter)).length) →
    ∀ p, PoolEv.cleared p ∉ (RCall.run env cs { net := n }).pools := by
  intro h
  have hs : ∃ h0, HostBuf.new 1 = .ok h0 := ⟨_, rfl⟩
  obtain ⟨h0, _⟩ := hs
  refine h { service := h0 } [.enter, .enter, .exit] ?_ 0 ?_
  · intro pre hp hne
    have : pre ∈ [[RCall.enter], [.enter, .enter], [.enter, .enter, .exit]] := by
      rcases pre with _ | ⟨a, _ | ⟨b, _ | ⟨c, _ | ⟨d, pre⟩⟩⟩⟩
      · exact absurd rfl hne
      · simp at hp; simp [hp]
      · simp at hp; simp [hp]
      · simp at hp; simp [hp]
      · have := hp.length_le; simp at this
    simp only [List.mem_cons, List.not_mem_nil, or_false] at this
    rcases this with rfl | rfl | rfl <;> decide
  · show PoolEv.cleared 0 ∈ [PoolEv.created 0, .cleared 0]
    decide

/-- **C52** is false: after its context has been left the reader goes on using the cleared pool. -/
theorem C52_after_violated (env : HEnv) : ¬ ∀ (n : HNet) (c : RCall), c.uses = true →
    ∃ p, PoolEv.used p ∈ (RCall.run env [.enter, .exit, c] { net := n }).pools ∧ p ≠ 0 := by
  intro h
  have hs : ∃ h0, HostBuf.new 1 = .ok h0 := ⟨_, rfl⟩
  obtain ⟨h0, _⟩ := hs
  obtain ⟨p, hp, hp0⟩ := h { service := h0 } .clear rfl
  have hu := (use_pools env .clear rfl (RCall.run env [.enter, .exit] { net := { service := h0 } })).2
  have : (RCall.run env [.enter, .exit, .clear] { net := { service := h0 } }).pools =
      [.created 0, .cleared 0, .used 0] := hu.1
  rw [this] at hp
  simp at hp
  exact hp0 hp

end SyncStream
