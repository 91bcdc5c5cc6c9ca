import Verif.Lemmas.HostFlow
import Verif.Props.HostMirrorShared
/-!
# All calls of a host mirror among threads that share it (C85)

`Spec.HSec` are the moments: what is done while the lock of the mirror is held, a look at its state, and a request to the service.
`Spec.hostMoments` are the moments of each call.
-/

namespace SyncStream
open Spec LineBuf Conc PFlow HFlow

/-- **C85** Threads make any calls on a host mirror that they share (but setting `aggressive`); requests may be lost or their answers may.
If the mirror has its lock, then in every race there is an order of moments in which everything happens: each call consists of the
moments of `hostMoments`, in the order given there, between its start and its return, and its result is the one these moments give.
Missing (hence `_partial`): the lock exists; setting `aggressive`. -/
theorem C85_history_partial {env : HEnv} {ok : Nat → HMCall → Prop} (hok : ∀ i c, ok i c → HostCovered c) {s : HMProc × HNet}
    (hlock : s.1.lock ≠ none) {tr : List (Ev HMCall HMRet)} {κ : Conc.Conf (HMProc × HNet) Nat Unit HMCall HMRet}
    (hx : Exec (hostMirrorThreads env ok) (init s fun _ => ()) tr κ) :
    ∃ (h : List (HEvent HMCall HMRet HSec HAns)) (rest : Nat → Option (HMCall × Ask HSec HAns (HMRet × Unit))) (t : HMNet), seen h = tr ∧
      Serves (fun s _ x a t => x.exec env s = (a, t)) (hostShared s) (opsOf h) t ∧
      (∀ i, ClientRun (fun _ c => asClient (hostMoments c)) i () (own i h) () (rest i)) ∧ t.2 = κ.st.2 ∧
      ((∀ i, κ.cur i = none) → t = hostShared κ.st ∧ ∀ i, rest i = none) :=
  HMThr.moments_history hok hlock hx

namespace HFlow

theorem covered {c : HMCall} (h : HostKeeps c) : HostCovered c := by
  cases c <;> first | exact h.elim | trivial

theorem good_init {env : HEnv} {s : HMProc × HNet} (hr : HostReady s) (hm : HMReach env s.1.mirror)
    (he : s.1.mirror.aggressive = true → s.1.mirror.buf.buf = []) : Good s.1.mirror.aggressive (hostShared s) :=
  ⟨hmreach_open hm hr.opened, rfl, he⟩

theorem mem_ops {i : Nat} {x : HSec} {a : HAns} {h : List (HEvent HMCall HMRet HSec HAns)} (hm : (i, x, a) ∈ opsOf h) : HEvent.op i x a ∈ h := by
  induction h with
  | nil => cases hm
  | cons e h ih =>
    cases e with
    | op j y b =>
      rcases List.mem_cons.1 hm with e | hm
      · cases e; exact List.mem_cons_self
      · exact List.mem_cons_of_mem _ (ih hm)
    | inv j c => exact List.mem_cons_of_mem _ (ih hm)
    | ret j r => exact List.mem_cons_of_mem _ (ih hm)

theorem mem_seen {i : Nat} {c : HMCall} {h : List (HEvent HMCall HMRet HSec HAns)} (hm : HEvent.inv i c ∈ h) : Ev.inv i c ∈ seen h := by
  induction h with
  | nil => cases hm
  | cons e h ih =>
    rcases List.mem_cons.1 hm with e | hm'
    · cases e; exact List.mem_cons_self
    · cases e with
      | op j y b => exact ih hm'
      | inv j c => exact List.mem_cons_of_mem _ (ih hm')
      | ret j r => exact List.mem_cons_of_mem _ (ih hm')

theorem run_calls {cl : Unit → HMCall → Ask HSec HAns (HMRet × Unit)} {i : Nat} {o o' : Unit} {h : List (HEvent HMCall HMRet HSec HAns)}
    {rest : Option (HMCall × Ask HSec HAns (HMRet × Unit))} (hr : ClientRun cl i o h o' rest) {x : HSec} {a : HAns} {j : Nat}
    (hm : HEvent.op j x a ∈ h) : ∃ c, HEvent.inv i c ∈ h := by
  cases hr with
  | nil => cases hm
  | call => exact ⟨_, List.mem_cons_self⟩
  | within => exact ⟨_, List.mem_cons_self⟩

/-- The history of an execution, with what is known of its moments. -/
theorem facts {env : HEnv} {ok : Nat → HMCall → Prop} {N : Nat} (hok : ∀ i c, ok i c → i < N ∧ HostKeeps c) {s : HMProc × HNet}
    (hlock : s.1.lock ≠ none) {tr : List (Ev HMCall HMRet)} {κ : Conc.Conf (HMProc × HNet) Nat Unit HMCall HMRet}
    (hx : Exec (hostMirrorThreads env ok) (init s fun _ => ()) tr κ) :
    ∃ (h : List (HEvent HMCall HMRet HSec HAns)) (rest : Nat → Option (HMCall × Ask HSec HAns (HMRet × Unit))) (t : HMNet), seen h = tr ∧
      Serves (Acts env) (hostShared s) (opsOf h) t ∧
      (∀ i, ClientRun (fun _ c => asClient (hostMoments c)) i () (own i h) () (rest i)) ∧ t.2 = κ.st.2 ∧
      ((∀ i, κ.cur i = none) → t = hostShared κ.st ∧ ∀ i, rest i = none) ∧ (∀ y ∈ opsOf h, y.1 < N ∧ SecOk y.2.1) ∧ ∀ i c, HEvent.inv i c ∈ h → HostKeeps c := by
  obtain ⟨h, rest, t, h1, h2, h3, h4, h5⟩ := HMThr.moments_history (fun i c hc => covered (hok i c hc).2) hlock hx
  have h6 : ∀ i c, HEvent.inv i c ∈ h → i < N ∧ HostKeeps c := fun i c hc => hok i c (exec_calls_ok hx (h1 ▸ mem_seen hc))
  refine ⟨h, rest, t, h1, h2, h3, h4, h5, fun ⟨i, x, a⟩ hy => ?_, fun i c hc => (h6 i c hc).2⟩
  have hm : HEvent.op i x a ∈ own i h := by
    unfold own
    exact List.mem_filter.2 ⟨mem_ops hy, by simp [HEvent.who]⟩
  obtain ⟨c, hc⟩ := run_calls (h3 i) hm
  exact ⟨(h6 i c (List.mem_of_mem_filter hc)).1, (h3 i).within_ops (okc := HostKeeps) (P := SecOk) (fun _ c hc => within_ok hc)
    (fun c hc => (h6 i c (List.mem_of_mem_filter hc)).2) i x a hm⟩

end HFlow

/-! ## What is posted and kept -/

/-- **C85** Threads make any calls on a host mirror that they share that take nothing away (all but `clear`, `close` and setting
`aggressive`); requests may be lost or their answers may.  If the mirror has its lock, then in every race:

* The messages that the service has got are `posts`, in this order.
* What a thread has posted directly are the messages of its calls: of a call that has succeeded its message once, acknowledged; of a call
  that has failed perhaps its message, not acknowledged.
* The text posted from the buffer with an acknowledgement is what the mirror held back at the beginning and then what the threads have
  added (`ws`: the texts each thread has written, each as a whole and in its order, interleaved in some way, with line breaks by the
  calls that end a line), up to a rest; whenever no call is running, the rest is what the mirror holds back.
* If text has been posted without an acknowledgement then, unless the mirror is aggressive, it is posted again later or still held back;
  and the call that has posted it has failed (or is still running).

Missing: the lock exists; the calls that take something away, among which `close` loses text of the others (`C85_violated`). -/
theorem C85_texts_partial {env : HEnv} {ok : Nat → HMCall → Prop} {N : Nat} (hok : ∀ i c, ok i c → i < N ∧ HostKeeps c) {s : HMProc × HNet}
    (hr : HostReady s) (hm : HMReach env s.1.mirror) (he : s.1.mirror.aggressive = true → s.1.mirror.buf.buf = [])
    {tr : List (Ev HMCall HMRet)} {κ : Conc.Conf (HMProc × HNet) Nat Unit HMCall HMRet}
    (hx : Exec (hostMirrorThreads env ok) (init s fun _ => ()) tr κ) :
    ∃ (eff : Nat → List PyStr) (posts : List HPost) (ws : List PyStr) (held : PyStr),
      (∀ i, Contrib HostAdds i (eventsBy i tr) (eff i)) ∧ (∀ i, Contrib HostPosts i (eventsBy i tr) (postedBy i posts)) ∧
      postBodies κ.st.2.sent = postBodies s.2.sent ++ posts.map HPost.msg ∧ Merge ((List.range N).map eff) ws ∧
      ackedText posts ++ held = s.1.mirror.buf.buf ++ ws.flatten ∧ ((∀ i, κ.cur i = none) → κ.st.1.mirror.buf.buf = held) ∧
      (s.1.mirror.aggressive = false → ∀ pre i d post, posts = pre ++ .text i false d :: post → d <+: ackedText post ++ held) ∧
      ((∀ i, κ.cur i = none) → ∀ i d, HPost.text i false d ∈ posts → ∃ r, Ev.ret i r ∈ tr ∧ hostFailed r = true) := by
  obtain ⟨h, rest, t, h1, h2, h3, h4, h5, h6, h7⟩ := facts hok hr.lock hx
  obtain ⟨ps, hf⟩ := (good_init hr hm he).serves h2 fun y hy => (h6 y hy).2
  have hc : ∀ i, _ := fun i => contrib_own (h3 i) (h7 i) hf.ans s.1.mirror.aggressive
  refine ⟨fun i => piecesBy s.1.mirror.aggressive i (opsOf h), ps, _, t.1.buf.buf, fun i => h1 ▸ (hc i).1, fun i => ?_,
    by rw [← h4]; exact hf.posts, merge_pieces _ fun y hy => (h6 y hy).1, hf.text, fun hi => by rw [(h5 hi).1]; rfl, hf.again, fun hi i d hd => ?_⟩
  · rw [hf.direct]
    exact h1 ▸ (hc i).2
  · obtain ⟨y, hy, e1, e2⟩ := hf.lost i d hd
    rcases (failures_own (h3 i) (h7 i) hf.ans).1 y hy e1 e2 with g | g
    · exact absurd ((h5 hi).2 i) g
    · exact h1 ▸ g

/-- **C85** `send_eof`, `send_error` and `send_warning` come after the text.  A thread makes such a call, and it does not fail; when it
begins, the threads have made the calls in `tr1`.  Then the service has got the message of the call, and before it, acknowledged, all of
the text that the mirror held back or that any thread has added in `tr1` (`ws`).  Missing: as above. -/
theorem C85_before_partial {env : HEnv} {ok : Nat → HMCall → Prop} {N : Nat} (hok : ∀ i c, ok i c → i < N ∧ HostKeeps c) {s : HMProc × HNet}
    (hs : HostReady s) (hm : HMReach env s.1.mirror) (he : s.1.mirror.aggressive = true → s.1.mirror.buf.buf = [])
    {tr1 tr2 tr3 : List (Ev HMCall HMRet)} {i : Nat} {c : HMCall} {r : HMRet} {κ : Conc.Conf (HMProc × HNet) Nat Unit HMCall HMRet}
    (hx : Exec (hostMirrorThreads env ok) (init s fun _ => ()) (tr1 ++ .inv i c :: tr2 ++ .ret i r :: tr3) κ)
    (h2 : ∀ e ∈ tr2, ¬ ofThread i e) (hc : HostAnnounces c) (hr : hostFailed r = false) :
    ∃ (eff : Nat → List PyStr) (ws : List PyStr) (m : Json) (posts1 posts2 : List HPost),
      (∀ j, Contrib HostAdds j (eventsBy j tr1) (eff j)) ∧ Merge ((List.range N).map eff) ws ∧ hostMessage c = some m ∧
      postBodies κ.st.2.sent = postBodies s.2.sent ++ (posts1 ++ .direct i true m :: posts2).map HPost.msg ∧
      (∀ j, Contrib HostPosts j (eventsBy j (tr1 ++ .inv i c :: tr2 ++ .ret i r :: tr3)) (postedBy j (posts1 ++ .direct i true m :: posts2))) ∧
      s.1.mirror.buf.buf ++ ws.flatten <+: ackedText posts1 := by
  obtain ⟨h, rest, t, g1, g2, g3, g4, g5, g6, g7⟩ := facts hok hs.lock hx
  have hg := good_init hs hm he
  obtain ⟨m, hmsg⟩ : ∃ m, hostMessage c = some m := by
    cases c <;> first | exact hc.elim | exact ⟨_, rfl⟩
  obtain ⟨ha, hb, hd, l, o1, o2, rfl, k1, k2, k3, k4, k5, k6⟩ := history_returns (g3 i) g1 h2
  obtain ⟨ps0, hf0⟩ := hg.serves g2 fun y hy => (g6 y hy).2
  have eops : opsOf (ha ++ .inv i c :: hb ++ .ret i r :: hd) = opsOf ha ++ (opsOf hb ++ opsOf hd) := by
    rw [opsOf_append, opsOf_append, List.append_assoc]; rfl
  have hfil : (opsOf hb).filter (·.1 = i) = l.map fun y => (i, y.1, y.2) := by
    rw [← opsOf_own, k4, opsOf_asOps]
  have hans : ∀ y ∈ l, AnsOk y := fun y hy => by
    refine hf0.ans (i, y.1, y.2) ?_
    rw [eops]
    refine List.mem_append_right _ (List.mem_append_left _ (List.mem_of_mem_filter (p := (·.1 = i)) ?_))
    rw [hfil]
    exact List.mem_map.2 ⟨y, hy, rfl⟩
  obtain ⟨qm, e1, e2⟩ := asClient_asks k5
  have hq : result qm = some r := by
    cases qm with
    | done x => cases e1; rfl
    | ask x k => rw [asClient] at e1; cases e1
  obtain ⟨l1, y, l2, b, l3, rfl, hy⟩ := call_ordered c hc m hmsg l qm e2 hans r hq hr
  simp only [List.map_append, List.map_cons] at hfil
  obtain ⟨A, X, eX, _, hX⟩ := filter_split hfil
  obtain ⟨B, D, rfl, _, _⟩ := filter_split hX
  have e : opsOf (ha ++ .inv i c :: hb ++ .ret i r :: hd) =
      (opsOf ha ++ A) ++ (i, y.1, y.2) :: (B ++ (i, .post m, (.unit, b)) :: (D ++ opsOf hd)) := by
    rw [eops, eX]
    simp
  rw [e] at g2
  obtain ⟨ps1, ps2, hf, hpre⟩ := announced hy g2 hg fun z hz => (g6 z (e ▸ hz)).2
  rw [← e] at hf
  have hsub : ∀ j c, HEvent.inv j c ∈ ha → HostKeeps c := fun j c hc => g7 j c (by simp [hc])
  have hca : ∀ j, ∃ o' rest', ClientRun (fun _ c => asClient (hostMoments c)) j () (own j ha) o' rest' := fun j => run_prefix (g3 j) (by
    rw [List.append_assoc, own_append])
  refine ⟨fun j => piecesBy s.1.mirror.aggressive j (opsOf ha), _, m, ps1, ps2, fun j => ?_,
    merge_pieces _ fun y hy => (g6 y (by rw [eops]; exact List.mem_append_left _ hy)).1, hmsg, by rw [← g4]; exact hf.posts, fun j => ?_, ?_⟩
  · obtain ⟨o', rest', hj⟩ := hca j
    rw [← k1]
    exact (contrib_own hj (hsub j) (fun y hy => hf.ans y (by rw [eops]; exact List.mem_append_left _ hy)) _).1
  · rw [hf.direct, ← g1]
    exact (contrib_own (g3 j) (g7 j) hf.ans s.1.mirror.aggressive).2
  · rw [HFlow.piecesIn_append, List.flatten_append, ← List.append_assoc] at hpre
    exact (List.prefix_append _ _).trans hpre

/-! ## Closing -/

/-- Thread 0 closes the mirror, thread 1 writes. -/
def hostCloseAndWrite (i : Nat) (c : HMCall) : Prop := i < 2 ∧ (HostKeeps c ∨ c = .close none)

/-- Carry out moves of the two threads and look at the end. -/
def hostCloseLoses (ms : List (Move HMCall)) : Bool :=
  match moves (hostMirrorThreads sampleEnv hostCloseAndWrite) 2 ms (init hostUsed fun _ => ()) (fun _ => true) with
  | none => false
  | some (tr, κ) => (κ.cur 0).isNone && (κ.cur 1).isNone && κ.st.1.mirror.buf.buf.isEmpty && (SyncStream.textsOf κ.st.2.sent).isEmpty &&
    match tr with
    | [.inv 0 (.close none), .inv 1 (.write b), .ret 1 (.nat 1), .ret 0 .unit] => b == lit "b"
    | _ => false

theorem hostCloseLoses_sound {ms : List (Move HMCall)} (h : hostCloseLoses ms = true) (hms : ∀ m ∈ ms, ∀ i c, m = .start i c → hostCloseAndWrite i c) :
    ∃ κ, Exec (hostMirrorThreads sampleEnv hostCloseAndWrite) (init hostUsed fun _ => ())
      [.inv 0 (.close none), .inv 1 (.write (lit "b")), .ret 1 (.nat 1), .ret 0 .unit] κ ∧
      (∀ i, κ.cur i = none) ∧ SyncStream.textsOf κ.st.2.sent = [] ∧ κ.st.1.mirror.buf.buf = [] := by
  unfold hostCloseLoses at h
  split at h
  · cases h
  · rename_i tr κ e
    simp only [Bool.and_eq_true, Option.isNone_iff_eq_none, List.isEmpty_iff] at h
    obtain ⟨⟨⟨⟨h0, h1⟩, h2⟩, h3⟩, h4⟩ := h
    have hx := moves_sound hms (fun _ _ _ => rfl) e fun _ _ => trivial
    have hi : ∀ i, κ.cur i = none := fun i => by
      match i with
      | 0 => exact h0
      | 1 => exact h1
      | i + 2 => exact moves_idle e (Nat.le_add_left 2 i) rfl
    split at h4
    · rw [beq_iff_eq] at h4
      subst h4
      exact ⟨κ, hx, hi, h3, h2⟩
    · cases h4

/-- Thread 0 has ended the stream in `close()` and is about to empty the buffer; thread 1 writes `"b"`, and the call returns; thread 0
empties and closes the buffer: `"b"` is lost. -/
theorem C85_lost : ∃ κ, Exec (hostMirrorThreads sampleEnv hostCloseAndWrite) (init hostUsed fun _ => ())
    [.inv 0 (.close none), .inv 1 (.write (lit "b")), .ret 1 (.nat 1), .ret 0 .unit] κ ∧
    (∀ i, κ.cur i = none) ∧ SyncStream.textsOf κ.st.2.sent = [] ∧ κ.st.1.mirror.buf.buf = [] :=
  hostCloseLoses_sound (ms := .start 0 (.close none) :: List.replicate 16 (.go 0) ++ .start 1 (.write (lit "b")) ::
    List.replicate 18 (.go 1) ++ List.replicate 12 (.go 0)) (by decide +kernel) fun m hm i c e => by
      subst e
      simp at hm
      rcases hm with ⟨rfl, rfl⟩ | ⟨rfl, rfl⟩
      · exact ⟨by omega, .inr rfl⟩
      · exact ⟨by omega, .inl trivial⟩

theorem text_strMsg (d : PyStr) : Req.text? (.post (.json (HMirror.strMsg d))) = some d := rfl

/-- **C85** violated: with `close` among the calls it is not true that whenever no call is running, the text posted and the text held
back are what the threads have written, although the mirror has its lock and no request is lost. -/
theorem C85_violated : ¬ ∀ (env : HEnv) (ok : Nat → HMCall → Prop) (N : Nat) (s : HMProc × HNet)
    (tr : List (Ev HMCall HMRet)) (κ : Conc.Conf (HMProc × HNet) Nat Unit HMCall HMRet),
    (∀ i c, ok i c → i < N ∧ (HostKeeps c ∨ c = .close none)) → HostReady s → HMReach env s.1.mirror →
    (s.1.mirror.aggressive = true → s.1.mirror.buf.buf = []) →
    Exec (hostMirrorThreads env ok) (init s fun _ => ()) tr κ → (∀ i, κ.cur i = none) →
    ∃ (eff : Nat → List PyStr) (posts : List HPost) (ws : List PyStr), (∀ i, Contrib HostAdds i (eventsBy i tr) (eff i)) ∧
      postBodies κ.st.2.sent = postBodies s.2.sent ++ posts.map HPost.msg ∧ Merge ((List.range N).map eff) ws ∧
      ackedText posts ++ κ.st.1.mirror.buf.buf = s.1.mirror.buf.buf ++ ws.flatten := by
  intro h
  obtain ⟨κ, hx, hi, hq, hb⟩ := C85_lost
  obtain ⟨eff, posts, ws, h1, h3, h5, h6⟩ := h sampleEnv hostCloseAndWrite 2 hostUsed _ κ (fun _ _ h => h) ⟨nofun, rfl⟩ (.new false) (fun _ => rfl) hx hi
  have h7 : eff 1 = [lit "b"] := by
    have := h1 1
    simp only [eventsBy, List.filter] at this
    generalize eff 1 = x at this
    cases this with
    | call _ _ l _ l' ha hc =>
      cases hc
      cases (show l = [lit "b"] from ha)
      rfl
  have h8 : lit "b" ∈ ws := (merge_sublist h5 (eff 1) (List.mem_map.2 ⟨1, by simp, rfl⟩)).subset (by rw [h7]; simp)
  have h9 : (98 : Nat) ∈ ackedText posts := by
    rw [hb, List.append_nil] at h6
    rw [h6]
    exact List.mem_append_right _ (List.mem_flatten.2 ⟨_, h8, by decide⟩)
  obtain ⟨p, h10, h11⟩ := List.mem_flatMap.1 h9
  obtain ⟨j, d, rfl⟩ : ∃ j d, p = .text j true d := by
    cases p with
    | text j a d =>
      cases a with
      | true => exact ⟨j, d, rfl⟩
      | false => cases h11
    | direct j a m => cases h11
  have h12 : HMirror.strMsg d ∈ postBodies κ.st.2.sent := by
    rw [h3]
    exact List.mem_append_right _ (List.mem_map.2 ⟨_, h10, rfl⟩)
  obtain ⟨q, h13, h14⟩ := List.mem_filterMap.1 h12
  have h15 : q = .post (.json (HMirror.strMsg d)) := by
    split at h14
    · cases h14; rfl
    · cases h14
  subst h15
  have : d ∈ SyncStream.textsOf κ.st.2.sent := List.mem_filterMap.2 ⟨_, h13, text_strMsg d⟩
  rw [hq] at this
  cases this

/-! ## Examples -/

/-- Carry out moves of two threads that share the mirror `hostUsed`, and look at the posts and what is held back. -/
def hostLeaves (ms : List (Move HMCall)) (n : Nat) (posted : List (Option PyStr)) (held : PyStr) : Bool :=
  match moves (hostMirrorThreads sampleEnv fun _ _ => True) 2 ms (init hostUsed fun _ => ()) (fun _ => true) with
  | none => false
  | some (tr, κ) => (κ.cur 0).isNone && (κ.cur 1).isNone && tr.length == n &&
    ((postBodies κ.st.2.sent).map fun j => Req.text? (.post (.json j))) == posted && κ.st.1.mirror.buf.buf == held

/-- Thread 1 has written `"b"`; thread 0 calls `send_eof()`, which posts the line; before it posts the end, thread 1 writes `"c"`.  The
text written before the call is in front of the end, `"c"` is held back. -/
example : hostLeaves (.start 1 (.write (lit "b")) :: List.replicate 18 (.go 1) ++ .start 0 .sendEof :: List.replicate 27 (.go 0) ++
    .start 1 (.write (lit "c")) :: List.replicate 18 (.go 1) ++ List.replicate 2 (.go 0)) 6 [some (lit "b\n"), none] (lit "c") = true := by
  decide +kernel

end SyncStream
