import Verif.Spec.HostWorldTexts
import Verif.Props.HostWorld
import Verif.Props.CloseShared
/-!
# The text of all threads of all processes in the host mode (C89)

The mirror that the threads of a process share (C85, C86) as a part of the whole host mode (C87).
-/

namespace SyncStream
open Spec LineBuf Conc PFlow HFlow HostBuf

theorem opBodies_wire (rs : List Req) : opBodies (rs.map fun r => .req r.wire) = (postBodies rs).map Json.wire := by
  induction rs with
  | nil => rfl
  | cons r rs ih =>
    have e : ∀ (q : HOp) l, opBodies (q :: l) = opBodies [q] ++ opBodies l := fun q l => List.filterMap_append (l := [q])
    have e' : ∀ (q : Req) l, postBodies (q :: l) = postBodies [q] ++ postBodies l := fun q l => List.filterMap_append (l := [q])
    rw [List.map_cons, e, e', ih, List.map_append]
    congr 1
    cases r with
    | post b => cases b <;> rfl
    | statePost b => cases b <;> rfl
    | _ => rfl

theorem posts_bodies {rs : List Req} {ms : List HMsg} (h : Posts rs ms) : ms.map HMsg.post = postBodies rs := by
  induction h with
  | nil => rfl
  | msg m rs ms _ ih => rw [List.map_cons, ih]; rfl
  | check rs ms _ ih => exact ih

/-- What the hypotheses say of the mirror of each process: it has its lock, it is open, and it has come about by calls. -/
def MirrorReady (env : HEnv) (m : HMProc) : Prop :=
  m.lock ≠ none ∧ m.mirror.buf.closed = false ∧ HMReach env m.mirror ∧ (m.mirror.aggressive = true → m.mirror.buf.buf = [])

/-- **C89** The host mode as a whole: the threads of each process make, on the mirror that they share, any calls that take nothing away
(all but `clear`, `close` and setting `aggressive`); readers, and the owner of the buffer, do anything; requests may be lost or their
answers may.  There is one order of all operations of the service, and for every process:

* What its threads have brought to the service, in this order, are the messages `posts`, each as JSON transports it.
* What a thread has posted directly are the messages of its calls: of a call that has succeeded its message once, acknowledged; of a call
  that has failed perhaps its message, not acknowledged.
* The text posted from the buffer with an acknowledgement is what the mirror held back at the beginning and then what the threads of the
  process have added, each text as a whole and those of each thread in its order, up to a rest; whenever no call is running, the rest is
  what the mirror holds back.
* Text posted without an acknowledgement comes from a call that has failed (or is still running), and unless the mirror is aggressive it is
  posted again later or still held back.

Missing: the locks exist; the calls that take something away. -/
theorem C89_texts_partial (env : HEnv) (proc : Nat → Nat) (N : Nat) (ok : Nat → HSCall → Prop) (hok : ∀ i c os, ok i (.mirror c os) → i < N ∧ HostKeeps c)
    (s : Nat → HMProc) (hs : ∀ p, MirrorReady env (s p)) (h0 : HostBuf) (tr : List (Ev HSCall HSRet))
    (κ : Conf ((Nat → HMProc) × HostBuf) (Nat × Nat ⊕ HLock) Unit HSCall HSRet)
    (hx : Exec (hostWorld env proc ok) (init (s, h0) fun _ => ()) tr κ) :
    ∃ (h : List (HEvent HSCall HSRet HOp HRet)) (t : HostBuf), seen h = tr ∧ Serves (HostBuf.AtOnce env) h0 (opsOf h) t ∧
      ((∀ i, κ.cur i = none) → κ.st.2 = t) ∧
      ∀ p, ∃ (eff : Nat → List PyStr) (posts : List HPost) (ws : List PyStr) (held : PyStr),
        opBodies (sortOps proc p h).own = posts.map (fun x => x.msg.wire) ∧
        (∀ i, Contrib HostAdds i (eventsBy i (mirrorEvents proc p tr)) (eff i)) ∧
        (∀ i, Contrib HostPosts i (eventsBy i (mirrorEvents proc p tr)) (postedBy i posts)) ∧ Merge ((List.range N).map eff) ws ∧
        ackedText posts ++ held = (s p).mirror.buf.buf ++ ws.flatten ∧ ((∀ i, κ.cur i = none) → (κ.st.1 p).mirror.buf.buf = held) ∧
        ((s p).mirror.aggressive = false → ∀ pre i d post, posts = pre ++ .text i false d :: post → d <+: ackedText post ++ held) ∧
        ((∀ i, κ.cur i = none) → ∀ i d, HPost.text i false d ∈ posts → ∃ r, Ev.ret i r ∈ mirrorEvents proc p tr ∧ hostFailed r = true) := by
  obtain ⟨h, t, h1, h2, h3, h4⟩ := C87_one_service env proc ok s h0 tr κ hx
  refine ⟨h, t, h1, h2, h3, fun p => ?_⟩
  obtain ⟨W, after, κp, -, g1, g2, -, -, g3, g4⟩ := h4 p
  obtain ⟨a1, a2, a3, a4⟩ := hs p
  obtain ⟨eff, posts, ws, held, k1, k2, k3, k4, k5, k6, k7, k8⟩ := C85_texts_partial (N := N) (by
    rintro i c ⟨-, os, hc⟩
    exact hok i c os hc) ⟨a1, a2⟩ a3 a4 g1
  refine ⟨eff, posts, ws, held, ?_, k1, k2, k4, k5, fun hi => ?_, k7, fun hi => k8 fun i => g4 i (hi i)⟩
  · rw [g3, opBodies_wire, k3, List.map_append, List.map_map]
    rfl
  · rw [← k6 fun i => g4 i (hi i), g2]

theorem mirrorEvents_split (proc : Nat → Nat) {i : Nat} {c : HMCall} {os : List Outcome} {r : HMRet} (tr1 tr2 tr3 : List (Ev HSCall HSRet)) :
    mirrorEvents proc (proc i) (tr1 ++ .inv i (.mirror c os) :: tr2 ++ .ret i (.mirror r) :: tr3) =
      mirrorEvents proc (proc i) tr1 ++ .inv i c :: mirrorEvents proc (proc i) tr2 ++ .ret i r :: mirrorEvents proc (proc i) tr3 := by
  have e1 : mirrorEvents proc (proc i) (.inv i (.mirror c os) :: tr2) = .inv i c :: mirrorEvents proc (proc i) tr2 := by
    unfold mirrorEvents
    rw [List.filterMap_cons_some (b := Ev.inv i c)]
    simp
  have e2 : mirrorEvents proc (proc i) (.ret i (.mirror r) :: tr3) = .ret i r :: mirrorEvents proc (proc i) tr3 := by
    unfold mirrorEvents
    rw [List.filterMap_cons_some (b := Ev.ret i r)]
    simp
  rw [World.mirrorEvents_append, World.mirrorEvents_append, e1, e2]

theorem mirrorEvents_of (proc : Nat → Nat) {p : Nat} {tr : List (Ev HSCall HSRet)} {e : Ev HMCall HMRet} (h : e ∈ mirrorEvents proc p tr) :
    (∃ i c os, proc i = p ∧ e = .inv i c ∧ Ev.inv i (.mirror c os) ∈ tr) ∨ ∃ i r, proc i = p ∧ e = .ret i r ∧ Ev.ret i (.mirror r) ∈ tr := by
  obtain ⟨x, hx, hxe⟩ := List.mem_filterMap.1 h
  cases x with
  | inv i c =>
    cases c with
    | mirror c os =>
      by_cases hp : proc i = p
      · simp only [if_pos hp, Option.some.injEq] at hxe
        exact .inl ⟨i, c, os, hp, hxe.symm, hx⟩
      · simp [if_neg hp] at hxe
    | _ => simp at hxe
  | ret i r =>
    cases r with
    | mirror r =>
      by_cases hp : proc i = p
      · simp only [if_pos hp, Option.some.injEq] at hxe
        exact .inr ⟨i, r, hp, hxe.symm, hx⟩
      · simp [if_neg hp] at hxe
    | _ => simp at hxe

theorem mirrorEvents_others (proc : Nat → Nat) {i p : Nat} {tr : List (Ev HSCall HSRet)} (h : ∀ e ∈ tr, ¬ ofThread i e) :
    ∀ e ∈ mirrorEvents proc p tr, ¬ ofThread i e := by
  intro e he hi
  rcases mirrorEvents_of proc he with ⟨j, c, os, -, rfl, hm⟩ | ⟨j, r, -, rfl, hm⟩
  · exact h _ hm hi
  · exact h _ hm hi

/-- **C89** Announcements come after the text, in the host mode as a whole.  A thread calls `send_eof`, `send_error` or `send_warning` on the
mirror of its process, and the call does not fail; when it begins, the calls in `tr1` have been made.  Then the service has got the message
of the call from this process, and from this process before it, acknowledged, all of the text that the mirror held back or that any thread
of the process has added in `tr1` (`ws`).  Missing: as above. -/
theorem C89_before_partial (env : HEnv) (proc : Nat → Nat) (N : Nat) (ok : Nat → HSCall → Prop) (hok : ∀ i c os, ok i (.mirror c os) → i < N ∧ HostKeeps c)
    (s : Nat → HMProc) (hs : ∀ p, MirrorReady env (s p)) (h0 : HostBuf) (tr1 tr2 tr3 : List (Ev HSCall HSRet)) (i : Nat) (c : HMCall)
    (os : List Outcome) (r : HMRet) (κ : Conf ((Nat → HMProc) × HostBuf) (Nat × Nat ⊕ HLock) Unit HSCall HSRet)
    (hx : Exec (hostWorld env proc ok) (init (s, h0) fun _ => ()) (tr1 ++ .inv i (.mirror c os) :: tr2 ++ .ret i (.mirror r) :: tr3) κ)
    (h2 : ∀ e ∈ tr2, ¬ ofThread i e) (hc : HostAnnounces c) (hr : hostFailed r = false) :
    ∃ (h : List (HEvent HSCall HSRet HOp HRet)) (t : HostBuf) (eff : Nat → List PyStr) (ws : List PyStr) (m : Json) (posts1 posts2 : List HPost),
      seen h = tr1 ++ .inv i (.mirror c os) :: tr2 ++ .ret i (.mirror r) :: tr3 ∧ Serves (HostBuf.AtOnce env) h0 (opsOf h) t ∧
      hostMessage c = some m ∧ opBodies (sortOps proc (proc i) h).own = posts1.map (fun x => x.msg.wire) ++ m.wire :: posts2.map (fun x => x.msg.wire) ∧
      (∀ j, Contrib HostAdds j (eventsBy j (mirrorEvents proc (proc i) tr1)) (eff j)) ∧ Merge ((List.range N).map eff) ws ∧
      (s (proc i)).mirror.buf.buf ++ ws.flatten <+: ackedText posts1 := by
  obtain ⟨h, t, h1, h3, -, h4⟩ := C87_one_service env proc ok s h0 _ κ hx
  obtain ⟨W, after, κp, -, g1, -, -, -, g3, -⟩ := h4 (proc i)
  obtain ⟨a1, a2, a3, a4⟩ := hs (proc i)
  rw [mirrorEvents_split] at g1
  obtain ⟨eff, ws, m, posts1, posts2, k1, k2, k3, k4, -, k6⟩ := C85_before_partial (N := N) (by
    rintro i c ⟨-, os, hc⟩
    exact hok i c os hc) ⟨a1, a2⟩ a3 a4 g1 (mirrorEvents_others proc h2) hc hr
  refine ⟨h, t, eff, ws, m, posts1, posts2, h1, h3, k3, ?_, k1, k2, k6⟩
  rw [g3, opBodies_wire, k4, List.map_append, List.map_map, List.map_append]
  rfl

/-- **C89** Closing, in the host mode as a whole.  A thread closes the mirror of its process, and the call does not fail; when it begins, the
calls in `tr1` have been made, and those in `tr2` are made until it is over, among which no thread of the process closes the mirror, too;
nobody clears it or sets `aggressive`.  Then the service has got the message of `close` from this process, and from this process before it,
acknowledged, all of the text that the mirror held back or that any thread of the process has added in `tr1` (`ws`); the messages before it
(`posts`) are those of the calls in `tr1` and of those begun in a part `tr2'` of `tr2`.  Missing: as above. -/
theorem C89_close_partial (env : HEnv) (proc : Nat → Nat) (N : Nat) (ok : Nat → HSCall → Prop)
    (hok : ∀ i c os, ok i (.mirror c os) → i < N ∧ (HostKeeps c ∨ ∃ e, c = .close e))
    (s : Nat → HMProc) (hs : ∀ p, MirrorReady env (s p)) (h0 : HostBuf) (tr1 tr2 tr3 : List (Ev HSCall HSRet)) (i : Nat) (e : Option ExcObj)
    (os : List Outcome) (r : HMRet) (κ : Conf ((Nat → HMProc) × HostBuf) (Nat × Nat ⊕ HLock) Unit HSCall HSRet)
    (hx : Exec (hostWorld env proc ok) (init (s, h0) fun _ => ()) (tr1 ++ .inv i (.mirror (.close e) os) :: tr2 ++ .ret i (.mirror r) :: tr3) κ)
    (h2 : ∀ e ∈ tr2, ¬ ofThread i e) (hone : ∀ j e' os', proc j = proc i → Ev.inv j (.mirror (.close e') os') ∉ tr1 ++ tr2) (hr : hostFailed r = false) :
    ∃ (h : List (HEvent HSCall HSRet HOp HRet)) (t : HostBuf) (eff : Nat → List PyStr) (ws : List PyStr) (posts : List HPost)
        (tr2' : List (Ev HMCall HMRet)) (rest : List Json),
      seen h = tr1 ++ .inv i (.mirror (.close e) os) :: tr2 ++ .ret i (.mirror r) :: tr3 ∧ Serves (HostBuf.AtOnce env) h0 (opsOf h) t ∧
      opBodies (sortOps proc (proc i) h).own = posts.map (fun x => x.msg.wire) ++ (hostEndMessage e).wire :: rest ∧
      (∀ j, Contrib HostAdds j (eventsBy j (mirrorEvents proc (proc i) tr1)) (eff j)) ∧ Merge ((List.range N).map eff) ws ∧
      tr2' <+: mirrorEvents proc (proc i) tr2 ∧
      (∀ j, Contrib HostPosts j (eventsBy j (mirrorEvents proc (proc i) tr1 ++ tr2')) (postedBy j posts)) ∧
      (s (proc i)).mirror.buf.buf ++ ws.flatten <+: ackedText posts := by
  obtain ⟨h, t, h1, h3, -, h4⟩ := C87_one_service env proc ok s h0 _ κ hx
  obtain ⟨W, after, κp, -, g1, -, -, -, g3, -⟩ := h4 (proc i)
  obtain ⟨a1, a2, a3, a4⟩ := hs (proc i)
  rw [mirrorEvents_split] at g1
  obtain ⟨eff, ws, posts, tr2', rest, k1, k2, k3, k4, k5, k6⟩ := C86_host_partial (N := N) (by
    rintro i c ⟨-, os, hc⟩
    exact hok i c os hc) ⟨a1, a2⟩ a3 a4 g1 (mirrorEvents_others proc h2) (by
      intro j e' hj
      rw [← World.mirrorEvents_append] at hj
      rcases mirrorEvents_of proc hj with ⟨j', c, os', hp, he, hm⟩ | ⟨j', r', _, he, _⟩
      · cases he; exact hone _ _ _ hp hm
      · cases he) hr
  refine ⟨h, t, eff, ws, posts, tr2', rest.map Json.wire, h1, h3, ?_, k1, k2, k4, k5, k6⟩
  rw [g3, opBodies_wire, k3, List.map_append, List.map_append, List.map_map, List.map_cons]
  rfl

/-! ## When no request is lost -/

theorem Good.calm {env : HEnv} {ag : Bool} {s : HMNet} (hg : Good ag s) (hn : CalmNet s.2) {x : HSec} (hx : SecOk x)
    (hp : ∀ m, x = .post m → ∃ y : HMsg, m = y.post) : hostFailed (x.exec env s).1.1 = false ∧ CalmNet (x.exec env s).2.2 := by
  obtain ⟨m, n⟩ := s
  obtain ⟨h1, -, -⟩ := hg
  dsimp only at h1 hn
  generalize m.buf.buf = t at h1
  have of : ∀ (y : HSec) (a : HMRet) (m' : HMirror) (n' : HNet), y.result env (m, n) = (a, (m', n')) → hostFailed a = false → CalmNet n' →
      hostFailed (y.exec env (m, n)).1.1 = false ∧ CalmNet (y.exec env (m, n)).2.2 := by
    intro y a m' n' e h2 h3
    unfold HSec.exec
    rw [e]
    exact ⟨h2, h3⟩
  cases x with
  | clear => exact hx.elim
  | shut => exact hx.elim
  | isClosed => exact of _ _ _ _ rfl rfl hn
  | ask =>
    obtain ⟨n', g1, g2⟩ := calm_check (env := env) hn
    have e := askState_open env m t n
    rw [← h1, g2] at e
    exact of .ask .unit _ n' (by dsimp only [HSec.result]; rw [e]; rfl) rfl g1
  | check =>
    obtain ⟨n', g1, g2⟩ := calm_check (env := env) hn
    have e := HMirror.checkStates_open env m t n
    rw [← h1, g2] at e
    exact of .check .unit _ n' (by dsimp only [HSec.result]; rw [e]; rfl) rfl g1
  | due c =>
    have e := lineDue_open env c m t n
    rw [← h1] at e
    by_cases ht : t = []
    · rw [if_pos ht] at e
      exact of (.due c) (.bool false) _ n (by dsimp only [HSec.result]; rw [e]; rfl) rfl hn
    · obtain ⟨n', g1, g2⟩ : ∃ n', CalmNet n' ∧ HMirror.netCheck env c n = (.ok (), n') := by
        cases c with
        | false => exact ⟨n, hn, rfl⟩
        | true => exact calm_check hn
      rw [if_neg ht, g2] at e
      exact of (.due c) (.bool true) _ n' (by dsimp only [HSec.result]; rw [e]; rfl) rfl g1
  | read =>
    have e := HMirror.onBuf_getvalue m t n
    rw [← h1] at e
    exact of .read (.text t) _ n (by dsimp only [HSec.result]; rw [e]; rfl) rfl hn
  | flush =>
    have e : HMirror.flush (m, n) = (.ok (), (m, n)) := by
      rw [h1]; simp [HMirror.flush, HMirror.onBuf, HMirror.withBuf, StringIO.flush, StringIO.check]
    exact of .flush .unit _ n (by dsimp only [HSec.result]; rw [e]; rfl) rfl hn
  | post j =>
    obtain ⟨y, rfl⟩ := hp j rfl
    have e := HMirror.expectOk_apply env (.post (.json y.post)) m n
    obtain ⟨n', g1, g2⟩ := calm_request (env := env) hn (r := .post (.json y.post)) (.inr ⟨y, rfl⟩)
    rw [if_neg (by simp [Req.isGet])] at g2
    have e2 : HNet.expectOk env (.post (.json y.post)) n = (.ok (), n') := by
      unfold HNet.expectOk
      rw [Py.bind_ok g2]
      rfl
    rw [e2] at e
    exact of (.post y.post) .unit _ n' (by dsimp only [HSec.result]; rw [e]; rfl) rfl g1
  | rest d =>
    have e := postRest_open env m t d n
    rw [← h1] at e
    split at e
    · obtain ⟨n', g1, g2⟩ := calm_text (env := env) hn d
      rw [g2] at e
      exact of (.rest d) (.nat d.length) _ n' (by dsimp only [HSec.result]; rw [e]; rfl) rfl g1
    · split at e
      · exact of (.rest d) (.nat d.length) _ n (by dsimp only [HSec.result]; rw [e]; rfl) rfl hn
      · obtain ⟨n', g1, g2⟩ := calm_text (env := env) hn (t ++ d)
        rw [g2] at e
        exact of (.rest d) (.nat d.length) _ n' (by dsimp only [HSec.result]; rw [e]; rfl) rfl g1

theorem Good.calm_serves {env : HEnv} {ag : Bool} {s t : HMNet} {l : List (Nat × HSec × HAns)} (hs : Serves (Acts env) s l t) (hg : Good ag s)
    (hn : CalmNet s.2) (hl : ∀ y ∈ l, SecOk y.2.1 ∧ ∀ m, y.2.1 = .post m → ∃ x : HMsg, m = x.post) : ∀ y ∈ l, hostFailed y.2.2.1 = false := by
  induction hs with
  | nil => exact nofun
  | cons s t u i x a l h1 _ ih =>
    have h1 : x.exec env s = (a, t) := h1
    obtain ⟨k1, k2⟩ := hl _ List.mem_cons_self
    have h2 := Good.calm (env := env) hg hn k1 k2
    obtain ⟨ps, hf, -⟩ := hg.step (env := env) i x k1
    rw [h1] at h2 hf
    intro y hy
    rcases List.mem_cons.1 hy with rfl | hy
    · exact h2.1
    · exact ih hf.good h2.2 (fun y hy => hl y (List.mem_cons_of_mem _ hy)) y hy

/-- Direct posts carry messages. -/
theorem posts_within {c : HMCall} : (asClient (hostMoments c)).Within fun x => ∀ m, x = .post m → ∃ y : HMsg, m = y.post := by
  have lift : ∀ q : Ask HSec HAns HMRet, q.Within (fun x => ∀ m, x = .post m → ∃ y : HMsg, m = y.post) →
      (asClient q).Within fun x => ∀ m, x = .post m → ∃ y : HMsg, m = y.post := by
    intro q
    induction q with
    | done r => exact fun _ => trivial
    | ask x k ih =>
      intro h
      rw [asClient]
      exact ⟨h.1, fun r => ih r (h.2 r)⟩
  have andThen : ∀ (x : HSec) (K : HMRet → Ask HSec HAns HMRet), (∀ m, x = .post m → ∃ y : HMsg, m = y.post) →
      (∀ a, (K a).Within fun x => ∀ m, x = .post m → ∃ y : HMsg, m = y.post) →
      (HSec.andThen x K).Within fun x => ∀ m, x = .post m → ∃ y : HMsg, m = y.post := by
    intro x K h1 h2
    refine ⟨h1, fun r => ?_⟩
    obtain ⟨r, b⟩ := r
    cases r <;> first | trivial | exact h2 _
  have newLine : ∀ g (k : Ask HSec HAns HMRet), (k.Within fun x => ∀ m, x = .post m → ∃ y : HMsg, m = y.post) →
      (HSec.newLine g k).Within fun x => ∀ m, x = .post m → ∃ y : HMsg, m = y.post := by
    intro g k hk
    refine andThen _ _ nofun fun a => ?_
    split
    · exact andThen _ _ nofun fun _ => hk
    · exact hk
  have sendEnd : ∀ g (y : HMsg) (k : Ask HSec HAns HMRet), (k.Within fun x => ∀ m, x = .post m → ∃ y : HMsg, m = y.post) →
      (HSec.sendEnd g y.post k).Within fun x => ∀ m, x = .post m → ∃ y : HMsg, m = y.post := by
    intro g y k hk
    refine andThen _ _ nofun fun a => ?_
    split
    · exact hk
    · exact newLine _ _ (andThen _ _ (fun m hm => ⟨y, by cases hm; rfl⟩) fun _ => hk)
  have closedOr : ∀ (r : HMRet) (q : Ask HSec HAns HMRet), (q.Within fun x => ∀ m, x = .post m → ∃ y : HMsg, m = y.post) →
      (HSec.andThen .isClosed fun | .bool true => .done r | _ => q).Within fun x => ∀ m, x = .post m → ∃ y : HMsg, m = y.post := by
    intro r q hq
    refine andThen _ _ nofun fun a => ?_
    split
    · trivial
    · exact hq
  refine lift _ ?_
  cases c with
  | write d => exact closedOr _ _ (andThen _ _ nofun fun _ => andThen _ _ nofun fun _ => trivial)
  | newLine g => exact newLine _ _ trivial
  | read => exact closedOr _ _ (andThen _ _ nofun fun _ => trivial)
  | clear => exact andThen _ _ nofun fun _ => trivial
  | flush => exact andThen _ _ nofun fun _ => trivial
  | sendData d => exact closedOr _ _ (andThen _ _ (fun m hm => ⟨.text d, by cases hm; rfl⟩) fun _ => trivial)
  | sendEof => exact sendEnd _ .close _ trivial
  | sendError e => exact sendEnd _ (.error (GMsg.new (.exc e))) _ trivial
  | sendWarning e => exact sendEnd _ (.warning (GMsg.new (.exc e))) _ trivial
  | checkStates => exact closedOr _ _ (andThen _ _ nofun fun _ => trivial)
  | close e =>
    cases e with
    | none => exact closedOr _ _ (sendEnd _ .close _ (andThen _ _ nofun fun _ => andThen _ _ nofun fun _ => trivial))
    | some e => exact closedOr _ _ (sendEnd _ (.error (GMsg.new (.exc e))) _ (andThen _ _ nofun fun _ => andThen _ _ nofun fun _ => trivial))
  | closed => exact andThen _ _ nofun fun _ => trivial
  | readable => exact andThen _ _ nofun fun a => by split <;> trivial
  | writable => exact andThen _ _ nofun fun a => by split <;> trivial
  | setAggressive b => trivial

/-- The threads of one process, when no request is lost and nobody stops the mirrors. -/
theorem calm_threads {env : HEnv} {ok : Nat → HMCall → Prop} {N : Nat} (hok : ∀ i c, ok i c → i < N ∧ HostKeeps c) {s : HMProc × HNet}
    (hr : HostReady s) (hm : HMReach env s.1.mirror) (he : s.1.mirror.aggressive = true → s.1.mirror.buf.buf = []) (hn : CalmNet s.2)
    {tr : List (Ev HMCall HMRet)} {κ : Conc.Conf (HMProc × HNet) Nat Unit HMCall HMRet}
    (hx : Exec (hostMirrorThreads env ok) (init s fun _ => ()) tr κ) (hq : ∀ i, κ.cur i = none) :
    ∃ (eff : Nat → List PyStr) (posts : List HPost) (ws : List PyStr), (∀ i r, Ev.ret i r ∈ tr → hostFailed r = false) ∧
      (∀ x ∈ posts, x.acked = true) ∧
      (∀ i, Contrib HostAdds i (eventsBy i tr) (eff i)) ∧ (∀ i, Contrib HostPosts i (eventsBy i tr) (postedBy i posts)) ∧
      postBodies κ.st.2.sent = postBodies s.2.sent ++ posts.map HPost.msg ∧ Merge ((List.range N).map eff) ws ∧
      ackedText posts ++ κ.st.1.mirror.buf.buf = s.1.mirror.buf.buf ++ ws.flatten := by
  obtain ⟨h, rest, t, h1, h2, h3, h4, h5, h6, h7⟩ := facts hok hr.lock hx
  have hg := good_init hr hm he
  obtain ⟨ps, hf⟩ := hg.serves h2 fun y hy => (h6 y hy).2
  have hpost : ∀ y ∈ opsOf h, ∀ m, y.2.1 = .post m → ∃ x : HMsg, m = x.post := by
    rintro ⟨i, x, a⟩ hy
    have hmem : HEvent.op i x a ∈ own i h := by
      unfold own
      exact List.mem_filter.2 ⟨mem_ops hy, by simp [HEvent.who]⟩
    exact (h3 i).within_ops (okc := fun _ => True) (fun _ c _ => posts_within) (fun _ _ => trivial) i x a hmem
  have hno := Good.calm_serves h2 hg hn fun y hy => ⟨(h6 y hy).2, hpost y hy⟩
  have hc : ∀ i, _ := fun i => contrib_own (h3 i) (h7 i) hf.ans s.1.mirror.aggressive
  refine ⟨fun i => piecesBy s.1.mirror.aggressive i (opsOf h), ps, _, fun i r hir => ?_, fun x hxp => ?_, fun i => h1 ▸ (hc i).1, fun i => ?_,
    by rw [← h4]; exact hf.posts, merge_pieces _ fun y hy => (h6 y hy).1, ?_⟩
  · cases hfr : hostFailed r with
    | false => rfl
    | true =>
      obtain ⟨y, hy, g⟩ := (failures_own (h3 i) (h7 i) hf.ans).2 r (h1 ▸ hir) hfr
      rw [hno y hy] at g
      cases g
  · cases x with
    | text j a d =>
      cases a with
      | true => rfl
      | false =>
        obtain ⟨y, hy, -, g⟩ := hf.lost j d hxp
        rw [hno y hy] at g
        cases g
    | direct j a m =>
      have hmem : (a, m) ∈ postedBy j ps := List.mem_filterMap.2 ⟨_, hxp, by simp⟩
      rw [hf.direct] at hmem
      obtain ⟨y, hy, g⟩ := List.mem_flatMap.1 hmem
      split at g
      · have hfy := hno y hy
        obtain ⟨i, x, r, b⟩ := y
        cases x <;> first | (cases g; done) | skip
        cases r <;> first | (cases hfy; done) | (cases List.mem_singleton.1 g; rfl)
      · cases g
  · rw [hf.direct]
    exact h1 ▸ (hc i).2
  · have := hf.text
    rw [(h5 hq).1] at this
    exact this

/-- **C89** From the threads to the reader.  A new buffer; the threads of `n` processes make, on the mirror that each process shares, any calls that
take nothing away; others read; no request is lost and nobody stops the mirrors or clears the buffer.  Then no call on a mirror fails, and
when all calls have ended, the buffer is the log of the messages of all processes, those of each process in their order, none lost, doubled or
changed but by JSON; and for every process, what its threads have posted directly are the messages of their calls, each once, and the text
posted from the buffer, with the text held back, is what the mirror held back at the beginning and then what the threads have added, each text as
a whole and those of each thread in its order.  Missing: the locks exist; the calls that take something away. -/
theorem C89_delivery_partial (env : HEnv) (maxlen : Int) (h0 : HostBuf) (hnew : HostBuf.new maxlen = .ok h0) (n N : Nat) (proc : Nat → Nat)
    (ok : Nat → HSCall → Prop) (hok : ∀ i c, ok i c → i < N ∧ proc i < n ∧ HSCall.Peaceful c ∧ ∀ c' os, c = .mirror c' os → HostKeeps c')
    (s : Nat → HMProc) (hs : ∀ p, MirrorReady env (s p)) (tr : List (Ev HSCall HSRet))
    (κ : Conf ((Nat → HMProc) × HostBuf) (Nat × Nat ⊕ HLock) Unit HSCall HSRet)
    (hx : Exec (hostWorld env proc ok) (init (s, h0) fun _ => ()) tr κ) (hq : ∀ i, κ.cur i = none) :
    ∃ (posts : Nat → List HPost) (W : Nat → List HMsg) (ms : List HMsg) (log : Log),
      (∀ i r, Ev.ret i (.mirror r) ∈ tr → hostFailed r = false) ∧
      (∀ p, (W p).map HMsg.post = (posts p).map HPost.msg ∧ (∀ x ∈ posts p, x.acked = true) ∧
        (∀ i, Contrib HostPosts i (eventsBy i (mirrorEvents proc p tr)) (postedBy i (posts p))) ∧
        ∃ eff ws, (∀ i, Contrib HostAdds i (eventsBy i (mirrorEvents proc p tr)) (eff i)) ∧ Merge ((List.range N).map eff) ws ∧
          ackedText (posts p) ++ (κ.st.1 p).mirror.buf.buf = (s p).mirror.buf.buf ++ ws.flatten) ∧
      Merge ((List.range n).map fun p => (W p).map HMsg.wire) ms ∧
      HReplays { cap := maxlen.toNat } ms log ∧
      (LineBuf.read none κ.st.2.base).1 = .ok log.view ∧ κ.st.2.base.storage.items = lastN maxlen.toNat log.done ∧
      κ.st.2.base.lastLine.buf = log.part := by
  obtain ⟨sent, W, ms, log, h1, h2⟩ := world_delivery env maxlen h0 hnew n proc ok (fun i c h => ⟨(hok i c h).2.1, (hok i c h).2.2.1⟩) s tr κ hx hq
  have each : ∀ p, ∃ posts : List HPost, (∀ i r, Ev.ret i r ∈ mirrorEvents proc p tr → hostFailed r = false) ∧
      (W p).map HMsg.post = posts.map HPost.msg ∧ (∀ x ∈ posts, x.acked = true) ∧
        (∀ i, Contrib HostPosts i (eventsBy i (mirrorEvents proc p tr)) (postedBy i posts)) ∧
        ∃ eff ws, (∀ i, Contrib HostAdds i (eventsBy i (mirrorEvents proc p tr)) (eff i)) ∧ Merge ((List.range N).map eff) ws ∧
          ackedText posts ++ (κ.st.1 p).mirror.buf.buf = (s p).mirror.buf.buf ++ ws.flatten := by
    intro p
    obtain ⟨g1, F, κp, g2, g3, g4, g5, g6⟩ := h1 p
    obtain ⟨a1, a2, a3, a4⟩ := hs p
    obtain ⟨-, e0, okl⟩ := new_hb hnew
    have hn : CalmNet { service := h0, fates := F } := ⟨g2, _, by rw [e0]; exact ⟨_, rfl, okl, rfl, (fun j hj => nomatch hj), rfl⟩⟩
    obtain ⟨eff, posts, ws, k1, k2, k3, k4, k5, k6, k7⟩ := calm_threads (N := N) (by
      rintro i c ⟨-, os, hc⟩
      exact ⟨(hok i _ hc).1, (hok i _ hc).2.2.2 c os rfl⟩) ⟨a1, a2⟩ a3 a4 hn g3 g4
    refine ⟨posts, k1, ?_, k2, k4, eff, ws, k3, k6, ?_⟩
    · rw [posts_bodies g1, ← g6, k5]; rfl
    · rw [← g5]; exact k7
  choose posts p1 p2 using each
  refine ⟨posts, W, ms, log, fun i r hir => ?_, p2, h2⟩
  refine p1 (proc i) i r (List.mem_filterMap.2 ⟨_, hir, by simp⟩)

/-! ## An execution -/

/-- Threads 0 and 1 belong to process 0: thread 1 begins to announce the end, then thread 0 writes a text that the mirror holds back; thread 2,
of process 1, writes; thread 1 goes on and sends the text with a line break before the end; then thread 3 reads. -/
def endedWorld : List (Move HSCall) :=
  [.start 0 (.mirror (.write (lit "ab")) []), .start 1 (.mirror .sendEof []), .start 2 (.mirror (.write (lit "x\n")) [])] ++
    (List.replicate 2 (.go 1) ++ List.replicate 22 (.go 0) ++ List.replicate 42 (.go 2) ++ List.replicate 46 (.go 1) ++
      .start 3 (.reader (.read none) []) :: List.replicate 11 (.go 3))

/-- The calls of `C89_delivery_partial`. -/
def keepsWorld (i : Nat) (c : HSCall) : Prop := i < 4 ∧ i / 2 < 2 ∧ HSCall.Peaceful c ∧ ∀ c' os, c = .mirror c' os → HostKeeps c'

/-- The end of `endedWorld`. -/
def endedCheck (p : List (Ev HSCall HSRet) × Conf ((Nat → HMProc) × HostBuf) (Nat × Nat ⊕ HLock) Unit HSCall HSRet) : Bool :=
  (p.2.cur 0).isNone && (p.2.cur 1).isNone && (p.2.cur 2).isNone && (p.2.cur 3).isNone &&
    textsRead (retsBy 3 p.1) == [lit "x", lit "ab"] && textsIn p.2.st.2.base.storage.items == [lit "x", lit "ab"] &&
    (p.2.st.1 0).mirror.buf.buf == []

/-- The hypotheses of `C89_texts_partial` and of `C89_delivery_partial` hold in this execution. -/
example : ∃ h0 tr κ, HostBuf.new 9 = .ok h0 ∧ (∀ _ : Nat, MirrorReady sampleEnv { lock := some 0, made := 1 }) ∧
    Exec (hostWorld sampleEnv (fun i => i / 2) keepsWorld) (init (fun _ => { lock := some 0, made := 1 }, h0) fun _ => ()) tr κ ∧
    (∀ i, κ.cur i = none) ∧ textsRead (retsBy 3 tr) = [lit "x", lit "ab"] ∧ textsIn κ.st.2.base.storage.items = [lit "x", lit "ab"] ∧
    (κ.st.1 0).mirror.buf.buf = [] := by
  have hn : HostBuf.new 9 = .ok (hb { cap := 9 } [(lit "closed", .bool false), (lit "maxlen", .int 9)]) := rfl
  have obs : (moves (hostWorld sampleEnv (fun i => i / 2) keepsWorld) 4 endedWorld
      (init (fun _ => { lock := some 0, made := 1 }, hb { cap := 9 } [(lit "closed", .bool false), (lit "maxlen", .int 9)]) fun _ => ())
      fun l => l.isLeft).any endedCheck = true := by decide +kernel
  obtain ⟨⟨tr, κ⟩, hm, e⟩ := (Option.any_eq_true _ _).1 obs
  simp only [endedCheck, Bool.and_eq_true, Option.isNone_iff_eq_none, beq_iff_eq] at e
  obtain ⟨⟨⟨⟨⟨⟨e0, e1⟩, e2⟩, e3⟩, e4⟩, e5⟩, e6⟩ := e
  refine ⟨_, tr, κ, hn, fun _ => ⟨nofun, rfl, .new false, fun h => nomatch h⟩, moves_sound ?_ (fun _ _ _ => rfl) hm ?_, fun i => ?_, e4, e5, e6⟩
  · intro m hmem i c hc
    subst hc
    simp only [endedWorld, List.mem_append, List.mem_cons, List.mem_replicate, Move.start.injEq, List.not_mem_nil, or_false, reduceCtorEq,
      and_false, false_or] at hmem
    rcases hmem with (⟨rfl, rfl⟩ | ⟨rfl, rfl⟩ | ⟨rfl, rfl⟩) | ⟨rfl, rfl⟩
    · exact ⟨by omega, by omega, rfl, fun c' os h => by cases h; trivial⟩
    · exact ⟨by omega, by omega, rfl, fun c' os h => by cases h; trivial⟩
    · exact ⟨by omega, by omega, rfl, fun c' os h => by cases h; trivial⟩
    · exact ⟨by omega, by omega, trivial, fun c' os h => by cases h⟩
  · intro l hl
    cases l with
    | inl x => trivial
    | inr m => cases hl
  · match i with
    | 0 => exact e0
    | 1 => exact e1
    | 2 => exact e2
    | 3 => exact e3
    | i + 4 => exact moves_idle hm (by omega) rfl

/-- The end of an execution in which thread 0 has written and then thread 1 has closed the mirror of both. -/
def closedCheck (p : List (Ev HSCall HSRet) × Conf ((Nat → HMProc) × HostBuf) (Nat × Nat ⊕ HLock) Unit HSCall HSRet) : Bool :=
  match p.1 with
  | [.inv 0 (.mirror (.write _) []), .ret 0 (.mirror _), .inv 1 (.mirror (.close none) []), .ret 1 (.mirror .unit)] =>
    textsIn p.2.st.2.base.storage.items == [lit "ab"] && (p.2.st.1 0).mirror.buf.closed
  | _ => false

/-- The hypotheses of `C89_close_partial` hold in such an execution. -/
example : ∃ h0 d r κ, MirrorReady sampleEnv { lock := some 0, made := 1 } ∧
    Exec (hostWorld sampleEnv (fun i => i / 2) fun i c => i < 2 ∧ ∀ c' os, c = .mirror c' os → HostKeeps c' ∨ ∃ e, c' = .close e)
      (init (fun _ => { lock := some 0, made := 1 }, h0) fun _ => ())
      ([.inv 0 (.mirror (.write d) []), .ret 0 (.mirror r)] ++ .inv 1 (.mirror (.close none) []) :: [] ++ .ret 1 (.mirror .unit) :: []) κ ∧
    textsIn κ.st.2.base.storage.items = [lit "ab"] ∧ (κ.st.1 0).mirror.buf.closed = true := by
  have obs : (moves (hostWorld sampleEnv (fun i => i / 2) fun i c => i < 2 ∧ ∀ c' os, c = .mirror c' os → HostKeeps c' ∨ ∃ e, c' = .close e) 2
      (.start 0 (.mirror (.write (lit "ab")) []) :: List.replicate 22 (.go 0) ++ .start 1 (.mirror (.close none) []) :: List.replicate 64 (.go 1))
      (init (fun _ => { lock := some 0, made := 1 }, hb { cap := 9 } [(lit "closed", .bool false), (lit "maxlen", .int 9)]) fun _ => ())
      fun l => l.isLeft).any closedCheck = true := by decide +kernel
  obtain ⟨⟨tr, κ⟩, hm, e⟩ := (Option.any_eq_true _ _).1 obs
  unfold closedCheck at e
  split at e
  · rename_i d r htr
    obtain rfl : tr = _ := htr
    simp only [Bool.and_eq_true, beq_iff_eq] at e
    refine ⟨_, d, r, κ, ⟨nofun, rfl, .new false, fun h => nomatch h⟩, moves_sound ?_ (fun _ _ _ => rfl) hm ?_, e.1, e.2⟩
    · intro m hmem i c hc
      subst hc
      simp only [List.mem_append, List.mem_cons, List.mem_replicate, Move.start.injEq, reduceCtorEq, and_false, or_false] at hmem
      rcases hmem with ⟨rfl, rfl⟩ | ⟨rfl, rfl⟩
      · exact ⟨by omega, fun c' os h => by cases h; exact .inl trivial⟩
      · exact ⟨by omega, fun c' os h => by cases h; exact .inr ⟨_, rfl⟩⟩
    · intro l hl
      cases l with
      | inl x => trivial
      | inr m => cases hl
  · cases e

end SyncStream
