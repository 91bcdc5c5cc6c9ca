import Verif.Props.HostSections
import Verif.Props.ProcSections
/-!
# Closing a mirror that threads share (C86)
-/

namespace SyncStream
open Spec LineBuf Conc PFlow HFlow

section
variable {C R α : Type}

theorem asks_split {q q' : Ask C R α} {l l' : List (C × R)} (h : Asks q (l ++ l') q') : ∃ q1, Asks q l q1 ∧ Asks q1 l' q' := by
  induction l generalizing q with
  | nil => exact ⟨_, .nil _, h⟩
  | cons x l ih =>
    cases h with
    | cons c r k _ _ h =>
      obtain ⟨q1, h1, h2⟩ := ih h
      exact ⟨q1, .cons _ _ _ _ _ h1, h2⟩

/-- A list up to the first element for which `p` does not hold. -/
theorem split_first (p : α → Prop) (l : List α) : ∃ a b, l = a ++ b ∧ (∀ x ∈ a, p x) ∧ ∀ x b', b = x :: b' → ¬ p x := by
  induction l with
  | nil => exact ⟨[], [], rfl, nofun, nofun⟩
  | cons y l ih =>
    by_cases h : p y
    · obtain ⟨a, b, rfl, h1, h2⟩ := ih
      exact ⟨y :: a, b, rfl, by simpa [h] using h1, h2⟩
    · exact ⟨[], y :: l, rfl, nofun, fun x b' e => by cases e; exact h⟩

end

/-- The message of `close` (`host.py:194-197`). -/
def hostEndMessage : Option ExcObj → Json
  | none => HMirror.closeMsg
  | some e => HMirror.objMsg (lit "error") (GMsg.new (.exc e))

namespace HFlow

/-! ## Requests that have been processed stay so -/

/-- No request is taken back. -/
def Grows {α : Type} (p : Py HMNet α) : Prop := ∀ s, s.2.sent <+: (p s).2.2.sent

theorem Grows.bind {α β : Type} {p : Py HMNet α} {k : α → Py HMNet β} (h : Grows p) (hk : ∀ a, Grows (k a)) : Grows (p >>= k) := by
  intro s
  have h1 := h s
  rw [Py.bind_apply]
  cases e : p s with
  | mk r t =>
    rw [e] at h1
    cases r with
    | ok a => exact h1.trans (hk a t)
    | error er => exact h1

theorem Grows.pure {α : Type} (a : α) : Grows (pure a : Py HMNet α) := fun _ => List.prefix_refl _
theorem Grows.raise {α : Type} (e : Exc) : Grows (Py.raise e : Py HMNet α) := fun _ => List.prefix_refl _
theorem Grows.gets {α : Type} (f : HMNet → α) : Grows (Py.gets f) := fun _ => List.prefix_refl _
theorem Grows.onBuf {α : Type} (p : Py StringIO α) : Grows (HMirror.onBuf p) := fun _ => List.prefix_refl _
theorem Grows.fail {α : Type} (r : Resp) : Grows (r.fail : Py HMNet α) := by
  unfold Resp.fail
  split <;> exact .raise _
theorem Grows.request (env : HEnv) (r : Req) : Grows (HMirror.request env r) := by
  intro s
  rcases HNet.request_spec env r s.2 with h | ⟨h, _⟩
  · exact ⟨[r], h.symm⟩
  · exact ⟨[], (List.append_nil _).trans h.symm⟩
theorem Grows.expectOk (env : HEnv) (r : Req) : Grows (HMirror.expectOk env r) :=
  .bind (.request env r) fun resp => by
    by_cases h : resp.status < 400
    · simp only [if_pos h]; exact .pure _
    · simp only [if_neg h]; exact .fail _
theorem Grows.sendData (env : HEnv) (d : PyStr) : Grows (HMirror.sendData env d) :=
  .bind (.gets _) fun b => by
    cases b
    · exact .expectOk env _
    · exact .pure _
theorem Grows.askState (env : HEnv) : Grows (askState env) :=
  .bind (.request env _) fun resp => by
    by_cases h : resp.status < 400
    · simp only [if_pos h]
      split
      · exact .raise _
      · split
        · exact .raise _
        · exact .pure _
    · simp only [if_neg h]; exact .fail _
theorem Grows.checkStates (env : HEnv) : Grows (HMirror.checkStates env) :=
  .bind (.gets _) fun b => by
    cases b
    · exact .askState env
    · exact .pure _
theorem Grows.lineDue (env : HEnv) (c : Bool) : Grows (lineDue env c) :=
  .bind (.onBuf _) fun pos => by
    by_cases h : pos > 0
    · simp only [if_pos h]
      cases c
      · exact .bind (.pure _) fun _ => .pure _
      · exact .bind (.checkStates env) fun _ => .pure _
    · simp only [if_neg h]; exact .pure _
theorem Grows.postRest (env : HEnv) (d : PyStr) : Grows (postRest env d) :=
  .bind (.gets _) fun b => by
    cases b
    · simp only [Bool.false_eq_true, if_false]
      split
      · exact .bind (.onBuf _) fun _ => .bind (.onBuf _) fun _ => .bind (.sendData env _) fun _ => .bind (.onBuf _) fun _ =>
          .bind (.onBuf _) fun _ => .pure _
      · split
        · exact .onBuf _
        · exact .pure _
    · exact .bind (.sendData env d) fun _ => .pure _

theorem exec_sent (env : HEnv) (x : HSec) (s : HMNet) : s.2.sent <+: (x.exec env s).2.2.sent := by
  cases x with
  | isClosed => exact List.prefix_refl _
  | ask => exact Grows.askState env s
  | check => exact Grows.checkStates env s
  | due c => exact Grows.lineDue env c s
  | rest d => exact Grows.postRest env d s
  | read => exact List.prefix_refl _
  | clear => exact Grows.bind (.onBuf _) (fun _ => .onBuf _) s
  | flush => exact Grows.onBuf StringIO.flush s
  | post m => exact Grows.expectOk env _ s
  | shut => exact List.prefix_refl _

theorem serves_sent {env : HEnv} {s t : HMNet} {l : List (Nat × HSec × HAns)} (hs : Serves (Acts env) s l t) : s.2.sent <+: t.2.sent := by
  induction hs with
  | nil => exact List.prefix_refl _
  | cons s t u i x a l h1 _ ih =>
    have h1 : x.exec env s = (a, t) := h1
    have := exec_sent env x s
    rw [h1] at this
    exact this.trans ih

/-! ## The moments of `close` -/

/-- As `Out`, with what is still to be done. -/
def OutA (c : Ask HSec HAns HMRet) (Q : List (HSec × HAns) → Ask HSec HAns HMRet → Prop) : Prop :=
  ∀ l c', Asks c l c' → (∀ y ∈ l, AnsOk y) → Q l c'

variable {Q : List (HSec × HAns) → Ask HSec HAns HMRet → Prop} {K : HMRet → Ask HSec HAns HMRet}

theorem OutA.andThen {x : HSec} (h0 : ∀ k, Q [] (.ask x k)) (he : ∀ e b, Q [(x, (.exc e, b))] (.done (.exc e)))
    (hk : ∀ a b, AnsOk (x, (a, b)) → (∀ e, a ≠ .exc e) → OutA (K a) fun l r => Q ((x, (a, b)) :: l) r) : OutA (HSec.andThen x K) Q := by
  intro l c' hl ha
  cases hl with
  | nil => exact h0 _
  | cons _ a _ l _ hl =>
    have h1 := ha _ List.mem_cons_self
    have h2 : ∀ y ∈ l, AnsOk y := fun y hy => ha y (List.mem_cons_of_mem _ hy)
    obtain ⟨a, b⟩ := a
    cases a with
    | exc e =>
      cases hl
      exact he e b
    | _ => exact hk _ b h1 nofun l c' hl h2

/-- If only moments have passed that take nothing away, `close` has failed, or it comes to such a moment, or it comes to `clear`: then the
buffer was empty at some moment, and the message has been posted later. -/
def Closing (m : Json) (l : List (HSec × HAns)) (c : Ask HSec HAns HMRet) : Prop :=
  (∀ y ∈ l, SecOk y.1) → (∃ e, c = .done (.exc e)) ∨ (∃ x k, c = .ask x k ∧ SecOk x) ∨
    ∃ l1 y l2 b, l = l1 ++ y :: (l2 ++ [(.post m, (.unit, b))]) ∧ Flushes y ∧ (l1 ++ y :: l2).flatMap putOf = []

theorem end_closing (g : Bool) (m : Json) (k : Ask HSec HAns HMRet) (K' : HMRet → Ask HSec HAns HMRet) (hk : k = HSec.andThen .clear K') (b0 : Bool) :
    OutA (HSec.sendEnd g m k) fun l c => Closing m ((.isClosed, (.bool false, b0)) :: l) c := by
  have go : ∀ (l : List (HSec × HAns)) x q, SecOk x → Closing m l (.ask x q) := fun l x q h _ => .inr (.inl ⟨x, q, rfl, h⟩)
  have bad : ∀ (l : List (HSec × HAns)) e, Closing m l (.done (.exc e)) := fun l e _ => .inl ⟨e, rfl⟩
  -- what comes after the line has been ended
  have last : ∀ (l1 : List (HSec × HAns)) (y : HSec × HAns), Flushes y → (l1 ++ [y]).flatMap putOf = [] →
      OutA (HSec.andThen (.post m) fun _ => k) fun l c => Closing m (l1 ++ y :: l) c := by
    intro l1 y hy hp
    refine .andThen (fun q => go _ _ _ trivial) (fun e b => bad _ e) fun a b ha hn => ?_
    have ha : a = .unit := by
      rcases (show a = .unit ∨ ∃ e, a = .exc e from ha) with h | ⟨e, h⟩
      · exact h
      · exact absurd h (hn e)
    subst ha hk
    intro l c hl _ hs
    cases hl with
    | nil => exact .inr (.inr ⟨l1, y, [], b, rfl, hy, hp⟩)
    | cons _ a _ l _ _ => exact (hs (.clear, a) (by simp)).elim
  refine .andThen (fun q => go _ _ _ trivial) (fun e b => bad _ e) fun a b ha _ => ?_
  obtain rfl : a = .bool false := ha
  refine .andThen (fun q => go _ _ _ trivial) (fun e b => bad _ e) fun a b1 ha hn => ?_
  rcases (show (∃ g, a = .bool g) ∨ ∃ e, a = .exc e from ha) with ⟨d, rfl⟩ | ⟨e, rfl⟩
  · cases d with
    | false => exact last [(.isClosed, (.bool false, b0)), (.isClosed, (.bool false, b))] _ (.inl ⟨g, b1, rfl⟩) rfl
    | true =>
      refine .andThen (fun q => go _ _ _ trivial) (fun e b => bad _ e) fun a b2 ha hn => ?_
      rcases (show (∃ n, a = .nat n) ∨ ∃ e, a = .exc e from ha) with ⟨n, rfl⟩ | ⟨e, rfl⟩
      · exact last [(.isClosed, (.bool false, b0)), (.isClosed, (.bool false, b)), (.due g, (.bool true, b1))] _ (.inr ⟨n, b2, rfl⟩) rfl
      · exact absurd rfl (hn e)
  · exact absurd rfl (hn e)

theorem close_closing (e : Option ExcObj) : OutA (hostMoments (.close e)) (Closing (hostEndMessage e)) := by
  have go : ∀ (m : Json) (l : List (HSec × HAns)) x q, SecOk x → Closing m l (.ask x q) := fun m l x q h _ => .inr (.inl ⟨x, q, rfl, h⟩)
  cases e with
  | none =>
    refine .andThen (fun q => go _ _ _ _ trivial) (fun e b _ => .inl ⟨e, rfl⟩) fun a b ha _ => ?_
    obtain rfl : a = .bool false := ha
    exact end_closing _ _ _ _ rfl b
  | some e =>
    refine .andThen (fun q => go _ _ _ _ trivial) (fun e b _ => .inl ⟨e, rfl⟩) fun a b ha _ => ?_
    obtain rfl : a = .bool false := ha
    exact end_closing _ _ _ _ rfl b

theorem putsBy_filter (i : Nat) (l : List (Nat × HSec × HAns)) : putsBy i l = (l.filter (·.1 = i)).flatMap fun y => putOf y.2 := by
  induction l with
  | nil => rfl
  | cons y l ih =>
    have e : putsBy i (y :: l) = (if y.1 = i then putOf y.2 else []) ++ putsBy i l := rfl
    rw [e, ih]
    by_cases hy : y.1 = i
    · rw [if_pos hy, List.filter_cons_of_pos (by simpa using hy), List.flatMap_cons]
    · rw [if_neg hy, List.filter_cons_of_neg (by simpa using hy), List.nil_append]

/-- Once the buffer is empty, all that has been added before has been sent. -/
theorem emptied {ag : Bool} {env : HEnv} {s t : HMNet} {A B : List (Nat × HSec × HAns)} {i : Nat} {y : HSec × HAns} (hy : Flushes y)
    (hs : Serves (Acts env) s (A ++ (i, y.1, y.2) :: B) t) (h : Good ag s) (hl : ∀ z ∈ A ++ (i, y.1, y.2) :: B, SecOk z.2.1) :
    ∃ ps, Flow ag s (A ++ (i, y.1, y.2) :: B) t ps ∧ s.1.buf.buf ++ (piecesIn ag A).flatten <+: ackedText ps := by
  obtain ⟨s1, h1, h2⟩ := serves_split hs
  obtain ⟨sA, fA⟩ := h.serves h1 fun z hz => hl z (List.mem_append_left _ hz)
  cases h2 with
  | cons _ s2 _ _ _ _ _ h2 h3 =>
    have h2 : y.1.exec env s1 = (y.2, s2) := h2
    obtain ⟨sy, fy, ey, _⟩ := fA.good.step (env := env) i y.1 (hl (i, y.1, y.2) (by simp))
    rw [h2] at fy ey
    have ey : s2.1.buf.buf = [] := ey hy
    obtain ⟨sB, fB⟩ := fy.good.serves h3 fun z hz => hl z (by simp [hz])
    have f1 := fA.append fy
    refine ⟨sA ++ sy ++ sB, by simpa using f1.append fB, ?_⟩
    have := f1.text
    rw [ey, List.append_nil] at this
    rw [HFlow.ackedText_append, this, HFlow.piecesIn_append, List.flatten_append, ← List.append_assoc, List.append_assoc]
    exact List.prefix_append _ _

end HFlow

/-- **C86** Closing a host mirror that threads share.  A thread calls `close`, and the call does not fail; when it begins, the threads have
made the calls in `tr1`, and until it is over they make the calls in `tr2`; none of these is another `close`, a `clear` or a setter.
Requests may be lost or their answers may.  Then the service has got the message of `close`, and before it, acknowledged, all of the text
that the mirror held back or that any thread has added in `tr1` (`ws`).  The messages before it (`posts`) are those of the calls in `tr1`
and of those that have begun in a part `tr2'` of `tr2`.

Missing: the lock exists; the calls that are excluded. -/
theorem C86_host_partial {env : HEnv} {ok : Nat → HMCall → Prop} {N : Nat} (hok : ∀ i c, ok i c → i < N ∧ (HostKeeps c ∨ ∃ e, c = .close e))
    {s : HMProc × HNet} (hs : HostReady s) (hm : HMReach env s.1.mirror) (he : s.1.mirror.aggressive = true → s.1.mirror.buf.buf = [])
    {tr1 tr2 tr3 : List (Ev HMCall HMRet)} {i : Nat} {e : Option ExcObj} {r : HMRet} {κ : Conc.Conf (HMProc × HNet) Nat Unit HMCall HMRet}
    (hx : Exec (hostMirrorThreads env ok) (init s fun _ => ()) (tr1 ++ .inv i (.close e) :: tr2 ++ .ret i r :: tr3) κ)
    (h2 : ∀ e ∈ tr2, ¬ ofThread i e) (h1 : ∀ j e', Ev.inv j (.close e') ∉ tr1 ++ tr2) (hr : hostFailed r = false) :
    ∃ (eff : Nat → List PyStr) (ws : List PyStr) (posts : List HPost) (tr2' : List (Ev HMCall HMRet)) (rest : List Json),
      (∀ j, Contrib HostAdds j (eventsBy j tr1) (eff j)) ∧ Merge ((List.range N).map eff) ws ∧
      postBodies κ.st.2.sent = postBodies s.2.sent ++ (posts.map HPost.msg ++ hostEndMessage e :: rest) ∧
      tr2' <+: tr2 ∧ (∀ j, Contrib HostPosts j (eventsBy j (tr1 ++ tr2')) (postedBy j posts)) ∧
      s.1.mirror.buf.buf ++ ws.flatten <+: ackedText posts := by
  obtain ⟨h, rest, t, g1, g2, g3, g4, g5⟩ := HMThr.moments_history (fun i c hc => by
    rcases (hok i c hc).2 with h | ⟨e, rfl⟩
    · exact HFlow.covered h
    · trivial) hs.lock hx
  have hN : ∀ y ∈ opsOf h, y.1 < N := fun ⟨j, x, a⟩ hy => by
    have hm : HEvent.op j x a ∈ own j h := by
      unfold own
      exact List.mem_filter.2 ⟨HFlow.mem_ops hy, by simp [HEvent.who]⟩
    obtain ⟨c, hc⟩ := HFlow.run_calls (g3 j) hm
    exact (hok j c (exec_calls_ok hx (g1 ▸ HFlow.mem_seen (List.mem_of_mem_filter hc)))).1
  have hkeeps : ∀ j c, Ev.inv j c ∈ tr1 ++ tr2 → HostKeeps c := fun j c hc => by
    rcases (hok j c (exec_calls_ok hx (by rcases List.mem_append.1 hc with h | h <;> simp [h]))).2 with h | ⟨e', rfl⟩
    · exact h
    · exact absurd hc (h1 j e')
  have hg := HFlow.good_init hs hm he
  obtain ⟨ha, hb, hd, l, o1, o2, rfl, k1, k2, k3, k4, k5, k6⟩ := history_returns (g3 i) g1 h2
  obtain ⟨qm, e1, e2⟩ := HFlow.asClient_asks k5
  obtain rfl : qm = .done r := by
    cases qm with
    | done x => cases e1; rfl
    | ask x k => rw [asClient] at e1; cases e1
  -- up to the first moment that takes something away
  obtain ⟨lP, lR, rfl, hP, hR⟩ := split_first (fun y : HSec × HAns => HFlow.SecOk y.1) l
  obtain ⟨q1, a1, a2⟩ := asks_split e2
  obtain ⟨P, Q, rfl, kP, kQ⟩ := List.filter_eq_append_iff.1 (k4.trans (List.map_append ..) : own i hb = asOps i lP ++ asOps i lR)
  have kP : own i P = asOps i lP := kP
  have keyrun : ∀ j, j ≠ i → ∀ P', P' <+: P → ∃ o' rest', ClientRun (fun _ c => asClient (hostMoments c)) j () (own j (ha ++ P')) o' rest' := by
    rintro j hj P' ⟨P'', rfl⟩
    refine run_prefix (g3 j) (h2 := own j (P'' ++ Q ++ .ret i r :: hd)) ?_
    have e0 : own j [(.inv i (.close e) : HEvent HMCall HMRet HSec HAns)] = [] := own_other (fun h => hj h.symm)
    have e3 : ha ++ .inv i (.close e) :: (P' ++ P'' ++ Q) ++ .ret i r :: hd =
        ha ++ ([.inv i (.close e)] ++ (P' ++ (P'' ++ Q ++ .ret i r :: hd))) := by simp
    rw [e3, own_append, own_append, e0, own_append j P', own_append j ha, List.nil_append]
    exact (List.append_assoc ..).symm
  have hinv : ∀ j c, HEvent.inv j c ∈ ha ++ P → HostKeeps c := fun j c hc => by
    refine hkeeps j c ?_
    rw [← k1, ← k2, ← seen_append, ← List.append_assoc, seen_append]
    exact List.mem_append_left _ (HFlow.mem_seen hc)
  have hsec : ∀ y ∈ opsOf ha ++ opsOf P, HFlow.SecOk y.2.1 := fun ⟨j, x, a⟩ hy => by
    by_cases hj : j = i
    · subst hj
      rcases List.mem_append.1 hy with hy | hy
      · refine k6.within_ops (okc := HostKeeps) (P := HFlow.SecOk) (fun _ c hc => HFlow.within_ok hc)
          (fun c hc => hinv _ c (List.mem_append_left _ (List.mem_of_mem_filter hc))) j x a ?_
        exact List.mem_filter.2 ⟨HFlow.mem_ops hy, by simp [HEvent.who]⟩
      · have : (j, x, a) ∈ opsOf (own j P) := by
          rw [opsOf_own]; exact List.mem_filter.2 ⟨hy, by simp⟩
        rw [kP, opsOf_asOps] at this
        obtain ⟨y, hy', e⟩ := List.mem_map.1 this
        cases e
        exact hP y hy'
    · obtain ⟨o', rest', hj'⟩ := keyrun j hj P (List.prefix_refl _)
      refine hj'.within_ops (okc := HostKeeps) (P := HFlow.SecOk) (fun _ c hc => HFlow.within_ok hc)
          (fun c hc => hinv _ c (List.mem_of_mem_filter hc)) j x a ?_
      refine List.mem_filter.2 ⟨HFlow.mem_ops ?_, by simp [HEvent.who]⟩
      rw [opsOf_append]
      exact hy
  have eops : opsOf (ha ++ .inv i (.close e) :: (P ++ Q) ++ .ret i r :: hd) = (opsOf ha ++ opsOf P) ++ (opsOf Q ++ opsOf hd) := by
    rw [opsOf_append, opsOf_append]
    show opsOf ha ++ opsOf (P ++ Q) ++ opsOf hd = _
    rw [opsOf_append]
    simp
  rw [eops] at g2 hN
  obtain ⟨t1, s1, s2⟩ := serves_split g2
  obtain ⟨ps0, f0⟩ := hg.serves s1 hsec
  have hans : ∀ y ∈ lP, HFlow.AnsOk y := fun y hy => by
    refine f0.ans (i, y.1, y.2) (List.mem_append_right _ (List.mem_of_mem_filter (p := (·.1 = i)) ?_))
    rw [← opsOf_own, kP, opsOf_asOps]
    exact List.mem_map.2 ⟨y, hy, rfl⟩
  -- the call has come to `clear`
  rcases HFlow.close_closing e lP q1 a1 hans hP with ⟨e', rfl⟩ | ⟨x, k, rfl, hx'⟩ | ⟨l1, y, l2, b, rfl, hy, hput⟩
  · cases a2
    cases hr
  · cases a2 with
    | cons _ a _ l _ _ => exact absurd hx' (hR _ _ rfl)
  · have kP' : P.filter (fun e => e.who == i) = asOps i (l1 ++ y :: l2) ++ .op i (.post (hostEndMessage e)) (.unit, b) :: [] := by
      refine kP.trans ?_
      simp [asOps]
    obtain ⟨X, Y, rfl, kX, _⟩ := filter_split kP'
    have kX : own i X = asOps i (l1 ++ y :: l2) := kX
    have eP : opsOf ha ++ opsOf (X ++ .op i (.post (hostEndMessage e)) (.unit, b) :: Y) =
        (opsOf ha ++ opsOf X) ++ (i, .post (hostEndMessage e), (.unit, b)) :: opsOf Y := by
      rw [opsOf_append, List.append_assoc]; rfl
    rw [eP] at s1 hsec f0 hN
    obtain ⟨t2, s3, s4⟩ := serves_split s1
    have hfil : (opsOf X).filter (·.1 = i) = (l1.map fun y => (i, y.1, y.2)) ++ (i, y.1, y.2) :: l2.map fun y => (i, y.1, y.2) := by
      rw [← opsOf_own, kX, opsOf_asOps, List.map_append]; rfl
    obtain ⟨A, B, eX, _, _⟩ := filter_split hfil
    have hsecX : ∀ z ∈ opsOf ha ++ opsOf X, HFlow.SecOk z.2.1 := fun z hz => hsec z (List.mem_append_left _ hz)
    have eX' : opsOf ha ++ opsOf X = (opsOf ha ++ A) ++ (i, y.1, y.2) :: B := by rw [eX]; simp
    obtain ⟨ps, f1, hpre⟩ := HFlow.emptied hy (eX' ▸ s3) hg (eX' ▸ hsecX)
    rw [← eX'] at f1
    cases s4 with
    | cons _ t3 _ _ _ _ _ s5 s6 =>
      have s5 : HSec.exec env (.post (hostEndMessage e)) t2 = ((.unit, b), t3) := s5
      obtain ⟨sp, fp, _, ep⟩ := f1.good.step (env := env) i (.post (hostEndMessage e)) trivial
      rw [s5] at fp ep
      obtain rfl := ep _ rfl rfl
      obtain ⟨more, hmore⟩ := (HFlow.serves_sent s6).trans (HFlow.serves_sent s2)
      refine ⟨fun j => HFlow.piecesBy s.1.mirror.aggressive j (opsOf ha), _, ps, seen X, postBodies more, fun j => ?_,
        HFlow.merge_pieces _ fun y hy => hN y (by simp [hy]), ?_, ?_, fun j => ?_, ?_⟩
      · obtain ⟨o', rest', hj⟩ : ∃ o' rest', ClientRun (fun _ c => asClient (hostMoments c)) j () (own j ha) o' rest' := run_prefix (g3 j) (by
          rw [List.append_assoc, own_append])
        rw [← k1]
        exact (HFlow.contrib_own hj (fun c hc => hinv j c (List.mem_append_left _ hc)) (fun y hy => f0.ans y (by simp [hy])) _).1
      · rw [← g4, ← hmore, HFlow.bodies_append, fp.posts, f1.posts]
        show postBodies s.2.sent ++ _ ++ _ ++ _ = _
        simp [HPost.msg]
      · rw [← k2, seen_append, seen_append, List.append_assoc]
        exact List.prefix_append _ _
      · rw [f1.direct, ← k1, ← seen_append, ← opsOf_append]
        by_cases hj : j = i
        · subst hj
          have e3 : HFlow.putsBy j (opsOf (ha ++ X)) = HFlow.putsBy j (opsOf ha) := by
            rw [opsOf_append, HFlow.putsBy_append, HFlow.putsBy_filter j (opsOf X), ← opsOf_own, kX, opsOf_asOps, List.flatMap_map, hput,
              List.append_nil]
          have e4 : eventsBy j (seen (ha ++ X)) = eventsBy j (seen ha) := by
            rw [← seen_own, own_append, kX, seen_append, seen_asOps, List.append_nil, seen_own]
          rw [e3, e4]
          exact (HFlow.contrib_own k6 (fun c hc => hinv j c (List.mem_append_left _ hc)) (fun y hy => f0.ans y (by simp [hy])) s.1.mirror.aggressive).2
        · obtain ⟨o', rest', hj'⟩ := keyrun j hj X (List.prefix_append _ _)
          exact (HFlow.contrib_own hj' (fun c hc => hinv j c (by
            rcases List.mem_append.1 hc with hc | hc <;> simp [hc])) (fun y hy => f0.ans y (by
            rw [opsOf_append] at hy; exact List.mem_append_left _ hy)) s.1.mirror.aggressive).2
      · rw [HFlow.piecesIn_append, List.flatten_append, ← List.append_assoc] at hpre
        exact (List.prefix_append _ _).trans hpre

/-! ## Process mode -/

/-- The message of `close` (`mproc.py:504-507`). -/
def procEndMessage : Option ExcObj → QMsg
  | none => .close
  | some e => .error (GMsg.new (.exc e))

namespace PFlow

/-- The queue loses only messages at its front and gets only messages at its end. -/
def Runs (q : Nat) (n n' : Net) : Prop := ∃ got sent, got ++ n'.queues q = n.queues q ++ sent

theorem Runs.refl (q : Nat) (n : Net) : Runs q n n := ⟨[], [], by simp⟩

theorem Runs.trans {q : Nat} {a b c : Net} (h1 : Runs q a b) (h2 : Runs q b c) : Runs q a c := by
  obtain ⟨g1, s1, e1⟩ := h1
  obtain ⟨g2, s2, e2⟩ := h2
  exact ⟨g1 ++ g2, s1 ++ s2, by rw [List.append_assoc, e2, ← List.append_assoc, e1, List.append_assoc]⟩

def Queues {σ α : Type} (p : Py (σ × Net) α) : Prop := ∀ q s, Runs q s.2 (p s).2.2

theorem Queues.bind {σ α β : Type} {p : Py (σ × Net) α} {k : α → Py (σ × Net) β} (h : Queues p) (hk : ∀ a, Queues (k a)) : Queues (p >>= k) := by
  intro q s
  have h1 := h q s
  rw [Py.bind_apply]
  cases e : p s with
  | mk r t =>
    rw [e] at h1
    cases r with
    | ok a => exact h1.trans (hk a q t)
    | error er => exact h1

theorem Queues.pure {σ α : Type} (a : α) : Queues (pure a : Py (σ × Net) α) := fun _ _ => .refl _ _
theorem Queues.gets {σ α : Type} (f : σ × Net → α) : Queues (Py.gets f) := fun _ _ => .refl _ _
theorem Queues.onBuf {α : Type} (p : Py StringIO α) : Queues (Mirror.onBuf p) := fun _ _ => .refl _ _
theorem Queues.onBase {α : Type} (p : Py LineBuf α) : Queues (ProcBuf.onBase p) := fun _ _ => .refl _ _

theorem runs_put (q i : Nat) (m : QMsg) (b : Bool) (t : Option Nat) (n : Net) : Runs q n (Net.put i m b t n).2 := by
  have hd : ∀ (r : List Room) (w : Nat), Runs q n { n with room := r, queues := fun j => if j = i then n.queues i ++ [m] else n.queues j, waited := w } := by
    intro r w
    by_cases hq : q = i
    · subst hq
      exact ⟨[], [m], by simp⟩
    · exact ⟨[], [], by simp [hq]⟩
  have hn : ∀ (r : List Room) (w : Nat), Runs q n { n with room := r, waited := w } := fun r w => ⟨[], [], by simp⟩
  unfold Net.put
  dsimp only
  repeat' split
  all_goals first | exact hd _ _ | exact hn _ _

theorem Queues.put (m : QMsg) : Queues (Mirror.put m) := fun q s => runs_put q _ m _ _ s.2
theorem Queues.sendData (d : PyStr) : Queues (Mirror.sendData d) :=
  .bind (.gets _) fun b => by
    cases b
    · exact .put _
    · exact .pure _
theorem Queues.writeRest (d : PyStr) : Queues (writeRest d) :=
  .bind (.gets _) fun b => by
    cases b
    · simp only [Bool.false_eq_true, if_false]
      split
      · exact .bind (.onBuf _) fun _ => .bind (.onBuf _) fun _ => .bind (.sendData _) fun _ => .bind (.onBuf _) fun _ =>
          .bind (.onBuf _) fun _ => .pure _
      · split
        · exact .onBuf _
        · exact .pure _
    · exact .bind (.sendData d) fun _ => .pure _
theorem Queues.get : Queues ProcBuf.get := by
  intro q s
  unfold ProcBuf.get
  cases e : s.2.queues s.1.mirror.queue with
  | nil => exact .refl _ _
  | cons m ms =>
    by_cases hq : q = s.1.mirror.queue
    · subst hq
      exact ⟨[m], [], by simp [e]⟩
    · exact ⟨[], [], by simp [hq]⟩
theorem Queues.checkClose : Queues ProcBuf.checkClose := .bind (fun _ _ => .refl _ _) fun _ => .bind (.gets _) fun _ => .pure _
theorem Queues.receive : Queues ProcBuf.receive :=
  .bind .get fun m => by
    cases m with
    | str d => exact .bind (.onBase _) fun _ => .pure _
    | error m => exact .bind (.onBase _) fun _ => .checkClose
    | warning m => exact .bind (.onBase _) fun _ => .pure _
    | close => exact .checkClose
    | stop => exact .bind (fun _ _ => .refl _ _) fun _ => .pure _
    | other => exact .pure _

theorem exec_runs (q p : Nat) (x : PSec) (s : PShared) : Runs q s.net (x.exec p s).2.net := by
  cases x with
  | mirror x =>
    cases x with
    | isClosed => exact .refl _ _
    | stopped => exact .refl _ _
    | due =>
      show Runs q s.net (MSec.exec .due (s.mirror p, s.net)).2.2
      unfold MSec.exec
      dsimp only
      split
      · exact .refl _ _
      · split <;> exact .refl _ _
    | rest d => exact Queues.writeRest d q (s.mirror p, s.net)
    | read size => cases size <;> exact .refl _ _
    | clear => exact Queues.bind (.onBuf _) (fun _ => .onBuf _) q (s.mirror p, s.net)
    | flush => exact .refl _ _
    | put m => exact Queues.put m q (s.mirror p, s.net)
    | shut => exact .refl _ _
  | receive => exact Queues.receive q (s.main, s.net)
  | stopAll => exact .refl _ _
  | forceStop => exact runs_put q s.main.mirror.queue .stop true none s.net

theorem serves_runs {proc : Nat → Nat} {q : Nat} {s t : PShared} {l : List (Nat × PSec × PRet)} (hs : Serves (Acts proc) s l t) :
    Runs q s.net t.net := by
  induction hs with
  | nil => exact .refl _ _
  | cons s t u i x a l h1 _ ih =>
    have h1 : x.exec (proc i) s = (a, t) := h1
    have := exec_runs q (proc i) x s
    rw [h1] at this
    exact this.trans ih

/-- As `Out`, with what is still to be done. -/
def OutA (c : Ask MSec MRet MRet) (Q : List (MSec × MRet) → Ask MSec MRet MRet → Prop) : Prop :=
  ∀ l c', Asks c l c' → (∀ y ∈ l, AnsOk y) → Q l c'

theorem OutA.andThen {Q : List (MSec × MRet) → Ask MSec MRet MRet → Prop} {K : MRet → Ask MSec MRet MRet} {x : MSec}
    (h0 : ∀ k, Q [] (.ask x k)) (he : ∀ e, Q [(x, .exc e)] (.done (.exc e)))
    (hk : ∀ a, AnsOk (x, a) → (∀ e, a ≠ .exc e) → OutA (K a) fun l r => Q ((x, a) :: l) r) : OutA (MSec.andThen x K) Q := by
  intro l c' hl ha
  cases hl with
  | nil => exact h0 _
  | cons _ a _ l _ hl =>
    have h1 := ha _ List.mem_cons_self
    have h2 : ∀ y ∈ l, AnsOk y := fun y hy => ha y (List.mem_cons_of_mem _ hy)
    cases a with
    | exc e =>
      cases hl
      exact he e
    | _ => exact hk _ h1 nofun l c' hl h2

/-- If only moments have passed that take nothing away, `close` has failed, or it comes to such a moment, or it comes to `clear`: then the
buffer was empty at some moment, and the message has been put into the queue later. -/
def Closing (m : QMsg) (l : List (MSec × MRet)) (c : Ask MSec MRet MRet) : Prop :=
  (∀ y ∈ l, SecOk y.1) → (∃ e, c = .done (.exc e)) ∨ (∃ x k, c = .ask x k ∧ SecOk x) ∨
    ∃ l1 y l2, l = l1 ++ y :: (l2 ++ [(.put m, .unit)]) ∧ Flushes y ∧ (l1 ++ y :: l2).flatMap putOf = []

theorem end_closing (m : QMsg) (k : Ask MSec MRet MRet) (K' : MRet → Ask MSec MRet MRet) (hk : k = MSec.andThen .clear K') :
    OutA (MSec.sendEnd m k) fun l c => Closing m ((.isClosed, .bool false) :: l) c := by
  have go : ∀ (l : List (MSec × MRet)) x q, SecOk x → Closing m l (.ask x q) := fun l x q h _ => .inr (.inl ⟨x, q, rfl, h⟩)
  have bad : ∀ (l : List (MSec × MRet)) e, Closing m l (.done (.exc e)) := fun l e _ => .inl ⟨e, rfl⟩
  -- what comes after the line has been ended
  have last : ∀ (l1 : List (MSec × MRet)) (y : MSec × MRet), Flushes y → (l1 ++ [y]).flatMap putOf = [] →
      OutA (MSec.andThen (.put m) fun _ => k) fun l c => Closing m (l1 ++ y :: l) c := by
    intro l1 y hy hp
    refine .andThen (fun q => go _ _ _ trivial) (fun e => bad _ e) fun a ha hn => ?_
    have ha : a = .unit := by
      rcases (show a = .unit ∨ ∃ e, a = .exc e from ha) with h | ⟨e, h⟩
      · exact h
      · exact absurd h (hn e)
    subst ha hk
    intro l c hl _ hs
    cases hl with
    | nil => exact .inr (.inr ⟨l1, y, [], rfl, hy, hp⟩)
    | cons _ a _ l _ _ => exact (hs (.clear, a) (by simp)).elim
  refine .andThen (fun q => go _ _ _ trivial) (fun e => bad _ e) fun a ha _ => ?_
  obtain rfl : a = .bool false := ha
  refine .andThen (fun q => go _ _ _ trivial) (fun e => bad _ e) fun a ha hn => ?_
  rcases (show a = .unit ∨ ∃ b, a = .bool b from ha) with rfl | ⟨d, rfl⟩
  · exact last [(.isClosed, .bool false), (.isClosed, .bool false)] _ (.inl rfl) rfl
  · cases d with
    | true =>
      intro l c hl _
      cases hl
      exact bad _ _
    | false =>
      refine .andThen (fun q => go _ _ _ trivial) (fun e => bad _ e) fun a ha hn => ?_
      rcases (show (∃ n, a = .nat n) ∨ ∃ e, a = .exc e from ha) with ⟨n, rfl⟩ | ⟨e, rfl⟩
      · exact last [(.isClosed, .bool false), (.isClosed, .bool false), (.due, .bool false)] _ (.inr ⟨n, rfl⟩) rfl
      · exact absurd rfl (hn e)

theorem close_closing (e : Option ExcObj) : OutA (momentsOf (.close e)) (Closing (procEndMessage e)) := by
  have go : ∀ (m : QMsg) (l : List (MSec × MRet)) x q, SecOk x → Closing m l (.ask x q) := fun m l x q h _ => .inr (.inl ⟨x, q, rfl, h⟩)
  cases e with
  | none =>
    refine .andThen (fun q => go _ _ _ _ trivial) (fun e _ => .inl ⟨e, rfl⟩) fun a ha _ => ?_
    obtain rfl : a = .bool false := ha
    exact end_closing _ _ _ rfl
  | some e =>
    refine .andThen (fun q => go _ _ _ _ trivial) (fun e _ => .inl ⟨e, rfl⟩) fun a ha _ => ?_
    obtain rfl : a = .bool false := ha
    exact end_closing _ _ _ rfl

theorem putsBy_filter (i : Nat) (l : List (Nat × PSec × PRet)) : putsBy i l = (l.filter (·.1 = i)).flatMap fun y => pput y.2 := by
  induction l with
  | nil => rfl
  | cons y l ih =>
    have e : putsBy i (y :: l) = (if y.1 = i then pput y.2 else []) ++ putsBy i l := rfl
    rw [e, ih]
    by_cases hy : y.1 = i
    · rw [if_pos hy, List.filter_cons_of_pos (by simpa using hy), List.flatMap_cons]
    · rw [if_neg hy, List.filter_cons_of_neg (by simpa using hy), List.nil_append]

/-- Once the buffer is empty, all that has been added before has been sent. -/
theorem emptied {proc : Nat → Nat} {ag : Nat → Bool} {q : Nat} {s t : PShared} {A B : List (Nat × PSec × PRet)} {i : Nat} {y : MSec × MRet}
    (hy : Flushes y) (hs : Serves (Acts proc) s (A ++ (i, .mirror y.1, .mirror y.2) :: B) t) (h : Good ag q s)
    (hl : ∀ z ∈ A ++ (i, .mirror y.1, .mirror y.2) :: B, PSecOk z.2.1) :
    ∃ sent got, Flow proc ag q s (A ++ (i, .mirror y.1, .mirror y.2) :: B) t sent got ∧
      (s.mirror (proc i)).buf.buf ++ (piecesIn proc ag (proc i) A).flatten <+: textFrom proc (proc i) sent := by
  obtain ⟨s1, h1, h2⟩ := serves_split hs
  obtain ⟨sA, gA, fA⟩ := h.serves h1 fun z hz => hl z (List.mem_append_left _ hz)
  cases h2 with
  | cons _ s2 _ _ _ _ _ h2 h3 =>
    have h2 : PSec.exec (proc i) (.mirror y.1) s1 = (.mirror y.2, s2) := h2
    obtain ⟨sy, gy, fy, ey, _⟩ := fA.good.step (proc := proc) i (.mirror y.1) (hl (i, .mirror y.1, .mirror y.2) (by simp))
    rw [h2] at fy ey
    have ey : (s2.mirror (proc i)).buf.buf = [] := ey y hy rfl rfl
    obtain ⟨sB, gB, fB⟩ := fy.good.serves h3 fun z hz => hl z (by simp [hz])
    have f1 := fA.append fy
    refine ⟨sA ++ sy ++ sB, _, by simpa using f1.append fB, ?_⟩
    have := f1.text (proc i)
    rw [ey, List.append_nil] at this
    rw [PFlow.textFrom_append, this, PFlow.piecesIn_append, List.flatten_append, ← List.append_assoc, List.append_assoc]
    exact List.prefix_append _ _

end PFlow

/-- **C86** Closing the mirror of a process whose threads share it.  A thread calls `close` on the mirror of its process, and the call does
not fail; when it begins, the threads of all processes have made the calls in `tr1`, and until it is over they make the calls in `tr2`;
none of these is another `close`, a `clear`, a `read(size)` or a setter.  Then the message of `close` is in the queue (or has been
received), and before it all of the text that the process held back or that any of its threads has added in `tr1` (`ws`).  The messages
before it (`sent`) are those of the calls in `tr1` and of those that have begun in a part `tr2'` of `tr2`.

Missing: the locks exist; the calls that are excluded. -/
theorem C86_proc_partial {proc : Nat → Nat} {ok : Nat → PCall → Prop} {N k : Nat} {maxlen : Int}
    (hok : ∀ i c, ok i c → i < N ∧ (TakesNothing c ∨ ∃ e, c = .mirror (.close e))) {w : PWorld} (hs : Started maxlen k w.main)
    (hlock : ∀ p, (w.procs p).lock ≠ none) (hop : ∀ p, (w.procs p).mirror.buf.closed = false) (hm : MirrorsOf w)
    {tr1 tr2 tr3 : List (Ev PCall PRet)} {i : Nat} {e : Option ExcObj} {r : PRet} {κ : Conc.Conf PWorld PLock Unit PCall PRet}
    (hx : Exec (procThreads MThr.lazyLock proc ok) (init w fun _ => ()) (tr1 ++ .inv i (.mirror (.close e)) :: tr2 ++ .ret i r :: tr3) κ)
    (h2 : ∀ e ∈ tr2, ¬ ofThread i e) (h1 : ∀ j e', Ev.inv j (.mirror (.close e')) ∉ tr1 ++ tr2) (hr : succeeded r = true) :
    ∃ (eff : Nat → List PyStr) (ws : List PyStr) (sent : List (Nat × Bool × QMsg)) (tr2' : List (Ev PCall PRet)) (got rest : List QMsg),
      (∀ j, Contrib AddsText j (eventsBy j tr1) (eff j)) ∧ Merge (writtenIn proc (proc i) N eff) ws ∧
      got ++ κ.st.net.queues w.main.mirror.queue =
        w.net.queues w.main.mirror.queue ++ (sent.map (·.2.2) ++ procEndMessage e :: rest) ∧
      tr2' <+: tr2 ∧ (∀ j, Contrib PutsMsg j (eventsBy j (tr1 ++ tr2')) (directBy j sent)) ∧
      (w.procs (proc i)).mirror.buf.buf ++ ws.flatten <+: textFrom proc (proc i) sent := by
  obtain ⟨h, rest, t, g1, g2, g3, g4, g5⟩ := PThr.moments_history (fun i c hc => by
    rcases (hok i c hc).2 with h | ⟨e, rfl⟩
    · exact PFlow.hasMoments h
    · trivial) hlock hx
  have hN : ∀ y ∈ opsOf h, y.1 < N := fun ⟨j, x, a⟩ hy => by
    have hm : HEvent.op j x a ∈ own j h := by
      unfold own
      exact List.mem_filter.2 ⟨PFlow.mem_ops hy, by simp [HEvent.who]⟩
    obtain ⟨c, hc⟩ := PFlow.run_calls (g3 j) hm
    exact (hok j c (exec_calls_ok hx (g1 ▸ PFlow.mem_seen (List.mem_of_mem_filter hc)))).1
  have hkeeps : ∀ j c, Ev.inv j c ∈ tr1 ++ tr2 → TakesNothing c := fun j c hc => by
    rcases (hok j c (exec_calls_ok hx (by rcases List.mem_append.1 hc with h | h <;> simp [h]))).2 with h | ⟨e', rfl⟩
    · exact h
    · exact absurd hc (h1 j e')
  have hg := PFlow.good_init hs hop hm
  obtain ⟨ha, hb, hd, l, o1, o2, rfl, k1, k2, k3, k4, k5, k6⟩ := history_returns (g3 i) g1 h2
  -- up to the first moment that takes something away
  obtain ⟨lP, lR, rfl, hP, hR⟩ := split_first (fun y : PSec × PRet => PFlow.PSecOk y.1) l
  obtain ⟨q1, a1, a2⟩ := asks_split k5
  obtain ⟨P, Q, rfl, kP, kQ⟩ := List.filter_eq_append_iff.1 (k4.trans (List.map_append ..) : own i hb = asOps i lP ++ asOps i lR)
  have kP : own i P = asOps i lP := kP
  have keyrun : ∀ j, j ≠ i → ∀ P', P' <+: P → ∃ o' rest', ClientRun (fun _ c => pmoments c) j () (own j (ha ++ P')) o' rest' := by
    rintro j hj P' ⟨P'', rfl⟩
    refine run_prefix (g3 j) (h2 := own j (P'' ++ Q ++ .ret i r :: hd)) ?_
    have e0 : own j [(.inv i (.mirror (.close e)) : HEvent PCall PRet PSec PRet)] = [] := own_other (fun h => hj h.symm)
    have e3 : ha ++ .inv i (.mirror (.close e)) :: (P' ++ P'' ++ Q) ++ .ret i r :: hd =
        ha ++ ([.inv i (.mirror (.close e))] ++ (P' ++ (P'' ++ Q ++ .ret i r :: hd))) := by simp
    rw [e3, own_append, own_append, e0, own_append j P', own_append j ha, List.nil_append]
    exact (List.append_assoc ..).symm
  have hinv : ∀ j c, HEvent.inv j c ∈ ha ++ P → TakesNothing c := fun j c hc => by
    refine hkeeps j c ?_
    rw [← k1, ← k2, ← seen_append, ← List.append_assoc, seen_append]
    exact List.mem_append_left _ (PFlow.mem_seen hc)
  have hsec : ∀ y ∈ opsOf ha ++ opsOf P, PFlow.PSecOk y.2.1 := fun ⟨j, x, a⟩ hy => by
    by_cases hj : j = i
    · subst hj
      rcases List.mem_append.1 hy with hy | hy
      · refine k6.within_ops (okc := TakesNothing) (P := PFlow.PSecOk) (fun _ c hc => PFlow.within_ok hc)
          (fun c hc => hinv _ c (List.mem_append_left _ (List.mem_of_mem_filter hc))) j x a ?_
        exact List.mem_filter.2 ⟨PFlow.mem_ops hy, by simp [HEvent.who]⟩
      · have : (j, x, a) ∈ opsOf (own j P) := by
          rw [opsOf_own]; exact List.mem_filter.2 ⟨hy, by simp⟩
        rw [kP, opsOf_asOps] at this
        obtain ⟨y, hy', e⟩ := List.mem_map.1 this
        cases e
        exact hP y hy'
    · obtain ⟨o', rest', hj'⟩ := keyrun j hj P (List.prefix_refl _)
      refine hj'.within_ops (okc := TakesNothing) (P := PFlow.PSecOk) (fun _ c hc => PFlow.within_ok hc)
          (fun c hc => hinv _ c (List.mem_of_mem_filter hc)) j x a ?_
      refine List.mem_filter.2 ⟨PFlow.mem_ops ?_, by simp [HEvent.who]⟩
      rw [opsOf_append]
      exact hy
  have eops : opsOf (ha ++ .inv i (.mirror (.close e)) :: (P ++ Q) ++ .ret i r :: hd) = (opsOf ha ++ opsOf P) ++ (opsOf Q ++ opsOf hd) := by
    rw [opsOf_append, opsOf_append]
    show opsOf ha ++ opsOf (P ++ Q) ++ opsOf hd = _
    rw [opsOf_append]
    simp
  rw [eops] at g2 hN
  obtain ⟨t1, s1, s2⟩ := serves_split g2
  obtain ⟨ps0, got0, f0⟩ := hg.serves s1 hsec
  have hans : ∀ y ∈ lP, PFlow.PAns y := fun y hy => by
    refine f0.ans (i, y.1, y.2) (List.mem_append_right _ (List.mem_of_mem_filter (p := (·.1 = i)) ?_))
    rw [← opsOf_own, kP, opsOf_asOps]
    exact List.mem_map.2 ⟨y, hy, rfl⟩
  obtain ⟨lm, qm, rfl, rfl, e2, e3⟩ := PFlow.inProc_asks a1 hans
  -- the call has come to `clear`
  rcases PFlow.close_closing e lm qm e2 e3 (fun y hy => hP (.mirror y.1, .mirror y.2) (List.mem_map.2 ⟨y, hy, rfl⟩)) with
    ⟨e', rfl⟩ | ⟨x, k, rfl, hx'⟩ | ⟨l1, y, l2, rfl, hy, hput⟩
  · rw [inProc] at a2
    cases a2
    cases hr
  · rw [inProc] at a2
    cases a2 with
    | cons _ a _ l _ _ => exact absurd hx' (hR _ _ rfl)
  · have kP' : P.filter (fun e => e.who == i) = asOps i ((l1 ++ y :: l2).map fun y => (.mirror y.1, .mirror y.2)) ++
        .op i (.mirror (.put (procEndMessage e))) (.mirror .unit) :: [] := by
      refine kP.trans ?_
      simp [asOps]
    obtain ⟨X, Y, rfl, kX, _⟩ := filter_split kP'
    have kX : own i X = asOps i ((l1 ++ y :: l2).map fun y => (.mirror y.1, .mirror y.2)) := kX
    have eP : opsOf ha ++ opsOf (X ++ .op i (.mirror (.put (procEndMessage e))) (.mirror .unit) :: Y) =
        (opsOf ha ++ opsOf X) ++ (i, .mirror (.put (procEndMessage e)), .mirror .unit) :: opsOf Y := by
      rw [opsOf_append, List.append_assoc]; rfl
    rw [eP] at s1 hsec f0 hN
    obtain ⟨t2, s3, s4⟩ := serves_split s1
    have hfil : (opsOf X).filter (·.1 = i) = (l1.map fun y => (i, .mirror y.1, .mirror y.2)) ++ (i, .mirror y.1, .mirror y.2) ::
        l2.map fun y => (i, .mirror y.1, .mirror y.2) := by
      rw [← opsOf_own, kX, opsOf_asOps, List.map_map, List.map_append]
      rfl
    obtain ⟨A, B, eX, _, _⟩ := filter_split hfil
    have hsecX : ∀ z ∈ opsOf ha ++ opsOf X, PFlow.PSecOk z.2.1 := fun z hz => hsec z (List.mem_append_left _ hz)
    have eX' : opsOf ha ++ opsOf X = (opsOf ha ++ A) ++ (i, .mirror y.1, .mirror y.2) :: B := by rw [eX]; simp
    obtain ⟨ps, got, f1, hpre⟩ := PFlow.emptied hy (eX' ▸ s3) hg (eX' ▸ hsecX)
    rw [← eX'] at f1
    cases s4 with
    | cons _ t3 _ _ _ _ _ s5 s6 =>
      have s5 : PSec.exec (proc i) (.mirror (.put (procEndMessage e))) t2 = (.mirror .unit, t3) := s5
      obtain ⟨sp, gp, fp, _, ep⟩ := f1.good.step (proc := proc) i (.mirror (.put (procEndMessage e))) trivial
      rw [s5] at fp ep
      obtain rfl := ep _ rfl rfl
      obtain ⟨got', more, hmore⟩ := (PFlow.serves_runs (q := w.main.mirror.queue) s6).trans (PFlow.serves_runs s2)
      refine ⟨fun j => PFlow.piecesBy proc (fun p => (w.procs p).mirror.aggressive) j (opsOf ha), _, ps, seen X, got ++ (gp ++ got'), more, fun j => ?_,
        PFlow.merge_pieces _ _ fun y hy => hN y (by simp [hy]), ?_, ?_, fun j => ?_, ?_⟩
      · obtain ⟨o', rest', hj⟩ : ∃ o' rest', ClientRun (fun _ c => pmoments c) j () (own j ha) o' rest' := run_prefix (g3 j) (by
          rw [List.append_assoc, own_append])
        rw [← k1]
        exact (PFlow.contrib_own hj (fun c hc => hinv j c (List.mem_append_left _ hc)) (fun y hy => f0.ans y (by simp [hy]))).1
      · have q1 := f1.queue
        have q2 := fp.queue
        rw [← g4, List.append_assoc, List.append_assoc, hmore, ← List.append_assoc gp, q2, ← List.append_assoc, ← List.append_assoc, q1]
        show w.net.queues w.main.mirror.queue ++ _ ++ _ ++ _ = _
        simp
      · rw [← k2, seen_append, seen_append, List.append_assoc]
        exact List.prefix_append _ _
      · rw [f1.direct, ← k1, ← seen_append, ← opsOf_append]
        by_cases hj : j = i
        · subst hj
          have e3 : PFlow.putsBy j (opsOf (ha ++ X)) = PFlow.putsBy j (opsOf ha) := by
            rw [opsOf_append, PFlow.putsBy_append, PFlow.putsBy_filter j (opsOf X), ← opsOf_own, kX, opsOf_asOps, List.flatMap_map,
              List.flatMap_map]
            show _ ++ (l1 ++ y :: l2).flatMap PFlow.putOf = _
            rw [hput, List.append_nil]
          have e4 : eventsBy j (seen (ha ++ X)) = eventsBy j (seen ha) := by
            rw [← seen_own, own_append, kX, seen_append, seen_asOps, List.append_nil, seen_own]
          rw [e3, e4]
          exact (PFlow.contrib_own (proc := proc) (ag := fun p => (w.procs p).mirror.aggressive) k6
            (fun c hc => hinv j c (List.mem_append_left _ hc)) (fun y hy => f0.ans y (by simp [hy]))).2
        · obtain ⟨o', rest', hj'⟩ := keyrun j hj X (List.prefix_append _ _)
          exact (PFlow.contrib_own (proc := proc) (ag := fun p => (w.procs p).mirror.aggressive) hj' (fun c hc => hinv j c (by
            rcases List.mem_append.1 hc with hc | hc <;> simp [hc])) (fun y hy => f0.ans y (by
            rw [opsOf_append] at hy; exact List.mem_append_left _ hy))).2
      · rw [PFlow.piecesIn_append, List.flatten_append, ← List.append_assoc] at hpre
        exact (List.prefix_append _ _).trans hpre

/-! ## Examples -/

/-- Thread 1 has written `"b"`; thread 0 calls `close()`, which sends the line; before it empties the buffer, thread 1 writes `"c"`.  The
text written before the call is in front of the end; `"c"`, written during the call, is lost. -/
example : leaves (.start 1 (.mirror (.write (lit "b"))) :: List.replicate 16 (.go 1) ++ .start 0 (.mirror (.close none)) ::
    List.replicate 30 (.go 0) ++ .start 1 (.mirror (.write (lit "c"))) :: List.replicate 16 (.go 1) ++ List.replicate 13 (.go 0)) 6
    [some (lit "b\n"), none] [] = true := by
  decide +kernel

/-- The same in host mode. -/
example : hostLeaves (.start 1 (.write (lit "b")) :: List.replicate 18 (.go 1) ++ .start 0 (.close none) :: List.replicate 32 (.go 0) ++
    .start 1 (.write (lit "c")) :: List.replicate 18 (.go 1) ++ List.replicate 13 (.go 0)) 6 [some (lit "b\n"), none] [] = true := by
  decide +kernel

end SyncStream
