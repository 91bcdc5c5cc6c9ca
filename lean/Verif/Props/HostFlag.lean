import Verif.Lemmas.HostFlag
import Verif.Props.HostSystem
/-!
# Property C77: stopping and resuming the mirrors, in the host mode as a whole
-/

namespace SyncStream
open Spec LineBuf HostBuf Conc

/-- A call that sets the flag for sure, and a later write: in the history, the write is between the same events, and all operations between the
one that sets the flag and the end of the write leave the flag as it is. -/
theorem flag_history {C' : Type} {cl : HMirror → C' → Ask HOp HRet (HSRet × HMirror)} {sets : C' → Option Bool} {okc : C' → Prop}
    (flags : ∀ m c, okc c → (cl m c).Within fun o => o.Usual ∧ (o.sets = none ∨ o.sets = sets c))
    {env : HEnv} {h0 t : HostBuf} {obj obj' : Nat → HMirror} {h : List (HEvent C' HSRet HOp HRet)}
    {rest : Nat → Option (C' × Ask HOp HRet (HSRet × HMirror))} (hs : Serves (AtOnce env) h0 (opsOf h) t)
    (hr : ∀ i, ClientRun cl i (obj i) (own i h) (obj' i) (rest i)) (hokc : ∀ i c, HEvent.inv i c ∈ h → okc c) {v : Bool}
    {i j : Nat} {c w : C'} {r r' : HSRet} {a b d e f : List (Ev C' HSRet)}
    (hsure : ∀ m l m', Asks (cl m c) l (.done (r, m')) → ∃ x ∈ l, x.1.sets = some v)
    (htr : seen h = a ++ .inv i c :: b ++ .ret i r :: d ++ .inv j w :: e ++ .ret j r' :: f)
    (hb : ∀ x ∈ b, ¬ ofThread i x) (he : ∀ x ∈ e, ¬ ofThread j x)
    (hover : Over (fun c' => sets c' = some (!v)) a (a ++ .inv i c :: b ++ .ret i r :: d ++ .inv j w :: e)) :
    ∃ p q g l m1 m2, h = p ++ .inv j w :: q ++ .ret j r' :: g ∧ seen p = a ++ .inv i c :: b ++ .ret i r :: d ∧ seen q = e ∧
      own j q = asOps j l ∧ Asks (cl m1 w) l (.done (r', m2)) ∧ ClientRun cl j (obj j) (own j p) m1 none ∧
      ∀ q1 q2, q = q1 ++ q2 → ∃ s, Serves (AtOnce env) h0 (opsOf (p ++ .inv j w :: q1)) s ∧
        Serves (AtOnce env) s (opsOf (q2 ++ .ret j r' :: g)) t ∧ s.flag = .bool v := by
  obtain ⟨p, q, g, l, m1, m2, rfl, h1, h2, h3, h4, h5, h6⟩ := history_returns (hr j)
    (a := a ++ .inv i c :: b ++ .ret i r :: d) (b := e) (c := w) (r := r') (d := f) htr he
  refine ⟨p, q, g, l, m1, m2, rfl, h1, h2, h4, h5, h6, ?_⟩
  obtain ⟨p', q', g', l', n1, n2, e', k1, k2, k3, k4, k5, -⟩ := history_returns (hr i)
    (a := a) (b := b) (c := c) (r := r) (d := d ++ .inv j w :: e ++ .ret j r' :: f) (by rw [htr]; simp) hb
  obtain ⟨z, rfl, hz⟩ := begin_le (h1 := p' ++ .inv i c :: q') (h2 := g') (k1 := p) (k2 := .inv j w :: q ++ .ret j r' :: g) (j := i) (r := r) (d := d)
    (by rw [← e']; simp) (by rw [h1, seen_append, k1]; simp [seen, k2])
  obtain ⟨⟨o, y⟩, ho, hov⟩ := hsure n1 l' n2 k5
  have hm : HEvent.op i o y ∈ own i q' := by rw [k4]; exact List.mem_map.2 ⟨_, ho, rfl⟩
  obtain ⟨x1, x2, rfl⟩ := List.append_of_mem (List.mem_of_mem_filter hm)
  intro q1 q2 hq
  subst hq
  have eh : p' ++ .inv i c :: (x1 ++ .op i o y :: x2) ++ .ret i r :: z ++ .inv j w :: (q1 ++ q2) ++ .ret j r' :: g =
      (p' ++ .inv i c :: (x1 ++ .op i o y :: x2) ++ .ret i r :: z ++ .inv j w :: q1) ++ (q2 ++ .ret j r' :: g) := by simp
  rw [eh, opsOf_append] at hs
  obtain ⟨s, s1, s2⟩ := hs.split
  refine ⟨s, s1, s2, ?_⟩
  have usual : ∀ k o' y', (∃ X Y, p' ++ .inv i c :: (x1 ++ .op i o y :: x2) ++ .ret i r :: z ++ .inv j w :: (q1 ++ q2) ++ .ret j r' :: g = X ++ .op k o' y' :: Y) →
      o'.Usual := by
    rintro k o' y' ⟨X, Y, e⟩
    obtain ⟨X1, c', X2, l, n, l', p, eX, -, hA⟩ := op_call (e ▸ hr k)
    exact (asks_within hA (flags n c' (hokc k c' (by rw [e, eX]; simp))) (o', y') (by simp)).1
  have mid : ∀ k o' y' Z1 Z2, x2 ++ .ret i r :: z ++ .inv j w :: q1 = Z1 ++ .op k o' y' :: Z2 → o'.sets ≠ some (!v) := by
    intro k o' y' Z1 Z2 e hset
    have e1 : p' ++ .inv i c :: (x1 ++ .op i o y :: x2) ++ .ret i r :: z ++ .inv j w :: (q1 ++ q2) ++ .ret j r' :: g =
        (p' ++ .inv i c :: (x1 ++ .op i o y :: Z1)) ++ .op k o' y' :: (Z2 ++ (q2 ++ .ret j r' :: g)) := by
      have := congrArg (fun x => p' ++ .inv i c :: (x1 ++ .op i o y :: x) ++ (q2 ++ .ret j r' :: g)) e
      simpa using this
    obtain ⟨X1, c', X2, l, n, l', p, eX, hX, hA⟩ := op_call (e1 ▸ hr k)
    have hc' := (asks_within hA (flags n c' (hokc k c' (by rw [e1, eX]; simp))) (o', y') (by simp)).2
    have hc2 : sets c' = some (!v) := by
      rcases hc' with h | h
      · rw [hset] at h; cases h
      · rw [← h]; exact hset
    have e2 := congrArg seen eX
    rw [seen_append, seen_append, k1] at e2
    have e3 : seen (x1 ++ .op i o y :: (Z1 ++ .op k o' y' :: Z2)) = b ++ .ret i r :: d ++ .inv j w :: seen q1 := by
      rw [← e, ← k2, ← hz]; simp [seen_append, seen]
    obtain ⟨y1, r'', y2, ea⟩ := hover (seen X1) k c' (seen X2 ++ seen Z2 ++ seen q2) (by
      have f1 : a ++ .inv i c :: (seen x1 ++ seen Z1) = seen X1 ++ .inv k c' :: seen X2 := by
        simpa [seen, seen_append] using e2
      have f2 : seen x1 ++ (seen Z1 ++ seen Z2) = b ++ .ret i r :: d ++ .inv j w :: seen q1 := by
        simpa [seen, seen_append] using e3
      calc _ = a ++ .inv i c :: (b ++ .ret i r :: d ++ .inv j w :: seen q1) ++ seen q2 := by rw [← h2, seen_append]; simp
        _ = (a ++ .inv i c :: (seen x1 ++ seen Z1)) ++ (seen Z2 ++ seen q2) := by rw [← f2]; simp
        _ = _ := by rw [f1]; simp) hc2
    have f1 : a ++ .inv i c :: (seen x1 ++ seen Z1) = seen X1 ++ .inv k c' :: seen X2 := by
      simpa [seen, seen_append] using e2
    rw [ea] at f1
    have f2 : y1 ++ .ret k r'' :: y2 ++ .inv i c :: (seen x1 ++ seen Z1) = seen X2 := by
      have f3 : seen X1 ++ .inv k c' :: (y1 ++ .ret k r'' :: y2 ++ .inv i c :: (seen x1 ++ seen Z1)) = seen X1 ++ .inv k c' :: seen X2 := by
        rw [← f1]; simp
      exact (List.cons_eq_cons.1 (List.append_cancel_left f3)).2
    exact hX (.ret k r'') (by rw [← f2]; simp) rfl
  have es : opsOf (p' ++ .inv i c :: (x1 ++ .op i o y :: x2) ++ .ret i r :: z ++ .inv j w :: q1) =
      opsOf (p' ++ .inv i c :: x1) ++ (i, o, y) :: opsOf (x2 ++ .ret i r :: z ++ .inv j w :: q1) := by
    simp [opsOf_append, opsOf]
  rw [es] at s1
  obtain ⟨s3, -, s4⟩ := s1.split
  cases s4 with
  | cons _ s5 _ _ _ _ _ s6 s7 =>
  refine flag_serves s7 ?_ ?_
  · rintro ⟨k, o', y'⟩ hx
    obtain ⟨Z1, Z2, eZ⟩ := List.append_of_mem (mem_opsOf hx)
    refine ⟨usual k o' y' ⟨p' ++ .inv i c :: (x1 ++ .op i o y :: Z1), Z2 ++ (q2 ++ .ret j r' :: g), ?_⟩, mid k o' y' Z1 Z2 eZ⟩
    have := congrArg (fun x => p' ++ .inv i c :: (x1 ++ .op i o y :: x) ++ (q2 ++ .ret j r' :: g)) eZ
    simpa using this
  · rw [s6.2]
    exact (flag_step (usual i o y ⟨p' ++ .inv i c :: x1, x2 ++ .ret i r :: z ++ .inv j w :: (q1 ++ q2) ++ .ret j r' :: g, by simp⟩) s3).2 v hov

theorem sent_bind {α β : Type} (p : Ask Req (Except Exc Resp) α) (g : α → Ask Req (Except Exc Resp) β) :
    (p.bind g).sent [] = (p.sent []).bind fun a => (g a).sent [] := by
  induction p with
  | done a => rfl
  | ask c k ih => exact congrArg _ (funext fun x => ih _)

/-- `__write` of an open mirror: the question first. -/
theorem writeCore_asks (m : HMirror) (x : PyStr) (hc : m.buf.closed = false) : HMAsk.writeCore x true m =
    .ask (.stateGet (some (lit "closed"))) fun y => Ask.bind (match y with | .ok r => HMAsk.checkAnswer r m | .error e => .done (.error e, m)) fun z =>
      match z.1 with | .ok _ => HMAsk.writeCore x false z.2 | .error e => .done (.error e, z.2) := by
  have e : HMAsk.checkStates m = .ask (.stateGet (some (lit "closed"))) fun y => match y with | .ok r => HMAsk.checkAnswer r m | .error e => .done (.error e, m) := by
    show (if m.buf.closed then (return () : HMAsk Unit) else do let resp ← HMAsk.request (.stateGet (some (lit "closed"))); HMAsk.checkAnswer resp) m = _
    rw [hc]
    exact congrArg _ (funext fun y => by cases y <;> rfl)
  have e2 : HMAsk.writeCore x true m = (HMAsk.checkStates m).bind fun z => match z.1 with | .ok _ => HMAsk.writeCore x false z.2 | .error e => .done (.error e, z.2) :=
    congrArg (HMAsk.checkStates m).bind (funext fun z => by obtain ⟨r, m⟩ := z; cases r <;> rfl)
  rw [e2, e]
  rfl

/-- A write with its requests answered: a closed mirror asks nothing; otherwise it asks for the flag first. -/
theorem write_asks {m1 m2 : HMirror} {x : PyStr} {l : List (HOp × HRet)} {r : HSRet}
    (h : Asks (hostClient m1 (.mirror (.write x) [])) l (.done (r, m2))) :
    (l = [] ∧ m1.buf.closed = true ∧ r = .mirror (.exc .osError)) ∨
    ∃ y l', m1.buf.closed = false ∧ l = (.req (.stateGet (some (lit "closed"))), y) :: l' ∧
      (y = found (.bool true) → l' = [] ∧ r = .mirror (.exc .stopIteration) ∧ m2 = m1) ∧
      (y = found (.bool false) → ∃ z, Asks ((HMAsk.writeCore x false m1).sent []) l' (.done z) ∧ r = .mirror (HMRet.of .nat z.1)) := by
  obtain ⟨a, h1, h2⟩ := asks_bind_done _ _ h
  cases h2
  have e : HMAsk.exec (.write x) m1 = Ask.bind (HMAsk.write x m1) fun z => .done (HMRet.of .nat z.1, z.2) := rfl
  rw [e, sent_bind] at h1
  obtain ⟨z, h3, h4⟩ := asks_bind_done _ _ h1
  cases h4
  have e1 : HMAsk.write x m1 = (if !!m1.buf.closed then (HMAsk.raise .osError : HMAsk Nat) else HMAsk.writeCore x true) m1 := rfl
  cases hc : m1.buf.closed with
  | true =>
    rw [e1, hc] at h3
    cases h3
    exact .inl ⟨rfl, rfl, rfl⟩
  | false =>
    rw [e1, hc] at h3
    have e2 : (if !!false then (HMAsk.raise .osError : HMAsk Nat) else HMAsk.writeCore x true) m1 = HMAsk.writeCore x true m1 := rfl
    rw [e2, writeCore_asks m1 x hc] at h3
    cases h3 with
    | cons _ y _ l' _ h5 =>
    refine .inr ⟨y, l', rfl, rfl, ?_, ?_⟩
    · rintro rfl
      cases h5
      exact ⟨rfl, rfl, rfl⟩
    · rintro rfl
      exact ⟨z, h5, rfl⟩

theorem goes_sent {α : Type} (p : Ask Req (Except Exc Resp) (Except Exc α × HMirror)) : Goes p → ∀ {l : List (HOp × HRet)} {a : Except Exc α × HMirror},
    Asks (p.sent []) l (.done a) → a.1 ≠ .error .stopIteration := by
  induction p with
  | done a => intro h l a' h1; cases h1; exact h
  | ask r k ih =>
    intro h l a h1
    have e : (Ask.ask r k).sent [] = .ask (.req r.wire) fun x => (k x.received).sent [] := rfl
    rw [e] at h1
    cases h1 with
    | cons _ y _ l _ h2 =>
    refine ih _ (h _ ?_) h2
    cases y with
    | resp => exact nofun
    | «local» => exact nofun

/-! ## Mirrors that have not been closed -/

/-- Whatever happens, the mirror is still open at the end. -/
def StaysOpen {α : Type} : Ask Req (Except Exc Resp) (α × HMirror) → Prop
  | .done a => a.2.buf.closed = false
  | .ask _ k => ∀ x, StaysOpen (k x)

namespace HMAsk
variable {α β : Type}

/-- The method does not close an open mirror. -/
def Opens (p : HMAsk α) : Prop := ∀ m, m.buf.closed = false → StaysOpen (p m)

theorem Opens.pure (a : α) : Opens (pure a) := fun _ h => h
theorem Opens.raise (e : Exc) : Opens (raise e : HMAsk α) := fun _ h => h
theorem Opens.gets (f : HMirror → α) : Opens (gets f) := fun _ h => h
theorem Opens.request (r : Req) : Opens (request r) := fun _ h _ => h
theorem Opens.onBuf {p : Py StringIO α} (hp : ∀ s, (p s).2.closed = s.closed) : Opens (onBuf p) := fun _ h => (hp _).trans h

theorem open_bind {p : Ask Req (Except Exc Resp) (α × HMirror)} {g : α × HMirror → Ask Req (Except Exc Resp) (β × HMirror)}
    (hp : StaysOpen p) (hg : ∀ a, a.2.buf.closed = false → StaysOpen (g a)) : StaysOpen (p.bind g) := by
  induction p with
  | done a => exact hg a hp
  | ask c k ih => exact fun x => ih x (hp x)

theorem Opens.bind {p : HMAsk α} {g : α → HMAsk β} (h : Opens p) (hg : ∀ a, Opens (g a)) : Opens (p >>= g) := fun m hm =>
  open_bind (h m hm) fun x hx => by
    obtain ⟨r, m'⟩ := x
    cases r with
    | ok a => exact hg a m' hx
    | error e => exact hx

theorem Opens.ite {c : Prop} [Decidable c] {p q : HMAsk α} (h1 : Opens p) (h2 : Opens q) : Opens (if c then p else q) := by
  by_cases h : c
  · rw [if_pos h]; exact h1
  · rw [if_neg h]; exact h2

theorem io_closed (s : StringIO) : (∀ d, (StringIO.write d s).2.closed = s.closed) ∧ (StringIO.getvalue s).2.closed = s.closed ∧
    (StringIO.seek0 s).2.closed = s.closed ∧ (StringIO.truncate0 s).2.closed = s.closed ∧ (StringIO.tell s).2.closed = s.closed ∧
    (StringIO.flush s).2.closed = s.closed := by
  refine ⟨fun d => ?_, ?_⟩
  · cases hc : s.closed <;> by_cases hd : d = [] <;> simp [StringIO.write, StringIO.check, Py.bind_apply, hc, hd, Py.modify]
  · cases hc : s.closed <;> simp [StringIO.getvalue, StringIO.seek0, StringIO.truncate0, StringIO.tell, StringIO.flush, StringIO.check, Py.bind_apply, hc, Py.gets, Py.modify]

theorem opens_fail (r : Resp) : Opens (fail r : HMAsk α) := by
  unfold fail
  cases r.body <;> exact .raise _

theorem opens_expectOk (r : Req) : Opens (expectOk r) := .bind (.request _) fun _ => .ite (.pure _) (opens_fail _)

theorem opens_sendData (d : PyStr) : Opens (sendData d) := .bind (.gets _) fun _ => .ite (.pure _) (opens_expectOk _)

theorem opens_checkStates : Opens checkStates := by
  refine .bind (.gets _) fun _ => .ite (.pure _) (.bind (.request _) fun r => .ite ?_ (opens_fail _))
  cases r.body with
  | none => exact .raise _
  | some j =>
    dsimp only
    generalize j.get (lit "data") .null = x
    cases x with
    | bool b => cases b <;> first | exact .raise _ | exact .pure _
    | _ => exact .pure _

theorem opens_writeCore (d : PyStr) (check : Bool) : Opens (writeCore d check) :=
  .bind (.ite opens_checkStates (.pure _)) fun _ => .bind (.gets _) fun _ =>
    .ite (.bind (opens_sendData d) fun _ => .pure _)
      (.ite (.bind (.onBuf fun s => (io_closed s).1 d) fun _ => .bind (.onBuf fun s => (io_closed s).2.1) fun _ => .bind (opens_sendData _) fun _ =>
        .bind (.onBuf fun s => (io_closed s).2.2.1) fun _ => .bind (.onBuf fun s => (io_closed s).2.2.2.1) fun _ => .pure _)
        (.ite (.onBuf fun s => (io_closed s).1 d) (.pure _)))

theorem opens_newLine (check : Bool) : Opens (newLine check) :=
  .bind (.onBuf fun s => (io_closed s).2.2.2.2.1) fun _ => .ite (.bind (opens_writeCore _ _) fun _ => .pure _) (.pure _)

theorem opens_sendEnd (check : Bool) (j : Json) : Opens (sendEnd check j) :=
  .bind (.gets _) fun _ => .ite (.pure _) (.bind (opens_newLine check) fun _ => opens_expectOk _)

theorem opens_clear : Opens clear := .bind (.onBuf fun s => (io_closed s).2.2.1) fun _ => .onBuf fun s => (io_closed s).2.2.2.1

theorem Opens.result {p : HMAsk α} (h : Opens p) (f : α → HMRet) (m : HMirror) (hm : m.buf.closed = false) : StaysOpen (result f p m) :=
  open_bind (h m hm) fun _ h => h

theorem exec_opens (c : HMCall) (hc : ∀ e, c ≠ .close e) (m : HMirror) (hm : m.buf.closed = false) : StaysOpen (exec c m) := by
  cases c with
  | write d => exact Opens.result (.bind (.gets _) fun _ => .ite (.raise _) (opens_writeCore d true)) _ m hm
  | newLine k => exact Opens.result (opens_newLine k) _ m hm
  | read => exact Opens.result (.bind (.gets _) fun _ => .ite (.raise _) (.onBuf fun s => (io_closed s).2.1)) _ m hm
  | clear => exact Opens.result opens_clear _ m hm
  | flush => exact Opens.result (.onBuf fun s => (io_closed s).2.2.2.2.2) _ m hm
  | sendData d => exact Opens.result (opens_sendData d) _ m hm
  | sendEof => exact Opens.result (opens_sendEnd _ _) _ m hm
  | sendError e => exact Opens.result (opens_sendEnd _ _) _ m hm
  | sendWarning e => exact Opens.result (opens_sendEnd _ _) _ m hm
  | checkStates => exact Opens.result opens_checkStates _ m hm
  | close e => exact (hc e rfl).elim
  | closed => exact Opens.result (.gets _) _ m hm
  | readable => exact Opens.result (.gets _) _ m hm
  | writable => exact Opens.result (.gets _) _ m hm
  | setAggressive b => exact Opens.result (p := setAggressive b) (fun _ h => h) _ m hm

end HMAsk

theorem open_sent {α : Type} (p : Ask Req (Except Exc Resp) (α × HMirror)) : StaysOpen p → ∀ {os : List Outcome} {l : List (HOp × HRet)} {a : α × HMirror},
    Asks (p.sent os) l (.done a) → a.2.buf.closed = false := by
  induction p with
  | done a => intro h os l a' h1; cases h1; exact h
  | ask r k ih =>
    intro h os l a h1
    cases ho : os.headD .ok with
    | ok => simp only [Ask.sent, ho] at h1; cases h1 with | cons _ y _ l _ h2 => exact ih _ (h _) h2
    | lost e => simp only [Ask.sent, ho] at h1; exact ih _ (h _) h1
    | noReply e => simp only [Ask.sent, ho] at h1; cases h1 with | cons _ y _ l _ h2 => exact ih _ (h _) h2

/-- A mirror that was open and that its process has not closed is open. -/
theorem open_run {i : Nat} {m m' : HMirror} {hist : List (HEvent HSCall HSRet HOp HRet)} {rest : Option (HSCall × Ask HOp HRet (HSRet × HMirror))}
    (hr : ClientRun hostClient i m hist m' rest) (hc : ∀ e os, HEvent.inv i (.mirror (.close e) os) ∉ hist) (hm : m.buf.closed = false) :
    m'.buf.closed = false := by
  induction hr with
  | nil => exact hm
  | within => exact hm
  | call m m1 m' c l r h rest h1 h2 ih =>
    refine ih (fun e os hx => hc e os (by simp [hx])) ?_
    cases c with
    | mirror c os =>
      obtain ⟨x, h3, h4⟩ := asks_bind_done _ _ h1
      cases h4
      refine open_sent _ (HMAsk.exec_opens c (fun e he => ?_) m hm) h3
      subst he
      exact hc e os List.mem_cons_self
    | reader c os =>
      obtain ⟨x, h3, h4⟩ := asks_bind_done _ _ h1
      cases h4
      exact hm
    | stopAll => cases h1 with | cons _ _ _ _ _ h1 => cases h1; exact hm
    | reset => cases h1 with | cons _ _ _ _ _ h1 => cases h1; exact hm

/-- **C77** Any number of processes use mirrors and readers, in any way and with any losses, while the service serves in threads.  Process `i`
stops the mirrors — as the owner of the buffer, or with a reader and without losses — and no call that lets them go on is under way then or
begins before the end of the write of process `j` that begins after the stop has returned.  Then that write raises `StopIteration` (or
`OSError`, if the mirror of `j` is closed), and the service is asked for nothing by it but the flag: no text is sent. -/
theorem C77_stop (env : HEnv) (h0 : HostBuf) (obj : Nat → HMirror) (tr : List (Ev HSCall HSRet)) (κ : Conf HostBuf HLock HMirror HSCall HSRet)
    (hx : Exec (hostSystem env fun _ _ => True) (init h0 obj) tr κ) :
    ∃ (h : List (HEvent HSCall HSRet HOp HRet)) (t : HostBuf), seen h = tr ∧ Serves (AtOnce env) h0 (opsOf h) t ∧
      ((∀ i, κ.cur i = none) → κ.st = t) ∧
      ∀ i j c text r r' a b d e f, c = .stopAll ∨ c = .reader .stopAll [] →
        tr = a ++ .inv i c :: b ++ .ret i r :: d ++ .inv j (.mirror (.write text) []) :: e ++ .ret j r' :: f →
        (∀ x ∈ b, ¬ ofThread i x) → (∀ x ∈ e, ¬ ofThread j x) →
        Over (fun c' => HSCall.sets c' = some false) a (a ++ .inv i c :: b ++ .ret i r :: d ++ .inv j (.mirror (.write text) []) :: e) →
        (r' = .mirror (.exc .stopIteration) ∨ r' = .mirror (.exc .osError)) ∧
        ((obj j).buf.closed = false → (∀ x os, Ev.inv j (.mirror (.close x) os) ∉ a ++ .inv i c :: b ++ .ret i r :: d) →
          r' = .mirror (.exc .stopIteration)) ∧
        ∃ p q g, h = p ++ .inv j (.mirror (.write text) []) :: q ++ .ret j r' :: g ∧ seen p = a ++ .inv i c :: b ++ .ret i r :: d ∧ seen q = e ∧
          ∀ x ∈ mine j (opsOf q), x.1 = .req (.stateGet (some (lit "closed"))) := by
  obtain ⟨h, rest, t, h1, h2, h3, h4, h5⟩ := host_history env _ h0 obj tr κ hx
  refine ⟨h, t, h1, h2, h5, fun i j c text r r' a b d e f hc htr hb he hover => ?_⟩
  have hsure : ∀ m l m', Asks (hostClient m c) l (.done (r, m')) → ∃ x ∈ l, x.1.sets = some true := by
    intro m l m' h
    rcases hc with rfl | rfl
    · cases h with | cons _ y _ _ _ h => exact ⟨_, List.mem_cons_self, rfl⟩
    · cases h with | cons _ y _ _ _ h => exact ⟨_, List.mem_cons_self, rfl⟩
  obtain ⟨p, q, g, l, m1, m2, e1, e2, e3, e4, e5, e6, e7⟩ := flag_history (okc := fun _ => True) (fun m c _ => client_flags m c) h2 h3 (fun _ _ _ => trivial) hsure (h1.trans htr) hb he hover
  have opens : (obj j).buf.closed = false → (∀ x os, Ev.inv j (.mirror (.close x) os) ∉ a ++ .inv i c :: b ++ .ret i r :: d) → m1.buf.closed = false :=
    fun g1 g2 => open_run e6 (fun x os hx => g2 x os (e2 ▸ mem_seen (List.mem_of_mem_filter hx))) g1
  have el : mine j (opsOf q) = l := by
    rw [← (own_view (i := j) q).2.2, e4]
    exact (asOps_view l).2
  rcases write_asks e5 with ⟨rfl, g1, rfl⟩ | ⟨y, l', g1, rfl, g2, -⟩
  · refine ⟨.inr rfl, fun k1 k2 => ?_, p, q, g, e1, e2, e3, by rw [el]; nofun⟩
    rw [opens k1 k2] at g1
    cases g1
  · have hm : HEvent.op j (.req (.stateGet (some (lit "closed")))) y ∈ own j q := by rw [e4]; exact List.mem_cons_self
    obtain ⟨q1, q2, rfl⟩ := List.append_of_mem (List.mem_of_mem_filter hm)
    obtain ⟨s, s1, s2, s3⟩ := e7 q1 _ rfl
    cases s2 with
    | cons _ _ _ _ _ _ _ s4 s5 =>
    have ey : y = found (.bool true) := by rw [s4.1, flag_answer s3]
    obtain ⟨rfl, rfl, -⟩ := g2 ey
    refine ⟨.inl rfl, fun _ _ => rfl, p, _, g, e1, e2, e3, by rw [el]; rintro x hx; cases List.mem_singleton.1 hx; rfl⟩

/-- **C77** Likewise: after a call that lets the mirrors go on, as long as nobody stops them, no write raises `StopIteration`. -/
theorem C77_resume (env : HEnv) (h0 : HostBuf) (obj : Nat → HMirror) (tr : List (Ev HSCall HSRet)) (κ : Conf HostBuf HLock HMirror HSCall HSRet)
    (hx : Exec (hostSystem env fun _ _ => True) (init h0 obj) tr κ) (i j : Nat) (c : HSCall) (text : PyStr) (r r' : HSRet)
    (a b d e f : List (Ev HSCall HSRet)) (hc : c = .reset ∨ c = .reader .resetStates [])
    (htr : tr = a ++ .inv i c :: b ++ .ret i r :: d ++ .inv j (.mirror (.write text) []) :: e ++ .ret j r' :: f)
    (hb : ∀ x ∈ b, ¬ ofThread i x) (he : ∀ x ∈ e, ¬ ofThread j x)
    (hover : Over (fun c' => HSCall.sets c' = some true) a (a ++ .inv i c :: b ++ .ret i r :: d ++ .inv j (.mirror (.write text) []) :: e)) :
    r' ≠ .mirror (.exc .stopIteration) := by
  obtain ⟨h, rest, t, h1, h2, h3, h4, h5⟩ := host_history env _ h0 obj tr κ hx
  have hsure : ∀ m l m', Asks (hostClient m c) l (.done (r, m')) → ∃ x ∈ l, x.1.sets = some false := by
    intro m l m' h
    rcases hc with rfl | rfl
    · cases h with | cons _ y _ _ _ h => exact ⟨_, List.mem_cons_self, rfl⟩
    · cases h with | cons _ y _ _ _ h => exact ⟨_, List.mem_cons_self, rfl⟩
  obtain ⟨p, q, g, l, m1, m2, e1, e2, e3, e4, e5, e6, e7⟩ := flag_history (okc := fun _ => True) (fun m c _ => client_flags m c) h2 h3 (fun _ _ _ => trivial) hsure (h1.trans htr) hb he hover
  rcases write_asks e5 with ⟨rfl, g1, rfl⟩ | ⟨y, l', g1, rfl, -, g2⟩
  · exact nofun
  · have hm : HEvent.op j (.req (.stateGet (some (lit "closed")))) y ∈ own j q := by rw [e4]; exact List.mem_cons_self
    obtain ⟨q1, q2, rfl⟩ := List.append_of_mem (List.mem_of_mem_filter hm)
    obtain ⟨s, s1, s2, s3⟩ := e7 q1 _ rfl
    cases s2 with
    | cons _ _ _ _ _ _ _ s4 s5 =>
    have ey : y = found (.bool false) := by rw [s4.1, flag_answer s3]
    obtain ⟨z, k1, rfl⟩ := g2 ey
    have := goes_sent _ (HMAsk.going_unchecked text m1) k1
    intro e
    apply this
    obtain ⟨r, m⟩ := z
    cases r with
    | ok n => cases e
    | error x => injection e with e; injection e with e; rw [e]

/-- A stop between the check of a write and its text; writes after the stop and after the resumption by a reader. -/
def stopAndGo : List (Move HSCall) :=
  [.start 0 (.mirror (.write (lit "a\n")) [])] ++ List.replicate 5 (.go 0) ++ [.start 1 .stopAll] ++ List.replicate 4 (.go 1) ++
    List.replicate 13 (.go 0) ++ [.start 0 (.mirror (.write (lit "b\n")) [])] ++ List.replicate 6 (.go 0) ++
    [.start 2 (.reader .resetStates [])] ++ List.replicate 5 (.go 2) ++ [.start 0 (.mirror (.write (lit "c\n")) [])] ++ List.replicate 18 (.go 0)

/-- The calls and results that can be observed, as numbers. -/
def flagView : Ev HSCall HSRet → Nat × Nat
  | .inv i (.mirror (.write _) _) => (i, 0)
  | .inv i .stopAll => (i, 1)
  | .inv i (.reader .resetStates []) => (i, 2)
  | .inv i _ => (i, 9)
  | .ret i (.mirror (.nat n)) => (i, 10 + n)
  | .ret i (.mirror (.exc .stopIteration)) => (i, 20)
  | .ret i .local => (i, 21)
  | .ret i (.reader (.bool true)) => (i, 22)
  | .ret i _ => (i, 99)

/-- An execution of `C77_stop` and `C77_resume`: the write that has passed its check is not stopped, the next one is, and the one after the
resumption is not. -/
example : (moves (hostSystem sampleEnv fun _ _ => True) 3 stopAndGo
    (init (hb { cap := 9 } [(lit "closed", .bool false), (lit "maxlen", .int 9)]) fun _ => {})).any (fun p =>
      p.1.map flagView == [(0, 0), (1, 1), (1, 21), (0, 12), (0, 0), (0, 20), (2, 2), (2, 22), (0, 0), (0, 12)] &&
      textsIn p.2.st.base.storage.items == [lit "a", lit "c"]) = true := by decide +kernel

end SyncStream
