import Verif.Lemmas.ProcThreads
import Verif.Lemmas.Rely
import Verif.Lemmas.Proc
import Verif.Spec.Stopping
/-!
# Races of the process mode: what the threads of all processes guarantee each other
-/

namespace SyncStream
open Conc Prog Spec

namespace MThr
variable {α β : Type}

/-- The two states differ at most in the lock attribute. -/
def SameView (s t : MProc × Net) : Prop := view t = view s

theorem sameView_steady : Steady SameView := ⟨fun _ => rfl, fun h1 h2 => Eq.trans h2 h1⟩

/-- Finding the lock changes nothing but the lock attribute and raises nothing, whatever the others do. -/
structure Harmless (lk : MProg MLock) : Prop where
  guar : lk.Guar SameView
  finds : ∀ s, lk.Meets (fun _ _ => True) (fun r _ => ∃ l, r = .ok l) s

theorem any_steady {σ : Type} : Steady (fun _ _ : σ => True) := ⟨fun _ => trivial, fun _ _ => trivial⟩

theorem harmless_made : Harmless madeLock := ⟨trivial, fun _ _ _ => ⟨_, rfl⟩⟩

theorem harmless_lazy : Harmless lazyLock := by
  have hg : ∀ {β : Type} (f : MProc × Net → β), (gets f).Guar SameView := fun f => .atom fun _ => rfl
  have hm : ∀ {β : Type} (f : MProc × Net → β) s, (gets f).Meets (fun _ _ => True) (fun r _ => ∃ l, r = .ok l) s :=
    fun f s => .atom fun t _ u _ => ⟨_, rfl⟩
  constructor
  · refine .bind (hg _) fun x => .ite (.bind (.atom (G := SameView) fun _ => rfl) fun _ => ?_) ?_
    · exact .bind (hg _) fun _ => Guar.ret _
    · exact .bind (hg _) fun _ => Guar.ret _
  · intro s
    refine .bind any_steady (hm _ s) (fun x t _ => ?_) (fun e t ⟨l, h⟩ => nomatch h)
    have jp : ∀ t, (do return MLock.buf ((← gets (·.1.lock)).getD 0) : MProg MLock).Meets (fun _ _ => True)
        (fun r _ => ∃ l, r = .ok l) t := fun t =>
      .bind any_steady (hm _ t) (fun y t _ => fun _ _ => ⟨_, rfl⟩) (fun e t ⟨l, h⟩ => nomatch h)
    cases x.isNone with
    | false => exact jp t
    | true =>
      refine .bind any_steady (Q := fun r _ => ∃ l, r = .ok l) ?_ (fun x t _ => jp t) (fun e t ⟨l, h⟩ => nomatch h)
      exact .atom fun t _ u _ => ⟨_, rfl⟩

/-- What one step of a call on a mirror may do: nothing, touch the text, put a message `msg` with `ms msg` on the queue, set an
attribute, close (if `cl`). -/
structure Steps (cl : Prop) (ms : QMsg → Prop) (G : MProc × Net → MProc × Net → Prop) : Prop where
  view : ∀ s t, SameView s t → G s t
  buf : ∀ s b, b.closed = s.1.mirror.buf.closed → G s ({ s.1 with mirror := { s.1.mirror with buf := b } }, s.2)
  str : ∀ d, ms (.str d)
  all : cl → ∀ msg, ms msg
  put : ∀ s msg b t, ms msg → G s (s.1, (Net.put s.1.mirror.queue msg b t s.2).2)
  sets : ∀ s t b a,
    G s ({ s.1 with mirror := { s.1.mirror with timeout := t, block := b, aggressive := a } }, s.2)
  close : cl → ∀ s b, G s ({ s.1 with mirror := { s.1.mirror with buf := b } }, s.2)

section
variable {cl : Prop} {ms : QMsg → Prop} {G : MProc × Net → MProc × Net → Prop} {lk : MProg MLock}

theorem guar_gets (hG : Steps cl ms G) (f : MProc × Net → α) : (gets f).Guar G := .atom fun s => hG.view s s rfl

theorem guar_onBuf (hG : Steps cl ms G) {m : Py StringIO α} (hm : ∀ b, (m b).2.closed = b.closed) : (onBuf m).Guar G :=
  .atom fun s => hG.buf s _ (hm _)

theorem guar_put (hG : Steps cl ms G) {msg : QMsg} (hm : ms msg) : (put msg).Guar G := .atom fun s => hG.put s _ _ _ hm

theorem guar_locked (hG : Steps cl ms G) (hl : Harmless lk) {p : MProg α} (hp : p.Guar G) : (locked lk p).Guar G :=
  .bind (hl.guar.mono hG.view) fun _ => .withLock hp

theorem write_closed (d : PyStr) (b : StringIO) : (StringIO.write d b).2.closed = b.closed := by
  unfold StringIO.write
  rcases b with ⟨t, p, c⟩
  cases c
  · show (Prod.snd ((if d = [] then (return 0 : Py StringIO Nat) else _) _)).closed = _
    split <;> rfl
  · rfl

theorem seek0_closed (b : StringIO) : (StringIO.seek0 b).2.closed = b.closed := by rcases b with ⟨t, p, c⟩; cases c <;> rfl
theorem truncate0_closed (b : StringIO) : (StringIO.truncate0 b).2.closed = b.closed := by
  rcases b with ⟨t, p, c⟩; cases c <;> rfl
theorem getvalue_closed (b : StringIO) : (StringIO.getvalue b).2.closed = b.closed := by
  rcases b with ⟨t, p, c⟩; cases c <;> rfl
theorem tell_closed (b : StringIO) : (StringIO.tell b).2.closed = b.closed := by rcases b with ⟨t, p, c⟩; cases c <;> rfl
theorem flush_closed (b : StringIO) : (StringIO.flush b).2.closed = b.closed := by rcases b with ⟨t, p, c⟩; cases c <;> rfl
theorem read_closed (n : Int) (b : StringIO) : (StringIO.read n b).2.closed = b.closed := by
  rcases b with ⟨t, p, c⟩; cases c <;> rfl

theorem guar_closed (hG : Steps cl ms G) (hl : Harmless lk) : (closed lk).Guar G := guar_locked hG hl (guar_gets hG _)
theorem guar_readable (hG : Steps cl ms G) (hl : Harmless lk) : (readable lk).Guar G := guar_locked hG hl (guar_gets hG _)
theorem guar_writable (hG : Steps cl ms G) (hl : Harmless lk) : (writable lk).Guar G := guar_locked hG hl (guar_gets hG _)

theorem guar_clear (hG : Steps cl ms G) (hl : Harmless lk) : (clear lk).Guar G :=
  guar_locked hG hl (.bind (guar_onBuf hG seek0_closed) fun _ => guar_onBuf hG truncate0_closed)

theorem guar_flush (hG : Steps cl ms G) (hl : Harmless lk) : (flush lk).Guar G :=
  guar_locked hG hl (guar_onBuf hG flush_closed)

theorem guar_sendData (hG : Steps cl ms G) (hl : Harmless lk) (d : PyStr) : (sendData lk d).Guar G :=
  .bind (guar_closed hG hl) fun x => by
    cases x
    · exact guar_put hG (hG.str d)
    · exact trivial

theorem guar_checkState (hG : Steps cl ms G) : checkState.Guar G :=
  .bind (guar_gets hG _) fun _ =>
    .ite (.withLock (.bind (guar_gets hG _) fun _ => .ite trivial trivial)) trivial

theorem guar_writeCore (hG : Steps cl ms G) (hl : Harmless lk) (d : PyStr) : (writeCore lk d).Guar G := by
  refine .bind (guar_checkState hG) fun _ => .bind (guar_gets hG _) fun _ => ?_
  refine .ite (.bind (guar_sendData hG hl d) fun _ => trivial) ?_
  refine .ite ?_ (.ite (guar_onBuf hG (write_closed d)) trivial)
  exact .bind (guar_onBuf hG (write_closed d)) fun _ => .bind (guar_onBuf hG getvalue_closed) fun _ =>
    .bind (guar_sendData hG hl _) fun _ => .bind (guar_onBuf hG seek0_closed) fun _ =>
    .bind (guar_onBuf hG truncate0_closed) fun _ => trivial

theorem guar_write (hG : Steps cl ms G) (hl : Harmless lk) (d : PyStr) : (write lk d).Guar G :=
  .bind (guar_writable hG hl) fun _ => .ite trivial (guar_locked hG hl (guar_writeCore hG hl d))

theorem guar_newLine (hG : Steps cl ms G) (hl : Harmless lk) : (newLine lk).Guar G :=
  guar_locked hG hl (.bind (guar_onBuf hG tell_closed) fun _ =>
    .ite (.bind (guar_writeCore hG hl _) fun _ => trivial) trivial)

theorem guar_sendEnd (hG : Steps cl ms G) (hl : Harmless lk) {msg : QMsg} (hm : ms msg) : (sendEnd lk msg).Guar G :=
  .bind (guar_closed hG hl) fun x => by
    cases x
    · exact .bind (guar_newLine hG hl) fun _ => guar_put hG hm
    · exact trivial

theorem guar_close (hG : Steps True ms G) (hl : Harmless lk) (e : Option ExcObj) : (close lk e).Guar G := by
  refine .bind (guar_closed hG hl) fun x => ?_
  cases x
  · cases e with
    | none =>
      exact .bind (guar_sendEnd hG hl (hG.all trivial _)) fun _ => .bind (guar_clear hG hl) fun _ =>
        guar_locked hG hl (.atom fun s => hG.close trivial s _)
    | some e =>
      exact .bind (guar_sendEnd hG hl (hG.all trivial _)) fun _ => .bind (guar_clear hG hl) fun _ =>
        guar_locked hG hl (.atom fun s => hG.close trivial s _)
  · trivial

theorem guar_read (hG : Steps cl ms G) (hl : Harmless lk) (n : Option Int) : (MThr.read lk n).Guar G := by
  refine .bind (guar_readable hG hl) fun _ => .ite trivial (guar_locked hG hl ?_)
  cases n with
  | none => exact guar_onBuf hG getvalue_closed
  | some n => exact guar_onBuf hG (read_closed n)

/-- A call on a mirror keeps to `G`. -/
theorem guar_prog (hG : Steps cl ms G) (hl : Harmless lk) (c : MCall) (hc : ∀ e, c = .close e → cl)
    (hm : match c with
      | .sendEof => ms .close
      | .sendError e => ms (.error (GMsg.new (.exc e)))
      | .sendWarning e => ms (.warning (GMsg.new (.exc e)))
      | _ => True) :
    (prog lk c).Guar G := by
  have f : ∀ {α : Type} {p : MProg α} {g : α → MRet}, p.Guar G →
      (do return MRet.of g (← p.outcome) : MProg MRet).Guar G := fun h => .bind h.outcome fun _ => trivial
  cases c with
  | write d => exact f (guar_write hG hl d)
  | newLine => exact f (guar_newLine hG hl)
  | read n => exact f (guar_read hG hl n)
  | clear => exact f (guar_clear hG hl)
  | flush => exact f (guar_flush hG hl)
  | sendData d => exact f (guar_sendData hG hl d)
  | sendEof => exact f (guar_sendEnd hG hl hm)
  | sendError e => exact f (guar_sendEnd hG hl hm)
  | sendWarning e => exact f (guar_sendEnd hG hl hm)
  | close e =>
    have hcl : cl := hc e rfl
    have hG : Steps True ms G := ⟨hG.view, hG.buf, hG.str, fun _ => hG.all hcl, hG.put, hG.sets, fun _ => hG.close hcl⟩
    exact f (guar_close hG hl e)
  | closed => exact f (guar_closed hG hl)
  | readable => exact f (guar_readable hG hl)
  | writable => exact f (guar_writable hG hl)
  | setTimeout t =>
    exact f (.bind (.atom fun s => hG.sets s t _ _) fun _ => .atom fun s => hG.sets s _ _ _)
  | setAggressive a => exact f (.atom fun s => hG.sets s _ _ a)
end

/-! ### After `stop_all_mirrors` -/

/-- The mirror looks at the shared flag, and the flag is set. -/
def Stopped (s : MProc × Net) : Prop := s.1.mirror.hasState = true ∧ s.2.closed = some true

/-- What the threads do to a mirror and the shared things: the flag stays set, a mirror that looks at it goes on
looking at it, and (if `k`) an open mirror stays open. -/
def Flag (k : Prop) (s t : MProc × Net) : Prop :=
  (s.2.closed = some true → t.2.closed = some true) ∧
  (s.1.mirror.hasState = true → t.1.mirror.hasState = true) ∧
  (k → s.1.mirror.buf.closed = false → t.1.mirror.buf.closed = false)

theorem flag_steady (k : Prop) : Steady (Flag k) :=
  ⟨fun _ => ⟨id, id, fun _ => id⟩,
   fun h1 h2 => ⟨h2.1 ∘ h1.1, h2.2.1 ∘ h1.2.1, fun hk => h2.2.2 hk ∘ h1.2.2 hk⟩⟩

theorem flag_steps (k : Prop) : Steps (¬ k) (fun _ => True) (Flag k) where
  str _ := trivial
  all _ _ := trivial
  view s t h := by
    have e1 : (view t).1 = (view s).1 := congrArg Prod.fst h
    have e2 : (view t).2 = (view s).2 := congrArg Prod.snd h
    have h1 : t.1.mirror = s.1.mirror := e1
    have h2 : t.2 = s.2 := e2
    exact ⟨by rw [h2]; exact id, by rw [h1]; exact id, fun _ => by rw [h1]; exact id⟩
  buf s b hb := ⟨id, id, fun _ h => hb.trans h⟩
  put s msg b t _ := ⟨fun h => (Net.put_spec s.1.mirror.queue msg b t s.2).1.trans h, id, fun _ => id⟩
  sets s t b a := ⟨id, id, fun _ => id⟩
  close hk s b := ⟨id, id, fun h => absurd h hk⟩

theorem Stopped.keep {k : Prop} {s t : MProc × Net} (h : Stopped s) (ht : Flag k s t) : Stopped t :=
  ⟨ht.2.1 h.1, ht.1 h.2⟩

theorem meets_locked {G : MProc × Net → MProc × Net → Prop} (hG : Steady G) {A : MProc × Net → Prop}
    (hA : ∀ s t, A s → G s t → A t) (hv : ∀ s t, SameView s t → G s t)
    {lk : MProg MLock} (hl : Harmless lk) {p : MProg α} {Q : Except Exc α → MProc × Net → Prop}
    (hp : ∀ s, A s → p.Meets G Q s) (s : MProc × Net) (h : A s) : (locked lk p).Meets G Q s := by
  have hlk : lk.Meets G (fun r t => (∃ l, r = .ok l) ∧ A t) s := by
    have hf := (hl.finds s).rely (G := G) fun _ _ _ => trivial
    have : ∀ (q : MProg MLock) s, q.Guar SameView → A s → q.Meets G (fun r _ => ∃ l, r = .ok l) s →
        q.Meets G (fun r t => (∃ l, r = .ok l) ∧ A t) s := by
      intro q
      induction q with
      | ret a => exact fun s _ ha hm t ht => ⟨hm t ht, hA _ _ ha ht⟩
      | raise e => exact fun s _ ha hm t ht => ⟨hm t ht, hA _ _ ha ht⟩
      | act f k ih =>
        exact fun s hg ha hm t ht => ih t _ (hg.2 t) (hA _ _ (hA _ _ ha ht) (hv _ _ (hg.1 t))) (hm t ht)
      | acq l w k ih => exact fun s hg ha hm => ih s hg ha hm
      | rel l w k ih => exact fun s hg ha hm => ih s hg ha hm
    exact this lk s hl.guar h hf
  exact .bind hG hlk (fun l t ht => .withLock (hp t ht.2)) (fun e t ⟨⟨l, h⟩, _⟩ => nomatch h)

/-- The check raises `StopIteration`. -/
theorem meets_checkState (k : Prop) (s : MProc × Net) (h : Stopped s) :
    checkState.Meets (Flag k) (fun r _ => r = .error .stopIteration) s := by
  refine .bind (flag_steady k) (Q := fun r t => r = .ok true ∧ Stopped t) ?_ (fun x t ht => ?_)
    (fun e t h => nomatch h.1)
  · exact .atom fun t ht u hu => ⟨congrArg Except.ok (h.keep ht).1, (h.keep ht).keep hu⟩
  · obtain ⟨e, ht⟩ := ht
    cases e
    refine .withLock (.bind (flag_steady k) (Q := fun r _ => r = .ok true) ?_ (fun x t e => ?_)
      (fun e t h => nomatch h))
    · refine .atom fun u hu v hv => ?_
      have := (ht.keep hu).2
      exact congrArg Except.ok (show u.2.closed.getD false = true by rw [this]; rfl)
    · cases e
      exact fun _ _ => rfl

/-- A `write` on a stopped mirror raises `StopIteration`, or `OSError` because the mirror was closed. -/
theorem meets_write (k : Prop) {lk : MProg MLock} (hl : Harmless lk) (d : PyStr) (s : MProc × Net) (h : Stopped s) :
    (write lk d).Meets (Flag k) (fun r _ => r = .error .stopIteration ∨
      (r = .error .osError ∧ ¬ (k ∧ s.1.mirror.buf.closed = false))) s := by
  have hc : (writeCore lk d).Guar (Flag k) := guar_writeCore (flag_steps k) hl d
  refine .bind (flag_steady k) (Q := fun r t => Stopped t ∧
      ((r = .ok true) ∨ (r = .ok false ∧ ¬ (k ∧ s.1.mirror.buf.closed = false)))) ?_ (fun x t ht => ?_)
    (fun e t h => h.2.elim (fun h => nomatch h) fun h => nomatch h.1)
  · refine meets_locked (A := fun t => Stopped t ∧ (k ∧ s.1.mirror.buf.closed = false → t.1.mirror.buf.closed = false))
      (flag_steady k) (fun t u ht hu => ⟨ht.1.keep hu, fun hk => hu.2.2 hk.1 (ht.2 hk)⟩) (flag_steps k).view hl
      (fun t ht => ?_) s ⟨h, fun hk => hk.2⟩
    refine .atom fun u hu v hv => ⟨(ht.1.keep hu).keep hv, ?_⟩
    show (Except.ok (!u.1.mirror.buf.closed) = _) ∨ (Except.ok (!u.1.mirror.buf.closed) = _ ∧ _)
    cases hb : u.1.mirror.buf.closed with
    | false => exact .inl rfl
    | true =>
      refine .inr ⟨rfl, fun hk => ?_⟩
      have := hu.2.2 hk.1 (ht.2 hk)
      rw [hb] at this
      cases this
  · obtain ⟨hs, e | ⟨e, hn⟩⟩ := ht
    · cases e
      refine meets_locked (A := Stopped) (flag_steady k) (fun _ _ h => h.keep) (flag_steps k).view hl
        (fun t ht => ?_) t hs
      exact .bind (flag_steady k) (meets_checkState k t ht) (fun a t h => nomatch h) (fun e t h => .inl (by cases h; rfl))
    · cases e
      exact fun u hu => .inr ⟨rfl, hn⟩

/-! ### Silence -/

/-- Nothing is sent and no mirror changes: the flag stays set, the queues get shorter from the front at most. -/
def Silent (s t : MProc × Net) : Prop :=
  t.1.mirror = s.1.mirror ∧ (s.2.closed = some true → t.2.closed = some true) ∧
  ∀ q, t.2.queues q <:+ s.2.queues q

theorem silent_steady : Steady Silent :=
  ⟨fun _ => ⟨rfl, id, fun _ => List.suffix_refl _⟩,
   fun h1 h2 => ⟨h2.1.trans h1.1, h2.2.1 ∘ h1.2.1, fun q => (h2.2.2 q).trans (h1.2.2 q)⟩⟩

theorem silent_view (s t : MProc × Net) (h : SameView s t) : Silent s t := by
  have e1 : (view t).1 = (view s).1 := congrArg Prod.fst h
  have e2 : (view t).2 = (view s).2 := congrArg Prod.snd h
  have h1 : t.1.mirror = s.1.mirror := e1
  have h2 : t.2 = s.2 := e2
  exact ⟨h1, by rw [h2]; exact id, fun q => by rw [h2]⟩

theorem silent_flag (s t : MProc × Net) (h : Silent s t) : Flag True s t :=
  ⟨h.2.1, by rw [h.1]; exact id, fun _ => by rw [h.1]; exact id⟩

/-- A program that changes nothing is silent. -/
theorem safe_look {p : MProg α} (hp : p.Guar SameView) (s : MProc × Net) : p.Safe Silent (fun _ t => Silent s t) s :=
  .of_guar silent_steady (hp.mono silent_view) s

theorem guar_look_gets (f : MProc × Net → α) : (gets f).Guar SameView := .atom fun _ => rfl

theorem guar_look_locked {lk : MProg MLock} (hl : Harmless lk) {p : MProg α} (hp : p.Guar SameView) :
    (locked lk p).Guar SameView := .bind hl.guar fun _ => .withLock hp

theorem guar_look_onBuf {m : Py StringIO α} (hm : ∀ b, (m b).2 = b) : (onBuf m).Guar SameView :=
  .atom fun s => by
    show ({ s.1.mirror with buf := (m s.1.mirror.buf).2 }, s.2) = (s.1.mirror, s.2)
    rw [hm]

theorem guar_look_checkState : checkState.Guar SameView :=
  .bind (guar_look_gets _) fun _ => .ite (.withLock (.bind (guar_look_gets _) fun _ => .ite (Guar.raised _) (Guar.ret _)))
    (Guar.ret _)

/-- `__write` of a stopped mirror does nothing but raise. -/
theorem safe_writeCore (lk : MProg MLock) (d : PyStr) (s : MProc × Net) (h : Stopped s) :
    (writeCore lk d).Safe Silent (fun r t => Silent s t ∧ r = .error .stopIteration) s := by
  refine .bind silent_steady ((safe_look guar_look_checkState s).and ((meets_checkState True s h).rely silent_flag))
    (fun a t ht => nomatch ht.2) (fun e t ht => ⟨ht.1, ?_⟩)
  cases ht.2
  rfl

theorem safe_locked {lk : MProg MLock} (hl : Harmless lk) {p : MProg α} {Q : Except Exc α → MProc × Net → Prop}
    (s : MProc × Net) (hp : ∀ t, Silent s t → p.Safe Silent Q t) : (locked lk p).Safe Silent Q s :=
  .bind silent_steady ((safe_look hl.guar s).and ((hl.finds s).rely (G := Silent) fun _ _ _ => trivial))
    (fun _ t ht => .withLock (hp t ht.1)) (fun _ _ ⟨_, ⟨_, h⟩⟩ => nomatch h)

theorem Stopped.silent {s t : MProc × Net} (h : Stopped s) (ht : Silent s t) : Stopped t := h.keep (silent_flag _ _ ht)

/-- `write` on a stopped mirror. -/
theorem safe_write {lk : MProg MLock} (hl : Harmless lk) (d : PyStr) (s : MProc × Net) (h : Stopped s) :
    (write lk d).Safe Silent (fun r t => Silent s t ∧
      r = .error (if s.1.mirror.buf.closed then .osError else .stopIteration)) s := by
  refine .bind silent_steady (Q := fun r t => Silent s t ∧ r = .ok (!s.1.mirror.buf.closed)) ?_ (fun x t ht => ?_)
    (fun e t h => nomatch h.2)
  · refine safe_locked hl s fun t ht => (safe_look (guar_look_gets _) t).and
      (.atom (Q := fun r _ => r = .ok (!s.1.mirror.buf.closed)) fun u hu v hv => ?_) |>.mono
      fun r u hu => ⟨silent_steady.trans ht hu.1, hu.2⟩
    show Except.ok (!u.1.mirror.buf.closed) = _
    rw [hu.1, ht.1]
  · obtain ⟨ht, e⟩ := ht
    cases e
    cases s.1.mirror.buf.closed with
    | true => exact fun u hu => ⟨silent_steady.trans ht hu, rfl⟩
    | false =>
      exact safe_locked hl t fun u hu => (safe_writeCore lk d u ((h.silent ht).silent hu)).mono
        fun r v hv => ⟨silent_steady.trans ht (silent_steady.trans hu hv.1), hv.2⟩

theorem getvalue_same (b : StringIO) : (StringIO.getvalue b).2 = b := by rcases b with ⟨t, p, c⟩; cases c <;> rfl
theorem tell_same (b : StringIO) : (StringIO.tell b).2 = b := by rcases b with ⟨t, p, c⟩; cases c <;> rfl
theorem flush_same (b : StringIO) : (StringIO.flush b).2 = b := by rcases b with ⟨t, p, c⟩; cases c <;> rfl

/-- `new_line` on a stopped mirror. -/
theorem safe_newLine {lk : MProg MLock} (hl : Harmless lk) (s : MProc × Net) (h : Stopped s) :
    (newLine lk).Safe Silent (fun _ t => Silent s t) s := by
  refine safe_locked hl s fun t ht => ?_
  refine .bind silent_steady (safe_look (guar_look_onBuf tell_same) t) (fun x u hu => ?_)
    (fun e u hu => silent_steady.trans ht hu)
  have hu := silent_steady.trans ht hu
  split
  · exact .bind silent_steady (safe_writeCore lk _ u (h.silent hu)) (fun a v hv => nomatch hv.2)
      (fun e v hv => silent_steady.trans hu hv.1)
  · exact fun v hv => silent_steady.trans hu hv

/-- The calls on a mirror that send nothing when the mirror is stopped and change nothing. -/
def Quiet : MCall → Prop
  | .write _ | .newLine | .flush | .closed | .readable | .writable | .read none => True
  | _ => False

/-- Such a call on a stopped mirror is silent; a `write` raises. -/
theorem safe_prog {lk : MProg MLock} (hl : Harmless lk) (c : MCall) (hc : Quiet c) (s : MProc × Net) (h : Stopped s) :
    (prog lk c).Safe Silent (fun r t => Silent s t ∧ ∀ d, c = .write d →
      r = .ok (.exc (if s.1.mirror.buf.closed then .osError else .stopIteration))) s := by
  have f : ∀ {α : Type} {p : MProg α} {g : α → MRet} {Q : Except Exc α → Prop} {P : MRet → Prop},
      p.Safe Silent (fun r t => Silent s t ∧ Q r) s → (∀ x, Q x → P (MRet.of g x)) →
      (do return MRet.of g (← p.outcome) : MProg MRet).Safe Silent (fun r t => Silent s t ∧ ∃ x, r = .ok x ∧ P x) s :=
    fun h hP => .bind silent_steady h.outcome (fun x t ⟨y, e, h1, h2⟩ => by
      cases e
      exact fun u hu => ⟨silent_steady.trans h1 hu, _, rfl, hP _ h2⟩) (fun e t ⟨y, e', _⟩ => nomatch e')
  have g : ∀ {α : Type} {p : MProg α} {g : α → MRet}, p.Safe Silent (fun _ t => Silent s t) s → (∀ d, c ≠ .write d) →
      (do return MRet.of g (← p.outcome) : MProg MRet).Safe Silent (fun r t => Silent s t ∧ ∀ d, c = .write d →
      r = .ok (.exc (if s.1.mirror.buf.closed then .osError else .stopIteration))) s := fun h hc =>
    (f (Q := fun _ => True) (P := fun _ => True) (h.mono fun r t ht => ⟨ht, trivial⟩) fun _ _ => trivial).mono
      fun r t ht => ⟨ht.1, fun d e => absurd e (hc d)⟩
  cases c with
  | write d =>
    refine (f (safe_write hl d s h) (P := fun x => x = .exc (if s.1.mirror.buf.closed then .osError else .stopIteration))
      fun x hx => ?_).mono fun r t ⟨h1, x, h2, h3⟩ => ⟨h1, fun d _ => by rw [h2, h3]⟩
    rw [hx]; rfl
  | newLine => exact g (safe_newLine hl s h) (fun _ => nofun)
  | flush => exact g (safe_look (guar_look_locked hl (guar_look_onBuf flush_same)) s) (fun _ => nofun)
  | closed => exact g (safe_look (guar_look_locked hl (guar_look_gets _)) s) (fun _ => nofun)
  | readable => exact g (safe_look (guar_look_locked hl (guar_look_gets _)) s) (fun _ => nofun)
  | writable => exact g (safe_look (guar_look_locked hl (guar_look_gets _)) s) (fun _ => nofun)
  | read n =>
    cases n with
    | none =>
      refine g (safe_look ?_ s) (fun _ => nofun)
      exact .bind (guar_look_locked hl (guar_look_gets _)) fun _ => .ite (Guar.raised _)
        (guar_look_locked hl (guar_look_onBuf getvalue_same))
    | some n => exact hc.elim
  | _ => exact hc.elim

end MThr

namespace PThr

/-- The flag stays set, the mirrors go on looking at it, the open mirrors of the processes in `K` stay open. -/
def Flag (K : Nat → Prop) (w w' : PWorld) : Prop :=
  (w.net.closed = some true → w'.net.closed = some true) ∧ (Stateful w → Stateful w') ∧
  ∀ p, K p → (w.procs p).mirror.buf.closed = false → (w'.procs p).mirror.buf.closed = false

theorem flag_steady (K : Nat → Prop) : Steady (Flag K) :=
  ⟨fun _ => ⟨id, id, fun _ _ => id⟩,
   fun h1 h2 => ⟨h2.1 ∘ h1.1, h2.2.1 ∘ h1.2.1, fun p hp => h2.2.2 p hp ∘ h1.2.2 p hp⟩⟩

/-- Changes of the main buffer and the queues. -/
theorem flag_main (K : Nat → Prop) (w w' : PWorld) (h1 : w.net.closed = some true → w'.net.closed = some true)
    (h2 : w'.main.mirror = w.main.mirror) (h3 : w'.procs = w.procs) : Flag K w w' :=
  ⟨h1, fun h => ⟨by rw [h2]; exact h.1, by rw [h3]; exact h.2⟩, fun _ _ => by rw [h3]; exact id⟩

theorem guar_main_atom (K : Nat → Prop) {α : Type} {m : Py PNet α}
    (hm : ∀ s, (s.2.closed = some true → (m s).2.2.closed = some true) ∧ (m s).2.1.mirror = s.1.mirror) :
    (atom m).Guar (Flag K) :=
  .atom fun w => flag_main K _ _ (hm (w.main, w.net)).1 (hm (w.main, w.net)).2 rfl

theorem guar_line (K : Nat → Prop) {α : Type} (q : TProg α) : (line q).Guar (Flag K) := by
  refine .onPart (G := fun _ _ => True) ?_ (.any (fun _ _ => trivial) q)
  exact fun _ _ _ => flag_main K _ _ id rfl rfl

theorem guar_checkClose (K : Nat → Prop) : checkClose.Guar (Flag K) :=
  .bind (guar_main_atom K fun _ => ⟨id, rfl⟩) fun _ => .bind (guar_main_atom K fun _ => ⟨id, rfl⟩) fun _ =>
    .bind (guar_main_atom K fun _ => ⟨id, rfl⟩) fun _ => trivial

theorem guar_process (K : Nat → Prop) (msg : QMsg) : (process msg).Guar (Flag K) := by
  cases msg with
  | str d => exact .bind (guar_line K _) fun _ => trivial
  | error m => exact .bind (guar_line K _) fun _ => guar_checkClose K
  | warning m => exact .bind (guar_line K _) fun _ => trivial
  | close => exact guar_checkClose K
  | stop => exact .bind (guar_main_atom K fun _ => ⟨id, rfl⟩) fun _ => trivial
  | other => trivial

theorem guar_get (K : Nat → Prop) (q : Nat) : (get q).Guar (Flag K) := by
  refine guar_main_atom K fun s => ?_
  cases s.2.queues q <;> exact ⟨id, rfl⟩

theorem guar_receive (K : Nat → Prop) : receive.Guar (Flag K) :=
  .withLock (.bind (guar_main_atom K fun _ => ⟨id, rfl⟩) fun _ => .bind (guar_get K _) fun msg => guar_process K msg)

/-- Handing out a mirror to a process outside of `K`. -/
theorem guar_take (K : Nat → Prop) (p : Nat) (hp : ¬ K p) : (take p).Guar (Flag K) := by
  refine .bind (guar_main_atom K fun _ => ⟨id, rfl⟩) fun _ => .bind (guar_main_atom K fun _ => ⟨id, rfl⟩) fun _ => ?_
  refine .atom fun w => ⟨id, fun h => ⟨h.1, fun q => ?_⟩, fun q hq => ?_⟩
  · show (upd w.procs p _ q).mirror.hasState = true
    by_cases e : q = p
    · subst e; rw [upd_same]; exact h.1
    · rw [upd_other _ _ e]; exact h.2 q
  · show _ → (upd w.procs p _ q).mirror.buf.closed = false
    have e : q ≠ p := fun e => hp (e ▸ hq)
    rw [upd_other _ _ e]
    exact id

/-- The call of a thread of process `p` keeps the flag, and the mirrors in `K` open. -/
def Keeps (K : Nat → Prop) (p : Nat) : PCall → Prop
  | .reset => False
  | .take q => ¬ K q
  | .mirror (.close _) => ¬ K p
  | _ => True

theorem guar_prog (K : Nat → Prop) {lk : MProg MLock} (hl : MThr.Harmless lk) (p : Nat) (c : PCall) (hc : Keeps K p c) :
    (prog lk p c).Guar (Flag K) := by
  have f : ∀ {α : Type} {q : PProg α} {g : α → PRet}, q.Guar (Flag K) →
      (do return g (← q) : PProg PRet).Guar (Flag K) := fun h => .bind h fun _ => trivial
  cases c with
  | mirror c =>
    refine f (.onPart (G := MThr.Flag (K p)) (fun s w h => ?_) (MThr.guar_prog (MThr.flag_steps (K p)) hl c ?_ (by cases c <;> trivial)))
    · refine ⟨h.1, fun hw => ⟨hw.1, fun q => ?_⟩, fun q hq => ?_⟩
      · show (upd w.procs p s.1 q).mirror.hasState = true
        by_cases e : q = p
        · subst e; rw [upd_same]; exact h.2.1 (hw.2 q)
        · rw [upd_other _ _ e]; exact hw.2 q
      · show _ → (upd w.procs p s.1 q).mirror.buf.closed = false
        by_cases e : q = p
        · subst e; rw [upd_same]; exact h.2.2 hq
        · rw [upd_other _ _ e]; exact id
    · intro e he
      subst he
      exact hc
  | take q => exact f (guar_take K q hc).outcome
  | receive => exact f (guar_receive K).outcome
  | stopAll => exact f (Guar.withLock (guar_main_atom K fun _ => ⟨fun _ => rfl, rfl⟩)).outcome
  | forceStop =>
    refine f (Guar.bind (guar_main_atom K fun _ => ⟨id, rfl⟩) fun q => guar_main_atom K fun s => ⟨?_, rfl⟩).outcome
    exact fun h => (Net.put_spec q .stop true none s.2).1.trans h
  | reset => exact hc.elim
  | buffer c =>
    cases c with
    | write d => exact f (guar_main_atom K fun _ => ⟨id, rfl⟩).outcome
    | _ => exact f (guar_line K _)

/-- `stop_all_mirrors` sets the flag. -/
theorem meets_stopAll (K : Nat → Prop) (w : PWorld) :
    stopAll.Meets (Flag K) (fun r t => r = .ok () ∧ t.net.closed = some true) w :=
  .withLock (.atom fun _ _ _ hv => ⟨rfl, hv.1 rfl⟩)

/-- What is promised about a mirror holds in the whole. -/
theorem meets_mirror (K : Nat → Prop) (p : Nat) {α : Type} {Q : Except Exc α → MProc × Net → Prop} {q : MProg α}
    {w : PWorld} (hw : Stateful w) (hq : q.Guar (MThr.Flag (K p)))
    (h : q.Meets (MThr.Flag (K p)) Q (w.procs p, w.net)) :
    (mirror p q).Meets (Flag K) (fun r w => Q r (w.procs p, w.net)) w := by
  refine Meets.onPart (A := Stateful) (fun t t' ht h => h.2.1 ht) ?_ ?_ ?_ hq hw h
  · exact fun t t' ht h => ⟨h.1, fun _ => (h.2.1 ht).2 p, h.2.2 p⟩
  · refine fun s t ht h => ⟨ht.1, fun q => ?_⟩
    show (upd t.procs p s.1 q).mirror.hasState = true
    by_cases e : q = p
    · subst e; rw [upd_same]; exact h.2.1 (ht.2 q)
    · rw [upd_other _ _ e]; exact ht.2 q
  · intro s t
    show (upd t.procs p s.1 p, s.2) = s
    rw [upd_same]

/-! ### Silence -/

/-- Nothing is sent, no mirror changes. -/
def Silent (w w' : PWorld) : Prop :=
  (w.net.closed = some true → w'.net.closed = some true) ∧ w'.main.mirror = w.main.mirror ∧
  (∀ p, (w'.procs p).mirror = (w.procs p).mirror) ∧ ∀ q, w'.net.queues q <:+ w.net.queues q

theorem silent_steady : Steady Silent :=
  ⟨fun _ => ⟨id, rfl, fun _ => rfl, fun _ => List.suffix_refl _⟩,
   fun h1 h2 => ⟨h2.1 ∘ h1.1, h2.2.1.trans h1.2.1, fun p => (h2.2.2.1 p).trans (h1.2.2.1 p),
     fun q => (h2.2.2.2 q).trans (h1.2.2.2 q)⟩⟩

theorem silent_main_atom {α : Type} {m : Py PNet α}
    (hm : ∀ s, (s.2.closed = some true → (m s).2.2.closed = some true) ∧ (m s).2.1.mirror = s.1.mirror ∧
      ∀ q, (m s).2.2.queues q <:+ s.2.queues q) : (atom m).Guar Silent :=
  .atom fun w => ⟨(hm (w.main, w.net)).1, (hm (w.main, w.net)).2.1, fun _ => rfl, (hm (w.main, w.net)).2.2⟩

theorem silent_line {α : Type} (q : TProg α) : (line q).Guar Silent :=
  .onPart (G := fun _ _ => True) (fun _ _ _ => ⟨id, rfl, fun _ => rfl, fun _ => List.suffix_refl _⟩)
    (.any (fun _ _ => trivial) q)

theorem silent_own {s : PNet} {p : ProcBuf} (h : p.mirror = s.1.mirror) :
    (s.2.closed = some true → s.2.closed = some true) ∧ p.mirror = s.1.mirror ∧ ∀ q, s.2.queues q <:+ s.2.queues q :=
  ⟨id, h, fun _ => List.suffix_refl _⟩

theorem silent_checkClose : checkClose.Guar Silent :=
  .bind (silent_main_atom fun _ => silent_own rfl) fun _ => .bind (silent_main_atom fun _ => silent_own rfl) fun _ =>
    .bind (silent_main_atom fun _ => silent_own rfl) fun _ => trivial

theorem silent_receive : receive.Guar Silent := by
  refine .withLock (.bind (silent_main_atom fun _ => silent_own rfl) fun q => .bind (silent_main_atom fun s => ?_) fun msg => ?_)
  · cases h : s.2.queues q with
    | nil => exact silent_own rfl
    | cons m ms =>
      refine ⟨id, rfl, fun i => ?_⟩
      show (if i = q then ms else s.2.queues i) <:+ _
      split
      · next e => subst e; rw [h]; exact List.suffix_cons _ _
      · exact List.suffix_refl _
  · cases msg with
    | str d => exact .bind (silent_line _) fun _ => trivial
    | error m => exact .bind (silent_line _) fun _ => silent_checkClose
    | warning m => exact .bind (silent_line _) fun _ => trivial
    | close => exact silent_checkClose
    | stop => exact .bind (silent_main_atom fun _ => silent_own rfl) fun _ => trivial
    | other => trivial

/-- The flag is set and all mirrors look at it. -/
def Stopped (w : PWorld) : Prop := Stateful w ∧ w.net.closed = some true

theorem Stopped.silent {w w' : PWorld} (h : Stopped w) (hw : Silent w w') : Stopped w' :=
  ⟨⟨by rw [hw.2.1]; exact h.1.1, fun p => by rw [hw.2.2.1 p]; exact h.1.2 p⟩, hw.1 h.2⟩

theorem mild_quiet {c : MCall} (h : Mild (.mirror c)) : MThr.Quiet c := by
  cases c with
  | read n => cases n <;> exact h
  | _ => exact h

theorem safe_prog {lk : MProg MLock} (hl : MThr.Harmless lk) (p : Nat) (c : PCall) (hc : Mild c) (w : PWorld)
    (h : Stopped w) : (prog lk p c).Safe Silent (fun r _ => ∀ d, c = .mirror (.write d) →
      r = .ok (.mirror (.exc (if (w.procs p).mirror.buf.closed then .osError else .stopIteration)))) w := by
  have f : ∀ {α : Type} {q : PProg α} {g : α → PRet}, q.Guar Silent → (∀ d, c ≠ .mirror (.write d)) →
      (do return g (← q) : PProg PRet).Safe Silent (fun r _ => ∀ d, c = .mirror (.write d) →
      r = .ok (.mirror (.exc (if (w.procs p).mirror.buf.closed then .osError else .stopIteration)))) w :=
    fun h hc => (Safe.of_guar silent_steady (.bind h fun _ => Guar.ret _) w).mono fun r t _ d e => absurd e (hc d)
  cases c with
  | mirror c =>
    have hp : (mirror p (MThr.prog lk c)).Safe Silent (fun r _ => ∀ d, c = .write d →
        r = .ok (.exc (if (w.procs p).mirror.buf.closed then .osError else .stopIteration))) w := by
      refine Safe.mono (Safe.onPart (G := MThr.Silent) (G' := Silent) ?_ ?_ ?_
        (MThr.safe_prog hl c (mild_quiet hc) (w.procs p, w.net) ⟨h.1.2 p, h.2⟩)) fun r t ht => ht.2
      · exact fun t t' ht => ⟨ht.2.2.1 p, ht.1, ht.2.2.2⟩
      · refine fun s t hs => ⟨hs.2.1, rfl, fun q => ?_, hs.2.2⟩
        show (upd t.procs p s.1 q).mirror = _
        by_cases e : q = p
        · subst e; rw [upd_same]; exact hs.1
        · rw [upd_other _ _ e]
      · intro s t
        show (upd t.procs p s.1 p, s.2) = s
        rw [upd_same]
    refine .bind silent_steady hp (fun x t ht u hu d e => ?_) (fun x t ht d e => ?_)
    · cases e
      cases ht d rfl
      rfl
    · cases e
      exact nomatch ht d rfl
  | receive => exact f silent_receive.outcome (fun _ => nofun)
  | stopAll =>
    exact f (Guar.withLock (silent_main_atom fun _ => ⟨fun _ => rfl, rfl, fun _ => List.suffix_refl _⟩)).outcome
      (fun _ => nofun)
  | buffer c =>
    cases c with
    | write d => exact f (silent_main_atom fun _ => silent_own rfl).outcome (fun _ => nofun)
    | _ => exact f (silent_line _) (fun _ => nofun)
  | _ => exact hc.elim

end PThr
end SyncStream
