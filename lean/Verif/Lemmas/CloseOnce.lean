import Verif.Lemmas.Protocol
import Verif.Lemmas.ProcRaces
import Verif.Lemmas.ProcCount
import Verif.Spec.CloseOnce
/-!
# Mirrors shared by threads, each closed by one of them

The stage of a thread is a pair: the part of the state that only this thread changes (for a thread that closes: 1 if its mirror is
open and 0 if not; for the thread that receives: `n_mirrors`), and a debt: 1 between the end signal and the closing, -1 between
taking an end signal from the queue and counting it.
-/

namespace SyncStream
open Conc Prog Spec

/-- 1 for an open mirror. -/
def openM (m : MProc) : Int := if m.mirror.buf.closed then 0 else 1

theorem ends_append (a b : List QMsg) : Spec.ends (a ++ b) = Spec.ends a + Spec.ends b := by
  induction a with
  | nil => simp [Spec.ends]
  | cons m a ih => rw [List.cons_append, PThr.ends_cons, ih, PThr.ends_cons m a]; omega

theorem ends_nonneg (a : List QMsg) : 0 ≤ Spec.ends a := by
  induction a with
  | nil => simp [Spec.ends]
  | cons m a ih => cases m <;> simp only [Spec.ends] <;> omega

/-- What thread that closes a mirror can be at: closed, open, open with the end signal sent. -/
def CloserAt (y : Int × Int) : Prop := y = (0, 0) ∨ y = (1, 0) ∨ y = (1, 1)

/-- End signals in the queue of a mirror. -/
def endsM (s : MProc × Net) : Int := Spec.ends (s.2.queues s.1.mirror.queue)

/-- What the steps of a mirror leave alone: the number of its queue, the other queues, the kind of the messages. -/
structure CloseFrame (s t : MProc × Net) : Prop where
  queue : t.1.mirror.queue = s.1.mirror.queue
  others : ∀ q, q ≠ s.1.mirror.queue → t.2.queues q = s.2.queues q
  known : (∀ m ∈ s.2.queues s.1.mirror.queue, m ≠ .stop ∧ m ≠ .other) →
    ∀ m ∈ t.2.queues s.1.mirror.queue, m ≠ .stop ∧ m ≠ .other

/-- A step of a mirror that neither sends an end signal nor closes. -/
structure QuietM (s t : MProc × Net) : Prop extends CloseFrame s t where
  opened : openM t.1 = openM s.1
  ends : endsM t = endsM s

/-- Closing a mirror. -/
def closing : Protocol (MProc × Net) (Int × Int) where
  Ok x s := openM s.1 = x.1
  T x s t y := CloseFrame s t ∧ openM t.1 = y.1 ∧ y.1 ≤ x.1 ∧ y.2 = x.2 + (endsM t - endsM s) + (y.1 - x.1) ∧ CloserAt y

namespace MThr

/-- Messages that are not end signals. -/
def PlainMsg : QMsg → Prop
  | .str _ | .warning _ => True
  | _ => False

theorem CloseFrame.put (s : MProc × Net) {msg : QMsg} (b : Bool) (t : Option Nat) (hm : msg ≠ .stop ∧ msg ≠ .other) :
    CloseFrame s (s.1, (Net.put s.1.mirror.queue msg b t s.2).2) := by
  refine ⟨rfl, fun q hq => ?_, fun h m hm' => ?_⟩
  · rcases (Net.put_spec s.1.mirror.queue msg b t s.2).2 with ⟨_, h⟩ | ⟨_, _, h⟩
    · rw [h]; exact if_neg hq
    · rw [h]
  · rcases (Net.put_spec s.1.mirror.queue msg b t s.2).2 with ⟨_, h'⟩ | ⟨_, _, h'⟩
    · rw [h'] at hm'
      have hm' : m ∈ (if s.1.mirror.queue = s.1.mirror.queue then s.2.queues s.1.mirror.queue ++ [msg] else _) := hm'
      rw [if_pos rfl] at hm'
      rcases List.mem_append.1 hm' with hm' | hm'
      · exact h m hm'
      · rw [List.mem_singleton.1 hm']; exact hm
    · rw [h'] at hm'; exact h m hm'

theorem quiet_steps : Steps False PlainMsg QuietM where
  view s t h := by
    have h1 : (MThr.view t).1 = (MThr.view s).1 := congrArg Prod.fst h
    have h2 : (MThr.view t).2 = (MThr.view s).2 := congrArg Prod.snd h
    have h1 : t.1.mirror = s.1.mirror := h1
    have h2 : t.2 = s.2 := h2
    refine ⟨⟨by rw [h1], fun q _ => by rw [h2], fun h => by rw [h2]; exact h⟩, ?_, ?_⟩
    · unfold openM; rw [h1]
    · unfold endsM; rw [h1, h2]
  buf s b hb := by
    refine ⟨⟨rfl, fun _ _ => rfl, id⟩, ?_, rfl⟩
    show (if b.closed then (0 : Int) else 1) = _
    rw [hb]; rfl
  str _ := trivial
  all h := h.elim
  put s msg b t hm := by
    refine ⟨CloseFrame.put s b t ?_, rfl, ?_⟩
    · cases msg <;> first | exact hm.elim | exact ⟨nofun, nofun⟩
    · unfold endsM
      rcases (Net.put_spec s.1.mirror.queue msg b t s.2).2 with ⟨_, h'⟩ | ⟨_, _, h'⟩
      · have : (Net.put s.1.mirror.queue msg b t s.2).2.queues s.1.mirror.queue = s.2.queues s.1.mirror.queue ++ [msg] := by
          rw [h']; exact if_pos rfl
        show Spec.ends ((Net.put s.1.mirror.queue msg b t s.2).2.queues s.1.mirror.queue) = _
        rw [this, ends_append]
        have : Spec.ends [msg] = 0 := by cases msg <;> first | exact hm.elim | rfl
        omega
      · show Spec.ends ((Net.put s.1.mirror.queue msg b t s.2).2.queues s.1.mirror.queue) = _
        rw [h']
  sets s t b a := ⟨⟨rfl, fun _ _ => rfl, id⟩, rfl, rfl⟩
  close h := h.elim

/-- A quiet step is a step of the protocol. -/
theorem closing_quiet {x : Int × Int} (hx : CloserAt x) (s t : MProc × Net) (h : closing.Ok x s) (hq : QuietM s t) :
    closing.T x s t x := by
  refine ⟨hq.toCloseFrame, hq.opened.trans h, Int.le_refl _, ?_, hx⟩
  rw [hq.ends]; omega

variable {lk : MProg MLock}

/-- After the check `closed`, a thread knows whether the mirror is open. -/
theorem follows_closed (hl : Harmless lk) {x : Int × Int} (hx : CloserAt x) :
    (closed lk).Follows closing (fun r y => y = x ∧ ∀ b, r = .ok b → (b = true ↔ x.1 = 0)) x := by
  refine .quiet_bind (closing_quiet hx) (hl.guar.mono quiet_steps.view) (fun l => .withLock (.atom fun s hs => ⟨x, ?_, rfl, fun b e => ?_⟩))
    fun e => ⟨rfl, nofun⟩
  · exact closing_quiet hx s s hs (quiet_steps.view s s rfl)
  · have e : s.1.mirror.buf.closed = b := by injection e
    have hs : (if s.1.mirror.buf.closed then (0 : Int) else 1) = x.1 := hs
    rw [e] at hs
    cases b
    · rw [← hs]; simp
    · rw [← hs]; simp

/-- The end signal is sent. -/
theorem follows_put {msg : QMsg} (hm : Spec.ends [msg] = 1) :
    (put msg).Follows closing (fun r y => (r = .ok () ∧ y = (1, 1)) ∨ ((∃ e, r = .error e) ∧ y = (1, 0))) (1, 0) := by
  have hk : msg ≠ .stop ∧ msg ≠ .other := by
    constructor
    · intro e; subst e; exact absurd hm (by decide)
    · intro e; subst e; exact absurd hm (by decide)
  refine .atom fun s hs => ?_
  have hf := CloseFrame.put s s.1.mirror.block s.1.mirror.timeout hk
  rcases (Net.put_spec s.1.mirror.queue msg s.1.mirror.block s.1.mirror.timeout s.2).2 with ⟨h1, h2⟩ | ⟨e, h1, h2⟩
  · refine ⟨(1, 1), ⟨hf, hs, Int.le_refl _, ?_, .inr (.inr rfl)⟩, .inl ⟨h1, rfl⟩⟩
    have : (Net.put s.1.mirror.queue msg s.1.mirror.block s.1.mirror.timeout s.2).2.queues s.1.mirror.queue =
        s.2.queues s.1.mirror.queue ++ [msg] := by
      rw [h2]; exact if_pos rfl
    show (1 : Int) = 0 + (Spec.ends ((Net.put s.1.mirror.queue msg s.1.mirror.block s.1.mirror.timeout s.2).2.queues
      s.1.mirror.queue) - Spec.ends (s.2.queues s.1.mirror.queue)) + (1 - 1)
    rw [this, ends_append, hm]; omega
  · refine ⟨(1, 0), ⟨hf, hs, Int.le_refl _, ?_, .inr (.inl rfl)⟩, .inr ⟨⟨e, h1⟩, rfl⟩⟩
    show (0 : Int) = 0 + (Spec.ends ((Net.put s.1.mirror.queue msg s.1.mirror.block s.1.mirror.timeout s.2).2.queues
      s.1.mirror.queue) - Spec.ends (s.2.queues s.1.mirror.queue)) + (1 - 1)
    rw [h2]; omega

/-- Finding the lock. -/
theorem follows_lock (hl : Harmless lk) {x : Int × Int} (hx : CloserAt x) :
    lk.Follows closing (fun r y => (∃ l, r = .ok l) ∧ y = x) x := by
  have : ∀ (q : MProg MLock) s, q.Guar SameView → q.Meets (fun _ _ => True) (fun r _ => ∃ l, r = .ok l) s →
      q.Follows closing (fun r y => (∃ l, r = .ok l) ∧ y = x) x := by
    intro q
    induction q with
    | ret a => exact fun s _ hm => ⟨hm s trivial, rfl⟩
    | raise e => exact fun s _ hm => ⟨hm s trivial, rfl⟩
    | act f k ih =>
      exact fun s hg hm s' hs' => ⟨x, closing_quiet hx s' _ hs' (quiet_steps.view _ _ (hg.1 s')), ih s' _ (hg.2 s') (hm s' trivial)⟩
    | acq l w k ih => exact fun s hg hm => ih s hg hm
    | rel l w k ih => exact fun s hg hm => ih s hg hm
  exact this lk ({ mirror := .new 0 }, {}) hl.guar (hl.finds _)

theorem follows_locked (hl : Harmless lk) {α : Type} {p : MProg α} {Q : Except Exc α → Int × Int → Prop} {x : Int × Int}
    (hx : CloserAt x) (hp : p.Follows closing Q x) : (locked lk p).Follows closing Q x := by
  refine .bind ((follows_lock hl hx).mono fun r y ⟨⟨l, e⟩, h⟩ => ?_)
  subst e h
  exact .withLock hp

/-- An operation on the text that does not fail while the mirror is open. -/
theorem follows_onBuf {α : Type} {m : Py StringIO α} (hm : ∀ b, (m b).2.closed = b.closed)
    (ho : ∀ b, b.closed = false → ∃ a, (m b).1 = .ok a) {x : Int × Int} (hx : CloserAt x) (h1 : x.1 = 1) :
    (onBuf m).Follows closing (fun r y => (∃ a, r = .ok a) ∧ y = x) x := by
  refine .atom fun s hs => ⟨x, closing_quiet hx s _ hs (quiet_steps.buf s _ (hm _)), ho _ ?_, rfl⟩
  have hs : (if s.1.mirror.buf.closed then (0 : Int) else 1) = x.1 := hs
  rw [h1] at hs
  revert hs
  cases s.1.mirror.buf.closed <;> simp

theorem follows_clear (hl : Harmless lk) {x : Int × Int} (hx : CloserAt x) (h1 : x.1 = 1) :
    (clear lk).Follows closing (fun r y => (∃ a, r = .ok a) ∧ y = x) x := by
  refine follows_locked hl hx (.bind ((follows_onBuf seek0_closed (fun b hb => ?_) hx h1).mono fun r y ⟨⟨l, e⟩, h⟩ => ?_))
  · rcases b with ⟨t, p, c⟩; cases hb; exact ⟨_, rfl⟩
  · subst e h
    refine follows_onBuf truncate0_closed (fun b hb => ?_) hx h1
    rcases b with ⟨t, p, c⟩; cases hb; exact ⟨_, rfl⟩

/-- The mirror is closed. -/
theorem follows_shut (hl : Harmless lk) :
    (locked lk (onBuf StringIO.close)).Follows closing (fun r y => r = .ok () ∧ y = (0, 0)) (1, 1) := by
  refine follows_locked hl (.inr (.inr rfl)) (.atom fun s hs => ⟨(0, 0), ⟨⟨rfl, fun _ _ => rfl, id⟩, ?_, ?_, ?_, .inl rfl⟩, ?_, rfl⟩)
  · rfl
  · decide
  · show (0 : Int) = 1 + (endsM s - endsM s) + (0 - 1)
    omega
  · rfl

/-- `send_eof`, `send_error` of an open mirror. -/
theorem follows_sendEnd (hl : Harmless lk) {msg : QMsg} (hm : Spec.ends [msg] = 1) :
    (sendEnd lk msg).Follows closing (fun r y => (r = .ok () ∧ y = (1, 1)) ∨ ((∃ e, r = .error e) ∧ y = (1, 0))) (1, 0) := by
  have hx : CloserAt (1, 0) := .inr (.inl rfl)
  refine .bind ((follows_closed hl hx).mono fun r y ⟨h1, h2⟩ => ?_)
  subst h1
  cases r with
  | error e => exact .inr ⟨⟨e, rfl⟩, rfl⟩
  | ok b =>
    cases b with
    | true => exact absurd ((h2 true rfl).1 rfl) (by decide)
    | false => exact .quiet_bind (closing_quiet hx) (guar_newLine quiet_steps hl) (fun _ => follows_put hm) fun e => .inr ⟨⟨e, rfl⟩, rfl⟩

/-- `close`: afterwards the mirror is closed, if there was no exception, and one end signal has been sent if it was open before and
is closed now. -/
theorem follows_close (hl : Harmless lk) (e : Option ExcObj) {x : Int × Int} (hx : CloserAt x) (h0 : x.2 = 0) :
    (close lk e).Follows closing (fun r y => y.2 = 0 ∧ (r = .ok () → y.1 = 0)) x := by
  refine .bind ((follows_closed hl hx).mono fun r y ⟨h1, h2⟩ => ?_)
  subst h1
  cases r with
  | error e => exact ⟨h0, nofun⟩
  | ok b =>
    cases b with
    | true => exact ⟨h0, fun _ => (h2 true rfl).1 rfl⟩
    | false =>
      have hy : y = (1, 0) := by
        rcases hx with rfl | rfl | rfl
        · exact absurd ((h2 false rfl).2 rfl) (by decide)
        · rfl
        · cases h0
      subst hy
      have fin : ∀ {msg : QMsg}, Spec.ends [msg] = 1 →
          (do
            sendEnd lk msg
            clear lk
            locked lk (onBuf StringIO.close) : MProg Unit).Follows closing (fun r y => y.2 = 0 ∧ (r = .ok () → y.1 = 0)) (1, 0) := by
        intro msg hm
        refine .bind ((follows_sendEnd hl hm).mono fun r y hy => ?_)
        rcases hy with ⟨rfl, rfl⟩ | ⟨⟨e, rfl⟩, rfl⟩
        · refine .bind ((follows_clear hl (.inr (.inr rfl)) rfl).mono fun r y ⟨⟨a, e⟩, h⟩ => ?_)
          subst e h
          exact (follows_shut hl).mono fun r y ⟨_, h⟩ => by subst h; exact ⟨rfl, fun _ => rfl⟩
        · exact ⟨rfl, nofun⟩
      cases e with
      | none => exact fin rfl
      | some e => exact fin rfl

theorem follows_prog_close (hl : Harmless lk) (e : Option ExcObj) {x : Int × Int} (hx : CloserAt x) (h0 : x.2 = 0) :
    (prog lk (.close e)).Follows closing (fun r y => y.2 = 0 ∧ (r = .ok .unit → y.1 = 0)) x := by
  refine .bind (.outcome ((follows_close hl e hx h0).mono fun r y ⟨h1, h2⟩ => ⟨h1, fun e => ?_⟩))
  cases r with
  | ok a => exact h2 rfl
  | error e => cases e

/-- Every other call is quiet. -/
theorem quiet_prog (hl : Harmless lk) (c : MCall) (hc : match c with
    | .close _ | .sendEof | .sendError _ => False
    | _ => True) : (prog lk c).Guar QuietM := by
  refine guar_prog quiet_steps hl c (fun e h => ?_) ?_
  · subst h; exact hc.elim
  · cases c <;> first | exact hc.elim | trivial

end MThr

/-! ### All processes -/

namespace PThr

/-- The mirrors in use beyond those that are open and the end signals that are waiting. -/
def balance (q : Nat) (ps : List Nat) (w : PWorld) : Int := w.main.nMirrors - Spec.ends (w.net.queues q) - openMirrors w ps

/-- A step that neither sends an end signal nor closes nor counts. -/
def QuietW (q : Nat) (s t : PWorld) : Prop := Joined q s →
  Joined q t ∧ t.main.nMirrors = s.main.nMirrors ∧ (∀ p, openM (t.procs p) = openM (s.procs p)) ∧
  Spec.ends (t.net.queues q) = Spec.ends (s.net.queues q)

theorem openMirrors_congr {s t : PWorld} {ps : List Nat} (h : ∀ p ∈ ps, openM (t.procs p) = openM (s.procs p)) :
    openMirrors t ps = openMirrors s ps := by
  induction ps with
  | nil => rfl
  | cons p ps ih =>
    show openM (t.procs p) + openMirrors t ps = openM (s.procs p) + openMirrors s ps
    rw [h p (List.mem_cons_self ..), ih fun p hp => h p (List.mem_cons_of_mem _ hp)]

theorem openMirrors_one {s t : PWorld} {ps : List Nat} (hn : ps.Nodup) {p : Nat} (hp : p ∈ ps)
    (h : ∀ p', p' ≠ p → openM (t.procs p') = openM (s.procs p')) :
    openMirrors t ps = openMirrors s ps + (openM (t.procs p) - openM (s.procs p)) := by
  induction ps with
  | nil => cases hp
  | cons p' ps ih =>
    show openM (t.procs p') + openMirrors t ps = openM (s.procs p') + openMirrors s ps + _
    obtain ⟨h1, h2⟩ := List.nodup_cons.1 hn
    by_cases e : p' = p
    · subst e
      rw [openMirrors_congr (s := s) (t := t) fun p'' hp'' => h p'' fun e => h1 (e ▸ hp'')]
      omega
    · rw [h p' e, ih h2 ((List.mem_cons.1 hp).resolve_left (Ne.symm e))]
      omega

/-- A step of process `p`. -/
def stepOf (p : Nat) (u : MProc × Net) (w : PWorld) : PWorld := { w with procs := upd w.procs p u.1, net := u.2 }

theorem frame_joined {q p : Nat} {w : PWorld} {u : MProc × Net} (hw : Joined q w) (h : CloseFrame (w.procs p, w.net) u) :
    Joined q (stepOf p u w) := by
  obtain ⟨h1, h2, h3⟩ := hw
  obtain ⟨f1, f2, f3⟩ := h
  dsimp only at f1 f2 f3
  rw [h2 p] at f1 f2 f3
  refine ⟨h1, fun p' => ?_, f3 h3⟩
  show (upd w.procs p u.1 p').mirror.queue = q
  by_cases e : p' = p
  · subst e; rw [upd_same]; exact f1
  · rw [upd_other _ _ e]; exact h2 p'

theorem quiet_mirror (q p : Nat) (w : PWorld) (u : MProc × Net) (h : QuietM (w.procs p, w.net) u) :
    QuietW q w (stepOf p u w) := by
  intro hw
  refine ⟨frame_joined hw h.toCloseFrame, rfl, fun p' => ?_, ?_⟩
  · show openM (upd w.procs p u.1 p') = _
    by_cases e : p' = p
    · subst e; rw [upd_same]; exact h.opened
    · rw [upd_other _ _ e]
  · have := h.ends
    unfold endsM at this
    dsimp only at this
    rw [h.queue] at this
    dsimp only at this
    rw [hw.procs p] at this
    exact this

theorem quiet_line (q : Nat) {α : Type} (l : TProg α) : (line l).Guar (QuietW q) := by
  refine .onPart (G := fun _ _ => True) ?_ (Guar.any (fun _ _ => trivial) l)
  exact fun _ w _ hw => ⟨⟨hw.main, hw.procs, hw.known⟩, rfl, fun _ => rfl, rfl⟩

theorem quiet_atom (q : Nat) {α : Type} {m : Py PNet α} (h : ∀ s, (m s).2.1.nMirrors = s.1.nMirrors ∧
    (m s).2.1.mirror = s.1.mirror ∧ (m s).2.2.queues = s.2.queues) : (atom m).Guar (QuietW q) := by
  refine .atom fun w => ?_
  obtain ⟨h1, h2, h3⟩ := h (w.main, w.net)
  intro hw
  refine ⟨⟨?_, hw.procs, ?_⟩, h1, fun _ => rfl, ?_⟩
  · show (m (w.main, w.net)).2.1.mirror.queue = q
    rw [h2]; exact hw.main
  · show ∀ x ∈ (m (w.main, w.net)).2.2.queues q, _
    rw [h3]; exact hw.known
  · show Spec.ends ((m (w.main, w.net)).2.2.queues q) = _
    rw [h3]

/-- The calls that are quiet. -/
def Calm : PCall → Prop
  | .mirror (.close _) | .mirror .sendEof | .mirror (.sendError _) | .take _ | .forceStop | .reset | .receive => False
  | _ => True

theorem quiet_prog {lk : MProg MLock} (hl : MThr.Harmless lk) (q p : Nat) (c : PCall) (hc : Calm c) :
    (prog lk p c).Guar (QuietW q) := by
  cases c with
  | mirror c =>
    refine .bind (.onPart (G := QuietM) (fun u w h => quiet_mirror q p w u h) (MThr.quiet_prog hl c ?_)) fun _ => trivial
    cases c <;> first | exact hc.elim | trivial
  | take p => exact hc.elim
  | receive => exact hc.elim
  | stopAll => exact .bind (.outcome (.withLock (quiet_atom q fun _ => ⟨rfl, rfl, rfl⟩))) fun _ => trivial
  | forceStop => exact hc.elim
  | reset => exact hc.elim
  | buffer c =>
    cases c with
    | write d => exact .bind (quiet_atom q fun _ => ⟨rfl, rfl, rfl⟩).outcome fun _ => trivial
    | _ => exact .bind (quiet_line q _) fun _ => trivial

section
variable (q : Nat) (ps : List Nat) (t : Nat → Nat) (r : Nat) (proc : Nat → Nat)

/-- Thread `i` is the one that closes the mirror of its process. -/
abbrev Closer (i : Nat) : Prop := proc i ∈ ps ∧ i = t (proc i)

/-- The part of the state that only thread `i` changes. -/
def own (i : Nat) (w : PWorld) : Int :=
  if i = r then w.main.nMirrors else if Closer ps t proc i then openM (w.procs (proc i)) else 0

/-- What a thread can be at. -/
def At (i : Nat) (y : Int × Int) : Prop :=
  if i = r then y.2 ≤ 0 else if Closer ps t proc i then CloserAt y else y = (0, 0)

/-- The protocol of thread `i`. -/
def closeRules (i : Nat) : Protocol PWorld (Int × Int) where
  Ok x w := Joined q w ∧ own ps t r proc i w = x.1
  T x s s' y := Joined q s' ∧ own ps t r proc i s' = y.1 ∧ (∀ j, j ≠ i → own ps t r proc j s' = own ps t r proc j s) ∧
    y.2 = x.2 + balance q ps s - balance q ps s' ∧ At ps t r proc i y ∧ y.1 ≤ x.1

/-- The debts of the threads that close. -/
def debts (a : Nat → Int × Int) : List Nat → Int
  | [] => 0
  | p :: ps => (a (t p)).2 + debts a ps

/-- The balance is even, but for the debts. -/
def Even (a : Nat → Int × Int) (w : PWorld) : Prop :=
  balance q ps w + debts t a ps + (a r).2 = 0 ∧ ∀ i, At ps t r proc i (a i)

/-- What a thread has learned from its calls. -/
def Learned (i : Nat) (cs : List (PCall × PRet)) (x : Int × Int) : Prop :=
  (i = r → HasEnded cs → x.1 ≤ 0) ∧ (i ≠ r → Closer ps t proc i → HasClosed cs → x.1 ≤ 0)

/-- During a call that neither closes nor receives there are no debts. -/
def During (_ : Nat) (c : PCall) (y : Int × Int) : Prop := Calm c → y.2 = 0
end

variable {q : Nat} {ps : List Nat} {t : Nat → Nat} {r : Nat} {proc : Nat → Nat} {ok : Nat → PCall → Prop}

theorem debts_congr {a b : Nat → Int × Int} (h : ∀ p ∈ ps, b (t p) = a (t p)) : debts t b ps = debts t a ps := by
  induction ps with
  | nil => rfl
  | cons p ps ih =>
    show (b (t p)).2 + debts t b ps = (a (t p)).2 + debts t a ps
    rw [h p (List.mem_cons_self ..), ih fun p hp => h p (List.mem_cons_of_mem _ hp)]

theorem debts_zero {a : Nat → Int × Int} (h : ∀ i, (a i).2 = 0) (ps : List Nat) : debts t a ps = 0 := by
  induction ps with
  | nil => rfl
  | cons p ps ih => show (a (t p)).2 + debts t a ps = 0; rw [h, ih]; rfl

theorem debts_one {a : Nat → Int × Int} {y : Int × Int} (hn : ps.Nodup) (hh : ∀ p ∈ ps, proc (t p) = p) {p : Nat} (hp : p ∈ ps) :
    debts t (upd a (t p) y) ps = debts t a ps + (y.2 - (a (t p)).2) := by
  induction ps with
  | nil => cases hp
  | cons p' ps ih =>
    show (upd a (t p) y (t p')).2 + debts t (upd a (t p) y) ps = (a (t p')).2 + debts t a ps + _
    obtain ⟨h1, h2⟩ := List.nodup_cons.1 hn
    have inj : ∀ p'' ∈ p' :: ps, t p'' = t p → p'' = p := fun p'' hp'' e => by
      rw [← hh p'' hp'', ← hh p hp, e]
    by_cases e : p' = p
    · subst e
      rw [debts_congr (a := a) (b := upd a (t p') y) fun p'' hp'' => ?_, upd_same]
      · omega
      · exact upd_other _ _ fun e => h1 (inj p'' (List.mem_cons_of_mem _ hp'') e ▸ hp'')
    · rw [upd_other _ _ fun e' => e (inj p' (List.mem_cons_self ..) e'),
        ih h2 (fun p hp => hh p (List.mem_cons_of_mem _ hp)) ((List.mem_cons.1 hp).resolve_left (Ne.symm e))]
      omega

/-- A step keeps the invariant. -/
theorem rules_keep (h : OneCloser ps t r proc ok) (a : Nat → Int × Int) (s s' : PWorld) (i : Nat) (y : Int × Int)
    (h1 : ∀ j, (closeRules q ps t r proc j).Ok (a j) s) (h2 : Even q ps t r proc a s) (h3 : (closeRules q ps t r proc i).T (a i) s s' y) :
    (∀ j, (closeRules q ps t r proc j).Ok (upd a i y j) s') ∧ Even q ps t r proc (upd a i y) s' := by
  obtain ⟨k1, k2, k3, k4, k5, _⟩ := h3
  obtain ⟨e1, e2⟩ := h2
  refine ⟨fun j => ?_, ?_, fun j => ?_⟩
  · by_cases e : j = i
    · subst e; rw [upd_same]; exact ⟨k1, k2⟩
    · rw [upd_other _ _ e]; exact ⟨k1, (k3 j e).trans (h1 j).2⟩
  · by_cases er : i = r
    · subst er
      rw [upd_same, debts_congr (a := a) (b := upd a i y) fun p hp => upd_other _ _ (h.apart p hp)]
      omega
    · rw [upd_other _ _ (Ne.symm er)]
      by_cases ec : Closer ps t proc i
      · have := debts_one (a := a) (y := y) h.nodup h.home ec.1
        rw [← ec.2] at this
        omega
      · have e2 := e2 i
        unfold At at e2 k5
        rw [if_neg er, if_neg ec] at e2 k5
        rw [debts_congr (a := a) (b := upd a i y) fun p hp => upd_other _ _ fun e => ec ?_]
        · rw [e2] at k4
          rw [k5] at k4
          dsimp only at k4
          omega
        · subst e
          show proc (t p) ∈ ps ∧ t p = t (proc (t p))
          rw [h.home p hp]
          exact ⟨hp, rfl⟩
  · by_cases e : j = i
    · subst e; rw [upd_same]; exact k5
    · rw [upd_other _ _ e]; exact e2 j

theorem rules_learned (i : Nat) (cs : List (PCall × PRet)) (x : Int × Int) (s s' : PWorld) (y : Int × Int)
    (h : Learned ps t r proc i cs x) (_ : (closeRules q ps t r proc i).Ok x s) (h3 : (closeRules q ps t r proc i).T x s s' y) :
    Learned ps t r proc i cs y := by
  have hle : y.1 ≤ x.1 := h3.2.2.2.2.2
  refine ⟨fun e hc => ?_, fun e hc hc' => ?_⟩
  · have := h.1 e hc; omega
  · have := h.2 e hc hc'; omega

/-- A quiet step is a step of the protocol. -/
theorem rules_quiet {i : Nat} {x : Int × Int} (hx : At ps t r proc i x) (s s' : PWorld)
    (h : (closeRules q ps t r proc i).Ok x s) (hq : QuietW q s s') : (closeRules q ps t r proc i).T x s s' x := by
  obtain ⟨h1, h2, h3, h4⟩ := hq h.1
  have ho : ∀ j, own ps t r proc j s' = own ps t r proc j s := fun j => by
    unfold own
    rw [h2, h3]
  refine ⟨h1, (ho i).trans h.2, fun j _ => ho j, ?_, hx, Int.le_refl _⟩
  unfold balance
  rw [h2, h4, openMirrors_congr (s := s) (t := s') fun p _ => h3 p]
  omega

/-- Closing, in the world. -/
theorem follows_close {lk : MProg MLock} (hl : MThr.Harmless lk) (h : OneCloser ps t r proc ok) {i : Nat} (hr : i ≠ r)
    (hc : Closer ps t proc i) (e : Option ExcObj) {x : Int × Int} (hx : CloserAt x) (h0 : x.2 = 0) (J : Int × Int → Prop)
    (hJ : ∀ y, J y) :
    (prog lk (proc i) (.mirror (.close e))).Follows ((closeRules q ps t r proc i).only J)
      (fun ret y => y.2 = 0 ∧ (ret = .ok (.mirror .unit) → y.1 = 0)) x := by
  have ho : ∀ w, own ps t r proc i w = openM (w.procs (proc i)) := fun w => by
    unfold own; rw [if_neg hr, if_pos hc]
  refine .bind (.mono (Follows.onPart (P := closing) (fun x w hw => ?_) (fun x w u y hw hu => ?_)
    (MThr.follows_prog_close hl e hx h0)) fun ret y hy => ?_)
  · exact (ho w).symm.trans hw.2
  · obtain ⟨f, h1, h2, h3, h4⟩ := hu
    have hj : Joined q (stepOf (proc i) u w) := frame_joined hw.1 f
    have hp : (stepOf (proc i) u w).procs (proc i) = u.1 := upd_same _ _ _
    have hother : ∀ p', p' ≠ proc i → (stepOf (proc i) u w).procs p' = w.procs p' := fun p' hp' => upd_other _ _ hp'
    refine ⟨⟨hj, ?_, fun j hji => ?_, ?_, ?_, h2⟩, hJ y⟩
    · exact (ho _).trans ((congrArg openM hp).trans h1)
    · show own ps t r proc j (stepOf (proc i) u w) = _
      unfold own
      by_cases ej : j = r
      · rw [if_pos ej, if_pos ej]; rfl
      · rw [if_neg ej, if_neg ej]
        by_cases ec : Closer ps t proc j
        · rw [if_pos ec, if_pos ec, hother]
          intro e
          exact hji (by rw [ec.2, hc.2, e])
        · rw [if_neg ec, if_neg ec]
    · show y.2 = x.2 + balance q ps w - balance q ps (stepOf (proc i) u w)
      have e1 : openMirrors (stepOf (proc i) u w) ps = openMirrors w ps + (openM u.1 - openM (w.procs (proc i))) := by
        rw [openMirrors_one (s := w) (t := stepOf (proc i) u w) h.nodup hc.1 fun p' hp' => by rw [hother p' hp'], hp]
      unfold balance
      rw [e1, h3]
      have e2 : openM (w.procs (proc i)) = x.1 := (ho w).symm.trans hw.2
      have e3 : endsM u = Spec.ends (u.2.queues q) := by
        unfold endsM
        rw [f.queue]
        show Spec.ends (u.2.queues (w.procs (proc i)).mirror.queue) = _
        rw [hw.1.procs]
      have e4 : endsM (w.procs (proc i), w.net) = Spec.ends (w.net.queues q) := by
        unfold endsM
        show Spec.ends (w.net.queues (w.procs (proc i)).mirror.queue) = _
        rw [hw.1.procs]
      rw [e2, h1, e3, e4]
      show _ = x.2 + (w.main.nMirrors - _ - _) - (w.main.nMirrors - Spec.ends (u.2.queues q) - _)
      omega
    · unfold At; rw [if_neg hr, if_pos hc]; exact h4
  · cases ret with
    | error e => exact ⟨hy.1, nofun⟩
    | ok v => exact ⟨hy.1, fun e => hy.2 (by cases e; rfl)⟩

/-! #### Receiving -/

theorem own_receiver (w : PWorld) : own ps t r proc r w = w.main.nMirrors := by
  unfold own; rw [if_pos rfl]

/-- What concerns a thread that does not receive. -/
theorem own_other {s s' : PWorld} (hp : s'.procs = s.procs) {j : Nat} (hj : j ≠ r) :
    own ps t r proc j s' = own ps t r proc j s := by
  unfold own; rw [if_neg hj, if_neg hj, hp]

theorem at_receiver {y : Int × Int} : At ps t r proc r y ↔ y.2 ≤ 0 := by unfold At; rw [if_pos rfl]

theorem openMirrors_same {s s' : PWorld} (hp : s'.procs = s.procs) (ps : List Nat) : openMirrors s' ps = openMirrors s ps :=
  openMirrors_congr fun p _ => by rw [hp]

section
variable {J : Int × Int → Prop}

/-- An end signal that has been taken from the queue is counted. -/
theorem follows_checkClose (hJ : ∀ y, J y) (n : Int) :
    checkClose.Follows ((closeRules q ps t r proc r).only J)
      (fun ret y => y = (n - 1, 0) ∧ ∀ b, ret = .ok b → (b = true ↔ n - 1 > 0)) (n, -1) := by
  have ha : At ps t r proc r (n, -1) := at_receiver.2 (show (-1 : Int) ≤ 0 by decide)
  have hb : At ps t r proc r (n - 1, 0) := at_receiver.2 (Int.le_refl _)
  refine .bind (.atom fun s hs => ⟨(n, -1), ⟨rules_quiet ha s s hs fun hw => ⟨hw, rfl, fun _ => rfl, rfl⟩, hJ _⟩, ?_⟩)
  have hn : s.main.nMirrors = n := (own_receiver s).symm.trans hs.2
  show Follows _ _ _ _
  refine .bind (.atom fun s1 hs1 => ⟨(n - 1, 0), ⟨?_, hJ _⟩, ?_⟩)
  · show (closeRules q ps t r proc r).T (n, -1) s1 { s1 with main := { s1.main with nMirrors := s.main.nMirrors - 1 } } (n - 1, 0)
    have hn1 : s1.main.nMirrors = n := (own_receiver s1).symm.trans hs1.2
    refine ⟨⟨hs1.1.main, hs1.1.procs, hs1.1.known⟩, ?_, fun j hj => own_other (by rfl) hj, ?_, hb, ?_⟩
    · rw [own_receiver]
      show s.main.nMirrors - 1 = n - 1
      rw [hn]
    · unfold balance
      rw [openMirrors_same (s := s1) (s' := { s1 with main := { s1.main with nMirrors := s.main.nMirrors - 1 } }) rfl ps]
      dsimp only
      omega
    · show n - 1 ≤ n
      omega
  · show Follows _ _ _ _
    refine .bind (.atom fun s2 hs2 => ⟨(n - 1, 0), ⟨rules_quiet hb s2 s2 hs2 fun hw => ⟨hw, rfl, fun _ => rfl, rfl⟩, hJ _⟩, ?_⟩)
    have hn2 : s2.main.nMirrors = n - 1 := (own_receiver s2).symm.trans hs2.2
    refine ⟨rfl, fun b e => ?_⟩
    have e : decide (s2.main.nMirrors > 0) = b := by injection e
    rw [← e, hn2]
    simp

/-- What is done with a message that has been taken from the queue. -/
theorem follows_process (hJ : ∀ y, J y) (msg : QMsg) (hm : msg ≠ .stop ∧ msg ≠ .other) (n : Int) :
    (process msg).Follows ((closeRules q ps t r proc r).only J)
      (fun ret y => y.2 = 0 ∧ (ret = .ok false → y.1 ≤ 0)) (n, -Spec.ends [msg]) := by
  have quiet : ∀ {α : Type} (l : TProg α) (g : α → PProg Bool) (x : Int × Int) (Q : Except Exc Bool → Int × Int → Prop), x.2 ≤ 0 →
      (∀ a, (g a).Follows ((closeRules q ps t r proc r).only J) Q x) → (∀ e, Q (.error e) x) →
      (line l >>= g).Follows ((closeRules q ps t r proc r).only J) Q x := fun l g x Q hx hg he =>
    .quiet_bind (fun s s' hs hq => ⟨rules_quiet (at_receiver.2 hx) s s' hs hq, hJ x⟩) (quiet_line q l) hg he
  have count : checkClose.Follows ((closeRules q ps t r proc r).only J)
      (fun ret y => y.2 = 0 ∧ (ret = .ok false → y.1 ≤ 0)) (n, -1) := by
    refine (follows_checkClose hJ n).mono fun ret y ⟨h1, h2⟩ => ?_
    subst h1
    refine ⟨rfl, fun e => ?_⟩
    have := (h2 false e).2
    show n - 1 ≤ 0
    by_cases hh : n - 1 > 0
    · exact absurd (this hh) (by decide)
    · omega
  cases msg with
  | str d => exact quiet _ _ (n, 0) _ (Int.le_refl _) (fun _ => ⟨rfl, nofun⟩) fun e => ⟨rfl, nofun⟩
  | error m =>
    -- `deliver` cannot fail
    intro s hs
    refine ⟨(n, -1), ⟨rules_quiet (at_receiver.2 (show (-1 : Int) ≤ 0 by decide)) s _ hs fun hw => ⟨⟨hw.main, hw.procs, hw.known⟩, rfl, fun _ => rfl, rfl⟩, hJ _⟩, count⟩
  | warning m => exact quiet _ _ (n, 0) _ (Int.le_refl _) (fun _ => ⟨rfl, nofun⟩) fun e => ⟨rfl, nofun⟩
  | close => exact count
  | stop => exact absurd rfl hm.1
  | other => exact absurd rfl hm.2

/-- `receive` -/
theorem follows_receive (hJ : ∀ y, J y) {x : Int × Int} (h0 : x.2 = 0) :
    receive.Follows ((closeRules q ps t r proc r).only J) (fun ret y => y.2 = 0 ∧ (ret = .ok false → y.1 ≤ 0)) x := by
  have ha : At ps t r proc r x := at_receiver.2 (by omega)
  refine .withLock (.bind (.atom fun s hs => ⟨x, ⟨rules_quiet ha s s hs fun hw => ⟨hw, rfl, fun _ => rfl, rfl⟩, hJ _⟩, ?_⟩))
  have hq : s.main.mirror.queue = q := hs.1.main
  show Follows _ _ (get s.main.mirror.queue >>= process) x
  rw [hq]
  refine .bind (.atom fun w hw => ?_)
  have hn : w.main.nMirrors = x.1 := (own_receiver w).symm.trans hw.2
  cases hc : w.net.queues q with
  | nil =>
    refine ⟨x, ⟨?_, hJ _⟩, ?_⟩
    · simp only [Py.onPart, hc]
      exact rules_quiet ha w w hw fun hw => ⟨hw, rfl, fun _ => rfl, rfl⟩
    · simp only [Py.onPart, hc]
      exact ⟨h0, nofun⟩
  | cons m ms =>
    have hk := hw.1.known
    rw [hc] at hk
    have he := PThr.ends_cons m ms
    have h1 : Spec.ends [m] ≥ 0 := ends_nonneg _
    refine ⟨(x.1, -Spec.ends [m]), ⟨?_, hJ _⟩, ?_⟩
    · simp only [Py.onPart, hc]
      show (closeRules q ps t r proc r).T x w
        { w with net := { w.net with queues := fun i => if i = q then ms else w.net.queues i } } (x.1, -Spec.ends [m])
      refine ⟨⟨hw.1.main, hw.1.procs, ?_⟩, ?_, fun j hj => own_other (s := w) rfl hj, ?_, at_receiver.2 ?_, Int.le_refl _⟩
      · show ∀ m' ∈ (if q = q then ms else _), _
        rw [if_pos rfl]
        exact fun m' hm' => hk m' (List.mem_cons_of_mem _ hm')
      · rw [own_receiver]; exact hn
      · unfold balance
        rw [openMirrors_same (s := w)
          (s' := { w with net := { w.net with queues := fun i => if i = q then ms else w.net.queues i } }) rfl ps, hc, h0, he]
        dsimp only
        rw [if_pos rfl]
        omega
      · show -Spec.ends [m] ≤ 0
        omega
    · simp only [Py.onPart, hc]
      exact follows_process hJ m (hk m (List.mem_cons_self ..)) _
end

/-- Where the steps lead. -/
theorem follows_track {i : Nat} {J : Int × Int → Prop} {α : Type} {Q : Except Exc α → Int × Int → Prop} {p : PProg α} {x : Int × Int}
    (hx : At ps t r proc i x) (h : p.Follows ((closeRules q ps t r proc i).only J) Q x) :
    p.Follows ((closeRules q ps t r proc i).only J) (fun ret y => Q ret y ∧ At ps t r proc i y ∧ y.1 ≤ x.1) x := by
  refine (Follows.track (D := fun x y => (At ps t r proc i x → At ps t r proc i y) ∧ y.1 ≤ x.1) (fun x => ⟨id, Int.le_refl _⟩)
    (fun h1 h2 => ⟨h2.1 ∘ h1.1, Int.le_trans h2.2 h1.2⟩) (fun x s s' y _ h => ?_) h).mono fun ret y hy => ⟨hy.1, hy.2.1 hx, hy.2.2⟩
  exact ⟨fun _ => h.1.2.2.2.2.1, h.1.2.2.2.2.2⟩

/-- Every call follows the protocol. -/
theorem follows_call {lk : MProg MLock} (hl : MThr.Harmless lk) (h : OneCloser ps t r proc ok) (i : Nat) (c : PCall)
    (cs : List (PCall × PRet)) (x : Int × Int) (hok : ok i c) (hid : At ps t r proc i x ∧ x.2 = 0) (hM : Learned ps t r proc i cs x) :
    ((procThreads lk proc ok).call i () c).Follows ((closeRules q ps t r proc i).only (During i c))
      (fun ret y => ∀ r' o', ret = .ok (r', o') →
        (At ps t r proc i y ∧ y.2 = 0) ∧ Learned ps t r proc i (cs ++ [(c, r')]) y) x := by
  have calm : Calm c → ((procThreads lk proc ok).call i () c).Follows ((closeRules q ps t r proc i).only (During i c))
      (fun ret y => ∀ r' o', ret = .ok (r', o') →
        (At ps t r proc i y ∧ y.2 = 0) ∧ Learned ps t r proc i (cs ++ [(c, r')]) y) x := by
    intro hc
    have hg : ((procThreads lk proc ok).call i () c).Guar (QuietW q) := .bind (quiet_prog hl q (proc i) c hc) fun _ => trivial
    refine (Follows.quiet (P := (closeRules q ps t r proc i).only (During i c)) (G := QuietW q)
      (fun s s' hs hq => ⟨rules_quiet hid.1 s s' hs hq, fun _ => hid.2⟩) hg).mono fun ret y hy r' o' _ => ?_
    subst hy
    refine ⟨hid, fun e he => hM.1 e ?_, fun e hcl he => hM.2 e hcl ?_⟩
    · rcases List.mem_append.1 he with he | he
      · exact he
      · cases List.mem_singleton.1 he; exact hc.elim
    · obtain ⟨e, he⟩ := he
      rcases List.mem_append.1 he with he | he
      · exact ⟨e, he⟩
      · cases List.mem_singleton.1 he; exact hc.elim
  cases c with
  | mirror c =>
    cases c with
    | close e =>
      have hc := h.closes i e hok
      have hr : i ≠ r := fun er => h.apart _ hc.1 (hc.2.symm.trans er)
      have hx : CloserAt x := by
        have := hid.1
        unfold At at this
        rwa [if_neg hr, if_pos hc] at this
      refine .bind ((follows_track hid.1 (follows_close hl h hr hc e hx hid.2 _ (fun y hc => hc.elim))).mono fun ret y hy => ?_)
      obtain ⟨⟨y1, y2⟩, y3, y4⟩ := hy
      cases ret with
      | error e => nofun
      | ok v =>
        intro r' o' er
        cases er
        refine ⟨⟨y3, y1⟩, fun e => absurd e hr, fun _ _ hcl => ?_⟩
        obtain ⟨e', hcl⟩ := hcl
        rcases List.mem_append.1 hcl with hcl | hcl
        · exact Int.le_trans y4 (hM.2 hr hc ⟨e', hcl⟩)
        · cases List.mem_singleton.1 hcl
          exact Int.le_of_eq (y2 rfl)
    | sendEof => exact (h.others i _ hok).elim
    | sendError e => exact (h.others i _ hok).elim
    | _ => exact calm trivial
  | take p => exact (h.others i _ hok).elim
  | receive =>
    have hr := h.receives i hok
    subst hr
    refine .bind (.bind (.outcome ((follows_track hid.1 (follows_receive (fun y hc => hc.elim) hid.2)).mono fun ret y hy => ?_)))
    intro r' o' er
    cases er
    refine ⟨⟨hy.2.1, hy.1.1⟩, fun _ he => ?_, fun e => absurd rfl e⟩
    rcases List.mem_append.1 he with he | he
    · exact Int.le_trans hy.2.2 (hM.1 rfl he)
    · have := congrArg Prod.snd (List.mem_singleton.1 he)
      refine hy.1.2 ?_
      cases ret with
      | error e => cases this
      | ok b => cases b with
        | false => rfl
        | true => cases this
  | stopAll => exact calm trivial
  | forceStop => exact (h.others i _ hok).elim
  | reset => exact (h.others i _ hok).elim
  | buffer c => exact calm trivial

/-- The stages of the threads in an execution. -/
theorem close_stages {lk : MProg MLock} (hl : MThr.Harmless lk) (h : OneCloser ps t r proc ok) {w : PWorld} (hj : Joined q w)
    (hw : EachOnce ps w) {tr : List (Ev PCall PRet)} {κ : Conc.Conf PWorld PLock Unit PCall PRet}
    (he : Exec (procThreads lk proc ok) (init w fun _ => ()) tr κ) :
    ∃ a : Nat → Int × Int, (∀ i, (closeRules q ps t r proc i).Ok (a i) κ.st) ∧ Even q ps t r proc a κ.st ∧
      (∀ i, Learned ps t r proc i (returned i tr) (a i)) ∧ (∀ i, κ.cur i = none → (a i).2 = 0) ∧
      ∀ i c p, κ.cur i = some (c, p) → ok i c ∧ (Calm c → (a i).2 = 0) := by
  have hat : ∀ i, At ps t r proc i (own ps t r proc i w, 0) := fun i => by
    unfold At own
    by_cases er : i = r
    · rw [if_pos er]
    · rw [if_neg er, if_neg er]
      by_cases ec : Closer ps t proc i
      · rw [if_pos ec, if_pos ec]
        unfold openM
        split
        · exact .inl rfl
        · exact .inr (.inl rfl)
      · rw [if_neg ec, if_neg ec]
  have heven : balance q ps w + debts t (fun i => (own ps t r proc i w, 0)) ps + (0 : Int) = 0 := by
    rw [debts_zero (t := t) (a := fun i => (own ps t r proc i w, 0)) (fun _ => rfl) ps]
    unfold EachOnce waiting at hw
    rw [hj.main] at hw
    unfold balance
    omega
  obtain ⟨a, h1, h2, h3, h4, h5⟩ := exec_follows (P := closeRules q ps t r proc) (Idle := fun i y => At ps t r proc i y ∧ y.2 = 0)
    (J := During) (M := Learned ps t r proc) (Inv := Even q ps t r proc) (fun a s s' i y => rules_keep h a s s' i y)
    (fun i cs x s s' y => rules_learned i cs x s s' y) (fun i c x hx _ => hx.2)
    (fun i o c cs x hok hx hM => follows_call hl h i c cs x hok hx hM) (a0 := fun i => (own ps t r proc i w, 0))
    (fun i => ⟨hj, rfl⟩) (fun i => ⟨hat i, rfl⟩) (fun i => ⟨fun _ => nofun, fun _ _ => nofun⟩) ⟨heven, hat⟩ he
  refine ⟨a, h1, h2, h3, fun i hi => (h4 i hi).1.2, fun i c p hc => ⟨?_, (h5 i c p hc).2.1⟩⟩
  obtain ⟨cs, e, _⟩ := (h5 i c p hc).1
  have hm : c ∈ callsBy i tr := by rw [e]; exact List.mem_append_right _ (List.mem_singleton.2 rfl)
  obtain ⟨ev, hev, hc'⟩ := List.mem_filterMap.1 hm
  cases ev with
  | inv j c' =>
    dsimp only at hc'
    split at hc'
    · cases hc'
      subst j
      exact exec_ok he i c hev
    · cases hc'
  | ret j r => cases hc'

end PThr
end SyncStream
