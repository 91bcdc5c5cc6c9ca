import Verif.Lemmas.Kill
import Verif.Lemmas.LazyLocks
import Verif.Lemmas.Sched
/-!
# Killed processes in the process mode: who uses which lock, and who cannot do without the state lock
-/

namespace SyncStream
open Conc Spec

namespace Prog
variable {σ L α β : Type}

theorem touches_all (p : Prog σ L α) : p.Touches fun _ => True := by
  induction p with
  | ret a => trivial
  | raise e => trivial
  | act f k ih => exact fun s => ih s
  | acq l w k ih => exact ⟨trivial, ih⟩
  | rel l w k ih => exact ih

/-- `Needs J l Q X p`: as long as `J` holds, `p` comes to the lock `l`, unless it returns something with `Q` or raises an exception with
`X`. -/
def Needs (J : σ → Prop) (l : L) (Q : α → Prop) (X : Exc → Prop) : Prog σ L α → Prop
  | ret a => Q a
  | raise e => X e
  | act _ k => ∀ s, J s → (k s).Needs J l Q X
  | acq l' _ k => l' = l ∨ k.Needs J l Q X
  | rel _ _ k => k.Needs J l Q X

variable {J : σ → Prop} {l : L} {X : Exc → Prop}

theorem Needs.bind {Q : α → Prop} {Q' : β → Prop} {p : Prog σ L α} {g : α → Prog σ L β} (hp : p.Needs J l Q X)
    (hg : ∀ a, Q a → (g a).Needs J l Q' X) : (p >>= g).Needs J l Q' X := by
  induction p with
  | ret a => exact hg a hp
  | raise e => exact hp
  | act f k ih => exact fun s hs => ih s (hp s hs)
  | acq l w k ih => exact hp.imp id ih
  | rel l w k ih => exact ih hp

/-- Programs without an exception of their own. -/
def Calm : Prog σ L α → Prop
  | ret _ => True
  | raise _ => False
  | act _ k => ∀ s, (k s).Calm
  | acq _ _ k => k.Calm
  | rel _ _ k => k.Calm

theorem Calm.bind {p : Prog σ L α} {g : α → Prog σ L β} (hp : p.Calm) (hg : ∀ a, (g a).Calm) : (p >>= g).Calm := by
  induction p with
  | ret a => exact hg a
  | raise e => exact hp.elim
  | act f k ih => exact fun s => ih s (hp s)
  | acq l w k ih => exact ih hp
  | rel l w k ih => exact ih hp

theorem needs_calm {p : Prog σ L α} (hp : p.Calm) : p.Needs J l (fun _ => True) X := by
  induction p with
  | ret a => trivial
  | raise e => exact hp.elim
  | act f k ih => exact fun s _ => ih s (hp s)
  | acq l w k ih => exact .inr (ih hp)
  | rel l w k ih => exact ih hp

theorem needs_any (p : Prog σ L α) : p.Needs J l (fun _ => True) fun _ => True := by
  induction p with
  | ret a => trivial
  | raise e => trivial
  | act f k ih => exact fun s _ => ih s
  | acq l w k ih => exact .inr ih
  | rel l w k ih => exact ih

theorem Needs.andRelease {Q : α → Prop} {p : Prog σ L α} {l' : L} {w : Bool} (hp : p.Needs J l Q X) : (p.andRelease l' w).Needs J l Q X := by
  induction p with
  | ret a => exact hp
  | raise e => exact hp
  | act f k ih => exact fun s hs => ih s (hp s hs)
  | acq l w k ih => exact hp.imp id ih
  | rel l w k ih => exact ih hp

theorem Needs.withLock {Q : α → Prop} {p : Prog σ L α} {l' : L} {w : Bool} (hp : p.Needs J l Q X) : (withLock l' w p).Needs J l Q X :=
  .inr hp.andRelease

theorem Needs.outcome {Q : α → Prop} {p : Prog σ L α} {Y : Exc → Prop} (hp : p.Needs J l Q X) :
    p.outcome.Needs J l (fun | .ok a => Q a | .error e => X e) Y := by
  induction p with
  | ret a => exact hp
  | raise e => exact hp
  | act f k ih => exact fun s hs => ih s (hp s hs)
  | acq l w k ih => exact hp.imp id ih
  | rel l w k ih => exact ih hp

theorem Needs.onPart {τ L' : Type} {get : τ → σ} {set : σ → τ → τ} {ren : L → L'} {J' : τ → Prop} {Q : α → Prop} {p : Prog σ L α}
    {l' : L'} (hJ : ∀ t, J' t → J (get t)) (hl : ren l = l') (hp : p.Needs J l Q X) : (p.onPart get set ren).Needs J' l' Q X := by
  subst hl
  induction p with
  | ret a => exact hp
  | raise e => exact hp
  | act f k ih => exact fun t ht => ih _ (hp _ (hJ t ht))
  | acq l w k ih => exact hp.imp (congrArg ren) ih
  | rel l w k ih => exact ih hp

/-- Programs that keep `J`. -/
def Maintains (J : σ → Prop) : Prog σ L α → Prop
  | ret _ => True
  | raise _ => True
  | act f k => ∀ s, J s → J (f s) ∧ (k s).Maintains J
  | acq _ _ k => k.Maintains J
  | rel _ _ k => k.Maintains J

theorem Maintains.bind {p : Prog σ L α} {g : α → Prog σ L β} (hp : p.Maintains J) (hg : ∀ a, (g a).Maintains J) : (p >>= g).Maintains J := by
  induction p with
  | ret a => exact hg a
  | raise e => trivial
  | act f k ih => exact fun s h => ⟨(hp s h).1, ih s (hp s h).2⟩
  | acq l w k ih => exact ih hp
  | rel l w k ih => exact ih hp

theorem Maintains.outcome {p : Prog σ L α} (hp : p.Maintains J) : p.outcome.Maintains J := by
  induction p with
  | ret a => trivial
  | raise e => trivial
  | act f k ih => exact fun s h => ⟨(hp s h).1, ih s (hp s h).2⟩
  | acq l w k ih => exact ih hp
  | rel l w k ih => exact ih hp

theorem Maintains.withLock {p : Prog σ L α} {l : L} {w : Bool} (hp : p.Maintains J) : (withLock l w p).Maintains J := by
  show (p.andRelease l w).Maintains J
  induction p with
  | ret a => trivial
  | raise e => trivial
  | act f k ih => exact fun s h => ⟨(hp s h).1, ih s (hp s h).2⟩
  | acq l w k ih => exact ih hp
  | rel l w k ih => exact ih hp

theorem Maintains.ret (a : α) : (Prog.ret a : Prog σ L α).Maintains J := trivial
theorem Maintains.pure (a : α) : (pure a : Prog σ L α).Maintains J := trivial
theorem Maintains.raise (e : Exc) : (Prog.raise e : Prog σ L α).Maintains J := trivial

theorem Maintains.atom {m : Py σ α} (h : ∀ s, J s → J (m s).2) : (Prog.atom m : Prog σ L α).Maintains J := fun s hs =>
  ⟨h s hs, by dsimp only; split <;> trivial⟩

theorem Maintains.onPart {τ L' : Type} {get : τ → σ} {set : σ → τ → τ} {ren : L → L'} {J' : τ → Prop} {p : Prog σ L α}
    (hJ : ∀ t, J' t → J (get t)) (hJ' : ∀ s t, J s → J' t → J' (set s t)) (hp : p.Maintains J) : (p.onPart get set ren).Maintains J' := by
  induction p with
  | ret a => trivial
  | raise e => trivial
  | act f k ih => exact fun t ht => ⟨hJ' _ _ (hp _ (hJ t ht)).1 ht, ih _ (hp _ (hJ t ht)).2⟩
  | acq l w k ih => exact ih hp
  | rel l w k ih => exact ih hp

end Prog

namespace Conc
variable {σ L O C R : Type} [DecidableEq L] {sys : Sys σ L O C R} {J : σ → Prop}

/-- What always holds. -/
structure Kept (J : σ → Prop) (κ : Conf σ L O C R) : Prop where
  st : J κ.st
  cur : ∀ i c p, κ.cur i = some (c, p) → p.Maintains J

theorem kept_step (hs : ∀ i o c, sys.ok i c → (sys.call i o c).Maintains J) {κ κ' : Conf σ L O C R} {e : Option (Ev C R)}
    (h : Kept J κ) (st : Step sys κ e κ') : Kept J κ' := by
  have cu : ∀ (i : Nat) (x : Option (C × Prog σ L (R × O))), (∀ c p, x = some (c, p) → p.Maintains J) →
      ∀ j c p, upd κ.cur i x j = some (c, p) → p.Maintains J := by
    intro i x hx j c p hj
    by_cases hji : j = i
    · subst hji; rw [upd_same] at hj; exact hx c p hj
    · rw [upd_other _ _ hji] at hj; exact h.cur j c p hj
  cases st with
  | inv i c hc hok => exact ⟨h.st, cu i _ (by rintro _ _ ⟨⟩; exact hs i _ c hok)⟩
  | act i c f k hc =>
    have := h.cur i _ _ hc κ.st h.st
    exact ⟨this.1, cu i _ (by rintro _ _ ⟨⟩; exact this.2)⟩
  | acq i c l w k hc ht => exact ⟨h.st, cu i _ (by rintro _ _ ⟨⟩; exact (h.cur i _ _ hc : (Prog.acq l w k).Maintains J))⟩
  | rel i c l w k hc => exact ⟨h.st, cu i _ (by rintro _ _ ⟨⟩; exact (h.cur i _ _ hc : (Prog.rel l w k).Maintains J))⟩
  | ret i c r o hc => exact ⟨h.st, cu i _ nofun⟩

theorem kept_exec (hs : ∀ i o c, sys.ok i c → (sys.call i o c).Maintains J) {κ κ' : Conf σ L O C R} {tr : List (Ev C R)}
    (h : Kept J κ) (hx : Exec sys κ tr κ') : Kept J κ' := by
  induction hx with
  | nil => exact h
  | snoc _ _ _ _ _ st ih => exact kept_step hs ih st

/-- One that needs a lock which another one keeps goes on needing it. -/
theorem needs_step {κ κ' : Conf σ L O C R} {e : Option (Ev C R)} (hJ : J κ.st) (st : Step sys κ e κ') {d i : Nat} {c : C} {l : L}
    {Q : R × O → Prop} {X : Exc → Prop} {p : Prog σ L (R × O)} (hne : d ≠ i) (hl : true ∈ κ.held d l) (hc : κ.cur i = some (c, p))
    (hp : p.Needs J l Q X) : (∃ p', κ'.cur i = some (c, p') ∧ p'.Needs J l Q X) ∨ ∃ r o, e = some (.ret i r) ∧ Q (r, o) := by
  have ot : ∀ (j : Nat) x, i ≠ j → ∃ p', upd κ.cur j x i = some (c, p') ∧ p'.Needs J l Q X := fun j x h =>
    ⟨p, by rw [upd_other _ _ h]; exact hc, hp⟩
  cases st with
  | inv j c' hj hok => exact .inl (ot j _ fun e => by subst e; rw [hc] at hj; cases hj)
  | act j c' f g hj =>
    by_cases e : i = j
    · subst e; rw [hc] at hj; cases hj
      exact .inl ⟨_, by dsimp only; rw [upd_same], hp _ hJ⟩
    · exact .inl (ot j _ e)
  | acq j c' l' w' g hj ht =>
    by_cases e : i = j
    · subst e; rw [hc] at hj; cases hj
      rcases hp with rfl | hp
      · exact absurd hl (ht.2 d hne).1
      · exact .inl ⟨_, by dsimp only; rw [upd_same], hp⟩
    · exact .inl (ot j _ e)
  | rel j c' l' w' g hj =>
    by_cases e : i = j
    · subst e; rw [hc] at hj; cases hj
      exact .inl ⟨g, by dsimp only; rw [upd_same], hp⟩
    · exact .inl (ot j _ e)
  | ret j c' r o hj =>
    by_cases e : i = j
    · subst e; rw [hc] at hj; cases hj
      exact .inr ⟨r, o, rfl, hp⟩
    · exact .inl (ot j _ e)

end Conc

/-! ## The process mode -/

/-- Prove that a program keeps something by going through its text. -/
macro "maintains" : tactic => `(tactic| repeat' first
  | exact Prog.Maintains.ret _
  | exact Prog.Maintains.pure _
  | exact Prog.Maintains.raise _
  | assumption
  | with_reducible refine Prog.Maintains.bind ?_ fun _ => ?_
  | split)

namespace MThr
variable {α : Type}

/-- The mirror checks the state. -/
def Checks (s : MProc × Net) : Prop := s.1.mirror.hasState = true

theorem maintains_gets (f : MProc × Net → α) : (gets f).Maintains Checks := Prog.Maintains.atom fun _ h => h

theorem maintains_atom {m : Py MNet α} (hm : ∀ s, (m s).2.1.hasState = s.1.hasState) : (atom m).Maintains Checks :=
  Prog.Maintains.atom fun s h => (hm (s.1.mirror, s.2)).trans h

theorem maintains_onBuf (m : Py StringIO α) : (onBuf m).Maintains Checks := maintains_atom fun _ => rfl
theorem maintains_put (msg : QMsg) : (put msg).Maintains Checks := maintains_atom fun _ => rfl

theorem maintains_lazyLock : lazyLock.Maintains Checks := by
  unfold lazyLock
  maintains
  all_goals exact maintains_gets _

theorem maintains_locked {p : MProg α} (hp : p.Maintains Checks) : (locked lazyLock p).Maintains Checks :=
  .bind maintains_lazyLock fun _ => .withLock hp

theorem maintains_closed : (closed lazyLock).Maintains Checks := maintains_locked (maintains_gets _)

theorem maintains_sendData (d : PyStr) : (sendData lazyLock d).Maintains Checks := by
  unfold sendData
  refine .bind maintains_closed fun _ => ?_
  split
  · exact .ret _
  · exact maintains_put _

theorem maintains_checkState : checkState.Maintains Checks := by
  unfold checkState
  refine .bind (maintains_gets _) fun _ => ?_
  split
  · refine .withLock (.bind (maintains_gets _) fun _ => ?_)
    split
    · exact .raise _
    · exact .ret _
  · exact .ret _

theorem maintains_writeCore (d : PyStr) : (writeCore lazyLock d).Maintains Checks := by
  unfold writeCore
  extract_lets m n
  maintains
  all_goals first | exact maintains_checkState | exact maintains_gets _ | exact maintains_sendData _ | exact maintains_onBuf _

theorem maintains_newLine : (newLine lazyLock).Maintains Checks := maintains_locked (.bind (maintains_onBuf _) fun _ => by
  split
  · exact .bind (maintains_writeCore _) fun _ => .ret _
  · exact .ret _)

theorem maintains_sendEnd (m : QMsg) : (sendEnd lazyLock m).Maintains Checks := .bind maintains_closed fun _ => by
  split
  · exact .ret _
  · exact .bind maintains_newLine fun _ => maintains_put _

theorem maintains_clear : (clear lazyLock).Maintains Checks := maintains_locked (.bind (maintains_onBuf _) fun _ => maintains_onBuf _)

theorem maintains_prog (c : MCall) : (prog lazyLock c).Maintains Checks := by
  have fin : ∀ {α : Type} {p : MProg α} (F : Except Exc α → MRet), p.Maintains Checks →
      (do return F (← p.outcome) : MProg MRet).Maintains Checks := fun F hp => .bind hp.outcome fun _ => .ret _
  cases c with
  | write d =>
    refine fin _ (.bind (maintains_locked (maintains_gets _)) fun _ => ?_)
    split
    · exact .raise _
    · exact maintains_locked (maintains_writeCore d)
  | newLine => exact fin _ maintains_newLine
  | read n =>
    refine fin _ (.bind (maintains_locked (maintains_gets _)) fun _ => ?_)
    split
    · exact .raise _
    · refine maintains_locked ?_
      cases n <;> exact maintains_onBuf _
  | clear => exact fin _ maintains_clear
  | flush => exact fin _ (maintains_locked (maintains_onBuf _))
  | sendData d => exact fin _ (maintains_sendData d)
  | sendEof => exact fin _ (maintains_sendEnd _)
  | sendError e => exact fin _ (maintains_sendEnd _)
  | sendWarning e => exact fin _ (maintains_sendEnd _)
  | close e =>
    refine fin _ (.bind maintains_closed fun _ => ?_)
    split
    · exact .ret _
    · cases e <;> exact .bind (maintains_sendEnd _) fun _ => .bind maintains_clear fun _ => maintains_locked (maintains_onBuf _)
  | closed => exact fin _ maintains_closed
  | readable => exact fin _ (maintains_locked (maintains_gets _))
  | writable => exact fin _ (maintains_locked (maintains_gets _))
  | setTimeout t => exact fin _ (.bind (maintains_atom fun _ => rfl) fun _ => maintains_atom fun _ => rfl)
  | setAggressive a => exact fin _ (maintains_atom fun _ => rfl)

theorem calm_gets (f : MProc × Net → α) : (gets f).Calm := fun _ => trivial

theorem calm_lazyLock : lazyLock.Calm := by
  unfold lazyLock
  refine Prog.Calm.bind (calm_gets _) fun _ => ?_
  split
  · exact Prog.Calm.bind (fun _ => trivial) fun _ => Prog.Calm.bind (calm_gets _) fun _ => trivial
  · exact Prog.Calm.bind (calm_gets _) fun _ => trivial

/-- The check needs the state lock. -/
theorem needs_checkState {X : Exc → Prop} : checkState.Needs Checks .state (fun _ => False) X := by
  unfold checkState
  refine Prog.Needs.bind (Q := fun b => b = true) (fun s hs => hs) fun b hb => ?_
  rw [if_pos hb]
  exact .inl rfl

/-- `write` needs the state lock, unless the mirror is closed. -/
theorem needs_write (d : PyStr) : (write lazyLock d).Needs Checks .state (fun _ => False) (· = .osError) := by
  unfold write
  refine Prog.Needs.bind (Q := fun _ => True) ?_ fun b _ => ?_
  · exact (Prog.needs_calm calm_lazyLock).bind fun _ _ => Prog.Needs.withLock (Prog.needs_calm (calm_gets _))
  · split
    · rfl
    · exact (Prog.needs_calm calm_lazyLock).bind fun _ _ => Prog.Needs.withLock (needs_checkState.bind fun _ h => h.elim)

end MThr

namespace PThr
variable {α : Type}

/-- All mirrors check the state. -/
def Checks (w : PWorld) : Prop := w.main.mirror.hasState = true ∧ ∀ p, (w.procs p).mirror.hasState = true

theorem maintains_mirror {p : Nat} {q : MProg α} (hq : q.Maintains MThr.Checks) : (mirror p q).Maintains Checks :=
  Prog.Maintains.onPart (fun _ h => h.2 p) (fun s w hs hw => ⟨hw.1, fun p' => by
    show (upd w.procs p s.1 p').mirror.hasState = true
    by_cases e : p' = p
    · subst e; rw [upd_same]; exact hs
    · rw [upd_other _ _ e]; exact hw.2 p'⟩) hq

theorem maintains_line (q : TProg α) : (line q).Maintains Checks := by
  refine Prog.Maintains.onPart (J := fun _ => True) (fun _ _ => trivial) (fun s w _ hw => hw) ?_
  induction q with
  | ret a => trivial
  | raise e => trivial
  | act f k ih => exact fun s _ => ⟨trivial, ih s⟩
  | acq l w k ih => exact ih
  | rel l w k ih => exact ih

theorem maintains_atom {m : Py PNet α} (hm : ∀ s, s.1.mirror.hasState = true → (m s).2.1.mirror.hasState = true) : (atom m).Maintains Checks :=
  Prog.Maintains.atom fun w h => ⟨hm (w.main, w.net) h.1, h.2⟩

theorem maintains_checkClose : checkClose.Maintains Checks :=
  .bind (maintains_atom fun _ h => h) fun _ => .bind (maintains_atom fun _ h => h) fun _ => .bind (maintains_atom fun _ h => h) fun _ => .ret _

theorem maintains_process (d : QMsg) : (process d).Maintains Checks := by
  cases d with
  | str d => exact .bind (maintains_line _) fun _ => .ret _
  | error m => exact .bind (maintains_line _) fun _ => maintains_checkClose
  | warning m => exact .bind (maintains_line _) fun _ => .ret _
  | close => exact maintains_checkClose
  | stop => exact .bind (maintains_atom fun _ h => h) fun _ => .ret _
  | other => exact .ret _

theorem maintains_get (q : Nat) : (get q).Maintains Checks := maintains_atom fun s h => by
  dsimp only
  split <;> exact h

theorem maintains_prog (p : Nat) (c : PCall) : (prog MThr.lazyLock p c).Maintains Checks := by
  have fin : ∀ {α : Type} {q : PProg α} (F : Except Exc α → PRet), q.Maintains Checks →
      (do return F (← q.outcome) : PProg PRet).Maintains Checks := fun F hp => .bind hp.outcome fun _ => .ret _
  have buf : ∀ c, (do return .main (← line (Thr.prog (.call c))) : PProg PRet).Maintains Checks := fun c =>
    .bind (maintains_line _) fun _ => .ret _
  cases c with
  | mirror c => exact .bind (maintains_mirror (MThr.maintains_prog c)) fun _ => .ret _
  | take p' =>
    refine fin _ (.bind (maintains_atom fun _ h => h) fun _ => .bind (maintains_atom fun _ h => h) fun _ => .atom fun w h => ⟨h.1, fun i => ?_⟩)
    show (upd w.procs p' { mirror := w.main.mirror } i).mirror.hasState = true
    by_cases e : i = p'
    · subst e; rw [upd_same]; exact h.1
    · rw [upd_other _ _ e]; exact h.2 i
  | receive => exact fin _ (.withLock (.bind (maintains_atom fun _ h => h) fun _ => .bind (maintains_get _) fun _ => maintains_process _))
  | stopAll => exact fin _ (.withLock (maintains_atom fun _ h => h))
  | forceStop => exact fin _ (.bind (maintains_atom fun _ h => h) fun _ => maintains_atom fun _ h => h)
  | reset =>
    refine fin _ (.bind (maintains_atom fun _ h => h) fun _ => ?_)
    split
    · exact .raise _
    · exact .bind (.withLock (.bind (maintains_atom fun _ h => h) fun _ => maintains_atom fun _ h => h)) fun _ => maintains_atom fun _ _ => rfl
  | buffer c =>
    cases c with
    | write d => exact fin _ (maintains_atom fun _ h => h)
    | _ => exact buf _

/-- Which locks a thread of process `p` uses, if only the threads of process `m` use the main buffer. -/
def Own (m p : Nat) : PLock → Prop
  | .buf p' _ => p' = p
  | .state => True
  | .config => p = m
  | .line => p = m

theorem touches_prog (lk : MProg MLock) (m p : Nat) (c : PCall) (h : (∃ c', c = .mirror c') ∨ p = m) :
    (prog lk p c).Touches (Own m p) := by
  have fin : ∀ {α : Type} {q : PProg α} (F : Except Exc α → PRet), q.Touches (Own m p) →
      (do return F (← q.outcome) : PProg PRet).Touches (Own m p) := fun F hp => .bind hp.outcome fun _ => .ret _
  have at' : ∀ {α : Type} (x : Py PNet α), (atom x).Touches (Own m p) := fun x => .atom _
  have cc : checkClose.Touches (Own m p) := .bind (at' _) fun _ => .bind (at' _) fun _ => .bind (at' _) fun _ => .ret _
  have ln : ∀ {α : Type} (q : TProg α), p = m → (line q).Touches (Own m p) := fun q e =>
    Prog.Touches.onPart (fun _ _ => e) (Prog.touches_all q)
  cases c with
  | mirror c =>
    refine .bind (Prog.Touches.onPart (S := fun _ => True) (fun l _ => ?_) (Prog.touches_all _)) fun _ => .ret _
    cases l with
    | buf k => exact rfl
    | state => trivial
  | take p' => exact fin _ (.bind (at' _) fun _ => .bind (at' _) fun _ => .atom _)
  | receive =>
    have e : p = m := h.resolve_left nofun
    refine fin _ (.withLock e (.bind (at' _) fun _ => .bind (at' _) fun d => ?_))
    cases d with
    | str d => exact .bind (ln _ e) fun _ => .ret _
    | error m => exact .bind (ln _ e) fun _ => cc
    | warning m => exact .bind (ln _ e) fun _ => .ret _
    | close => exact cc
    | stop => exact .bind (at' _) fun _ => .ret _
    | other => exact .ret _
  | stopAll => exact fin _ (.withLock trivial (at' _))
  | forceStop => exact fin _ (.bind (at' _) fun _ => at' _)
  | reset =>
    refine fin _ (.bind (at' _) fun _ => ?_)
    split
    · exact .raise _
    · exact .bind (.withLock trivial (.bind (at' _) fun _ => at' _)) fun _ => at' _
  | buffer c =>
    have e : p = m := h.resolve_left nofun
    cases c with
    | write d => exact fin _ (at' _)
    | _ => exact .bind (ln _ e) fun _ => .ret _

/-- What is left of the calls that need the state lock if nobody gets it. -/
def Without : PCall → PRet → Prop
  | .mirror (.write _), r => r = .mirror (.exc .osError)
  | .stopAll, _ => False
  | .reset, r => r = .main (.exc .typeError)
  | _, _ => True

theorem needs_mirror {p : Nat} {q : MProg α} {Q : α → Prop} {X : Exc → Prop} (h : q.Needs MThr.Checks .state Q X) :
    (mirror p q).Needs Checks .state Q X := by
  unfold mirror
  exact Prog.Needs.onPart (fun w h => h.2 p) rfl h

theorem needs_prog (p : Nat) (c : PCall) : (prog MThr.lazyLock p c).Needs Checks .state (Without c) fun _ => True := by
  cases c with
  | mirror c =>
    cases c with
    | write d =>
      have h : (MThr.prog MThr.lazyLock (.write d)).Needs MThr.Checks .state (· = .exc .osError) fun _ => True := by
        refine Prog.Needs.bind (MThr.needs_write d).outcome fun r hr => ?_
        cases r with
        | ok a => exact hr.elim
        | error e => exact congrArg MRet.exc hr
      refine Prog.Needs.bind (Q := (· = .exc .osError)) (needs_mirror h)
        fun r hr => ?_
      cases hr
      exact rfl
    | _ => exact Prog.needs_any _
  | stopAll => exact .inl rfl
  | reset =>
    refine Prog.Needs.bind (Prog.Needs.outcome (Q := fun _ => False) (X := (· = .typeError))
      (Prog.Needs.bind (Q := fun _ => True) (fun _ _ => trivial) fun n _ => ?_)) fun r hr => ?_
    · split
      · rfl
      · exact .inl rfl
    · cases r with
      | ok a => exact hr.elim
      | error e => exact congrArg (fun e => PRet.main (.exc e)) hr
  | _ => exact Prog.needs_any _

end PThr
end SyncStream
