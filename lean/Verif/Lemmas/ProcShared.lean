import Verif.Lemmas.ProcMoments
/-!
# Threads of several processes: the sections of all calls
-/

namespace SyncStream
open Conc

namespace PThr
variable {α β : Type} {lk : Nat → Nat} {R : Nat → MProc → Prop} {G : Net → Prop} {g : Nat → MCfg} {q0 : Nat}

/-- The regions: the main buffer, protected by `__config_lock`, and the mirrors of the processes, of which `R` holds; the rest is
what is shared, of which `G` holds. -/
def pregOf (lk : Nat → Nat) (R : Nat → MProc → Prop) (G : Net → Prop) (q0 : Nat) : Regions PWorld PLock (Option Nat) where
  A
    | none => ProcBuf
    | some _ => MProc
  G := Net
  get
    | none => fun w => w.main
    | some p => fun w => w.procs p
  set
    | none => fun a w => { w with main := a }
    | some p => fun a w => { w with procs := upd w.procs p a }
  glob w := w.net
  lock
    | none => .config
    | some p => .buf p (lk p)
  inv
    | none => fun b => b.mirror.queue = q0
    | some p => R p
  ginv := G
  get_same k a s := by
    cases k with
    | none => rfl
    | some p => exact upd_same _ _ _
  get_other k k' a s h := by
    cases k with
    | none =>
      cases k' with
      | none => exact absurd rfl h
      | some p' => rfl
    | some p =>
      cases k' with
      | none => rfl
      | some p' => exact upd_other _ _ fun e => h (congrArg some e)
  glob_set k a s := by cases k <;> rfl
  ext s t h h' := by
    have h1 : s.main = t.main := h none
    have h2 : s.procs = t.procs := funext fun p => h (some p)
    have h3 : s.net = t.net := h'
    cases s
    cases t
    cases h1
    cases h2
    cases h3
    rfl
  lock_inj k k' h := by
    cases k <;> cases k' <;> simp_all

/-- The same for open mirrors. -/
abbrev preg (g : Nat → MCfg) (q0 : Nat) : Regions PWorld PLock (Option Nat) := pregOf (fun p => (g p).lock) (fun p => Ready (g p)) Running q0

theorem IOf_iff {w : PWorld} : (pregOf lk R G q0).I w ↔ w.main.mirror.queue = q0 ∧ (∀ p, R p (w.procs p)) ∧ G w.net :=
  ⟨fun h => ⟨h.1 none, fun p => h.1 (some p), h.2⟩, fun h => ⟨fun k => by
    cases k with
    | none => exact h.1
    | some p => exact h.2.1 p, h.2.2⟩⟩

theorem I_iff {w : PWorld} : (preg g q0).I w ↔ w.main.mirror.queue = q0 ∧ (∀ p, Ready (g p) (w.procs p)) ∧ Running w.net := IOf_iff

theorem I_mirror {w : PWorld} (h : (pregOf lk R G q0).I w) (p : Nat) : (MThr.mregOf (lk p) (R p) G).I (w.procs p, w.net) :=
  MThr.IOf_iff.2 ⟨(IOf_iff.1 h).2.1 p, (IOf_iff.1 h).2.2⟩

/-! ## Programs of one process -/

/-- The names of the locks of a process. -/
def lockOf (p : Nat) : MLock → PLock
  | .buf k => .buf p k
  | .state => .state

theorem mirror_ret (p : Nat) (a : α) : mirror p (.ret a) = .ret a := rfl

theorem mirror_bind (p : Nat) (q : MProg α) (k : α → MProg β) : mirror p (q >>= k) = mirror p q >>= fun a => mirror p (k a) := by
  induction q with
  | ret a => rfl
  | raise e => rfl
  | act f κ ih => exact congrArg (Prog.act _) (funext fun w => ih _)
  | acq l w κ ih => exact congrArg (Prog.acq _ w) ih
  | rel l w κ ih => exact congrArg (Prog.rel _ w) ih

theorem lock_iff {p : Nat} {l : MLock} : lockOf p l = (pregOf lk R G q0).lock (some p) ↔ l = (MThr.mregOf (lk p) (R p) G).lock () := by
  cases l <;> simp [lockOf, pregOf, MThr.mregOf]

theorem lock_other {p : Nat} {l : MLock} (h : ∀ k, l ≠ (MThr.mregOf (lk p) (R p) G).lock k) (k : Option Nat) :
    lockOf p l ≠ (pregOf lk R G q0).lock k := by
  cases k with
  | none => cases l <;> simp [lockOf, pregOf]
  | some p' =>
    intro e
    cases l with
    | state => simp [lockOf, pregOf] at e
    | buf n =>
      simp only [lockOf, pregOf, PLock.buf.injEq] at e
      obtain ⟨rfl, rfl⟩ := e
      exact h () rfl

/-- A step of a process, seen by all. -/
def lift (p : Nat) (f : MProc × Net → MProc × Net) (w : PWorld) : PWorld :=
  { w with procs := upd w.procs p (f (w.procs p, w.net)).1, net := (f (w.procs p, w.net)).2 }

theorem own_mirror {p : Nat} {f : MProc × Net → MProc × Net} {κ : MProc × Net → MProg α}
    (h : OwnStep (MThr.mregOf (lk p) (R p) G) () f κ) :
    OwnStep (pregOf lk R G q0) (some p) (lift p f) fun w => mirror p (κ (w.procs p, w.net)) where
  inv w hw := by
    show R p (upd w.procs p _ p)
    rw [upd_same]
    exact h.inv _ (I_mirror hw p)
  glob w hw := h.glob _ (I_mirror hw p)
  other w hw k' hk := by
    cases k' with
    | none => rfl
    | some p' => exact upd_other _ _ fun e => hk (congrArg some e)
  state w v hw hv e := by
    show upd w.procs p _ p = upd v.procs p _ p
    rw [upd_same, upd_same]
    exact h.state _ _ (I_mirror hw p) (I_mirror hv p) e
  cont w v hw hv e := congrArg (mirror p) (h.cont _ _ (I_mirror hw p) (I_mirror hv p) e)

theorem use_mirror {p : Nat} {f : MProc × Net → MProc × Net} {κ : MProc × Net → MProg α}
    (h : UseStep (MThr.mregOf (lk p) (R p) G) () f κ) :
    UseStep (pregOf lk R G q0) (some p) (lift p f) fun w => mirror p (κ (w.procs p, w.net)) where
  inv w hw := by
    show R p (upd w.procs p _ p)
    rw [upd_same]
    exact h.inv _ (I_mirror hw p)
  ginv w hw := h.ginv _ (I_mirror hw p)
  other w hw k' hk := by
    cases k' with
    | none => rfl
    | some p' => exact upd_other _ _ fun e => hk (congrArg some e)
  state w v hw hv e e' := by
    show upd w.procs p _ p = upd v.procs p _ p ∧ _
    rw [upd_same, upd_same]
    exact h.state _ _ (I_mirror hw p) (I_mirror hv p) e e'
  cont w v hw hv e e' := congrArg (mirror p) (h.cont _ _ (I_mirror hw p) (I_mirror hv p) e e')

theorem block_mirror {p d : Nat} {com : Bool} {q : MProg α} (h : Block (MThr.mregOf (lk p) (R p) G) () d com q) :
    Block (pregOf lk R G q0) (some p) d com (mirror p q) := by
  induction q generalizing d com with
  | ret a => exact h
  | raise e => exact h
  | act f κ ih =>
    rcases h with ⟨h1, h2⟩ | ⟨h0, h1, h2⟩
    · exact .inl ⟨own_mirror h1, fun w hw => ih _ (h2 _ (I_mirror hw p))⟩
    · exact .inr ⟨h0, use_mirror h1, fun w hw => ih _ (h2 _ (I_mirror hw p))⟩
  | acq l w κ ih =>
    rcases h with ⟨rfl, h1, h2⟩ | ⟨h1, h2⟩
    · exact .inl ⟨rfl, h1, ih h2⟩
    · exact .inr ⟨lock_other h1, ih h2⟩
  | rel l w κ ih =>
    rcases h with ⟨rfl, d', h1, h2⟩ | ⟨h1, h2⟩
    · exact .inl ⟨rfl, d', h1, ih h2⟩
    · exact .inr ⟨lock_other h1, ih h2⟩

theorem total_mirror {p : Nat} {q : MProg α} (h : q.Total) : (mirror p q).Total := by
  induction q with
  | ret a => exact h
  | raise e => exact h
  | act f κ ih => exact fun w => ih _ (h _)
  | acq l w κ ih => exact ih h
  | rel l w κ ih => exact ih h

theorem ref_mirror {p : Nat} {h : Option Unit} {q c : MProg α} (hr : Ref (MThr.mregOf (lk p) (R p) G) h q c) :
    Ref (pregOf lk R G q0) (h.map fun _ => some p) (mirror p q) (mirror p c) := by
  induction hr with
  | ret x => exact .ret x
  | raise e => exact .raise e
  | glob f κ κ' h1 h2 _ ih =>
    refine .glob _ _ _ ⟨fun w hw => h1.ginv _ (I_mirror hw p), fun w hw k => ?_, fun w v hw hv e => ?_⟩ (fun w v hw hv e => ?_)
      fun w hw => ih _ (I_mirror hw p)
    · cases k with
      | none => rfl
      | some p' =>
        show upd w.procs p (f (w.procs p, w.net)).1 p' = w.procs p'
        have := h1.regions _ (I_mirror hw p) ()
        have : (f (w.procs p, w.net)).1 = w.procs p := this
        rw [this]
        exact congrFun (upd_self _ _) _
    · exact h1.state _ _ (I_mirror hw p) (I_mirror hv p) e
    · exact congrArg (mirror p) (h2 _ _ (I_mirror hw p) (I_mirror hv p) e)
  | still h f κ p' c h1 _ ih =>
    refine .still _ _ _ _ _ (fun w hw => ?_) ih
    obtain ⟨e1, e2⟩ := h1 _ (I_mirror hw p)
    refine ⟨?_, congrArg (mirror p) e2⟩
    show ({ w with procs := upd w.procs p (f (w.procs p, w.net)).1, net := (f (w.procs p, w.net)).2 } : PWorld) = w
    rw [e1, upd_self]
  | acqOther h l w p' c h1 _ ih => exact .acqOther _ _ _ _ _ (lock_other h1) ih
  | relOther h l w p' c h1 _ ih => exact .relOther _ _ _ _ _ (lock_other h1) ih
  | acq k p' c _ ih => exact .acq (some p) _ _ ih
  | rel k w p' c _ ih => exact .rel (some p) w _ _ ih
  | block k β q g1 g' f κ h1 _ h3 h4 ih =>
    rw [mirror_bind]
    refine .block (some p) β (mirror p q) _ (fun b => mirror p (g' b)) _ _ (block_mirror h1) ih ?_ (total_mirror h4)
    intro w hw b t e
    rw [seq_mirror] at e
    have e1 : (q.seq (w.procs p, w.net)).1 = .ok b := congrArg Prod.fst e
    have e2 := congrArg Prod.snd e
    obtain ⟨a1, a2⟩ := h3 _ (I_mirror hw p) b _ (Prod.ext e1 rfl)
    refine ⟨?_, congrArg (mirror p) a2⟩
    refine Eq.trans ?_ e2
    show ({ w with procs := upd w.procs p (f (w.procs p, w.net)).1, net := (f (w.procs p, w.net)).2 } : PWorld) = _
    rw [a1]

theorem shot_mirror {p : Nat} {com : Bool} {q : MProg α} {Q : Except Exc α → Bool → Prop}
    (h : Shot (MThr.mregOf (lk p) (R p) G).I com q Q) : Shot (pregOf lk R G q0).I com (mirror p q) Q := by
  induction q generalizing com with
  | ret a => exact h
  | raise e => exact h
  | act f κ ih =>
    rcases h with ⟨h1, h2⟩ | ⟨h1, h2⟩
    · refine .inl ⟨fun w hw => ⟨?_, ih _ (h1 _ (I_mirror hw p)).2⟩, fun w v hw hv =>
        congrArg (mirror p) (h2 _ _ (I_mirror hw p) (I_mirror hv p))⟩
      show ({ w with procs := upd w.procs p (f (w.procs p, w.net)).1, net := (f (w.procs p, w.net)).2 } : PWorld) = w
      rw [(h1 _ (I_mirror hw p)).1, upd_self]
    · refine .inr ⟨h1, fun w hw => ⟨IOf_iff.2 ⟨(IOf_iff.1 hw).1, fun p' => ?_, ?_⟩, ih _ (h2 _ (I_mirror hw p)).2⟩⟩
      · show R p' (upd w.procs p (f (w.procs p, w.net)).1 p')
        by_cases e : p' = p
        · subst e
          rw [upd_same]
          exact (MThr.IOf_iff.1 (h2 _ (I_mirror hw p')).1).1
        · rw [upd_other _ _ e]
          exact (IOf_iff.1 hw).2.1 p'
      · exact (MThr.IOf_iff.1 (h2 _ (I_mirror hw p)).1).2
  | acq l w κ ih => exact h
  | rel l w κ ih => exact h

end PThr

namespace Conc
variable {σ L K α : Type} {P : Regions σ L K} {k : K}

theorem Uses.keeps {p : Prog σ L α} (h : Uses P k p) {s : σ} (hs : P.I s) : P.I (p.seq s).2 := by
  obtain ⟨b, _, e, _⟩ := (h 0).block.frame hs
  rw [Prog.seq_outcome] at e
  exact e

/-- A block is one moment. -/
theorem Shot.blk {p : Prog σ L α} (h : Uses P k p) {Q : Except Exc α → Bool → Prop} (hQ : ∀ r, Q r true) :
    Shot P.I false (Conc.blk p) Q := by
  unfold Conc.blk
  rw [Prog.atom_eq]
  refine .inr ⟨rfl, fun s hs => ⟨h.keeps hs, ?_⟩⟩
  dsimp only
  cases (p.seq s).1 with
  | ok a => exact hQ _
  | error e => exact hQ _

/-- Reading something that does not change. -/
theorem Shot.const {f : σ → α} {a : α} {J : σ → Prop} (h : ∀ s, J s → f s = a) {com : Bool} {Q : Except Exc α → Bool → Prop}
    (hQ : Q (.ok a) com) : Shot J com (Conc.blk (Prog.atom (Py.gets f) : Prog σ L α)) Q := by
  have e : ∀ s, J s → ((Prog.atom (Py.gets f) : Prog σ L α).seq s) = (.ok a, s) := fun s hs => by
    rw [← h s hs]; rfl
  unfold Conc.blk
  rw [Prog.atom_eq]
  refine .inl ⟨fun s hs => ?_, fun s t hs ht => ?_⟩
  · dsimp only
    refine ⟨rfl, ?_⟩
    rw [show ((Prog.atom (Py.gets f) : Prog σ L α).seq s).1 = .ok a from congrArg Prod.fst (e s hs)]
    exact hQ
  · dsimp only
    rw [show ((Prog.atom (Py.gets f) : Prog σ L α).seq s).1 = .ok a from congrArg Prod.fst (e s hs),
      show ((Prog.atom (Py.gets f) : Prog σ L α).seq t).1 = .ok a from congrArg Prod.fst (e t ht)]

end Conc

namespace MThr
variable {α : Type} {g : MCfg}

/-- Every such call has one moment of effect. -/
theorem shot_coarse {c : MCall} (hc : OneMoment c) : Shot (mreg g).I false (coarse c) fun r _ => ∃ x, r = .ok x := by
  have fin : ∀ {β : Type} {p : MProg β} {F : Except Exc β → MRet}, Shot (mreg g).I false p (fun _ _ => True) →
      Shot (mreg g).I false (p.outcome >>= fun r => (Prog.ret (F r) : MProg MRet)) fun r _ => ∃ x, r = .ok x :=
    fun h => .bind (.outcome (h.mono fun r c _ => ⟨_, rfl⟩))
  have ho : ∀ s : MProc × Net, (mreg g).I s → s.1.mirror.buf.closed = false := fun s hs => (I_iff.1 hs).1.opened
  cases c with
  | write d =>
    refine fin (.bind (.const (a := true) (fun s hs => by rw [ho s hs]; rfl) ?_))
    exact .blk (use_writeCore d) fun _ => trivial
  | newLine => exact fin (.blk use_newLineCore fun _ => trivial)
  | read size =>
    refine fin (.bind (.const (a := true) (fun s hs => by rw [ho s hs]; rfl) ?_))
    cases size with
    | none => exact .blk (own_onBuf open_getvalue).uses fun _ => trivial
    | some n => exact .blk (own_onBuf (open_read n)).uses fun _ => trivial
  | clear =>
    exact fin (.blk (((own_onBuf open_seek0).bind (fun _ _ => own_onBuf open_truncate0) fun _ _ => trivial :
      Priv _ _ _ fun _ => True).uses) fun _ => trivial)
  | flush => exact fin (.blk (own_onBuf open_flush).uses fun _ => trivial)
  | sendData d =>
    refine fin (.bind (.const (a := false) (fun s hs => ho s hs) ?_))
    show Shot _ false (put (.str d)) _
    unfold put atom
    rw [Prog.atom_eq]
    refine .inr ⟨rfl, fun s hs => ⟨I_iff.2 ⟨(I_iff.1 hs).1, ?_⟩, ?_⟩⟩
    · show (Net.put s.1.mirror.queue (.str d) s.1.mirror.block s.1.mirror.timeout s.2).2.closed ≠ some true
      rw [put_closed]; exact (I_iff.1 hs).2
    · dsimp only
      cases (Py.onPart (fun s : MProc × Net => (s.1.mirror, s.2)) (fun t s => ({ s.1 with mirror := t.1 }, t.2))
        (Mirror.put (.str d)) s).1 <;> exact trivial
  | closed => exact fin (.const ho trivial)
  | readable => exact fin (.const (a := true) (fun s hs => by rw [ho s hs]; rfl) trivial)
  | writable => exact fin (.const (a := true) (fun s hs => by rw [ho s hs]; rfl) trivial)
  | _ => exact hc.elim

end MThr

namespace PThr
variable {α β : Type} {lk : Nat → Nat} {R : Nat → MProc → Prop} {G : Net → Prop} {g : Nat → MCfg} {q0 : Nat}

/-! ## The main buffer -/

/-- What the inherited line buffer does stays in it. -/
theorem own_line (q : TProg α) : Priv (pregOf lk R G q0) none (line q) fun _ => True := by
  intro d com
  induction q with
  | ret a => exact ⟨rfl, rfl, trivial⟩
  | raise e => exact ⟨rfl, rfl, trivial⟩
  | act f κ ih =>
    refine .inl ⟨⟨fun w hw => hw.1 none, fun _ _ => rfl, fun w hw k' hk => ?_, fun w v hw hv e => ?_, fun w v hw hv e => ?_⟩,
      fun w hw => ih _⟩
    · cases k' with
      | none => exact absurd rfl hk
      | some p => rfl
    · have e : w.main = v.main := e
      show ({ w.main with base := f w.main.base } : ProcBuf) = { v.main with base := f v.main.base }
      rw [e]
    · have e : w.main = v.main := e
      dsimp only
      rw [e]
  | acq l w κ ih => exact .inr ⟨fun k' => by cases k' <;> simp [pregOf], ih⟩
  | rel l w κ ih => exact .inr ⟨fun k' => by cases k' <;> simp [pregOf], ih⟩

/-- Steps on the attributes of the main buffer. -/
theorem own_main {m : Py PNet α} (h : ∀ b n, (m (b, n)).2.1.mirror.queue = b.mirror.queue ∧ (m (b, n)).2.2 = n)
    (hc : ∀ b n n', (m (b, n)).1 = (m (b, n')).1 ∧ (m (b, n)).2.1 = (m (b, n')).2.1) :
    Priv (pregOf lk R G q0) none (atom m) fun _ => True := by
  intro d com
  unfold atom
  rw [Prog.atom_eq]
  refine .inl ⟨⟨fun w hw => ?_, fun w hw => (h w.main w.net).2, fun w hw k' hk => ?_, fun w v hw hv e => ?_, fun w v hw hv e => ?_⟩,
    fun w hw => ?_⟩
  · show (m (w.main, w.net)).2.1.mirror.queue = q0
    rw [(h w.main w.net).1]
    exact hw.1 none
  · cases k' with
    | none => exact absurd rfl hk
    | some p => rfl
  · have e : w.main = v.main := e
    show (m (w.main, w.net)).2.1 = (m (v.main, v.net)).2.1
    rw [e]
    exact (hc _ _ _).2
  · have e : w.main = v.main := e
    show Prog.ofExcept (m (w.main, w.net)).1 = Prog.ofExcept (m (v.main, v.net)).1
    rw [e, (hc _ _ _).1]
  · show WB _ _ _ _ (Prog.ofExcept (m (w.main, w.net)).1) _
    cases (m (w.main, w.net)).1 <;> exact ⟨rfl, rfl, trivial⟩

theorem own_checkClose : Priv (pregOf lk R G q0) none checkClose fun _ => True :=
  (own_main (fun _ _ => ⟨rfl, rfl⟩) fun _ _ _ => ⟨rfl, rfl⟩).bind (fun _ _ =>
    (own_main (fun _ _ => ⟨rfl, rfl⟩) fun _ _ _ => ⟨rfl, rfl⟩).bind (fun _ _ =>
      (own_main (fun _ _ => ⟨rfl, rfl⟩) fun _ _ _ => ⟨rfl, rfl⟩).bind (fun _ _ => .ret trivial) fun _ _ => trivial)
      fun _ _ => trivial) fun _ _ => trivial

theorem own_process (data : QMsg) : Priv (pregOf lk R G q0) none (process data) fun _ => True := by
  cases data with
  | str d => exact (own_line _).bind (fun _ _ => .ret trivial) fun _ _ => trivial
  | error m => exact (own_line _).bind (fun _ _ => own_checkClose) fun _ _ => trivial
  | warning m => exact (own_line _).bind (fun _ _ => .ret trivial) fun _ _ => trivial
  | close => exact own_checkClose
  | stop =>
    exact (own_main (fun _ _ => ⟨rfl, rfl⟩) fun _ _ _ => ⟨rfl, rfl⟩).bind (fun _ _ => .ret trivial) fun _ _ => trivial
  | other => exact .ret trivial

/-- What is shared may be used if only the stop signal matters. -/
def OfClosed (G : Net → Prop) : Prop := ∀ n n' : Net, n'.closed = n.closed → G n → G n'

theorem running_ofClosed : OfClosed Running := fun _ _ e h => by unfold Running; rw [e]; exact h

/-- Steps on the main buffer and what is shared. -/
theorem use_main (hG : OfClosed G) {m : Py PNet α} (h : ∀ b n, (m (b, n)).2.1.mirror.queue = b.mirror.queue ∧ (m (b, n)).2.2.closed = n.closed) :
    Uses (pregOf lk R G q0) none (atom m) := by
  intro d
  unfold atom
  rw [Prog.atom_eq]
  refine .inr ⟨rfl, ⟨fun w hw => ?_, fun w hw => ?_, fun w hw k' hk => ?_, fun w v hw hv e e' => ?_, fun w v hw hv e e' => ?_⟩,
    fun w hw => ?_⟩
  · show (m (w.main, w.net)).2.1.mirror.queue = q0
    rw [(h w.main w.net).1]
    exact hw.1 none
  · exact hG _ _ (h w.main w.net).2 hw.2
  · cases k' with
    | none => exact absurd rfl hk
    | some p => rfl
  · have e : w.main = v.main := e
    have e' : w.net = v.net := e'
    show (m (w.main, w.net)).2.1 = (m (v.main, v.net)).2.1 ∧ (m (w.main, w.net)).2.2 = (m (v.main, v.net)).2.2
    rw [e, e']
    exact ⟨rfl, rfl⟩
  · have e : w.main = v.main := e
    have e' : w.net = v.net := e'
    show Prog.ofExcept (m (w.main, w.net)).1 = Prog.ofExcept (m (v.main, v.net)).1
    rw [e, e']
  · show WB _ _ _ _ (Prog.ofExcept (m (w.main, w.net)).1) _
    cases (m (w.main, w.net)).1 <;> exact rfl

theorem use_get (hG : OfClosed G) (q : Nat) : Uses (pregOf lk R G q0) none (get q) :=
  use_main hG fun b n => by
    dsimp only
    cases n.queues q <;> exact ⟨rfl, rfl⟩

/-- `receive` without its lock. -/
def receiveCore : PProg Bool := do
  let q ← atom (Py.gets (·.1.mirror.queue))
  let data ← get q
  process data

theorem use_receiveCore (hG : OfClosed G) : Uses (pregOf lk R G q0) none receiveCore :=
  (own_main (fun _ _ => ⟨rfl, rfl⟩) fun _ _ _ => ⟨rfl, rfl⟩).then fun q _ => (use_get hG q).bind own_process

theorem ref_receive (hG : OfClosed G) : Ref (pregOf lk R G q0) none receive (blk receiveCore) :=
  Ref.withLock (P := pregOf lk R G q0) (k := none) (.last (use_receiveCore hG 0))

/-- The last step of `force_stop`. -/
def putStop (q : Nat) : PProg Unit := atom fun s => let (r, n) := Net.put q .stop true none s.2; (r, (s.1, n))

theorem ref_forceStop (hG : OfClosed G) : Ref (pregOf lk R G q0) none forceStop (putStop q0) := by
  refine .still _ _ _ (putStop q0) _ (fun w hw => ⟨rfl, ?_⟩) ?_
  · show putStop w.main.mirror.queue = _
    rw [(IOf_iff.1 hw).1]
  · unfold putStop atom
    rw [Prog.atom_eq]
    refine .glob _ _ _ ⟨fun w hw => ?_, fun w hw k => ?_, fun w v hw hv e => ?_⟩ (fun w v hw hv e => ?_) fun w hw => ?_
    · exact hG w.net (Net.put q0 .stop true none w.net).2 (MThr.put_closed ..) hw.2
    · cases k <;> rfl
    · have e : w.net = v.net := e
      show (Net.put q0 .stop true none w.net).2 = (Net.put q0 .stop true none v.net).2
      rw [e]
    · have e : w.net = v.net := e
      show Prog.ofExcept (Net.put q0 .stop true none w.net).1 = Prog.ofExcept (Net.put q0 .stop true none v.net).1
      rw [e]
    · show Ref _ _ (Prog.ofExcept (Net.put q0 .stop true none w.net).1) (Prog.ofExcept (Net.put q0 .stop true none w.net).1)
      cases (Net.put q0 .stop true none w.net).1 with
      | ok a => exact .ret a
      | error e => exact .raise e

theorem shot_putStop (hG : OfClosed G) {Q : Except Exc Unit → Bool → Prop} (hQ : ∀ r, Q r true) : Shot (pregOf lk R G q0).I false (putStop q0) Q := by
  unfold putStop atom
  rw [Prog.atom_eq]
  refine .inr ⟨rfl, fun w hw => ⟨IOf_iff.2 ⟨(IOf_iff.1 hw).1, (IOf_iff.1 hw).2.1, ?_⟩, ?_⟩⟩
  · exact hG w.net (Net.put q0 .stop true none w.net).2 (MThr.put_closed ..) hw.2
  · show Shot _ _ (Prog.ofExcept (Net.put q0 .stop true none w.net).1) _
    cases (Net.put q0 .stop true none w.net).1 <;> exact hQ _

/-! ## The calls -/

/-- The calls with one moment of effect. -/
def OneMoment : PCall → Prop
  | .mirror c => MThr.OneMoment c
  | .receive => True
  | .forceStop => True
  | _ => False

/-- The calls, every section as one step. -/
def coarse (q0 p : Nat) : PCall → PProg PRet
  | .mirror c => do return .mirror (← mirror p (MThr.coarse c))
  | .receive => do return .main (Ret.of .bool (← (blk receiveCore).outcome))
  | .forceStop => do return .main (Ret.of (fun _ => .unit) (← (putStop q0).outcome))
  | _ => return .main .unit

theorem ref_prog (p : Nat) {c : PCall} (hc : OneMoment c) : Ref (preg g q0) none (prog MThr.lazyLock p c) (coarse q0 p c) := by
  cases c with
  | mirror c => exact (ref_mirror (h := none) (MThr.ref_prog hc)).bind fun _ => .ret _
  | receive => exact (ref_receive running_ofClosed).outcome.bind fun _ => .ret _
  | forceStop => exact (ref_forceStop running_ofClosed).outcome.bind fun _ => .ret _
  | _ => exact hc.elim

theorem shot_coarse (p : Nat) {c : PCall} (hc : OneMoment c) :
    Shot (preg g q0).I false (coarse q0 p c) fun r _ => ∃ x, r = .ok x := by
  cases c with
  | mirror c =>
    refine .bind ((shot_mirror (MThr.shot_coarse hc)).mono fun r c h => ?_)
    obtain ⟨x, rfl⟩ := h
    exact ⟨_, rfl⟩
  | receive => exact .bind (.outcome (.blk (use_receiveCore running_ofClosed) fun r => ⟨_, rfl⟩))
  | forceStop => exact .bind (.outcome (shot_putStop running_ofClosed fun r => ⟨_, rfl⟩))
  | _ => exact hc.elim

end PThr

/-- In every race of such calls each call takes effect in one moment. -/
theorem procThreads_linear {g : Nat → MCfg} {q0 : Nat} {proc : Nat → Nat} {ok : Nat → PCall → Prop}
    (hok : ∀ i c, ok i c → PThr.OneMoment c) {w : PWorld} (hI : (PThr.preg g q0).I w) {tr : List (Ev PCall PRet)}
    {κ : Conf PWorld PLock Unit PCall PRet} (hx : Exec (procThreads MThr.lazyLock proc ok) (init w fun _ => ()) tr κ) :
    ∃ a, Spec.AExec (fun a i c r a' => (PThr.preg g q0).I a.1 ∧ seqSpec (procThreads MThr.lazyLock proc ok) a i c r a')
        ⟨(w, fun _ => ()), fun _ => .idle⟩ tr a ∧ (PThr.preg g q0).I a.st.1 ∧ ((∀ i, κ.cur i = none) → a.st.1 = κ.st ∧ ∀ i, a.stat i = .idle) := by
  refine linear_exec (PThr.preg g q0) (coarse := fun i _ c => do return (← PThr.coarse q0 (proc i) c, ())) (fun _ h => h) ?_ ?_ hI hx
  · exact fun i o c hc => (PThr.ref_prog (proc i) (hok i c hc)).bind fun _ => .ret _
  · refine fun i o c hc => .bind ((PThr.shot_coarse (proc i) (hok i c hc)).mono fun r c h => ?_)
    obtain ⟨x, rfl⟩ := h
    exact ⟨_, rfl⟩

end SyncStream
