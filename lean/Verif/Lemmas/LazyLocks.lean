import Verif.Lemmas.ProcThreads
import Verif.Model.HostMirrorThreads
/-!
# Locks that are made when they are first used come in an order

The lock of a mirror can be made several times, if several threads use the mirror for the first time.  Then the one that is
found later is one that was made later.  So a thread that holds some of them and takes the one it finds takes one that it
holds already, or one made after all that it holds.
-/

namespace SyncStream
open Conc Prog

namespace HMThr
variable {α β : Type}

/-- The lock that is found has been made. -/
def Sound (s : HMProc × HNet) : Prop := ∀ k, s.1.lock = some k → k < s.1.made

/-- The lock that is found is the one that was found before or a later one. -/
def rules : Rules (HMProc × HNet) Nat where
  G s t := (Sound s → Sound t) ∧ ∀ k, s.1.lock = some k → ∃ k', t.1.lock = some k' ∧ k ≤ k'
  J := Sound
  lt a b := a < b
  refl _ := ⟨id, fun k h => ⟨k, h, Nat.le_refl _⟩⟩
  trans h h' := ⟨h'.1 ∘ h.1, fun k hk => by
    obtain ⟨k1, h1, h2⟩ := h.2 k hk
    obtain ⟨k2, h3, h4⟩ := h'.2 k1 h1
    exact ⟨k2, h3, Nat.le_trans h2 h4⟩⟩
  keep h := h.1
  ltTrans := Nat.lt_trans
  ltIrrefl := Nat.lt_irrefl

/-- All locks held were found before. -/
def Found (s : HMProc × HNet) (H : List (Nat × Bool)) : Prop := ∀ x ∈ H, x.2 = true ∧ ∃ k, s.1.lock = some k ∧ x.1 ≤ k

theorem Found.later {s t : HMProc × HNet} {H : List (Nat × Bool)} (h : Found s H) (g : rules.G s t) : Found t H := fun x hx => by
  obtain ⟨h1, k, h2, h3⟩ := h x hx
  obtain ⟨k', h4, h5⟩ := g.2 k h2
  exact ⟨h1, k', h4, Nat.le_trans h3 h5⟩

/-- The program takes locks in order. -/
def Fit (p : HMProg α) : Prop :=
  ∀ s H, Sound s → Found s H → Rising (fun _ => True) rules (fun _ _ => True) H s H p

theorem Fit.ret (a : α) : Fit (Prog.ret a : HMProg α) := fun _ _ _ _ => ⟨rfl, trivial⟩
theorem Fit.raise (e : Exc) : Fit (Prog.raise e : HMProg α) := fun _ _ _ _ => rfl

theorem Fit.bind {p : HMProg α} {f : α → HMProg β} (hp : Fit p) (hf : ∀ a, Fit (f a)) : Fit (p >>= f) := fun s H hs hH =>
  Rising.bind hs (hp s H hs hH) fun a t g ht _ => hf a t H ht (hH.later g)

theorem Fit.outcome {p : HMProg α} (hp : Fit p) : Fit p.outcome := fun s H hs hH => (hp s H hs hH).outcome

theorem Fit.ite {c : Prop} [Decidable c] {p q : HMProg α} (hp : Fit p) (hq : Fit q) : Fit (if c then p else q) := by
  split
  · exact hp
  · exact hq

/-- A step that does not change the lock. -/
theorem rising_step {m : Py (HMProc × HNet) α} (hm : ∀ s, (m s).2.1.lock = s.1.lock ∧ (m s).2.1.made = s.1.made)
    {re : Nat → Prop} {s : HMProc × HNet} {H : List (Nat × Bool)} {Q : α → HMProc × HNet → Prop}
    (hQ : ∀ t, rules.G s t → ∀ a, (m t).1 = .ok a → Q a (m t).2) :
    Rising re rules Q H s H (Prog.atom m : HMProg α) := by
  intro t g _
  refine ⟨⟨fun h k hk => by rw [(hm t).1] at hk; rw [(hm t).2]; exact h k hk, fun k hk => ⟨k, by rw [(hm t).1]; exact hk, Nat.le_refl _⟩⟩, ?_⟩
  dsimp only
  split
  · exact ⟨rfl, hQ t g _ ‹_›⟩
  · exact rfl

theorem fit_gets (f : HMProc × HNet → α) : Fit (gets f) := fun _ _ _ _ => rising_step (fun _ => ⟨rfl, rfl⟩) fun _ _ _ _ => trivial
theorem fit_atom (m : Py HMNet α) : Fit (atom m) := fun _ _ _ _ => rising_step (fun _ => ⟨rfl, rfl⟩) fun _ _ _ _ => trivial

theorem rising_lazyLock {s : HMProc × HNet} (hs : Sound s) (H : List (Nat × Bool)) :
    Rising (fun _ => True) rules (fun l t => t.1.lock = some l) H s H lazyLock := by
  unfold lazyLock
  refine Rising.bind (Q := fun a t => a.isNone = false → t.1.lock ≠ none) hs (rising_step (fun _ => ⟨rfl, rfl⟩) ?_) ?_
  · intro t _ a ha h
    cases ha
    show t.1.lock ≠ none
    intro h'
    have h : t.1.lock.isNone = false := h
    rw [h'] at h
    cases h
  · intro a t _ ht ha
    have last : ∀ t, Sound t → t.1.lock ≠ none → Rising (fun _ => True) rules (fun l t => t.1.lock = some l) H t H
        (do return (← gets (·.1.lock)).getD 0 : HMProg Nat) := by
      intro t ht hn
      refine Rising.bind (Q := fun a t => a ≠ none ∧ t.1.lock = a) ht (rising_step (fun _ => ⟨rfl, rfl⟩) ?_) ?_
      · intro u g a hu
        cases hu
        refine ⟨?_, rfl⟩
        obtain ⟨k, hk⟩ := Option.ne_none_iff_exists'.mp hn
        obtain ⟨k', h1, _⟩ := g.2 k hk
        show u.1.lock ≠ none
        rw [h1]
        nofun
      · intro a u _ _ hu
        refine ⟨rfl, ?_⟩
        obtain ⟨k, rfl⟩ := Option.ne_none_iff_exists'.mp hu.1
        exact hu.2
    cases h : a.isNone with
    | false =>
      rw [if_neg (by rintro ⟨⟩)]
      exact last t ht (ha h)
    | true =>
      rw [if_pos rfl]
      refine Rising.bind (Q := fun _ t => t.1.lock ≠ none) ht ?_ fun _ u _ hu h => last u hu h
      intro u _ hu
      refine ⟨⟨fun _ k hk => ?_, fun k hk => ⟨_, rfl, Nat.le_of_lt (hu k hk)⟩⟩, rfl, nofun⟩
      cases hk
      exact Nat.lt_succ_self _

theorem fit_locked {p : HMProg α} (hp : Fit p) : Fit (locked p) := by
  intro s H hs hH
  refine Rising.bind hs (rising_lazyLock hs H) fun l t g ht hl => ?_
  have hH := hH.later g
  have hle : ∀ x ∈ H, x.2 = true ∧ x.1 ≤ l := fun x hx => by
    obtain ⟨h1, k, h2, h3⟩ := hH x hx
    rw [hl] at h2
    cases h2
    exact ⟨h1, h3⟩
  refine Rising.withLock ?_ (hp t _ ht fun x hx => ?_)
  · by_cases h : (l, true) ∈ H
    · exact .inr ⟨trivial, h⟩
    · refine .inl fun x hx => ?_
      obtain ⟨h1, h2⟩ := hle x hx
      refine Nat.lt_of_le_of_ne h2 fun e => h ?_
      have : x = (l, true) := Prod.ext e h1
      exact this ▸ hx
  · rcases List.mem_cons.mp hx with rfl | hx
    · exact ⟨rfl, l, hl, Nat.le_refl _⟩
    · exact hH x hx

variable (env : HEnv)

theorem fit_fail (r : Resp) : Fit (fail r : HMProg α) := by
  unfold fail
  cases r.body <;> exact .raise _

theorem fit_expectOk (r : Req) : Fit (expectOk env r) := (fit_atom _).bind fun _ => .ite (.ret _) (fit_fail _)

theorem fit_closed : Fit closed := fit_locked (fit_gets _)

theorem fit_sendData (d : PyStr) : Fit (sendData env d) := fit_closed.bind fun _ => .ite (.ret _) (fit_expectOk env _)

theorem fit_checkStates : Fit (checkStates env) :=
  fit_closed.bind fun _ => .ite (.ret _) ((fit_atom _).bind fun r => .ite (by
    cases r.body with
    | none => exact .raise _
    | some j =>
      dsimp only
      split
      · exact .raise _
      · exact .ret _) (fit_fail _))

theorem fit_writeCore (d : PyStr) (k : Bool) : Fit (writeCore env d k) := by
  unfold writeCore
  refine .bind (.ite (fit_checkStates env) (.ret _)) fun _ => (fit_gets _).bind fun _ => ?_
  extract_lets n
  refine .ite ((fit_sendData env d).bind fun _ => .ret _) (.ite ?_ (.ite (fit_atom _) (.ret _)))
  exact (fit_atom _).bind fun _ => (fit_atom _).bind fun _ => (fit_sendData env _).bind fun _ => (fit_atom _).bind fun _ =>
    (fit_atom _).bind fun _ => .ret _

theorem fit_newLine (k : Bool) : Fit (newLine env k) :=
  fit_locked ((fit_atom _).bind fun _ => .ite ((fit_writeCore env _ k).bind fun _ => .ret _) (.ret _))

theorem fit_sendEnd (k : Bool) (m : Json) : Fit (sendEnd env k m) :=
  fit_closed.bind fun _ => .ite (.ret _) ((fit_newLine env k).bind fun _ => fit_expectOk env _)

theorem fit_clear : Fit clear := fit_locked ((fit_atom _).bind fun _ => fit_atom _)

theorem fit_prog (c : HMCall) : Fit (prog env c) := by
  have fin : ∀ {β : Type} {p : HMProg β} {F : Except Exc β → HMRet}, Fit p →
      Fit (p.outcome >>= fun r => (Prog.ret (F r) : HMProg HMRet)) := fun h => h.outcome.bind fun _ => .ret _
  cases c with
  | write d => exact fin (p := HMThr.write env d) ((fit_locked (fit_gets _)).bind fun _ => .ite (.raise _) (fit_locked (fit_writeCore env d true)))
  | newLine k => exact fin (fit_newLine env k)
  | read => exact fin (p := HMThr.read) ((fit_locked (fit_gets _)).bind fun _ => .ite (.raise _) (fit_locked (fit_atom _)))
  | clear => exact fin fit_clear
  | flush => exact fin (fit_locked (fit_atom _))
  | sendData d => exact fin (fit_sendData env d)
  | sendEof => exact fin (fit_sendEnd env _ _)
  | sendError e => exact fin (fit_sendEnd env _ _)
  | sendWarning e => exact fin (fit_sendEnd env _ _)
  | checkStates => exact fin (fit_checkStates env)
  | close e =>
    refine fin (fit_closed.bind fun _ => .ite (.ret _) ?_)
    cases e <;> exact (fit_sendEnd env _ _).bind fun _ => fit_clear.bind fun _ => fit_locked (fit_atom _)
  | closed => exact fin fit_closed
  | readable => exact fin (fit_locked (fit_gets _))
  | writable => exact fin (fit_locked (fit_gets _))
  | setAggressive a => exact fin (fit_atom _)

theorem noRaise_prog (c : HMCall) : NoRaise (prog env c) := by
  have fin : ∀ {α : Type} (p : HMProg α) (F : Except Exc α → HMRet),
      NoRaise (do return F (← p.outcome) : HMProg HMRet) := fun p F => (noRaise_outcome p).bind fun _ => trivial
  cases c <;> exact fin _ _

theorem rising (ok : Nat → HMCall → Prop) : RisingSys (hostMirrorThreads env ok) rules := fun _ _ c _ s hs =>
  ⟨Rising.bind hs (fit_prog env c s [] hs fun _ h => nomatch h) fun _ _ _ _ _ => ⟨rfl, trivial⟩,
    (noRaise_prog env c).bind fun _ => trivial⟩

end HMThr

namespace MThr
variable {α β : Type}

/-- The lock that is found has been made. -/
def Sound (s : MProc × Net) : Prop := ∀ k, s.1.lock = some k → k < s.1.made

/-- The lock that is found is the one that was found before or a later one. -/
def rules : Rules (MProc × Net) MLock where
  G s t := (Sound s → Sound t) ∧ ∀ k, s.1.lock = some k → ∃ k', t.1.lock = some k' ∧ k ≤ k'
  J := Sound
  lt
    | .buf a, .buf b => a < b
    | .buf _, .state => True
    | .state, _ => False
  refl _ := ⟨id, fun k h => ⟨k, h, Nat.le_refl _⟩⟩
  trans h h' := ⟨h'.1 ∘ h.1, fun k hk => by
    obtain ⟨k1, h1, h2⟩ := h.2 k hk
    obtain ⟨k2, h3, h4⟩ := h'.2 k1 h1
    exact ⟨k2, h3, Nat.le_trans h2 h4⟩⟩
  keep h := h.1
  ltTrans {a b c} h h' := by
    cases a <;> cases b <;> cases c <;> first | trivial | exact Nat.lt_trans h h' | cases h | cases h'
  ltIrrefl a := by
    cases a
    · exact Nat.lt_irrefl _
    · exact id

/-- All locks held were found before. -/
def Found (s : MProc × Net) (H : List (MLock × Bool)) : Prop := ∀ x ∈ H, ∃ j k, x = (.buf j, true) ∧ s.1.lock = some k ∧ j ≤ k

theorem Found.later {s t : MProc × Net} {H : List (MLock × Bool)} (h : Found s H) (g : rules.G s t) : Found t H := fun x hx => by
  obtain ⟨j, k, h1, h2, h3⟩ := h x hx
  obtain ⟨k', h4, h5⟩ := g.2 k h2
  exact ⟨j, k', h1, h4, Nat.le_trans h3 h5⟩

/-- The program takes locks in order. -/
def Fit (p : MProg α) : Prop :=
  ∀ s H, Sound s → Found s H → Rising re rules (fun _ _ => True) H s H p

theorem Fit.ret (a : α) : Fit (Prog.ret a : MProg α) := fun _ _ _ _ => ⟨rfl, trivial⟩
theorem Fit.raise (e : Exc) : Fit (Prog.raise e : MProg α) := fun _ _ _ _ => rfl

theorem Fit.bind {p : MProg α} {f : α → MProg β} (hp : Fit p) (hf : ∀ a, Fit (f a)) : Fit (p >>= f) := fun s H hs hH =>
  Rising.bind hs (hp s H hs hH) fun a t g ht _ => hf a t H ht (hH.later g)

theorem Fit.outcome {p : MProg α} (hp : Fit p) : Fit p.outcome := fun s H hs hH => (hp s H hs hH).outcome

theorem Fit.ite {c : Prop} [Decidable c] {p q : MProg α} (hp : Fit p) (hq : Fit q) : Fit (if c then p else q) := by
  split
  · exact hp
  · exact hq

/-- A step that does not change the lock. -/
theorem rising_step {m : Py (MProc × Net) α} (hm : ∀ s, (m s).2.1.lock = s.1.lock ∧ (m s).2.1.made = s.1.made)
    {re : MLock → Prop} {s : MProc × Net} {H : List (MLock × Bool)} {Q : α → MProc × Net → Prop}
    (hQ : ∀ t, rules.G s t → ∀ a, (m t).1 = .ok a → Q a (m t).2) :
    Rising re rules Q H s H (Prog.atom m : MProg α) := by
  intro t g _
  refine ⟨⟨fun h k hk => by rw [(hm t).1] at hk; rw [(hm t).2]; exact h k hk, fun k hk => ⟨k, by rw [(hm t).1]; exact hk, Nat.le_refl _⟩⟩, ?_⟩
  dsimp only
  split
  · exact ⟨rfl, hQ t g _ ‹_›⟩
  · exact rfl

theorem fit_gets (f : MProc × Net → α) : Fit (gets f) := fun _ _ _ _ => rising_step (fun _ => ⟨rfl, rfl⟩) fun _ _ _ _ => trivial
theorem fit_atom (m : Py MNet α) : Fit (atom m) := fun _ _ _ _ => rising_step (fun _ => ⟨rfl, rfl⟩) fun _ _ _ _ => trivial

theorem rising_lazyLock {s : MProc × Net} (hs : Sound s) (H : List (MLock × Bool)) :
    Rising re rules (fun l t => ∃ k, l = .buf k ∧ t.1.lock = some k) H s H lazyLock := by
  unfold lazyLock
  refine Rising.bind (Q := fun a t => a.isNone = false → t.1.lock ≠ none) hs (rising_step (fun _ => ⟨rfl, rfl⟩) ?_) ?_
  · intro t _ a ha h
    cases ha
    show t.1.lock ≠ none
    intro h'
    have h : t.1.lock.isNone = false := h
    rw [h'] at h
    cases h
  · intro a t _ ht ha
    have last : ∀ t, Sound t → t.1.lock ≠ none → Rising re rules (fun l t => ∃ k, l = .buf k ∧ t.1.lock = some k) H t H
        (do return .buf ((← gets (·.1.lock)).getD 0) : MProg MLock) := by
      intro t ht hn
      refine Rising.bind (Q := fun a t => a ≠ none ∧ t.1.lock = a) ht (rising_step (fun _ => ⟨rfl, rfl⟩) ?_) ?_
      · intro u g a hu
        cases hu
        refine ⟨?_, rfl⟩
        obtain ⟨k, hk⟩ := Option.ne_none_iff_exists'.mp hn
        obtain ⟨k', h1, _⟩ := g.2 k hk
        show u.1.lock ≠ none
        rw [h1]
        nofun
      · intro a u _ _ hu
        refine ⟨rfl, ?_⟩
        obtain ⟨k, rfl⟩ := Option.ne_none_iff_exists'.mp hu.1
        exact ⟨k, rfl, hu.2⟩
    cases h : a.isNone with
    | false =>
      rw [if_neg (by rintro ⟨⟩)]
      exact last t ht (ha h)
    | true =>
      rw [if_pos rfl]
      refine Rising.bind (Q := fun _ t => t.1.lock ≠ none) ht ?_ fun _ u _ hu h => last u hu h
      intro u _ hu
      refine ⟨⟨fun _ k hk => ?_, fun k hk => ⟨_, rfl, Nat.le_of_lt (hu k hk)⟩⟩, rfl, nofun⟩
      cases hk
      exact Nat.lt_succ_self _

theorem fit_locked {p : MProg α} (hp : Fit p) : Fit (locked lazyLock p) := by
  intro s H hs hH
  refine Rising.bind hs (rising_lazyLock hs H) fun l t g ht hl => ?_
  obtain ⟨k, rfl, hl⟩ := hl
  have hH := hH.later g
  have hle : ∀ x ∈ H, ∃ j, x = (.buf j, true) ∧ j ≤ k := fun x hx => by
    obtain ⟨j, k', h1, h2, h3⟩ := hH x hx
    rw [hl] at h2
    cases h2
    exact ⟨j, h1, h3⟩
  refine Rising.withLock ?_ (hp t _ ht fun x hx => ?_)
  · by_cases h : (.buf k, true) ∈ H
    · exact .inr ⟨⟨k, rfl⟩, h⟩
    · refine .inl fun x hx => ?_
      obtain ⟨j, rfl, h2⟩ := hle x hx
      exact Nat.lt_of_le_of_ne h2 fun e => h (e ▸ hx)
  · rcases List.mem_cons.mp hx with rfl | hx
    · exact ⟨k, k, rfl, hl, Nat.le_refl _⟩
    · exact hH x hx

theorem fit_closed : Fit (closed lazyLock) := fit_locked (fit_gets _)

theorem fit_sendData (d : PyStr) : Fit (sendData lazyLock d) := fit_closed.bind fun _ => .ite (.ret _) (fit_atom _)

theorem fit_checkState : Fit checkState := (fit_gets _).bind fun _ => .ite (fun s H hs hH => by
  refine Rising.withLock (.inl fun x hx => ?_) (Rising.bind (Q := fun _ _ => True) hs (rising_step (fun _ => ⟨rfl, rfl⟩) fun _ _ _ _ => trivial) fun a t _ _ _ => ?_)
  · obtain ⟨j, k, rfl, -⟩ := hH x hx
    trivial
  · show Rising _ _ _ _ _ _ (if a = true then _ else _)
    split
    · exact rfl
    · exact ⟨rfl, trivial⟩) (.ret _)

theorem fit_writeCore (d : PyStr) : Fit (writeCore lazyLock d) := by
  unfold writeCore
  refine fit_checkState.bind fun _ => (fit_gets _).bind fun _ => ?_
  extract_lets n
  refine .ite ((fit_sendData d).bind fun _ => .ret _) (.ite ?_ (.ite (fit_atom _) (.ret _)))
  exact (fit_atom _).bind fun _ => (fit_atom _).bind fun _ => (fit_sendData _).bind fun _ => (fit_atom _).bind fun _ =>
    (fit_atom _).bind fun _ => .ret _

theorem fit_newLine : Fit (newLine lazyLock) :=
  fit_locked ((fit_atom _).bind fun _ => .ite ((fit_writeCore _).bind fun _ => .ret _) (.ret _))

theorem fit_sendEnd (m : QMsg) : Fit (sendEnd lazyLock m) :=
  fit_closed.bind fun _ => .ite (.ret _) (fit_newLine.bind fun _ => fit_atom _)

theorem fit_clear : Fit (clear lazyLock) := fit_locked ((fit_atom _).bind fun _ => fit_atom _)

theorem fit_prog (c : MCall) : Fit (prog lazyLock c) := by
  have fin : ∀ {β : Type} {p : MProg β} {F : Except Exc β → MRet}, Fit p →
      Fit (p.outcome >>= fun r => (Prog.ret (F r) : MProg MRet)) := fun h => h.outcome.bind fun _ => .ret _
  cases c with
  | write d => exact fin (p := MThr.write lazyLock d) ((fit_locked (fit_gets _)).bind fun _ => .ite (.raise _) (fit_locked (fit_writeCore d)))
  | newLine => exact fin fit_newLine
  | read n => exact fin (p := MThr.read lazyLock n) ((fit_locked (fit_gets _)).bind fun _ => .ite (.raise _) (fit_locked (by
      cases n <;> exact fit_atom _)))
  | clear => exact fin fit_clear
  | flush => exact fin (fit_locked (fit_atom _))
  | sendData d => exact fin (fit_sendData d)
  | sendEof => exact fin (fit_sendEnd _)
  | sendError e => exact fin (fit_sendEnd _)
  | sendWarning e => exact fin (fit_sendEnd _)
  | close e =>
    refine fin (fit_closed.bind fun _ => .ite (.ret _) ?_)
    cases e <;> exact (fit_sendEnd _).bind fun _ => fit_clear.bind fun _ => fit_locked (fit_atom _)
  | closed => exact fin fit_closed
  | readable => exact fin (fit_locked (fit_gets _))
  | writable => exact fin (fit_locked (fit_gets _))
  | setTimeout t => exact fin ((fit_atom _).bind fun _ => fit_atom _)
  | setAggressive a => exact fin (fit_atom _)

end MThr

namespace PThr
variable {α : Type}

/-- The rules of all processes. -/
def rules : Rules PWorld PLock where
  G w v := ∀ p, MThr.rules.G (w.procs p, w.net) (v.procs p, v.net)
  J w := ∀ p, MThr.Sound (w.procs p, w.net)
  lt x l := rank l < rank x ∨ ∃ p j k, x = .buf p j ∧ l = .buf p k ∧ j < k
  refl _ _ := MThr.rules.refl _
  trans h h' p := MThr.rules.trans (h p) (h' p)
  keep h h' p := (h p).1 (h' p)
  ltTrans {a b c} h h' := by
    rcases h with h | ⟨p, j, k, rfl, rfl, h⟩ <;> rcases h' with h' | ⟨p', j', k', e, rfl, h'⟩
    · exact .inl (Nat.lt_trans h' h)
    · subst e
      exact .inl h
    · exact .inl h'
    · cases e
      exact .inr ⟨_, _, _, rfl, rfl, Nat.lt_trans h h'⟩
  ltIrrefl a h := by
    rcases h with h | ⟨p, j, k, rfl, e, h⟩
    · exact Nat.lt_irrefl _ h
    · cases e
      exact Nat.lt_irrefl _ h

/-- The names of the locks of process `p`. -/
def named (p : Nat) : MLock × Bool → PLock × Bool
  | (.buf k, w) => (.buf p k, w)
  | (.state, w) => (.state, w)

/-- A program of process `p` that keeps to the rules there keeps to the rules of all. -/
theorem rising_mirror {p : Nat} {q : MProg α} {Q : α → MProc × Net → Prop} {E H : List (MLock × Bool)} {s : MProc × Net} {w : PWorld}
    (hs : MThr.rules.G s (w.procs p, w.net)) (hq : Rising MThr.re MThr.rules Q E s H q) :
    Rising re rules (fun _ _ => True) (E.map (named p)) w (H.map (named p)) (mirror p q) := by
  unfold mirror
  induction q generalizing H s w with
  | ret a =>
    cases hq.1
    exact ⟨rfl, trivial⟩
  | raise e =>
    cases (show H = E from hq)
    exact rfl
  | act f k ih =>
    intro v hv hJ
    obtain ⟨h1, h2⟩ := hq (v.procs p, v.net) (MThr.rules.trans hs (hv p)) (hJ p)
    refine ⟨fun j => ?_, ih _ (w := { v with procs := upd v.procs p (f (v.procs p, v.net)).1, net := (f (v.procs p, v.net)).2 }) ?_ h2⟩
    · by_cases hj : j = p
      · subst hj
        show MThr.rules.G _ (upd v.procs j (f (v.procs j, v.net)).1 j, _)
        rw [upd_same]
        exact h1
      · show MThr.rules.G _ (upd v.procs p (f (v.procs p, v.net)).1 j, _)
        rw [upd_other _ _ hj]
        exact ⟨id, fun k hk => ⟨k, hk, Nat.le_refl _⟩⟩
    · show MThr.rules.G _ (upd v.procs p (f (v.procs p, v.net)).1 p, _)
      rw [upd_same]
      exact MThr.rules.refl _
  | acq l b k ih =>
    refine ⟨?_, ?_⟩
    · rcases hq.1 with h | ⟨⟨k, rfl⟩, h⟩
      · refine .inl fun x hx => ?_
        obtain ⟨⟨y, b'⟩, hy, rfl⟩ := List.mem_map.mp hx
        have := h _ hy
        cases y with
        | buf j =>
          cases l with
          | buf k => exact .inr ⟨_, _, _, rfl, rfl, this⟩
          | state => exact .inl (by show (0 : Nat) < 1; decide)
        | state => cases l <;> cases this
      · exact .inr ⟨⟨p, k, rfl⟩, List.mem_map.mpr ⟨_, h, rfl⟩⟩
    · cases l <;> exact ih hs hq.2
  | rel l b k ih =>
    obtain ⟨H', rfl, h2⟩ := hq
    refine ⟨H'.map (named p), ?_, ih hs h2⟩
    cases l <;> rfl

theorem abides_atom (m : Py PNet α) : Abides rules (atom m) := .atom fun _ _ _ => ⟨id, fun k hk => ⟨k, hk, Nat.le_refl _⟩⟩

theorem abides_line (q : TProg α) : Abides rules (line q) := by
  unfold line
  induction q with
  | ret a => trivial
  | raise e => trivial
  | act f k ih => exact fun w _ => ⟨fun _ => MThr.rules.refl _, ih _⟩
  | acq l w k ih => exact ih
  | rel l w k ih => exact ih

theorem abides_checkClose : Abides rules checkClose :=
  (abides_atom _).bind fun _ => (abides_atom _).bind fun _ => (abides_atom _).bind fun _ => trivial

theorem abides_process (d : QMsg) : Abides rules (process d) := by
  cases d with
  | str d => exact (abides_line _).bind fun _ => trivial
  | error m => exact (abides_line _).bind fun _ => abides_checkClose
  | warning m => exact (abides_line _).bind fun _ => trivial
  | close => exact abides_checkClose
  | stop => exact (abides_atom _).bind fun _ => trivial
  | other => trivial

theorem abides_receive : Abides rules receive :=
  .withLock ((abides_atom _).bind fun _ => (abides_atom _).bind fun d => abides_process d)

theorem abides_resetStates : Abides rules resetStates := (abides_atom _).bind fun x => by
  split
  · trivial
  · exact (Abides.withLock ((abides_atom _).bind fun _ => abides_atom _)).bind fun _ => abides_atom _

theorem rising (proc : Nat → Nat) (ok : Nat → PCall → Prop) (hok : ∀ i p, ¬ok i (.take p)) :
    RisingSys (procThreads MThr.lazyLock proc ok) rules := by
  intro i o c hc w hw
  have fin : ∀ {α : Type} {p : PProg α} (F : Except Exc α → PRet), Tidy re rank [] p → Abides rules p →
      Rising re rules (fun _ _ => True) [] w [] (do return F (← p.outcome) : PProg PRet) ∧
      NoRaise (do return F (← p.outcome) : PProg PRet) := fun F hp hk =>
    ⟨.bind hw (Rising.of_orderly (fun _ _ h => .inl h) hp.outcome hk.outcome) fun _ _ _ _ _ => ⟨rfl, trivial⟩,
      (noRaise_outcome _).bind fun _ => trivial⟩
  have buf : ∀ c, Rising re rules (fun _ _ => True) [] w [] (do return .main (← line (Thr.prog (.call c))) : PProg PRet) ∧
      NoRaise (do return .main (← line (Thr.prog (.call c))) : PProg PRet) := fun c =>
    ⟨.bind hw (Rising.of_orderly (fun _ _ h => .inl h) (tidy_line (Thr.tidy_prog _) conf_nil) (abides_line _))
      fun _ _ _ _ _ => ⟨rfl, trivial⟩, (HThr.noRaise_onPart (Thr.noRaise_prog _)).bind fun _ => trivial⟩
  have key : Rising re rules (fun _ _ => True) [] w [] (prog MThr.lazyLock (proc i) c) ∧ NoRaise (prog MThr.lazyLock (proc i) c) := by
    cases c with
    | mirror c =>
      exact ⟨.bind hw (rising_mirror (E := []) (H := []) (MThr.rules.refl _)
          (MThr.fit_prog c (w.procs (proc i), w.net) [] (hw _) fun _ h => nomatch h)) fun _ _ _ _ _ => ⟨rfl, trivial⟩,
        (HThr.noRaise_onPart (MThr.noRaise_prog _ c)).bind fun _ => trivial⟩
    | take p => exact absurd hc (hok i p)
    | receive => exact fin _ tidy_receive abides_receive
    | stopAll => exact fin _ (Tidy.withLock (.inl fun _ h => nomatch h) (tidy_atom _)) (.withLock (abides_atom _))
    | forceStop => exact fin _ (.bind (tidy_atom _) fun _ => tidy_atom _) ((abides_atom _).bind fun _ => abides_atom _)
    | reset => exact fin _ tidy_resetStates abides_resetStates
    | buffer c =>
      cases c with
      | write d => exact fin _ (tidy_atom _) (abides_atom _)
      | _ => exact buf _
  exact ⟨.bind hw key.1 fun _ _ _ _ _ => ⟨rfl, trivial⟩, key.2.bind fun _ => trivial⟩

end PThr
end SyncStream
