import Verif.Lemmas.MixLocks
import Verif.Model.HostWorld
/-!
# The locks of the host mode as a whole

The threads of a process find the `__buffer_lock` of their mirror or make it, and with it they ask the service.  As in
`Lemmas/LazyLocks.lean` the lock that is found is the one that was found before or a later one.
-/

namespace SyncStream
namespace HMixed
open Conc Spec
variable {α β : Type}

/-- The lock that is found has been made. -/
def Sound (s : HMProc) : Prop := ∀ k, s.lock = some k → k < s.made

/-- The lock that is found is the one that was found before or a later one. -/
def rules : Rules HMProc Nat where
  G s t := (Sound s → Sound t) ∧ ∀ k, s.lock = some k → ∃ k', t.lock = some k' ∧ k ≤ k'
  J := Sound
  lt a b := a < b
  refl _ := ⟨id, fun k h => ⟨k, h, Nat.le_refl _⟩⟩
  trans h h' := ⟨h'.1 ∘ h.1, fun k hk => by
    obtain ⟨k1, h1, h2⟩ := h.2 k hk
    obtain ⟨k2, h3, h4⟩ := h'.2 k1 h1
    exact ⟨k2, h3, Nat.le_trans h2 h4⟩⟩
  keep h := h.1
  ltTrans := Nat.lt_trans
  ltIrrefl := Nat.lt_irrefl

/-- All locks held were found before. -/
def Found (s : HMProc) (H : List (Nat × Bool)) : Prop := ∀ x ∈ H, x.2 = true ∧ ∃ k, s.lock = some k ∧ x.1 ≤ k

theorem Found.later {s t : HMProc} {H : List (Nat × Bool)} (h : Found s H) (g : rules.G s t) : Found t H := fun x hx => by
  obtain ⟨h1, k, h2, h3⟩ := h x hx
  obtain ⟨k', h4, h5⟩ := g.2 k h2
  exact ⟨h1, k', h4, Nat.le_trans h3 h5⟩

/-- The program takes locks in order. -/
def Fit (p : HMixed α) : Prop :=
  ∀ s H, Sound s → Found s H → Mix.Rising (fun _ => True) rules (fun _ _ => True) H s H p

theorem Fit.ret (a : α) : Fit (Mix.ret a : HMixed α) := fun _ _ _ _ => ⟨rfl, trivial⟩
theorem Fit.raise (e : Exc) : Fit (Mix.raise e : HMixed α) := fun _ _ _ _ => rfl

theorem Fit.bind {p : HMixed α} {f : α → HMixed β} (hp : Fit p) (hf : ∀ a, Fit (f a)) : Fit (p >>= f) := fun s H hs hH =>
  Mix.Rising.bind hs (hp s H hs hH) fun a t g ht _ => hf a t H ht (hH.later g)

theorem Fit.outcome {p : HMixed α} (hp : Fit p) : Fit p.outcome := fun s H hs hH => (hp s H hs hH).outcome

theorem Fit.ite {c : Prop} [Decidable c] {p q : HMixed α} (hp : Fit p) (hq : Fit q) : Fit (if c then p else q) := by
  split
  · exact hp
  · exact hq

/-- A step that does not change the lock. -/
theorem rising_step {m : Py HMProc α} (hm : ∀ s, (m s).2.lock = s.lock ∧ (m s).2.made = s.made) {re : Nat → Prop} {s : HMProc}
    {H : List (Nat × Bool)} {P : α → HMProc → Prop} (hP : ∀ t, rules.G s t → ∀ a, (m t).1 = .ok a → P a (m t).2) :
    Mix.Rising re rules P H s H (Mix.atom m : HMixed α) := by
  intro t g _
  refine ⟨⟨fun h k hk => by rw [(hm t).1] at hk; rw [(hm t).2]; exact h k hk, fun k hk => ⟨k, by rw [(hm t).1]; exact hk, Nat.le_refl _⟩⟩, ?_⟩
  show Mix.Rising re rules P H (m t).2 H (Mix.ofExcept (m t).1)
  cases e : (m t).1 with
  | ok a => exact ⟨rfl, hP t g _ e⟩
  | error x => exact rfl

theorem fit_gets (f : HMProc → α) : Fit (gets f) := fun _ _ _ _ => rising_step (fun _ => ⟨rfl, rfl⟩) fun _ _ _ _ => trivial
theorem fit_atom (m : Py HMirror α) : Fit (atom m) := fun _ _ _ _ => rising_step (fun _ => ⟨rfl, rfl⟩) fun _ _ _ _ => trivial
theorem fit_onBuf (m : Py StringIO α) : Fit (onBuf m) := fit_atom _

theorem fit_request (r : Req) : Fit (request r) := fun _ _ _ _ a => by
  cases a with
  | ok x => exact ⟨rfl, trivial⟩
  | error e => exact rfl

theorem rising_lazyLock {s : HMProc} (hs : Sound s) (H : List (Nat × Bool)) :
    Mix.Rising (fun _ => True) rules (fun l t => t.lock = some l) H s H lazyLock := by
  unfold lazyLock
  refine Mix.Rising.bind (P := fun a t => a.isNone = false → t.lock ≠ none) hs (rising_step (fun _ => ⟨rfl, rfl⟩) ?_) ?_
  · intro t _ a ha h
    cases ha
    show t.lock ≠ none
    intro h'
    have h : t.lock.isNone = false := h
    rw [h'] at h
    cases h
  · intro a t _ ht ha
    have last : ∀ t, Sound t → t.lock ≠ none → Mix.Rising (fun _ => True) rules (fun l t => t.lock = some l) H t H
        (do return (← gets (·.lock)).getD 0 : HMixed Nat) := by
      intro t ht hn
      refine Mix.Rising.bind (P := fun a t => a ≠ none ∧ t.lock = a) ht (rising_step (fun _ => ⟨rfl, rfl⟩) ?_) ?_
      · intro u g a hu
        cases hu
        refine ⟨?_, rfl⟩
        obtain ⟨k, hk⟩ := Option.ne_none_iff_exists'.mp hn
        obtain ⟨k', h1, _⟩ := g.2 k hk
        show u.lock ≠ none
        rw [h1]
        nofun
      · intro a u _ _ hu
        refine ⟨rfl, ?_⟩
        obtain ⟨k, rfl⟩ := Option.ne_none_iff_exists'.mp hu.1
        exact hu.2
    cases h : a.isNone with
    | false =>
      rw [if_neg (by rintro ⟨⟩)]
      exact last t ht (ha h)
    | true =>
      rw [if_pos rfl]
      refine Mix.Rising.bind (P := fun _ t => t.lock ≠ none) ht ?_ fun _ u _ hu h => last u hu h
      intro u _ hu
      refine ⟨⟨fun _ k hk => ?_, fun k hk => ⟨_, rfl, Nat.le_of_lt (hu k hk)⟩⟩, rfl, nofun⟩
      cases hk
      exact Nat.lt_succ_self _

theorem fit_locked {p : HMixed α} (hp : Fit p) : Fit (locked p) := by
  intro s H hs hH
  refine Mix.Rising.bind hs (rising_lazyLock hs H) fun l t g ht hl => ?_
  have hH := hH.later g
  have hle : ∀ x ∈ H, x.2 = true ∧ x.1 ≤ l := fun x hx => by
    obtain ⟨h1, k, h2, h3⟩ := hH x hx
    rw [hl] at h2
    cases h2
    exact ⟨h1, h3⟩
  refine Mix.Rising.withLock ?_ (hp t _ ht fun x hx => ?_)
  · by_cases h : (l, true) ∈ H
    · exact .inr ⟨trivial, h⟩
    · refine .inl fun x hx => ?_
      obtain ⟨h1, h2⟩ := hle x hx
      refine Nat.lt_of_le_of_ne h2 fun e => h ?_
      have : x = (l, true) := Prod.ext e h1
      exact this ▸ hx
  · rcases List.mem_cons.mp hx with rfl | hx
    · exact ⟨rfl, l, hl, Nat.le_refl _⟩
    · exact hH x hx

theorem fit_fail (r : Resp) : Fit (fail r : HMixed α) := by
  unfold fail
  cases r.body <;> exact .raise _

theorem fit_expectOk (r : Req) : Fit (expectOk r) := (fit_request _).bind fun _ => .ite (.ret _) (fit_fail _)

theorem fit_closed : Fit closed := fit_locked (fit_gets _)

theorem fit_sendData (d : PyStr) : Fit (sendData d) := fit_closed.bind fun _ => .ite (.ret _) (fit_expectOk _)

theorem fit_checkStates : Fit checkStates :=
  fit_closed.bind fun _ => .ite (.ret _) ((fit_request _).bind fun r => .ite (by
    cases r.body with
    | none => exact .raise _
    | some j =>
      dsimp only
      split
      · exact .raise _
      · exact .ret _) (fit_fail _))

theorem fit_writeCore (d : PyStr) (k : Bool) : Fit (writeCore d k) := by
  unfold writeCore
  refine .bind (.ite fit_checkStates (.ret _)) fun _ => (fit_gets _).bind fun _ => ?_
  extract_lets n
  refine .ite ((fit_sendData d).bind fun _ => .ret _) (.ite ?_ (.ite (fit_onBuf _) (.ret _)))
  exact (fit_onBuf _).bind fun _ => (fit_onBuf _).bind fun _ => (fit_sendData _).bind fun _ => (fit_onBuf _).bind fun _ =>
    (fit_onBuf _).bind fun _ => .ret _

theorem fit_newLine (k : Bool) : Fit (newLine k) :=
  fit_locked ((fit_onBuf _).bind fun _ => .ite ((fit_writeCore _ k).bind fun _ => .ret _) (.ret _))

theorem fit_sendEnd (k : Bool) (m : Json) : Fit (sendEnd k m) :=
  fit_closed.bind fun _ => .ite (.ret _) ((fit_newLine k).bind fun _ => fit_expectOk _)

theorem fit_clear : Fit clear := fit_locked ((fit_onBuf _).bind fun _ => fit_onBuf _)

theorem fit_prog (c : HMCall) : Fit (prog c) := by
  have fin : ∀ {β : Type} {p : HMixed β} {F : Except Exc β → HMRet}, Fit p →
      Fit (p.outcome >>= fun r => (Mix.ret (F r) : HMixed HMRet)) := fun h => h.outcome.bind fun _ => .ret _
  cases c with
  | write d => exact fin (p := HMixed.write d) ((fit_locked (fit_gets _)).bind fun _ => .ite (.raise _) (fit_locked (fit_writeCore d true)))
  | newLine k => exact fin (fit_newLine k)
  | read => exact fin (p := HMixed.read) ((fit_locked (fit_gets _)).bind fun _ => .ite (.raise _) (fit_locked (fit_onBuf _)))
  | clear => exact fin fit_clear
  | flush => exact fin (fit_locked (fit_onBuf _))
  | sendData d => exact fin (fit_sendData d)
  | sendEof => exact fin (fit_sendEnd _ _)
  | sendError e => exact fin (fit_sendEnd _ _)
  | sendWarning e => exact fin (fit_sendEnd _ _)
  | checkStates => exact fin fit_checkStates
  | close e =>
    refine fin (fit_closed.bind fun _ => .ite (.ret _) ?_)
    cases e <;> exact (fit_sendEnd _ _).bind fun _ => fit_clear.bind fun _ => fit_locked (fit_onBuf _)
  | closed => exact fin fit_closed
  | readable => exact fin (fit_locked (fit_gets _))
  | writable => exact fin (fit_locked (fit_gets _))
  | setAggressive a => exact fin (fit_atom _)

theorem noRaise_prog (c : HMCall) : (prog c).NoRaise := by
  cases c <;> exact (Mix.noRaise_outcome _).bind fun _ => trivial

end HMixed

namespace Mix
variable {σ L α : Type} {re : L → Prop} {W : Rules σ L} {E H : List (L × Bool)} {s : σ}

/-- Requests that get lost change nothing. -/
theorem Rising.sent {p : Mix σ L Req (Except Exc Resp) α} (hp : Rising re W (fun _ _ => True) E s H p) (os : List Outcome) :
    Rising re W (fun _ _ => True) E s H (p.sent os) := by
  induction p generalizing H s os with
  | ret a => exact hp
  | raise e => exact hp
  | act f k ih => exact fun t h hJ => ⟨(hp t h hJ).1, ih t (hp t h hJ).2 os⟩
  | acq l w k ih => exact ⟨hp.1, ih hp.2 os⟩
  | rel l w k ih =>
    obtain ⟨H', h1, h2⟩ := hp
    exact ⟨H', h1, ih h2 os⟩
  | ask q k ih =>
    unfold Mix.sent
    split
    · exact fun x => ih _ (hp _) _
    · exact fun t h _ => ⟨W.refl _, ih _ ((hp _).later h) _⟩
    · exact fun x => ih _ (hp _) _

theorem NoRaise.sent {p : Mix σ L Req (Except Exc Resp) α} (hp : NoRaise p) (os : List Outcome) : NoRaise (p.sent os) := by
  induction p generalizing os with
  | ret a => trivial
  | raise e => cases hp
  | act f k ih => exact fun t => ih t (hp t) os
  | acq l w k ih => exact ih hp os
  | rel l w k ih => exact ih hp os
  | ask q k ih =>
    unfold Mix.sent
    split
    · exact fun x => ih _ (hp _) _
    · exact fun t => ih _ (hp _) _
    · exact fun x => ih _ (hp _) _

end Mix

theorem rising_worldCall (c : HSCall) {s : HMProc} (hs : HMixed.Sound s) :
    Mix.Rising (fun _ => True) HMixed.rules (fun _ _ => True) [] s [] (worldCall c) ∧ (worldCall c).NoRaise := by
  cases c with
  | mirror c os =>
    exact ⟨.bind hs ((HMixed.fit_prog c s [] hs fun _ h => nomatch h).sent os) fun _ _ _ _ _ => ⟨rfl, trivial⟩,
      ((HMixed.noRaise_prog c).sent os).bind fun _ => trivial⟩
  | reader c os => exact ⟨.bind hs (.ofAsk _) fun _ _ _ _ _ => ⟨rfl, trivial⟩, (Mix.noRaise_ofAsk _).bind fun _ => trivial⟩
  | stopAll => exact ⟨fun _ => ⟨rfl, trivial⟩, fun _ => trivial⟩
  | reset => exact ⟨fun _ => ⟨rfl, trivial⟩, fun _ => trivial⟩

end SyncStream
