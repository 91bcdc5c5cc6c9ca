import Verif.Lemmas.HostThreads
import Verif.Model.Mix
/-!
# Programs that take locks of their process and ask a service cannot deadlock

If the programs of a process take its locks in ascending order (`Mix.Rising`, as `Prog.Rising`; whatever the service answers) and the
operations of the service take those of the service in descending order of a rank, then all of them together take the locks in ascending
order: the locks of the service come after those of the processes, as the service knows nothing of these.
-/

namespace SyncStream
open Conc Spec Prog

/-- The rules of all processes and of the service: the locks of a process come before those of the service. -/
def Rules.world {σ τ L M : Type} (W : Rules σ L) (rank : M → Nat) : Rules ((Nat → σ) × τ) (Nat × L ⊕ M) where
  G s t := ∀ p, W.G (s.1 p) (t.1 p)
  J s := ∀ p, W.J (s.1 p)
  lt a b := match a, b with
    | .inl x, .inl y => x.1 = y.1 ∧ W.lt x.2 y.2
    | .inl _, .inr _ => True
    | .inr _, .inl _ => False
    | .inr m, .inr n => rank n < rank m
  refl _ _ := W.refl _
  trans h h' p := W.trans (h p) (h' p)
  keep h h' p := W.keep (h p) (h' p)
  ltTrans {a b c} h h' := by
    rcases a with a | a <;> rcases b with b | b <;> rcases c with c | c <;> try trivial
    · exact ⟨h.1.trans h'.1, W.ltTrans h.2 h'.2⟩
    · exact Nat.lt_trans h' h
  ltIrrefl a h := by
    rcases a with a | a
    · exact W.ltIrrefl _ h.2
    · exact Nat.lt_irrefl _ h

namespace Mix
variable {σ L Q A τ M α β : Type}

/-- As `Prog.Rising`, whatever the service answers. -/
def Rising (re : L → Prop) (W : Rules σ L) (P : α → σ → Prop) (E : List (L × Bool)) :
    σ → List (L × Bool) → Mix σ L Q A α → Prop
  | s, H, ret a => H = E ∧ P a s
  | _, H, raise _ => H = E
  | s, H, act f k => ∀ t, W.G s t → W.J t → W.G t (f t) ∧ Rising re W P E (f t) H (k t)
  | s, H, acq l w k => ((∀ x ∈ H, W.lt x.1 l) ∨ (re l ∧ (l, true) ∈ H)) ∧ Rising re W P E s ((l, w) :: H) k
  | s, H, rel l w k => ∃ H', H = (l, w) :: H' ∧ Rising re W P E s H' k
  | s, H, ask _ k => ∀ a, Rising re W P E s H (k a)

variable {re : L → Prop} {W : Rules σ L} {P : α → σ → Prop} {E H : List (L × Bool)} {s : σ}

theorem Rising.bind {p : Mix σ L Q A α} {g : α → Mix σ L Q A β} {P' : β → σ → Prop} (hJ : W.J s) (hp : Rising re W P E s H p)
    (hg : ∀ a t, W.G s t → W.J t → P a t → Rising re W P' E t E (g a)) : Rising re W P' E s H (p.bind g) := by
  have key : ∀ t, W.G s t → W.J t → ∀ H, Rising re W P E t H p → Rising re W P' E t H (p.bind g) := by
    clear hp
    induction p with
    | ret a => exact fun t h hJ H hp => by cases hp.1; exact hg a t h hJ hp.2
    | raise e => exact fun t _ _ H hp => hp
    | act f k ih => exact fun t h hJ H hp u hu hJu =>
        ⟨(hp u hu hJu).1, ih u _ (W.trans h (W.trans hu (hp u hu hJu).1)) (W.keep (hp u hu hJu).1 hJu) H (hp u hu hJu).2⟩
    | acq l w k ih => exact fun t h hJ H hp => ⟨hp.1, ih t h hJ _ hp.2⟩
    | rel l w k ih =>
      intro t h hJ H hp
      obtain ⟨H', h1, h2⟩ := hp
      exact ⟨H', h1, ih t h hJ _ h2⟩
    | ask q k ih => exact fun t h hJ H hp a => ih a t h hJ H (hp a)
  exact key s (W.refl s) hJ H hp

theorem Rising.outcome {p : Mix σ L Q A α} (hp : Rising re W P E s H p) : Rising re W (fun _ _ => True) E s H p.outcome := by
  induction p generalizing H s with
  | ret a => exact ⟨hp.1, trivial⟩
  | raise e => exact ⟨hp, trivial⟩
  | act f k ih => exact fun t h hJ => ⟨(hp t h hJ).1, ih t (hp t h hJ).2⟩
  | acq l w k ih => exact ⟨hp.1, ih hp.2⟩
  | rel l w k ih =>
    obtain ⟨H', h1, h2⟩ := hp
    exact ⟨H', h1, ih h2⟩
  | ask q k ih => exact fun a => ih a (hp a)

theorem Rising.andRelease {p : Mix σ L Q A α} {l : L} {w : Bool} (hp : Rising re W P ((l, w) :: E) s H p) :
    Rising re W P E s H (p.andRelease l w) := by
  induction p generalizing H s with
  | ret a => exact ⟨E, hp.1, rfl, hp.2⟩
  | raise e => exact ⟨E, hp, rfl⟩
  | act f k ih => exact fun t h hJ => ⟨(hp t h hJ).1, ih t (hp t h hJ).2⟩
  | acq l w k ih => exact ⟨hp.1, ih hp.2⟩
  | rel l w k ih =>
    obtain ⟨H', h1, h2⟩ := hp
    exact ⟨H', h1, ih h2⟩
  | ask q k ih => exact fun a => ih a (hp a)

theorem Rising.withLock {p : Mix σ L Q A α} {l : L} {w : Bool} (hl : (∀ x ∈ H, W.lt x.1 l) ∨ (re l ∧ (l, true) ∈ H))
    (hp : Rising re W P ((l, w) :: H) s ((l, w) :: H) p) : Rising re W P H s H (withLock l w p) := ⟨hl, hp.andRelease⟩

/-- The start may be later. -/
theorem Rising.later {p : Mix σ L Q A α} {t : σ} (hp : Rising re W (fun _ _ => True) E s H p) (g : W.G s t) :
    Rising re W (fun _ _ => True) E t H p := by
  induction p generalizing H with
  | ret a => exact hp
  | raise e => exact hp
  | act f k => exact fun u h hJ => hp u (W.trans g h) hJ
  | acq l w k ih => exact ⟨hp.1, ih hp.2⟩
  | rel l w k ih =>
    obtain ⟨H', h1, h2⟩ := hp
    exact ⟨H', h1, ih h2⟩
  | ask q k ih => exact fun a => ih a (hp a)

/-- A client that has nothing to share takes no locks. -/
theorem Rising.ofAsk (p : Ask Q A α) : Rising re W (fun _ _ => True) H s H (ofAsk p : Mix σ L Q A α) := by
  induction p with
  | done a => exact ⟨rfl, trivial⟩
  | ask q k ih => exact fun a => ih a

/-- A program without an uncaught exception. -/
def NoRaise : Mix σ L Q A α → Prop
  | ret _ => True
  | raise _ => False
  | act _ k => ∀ s, NoRaise (k s)
  | acq _ _ k => NoRaise k
  | rel _ _ k => NoRaise k
  | ask _ k => ∀ a, NoRaise (k a)

theorem NoRaise.bind {p : Mix σ L Q A α} {g : α → Mix σ L Q A β} (hp : NoRaise p) (hg : ∀ a, NoRaise (g a)) : NoRaise (p.bind g) := by
  induction p with
  | ret a => exact hg a
  | raise e => cases hp
  | act f k ih => exact fun s => ih s (hp s)
  | acq l w k ih => exact ih hp
  | rel l w k ih => exact ih hp
  | ask q k ih => exact fun a => ih a (hp a)

theorem noRaise_outcome (p : Mix σ L Q A α) : NoRaise p.outcome := by
  induction p with
  | ret a => trivial
  | raise e => trivial
  | act f k ih => exact fun s => ih s
  | acq l w k ih => exact ih
  | rel l w k ih => exact ih
  | ask q k ih => exact fun a => ih a

theorem noRaise_ofAsk (p : Ask Q A α) : NoRaise (ofAsk p : Mix σ L Q A α) := by
  induction p with
  | done a => trivial
  | ask q k ih => exact fun a => ih a

/-- An operation of the service, asked for by a thread that holds locks of its process. -/
theorem rising_service {rank : M → Nat} {reM : M → Prop} {re : Nat × L ⊕ M → Prop} (hre : ∀ m, reM m → re (.inr m))
    {H : List ((Nat × L ⊕ M) × Bool)} (hH : ∀ x ∈ H, ∃ y, x.1 = .inl y) {E K : List (M × Bool)} {p : Prog τ M α}
    (hp : Orderly reM rank E K p) (s : (Nat → σ) × τ) :
    Prog.Rising re (W.world rank) (fun _ _ => True) (E.map (fun x => (.inr x.1, x.2)) ++ H) s (K.map (fun x => (.inr x.1, x.2)) ++ H)
      (p.onPart (fun s : (Nat → σ) × τ => s.2) (fun t s => (s.1, t)) (.inr : M → Nat × L ⊕ M)) := by
  induction p generalizing K s with
  | ret a =>
    cases (show K = E from hp)
    exact ⟨rfl, trivial⟩
  | raise e =>
    cases (show K = E from hp)
    exact rfl
  | act f k ih => exact fun t _ _ => ⟨fun _ => W.refl _, ih _ (hp _) _⟩
  | acq l w k ih =>
    refine ⟨?_, ih hp.2 s⟩
    rcases hp.1 with h | ⟨h1, h2⟩
    · refine .inl fun x hx => ?_
      rcases List.mem_append.mp hx with hx | hx
      · obtain ⟨y, hy, rfl⟩ := List.mem_map.mp hx
        exact h y hy
      · obtain ⟨y, hy⟩ := hH x hx
        rw [hy]
        trivial
    · exact .inr ⟨hre _ h1, List.mem_append.mpr (.inl (List.mem_map.mpr ⟨_, h2, rfl⟩))⟩
  | rel l w k ih =>
    obtain ⟨H', rfl, h2⟩ := hp
    exact ⟨_, rfl, ih h2 s⟩

/-- Sequencing after a program that raises nothing and keeps some of the locks. -/
theorem rising_then {σ L : Type} {re : L → Prop} {W : Rules σ L} {P : α → σ → Prop} {P' : β → σ → Prop} {E H K : List (L × Bool)} {s : σ}
    {p : Prog σ L α} {g : α → Prog σ L β} (hJ : W.J s) (hp : Prog.Rising re W P K s H p) (hn : Conc.NoRaise p)
    (hg : ∀ a t, W.G s t → W.J t → P a t → Prog.Rising re W P' E t K (g a)) : Prog.Rising re W P' E s H (p.bind g) := by
  have key : ∀ t, W.G s t → W.J t → ∀ H, Prog.Rising re W P K t H p → Prog.Rising re W P' E t H (p.bind g) := by
    clear hp
    induction p with
    | ret a => exact fun t h hJ H hp => by cases hp.1; exact hg a t h hJ hp.2
    | raise e => cases hn
    | act f k ih => exact fun t h hJ H hp u hu hJu =>
        ⟨(hp u hu hJu).1, ih u (hn u) _ (W.trans h (W.trans hu (hp u hu hJu).1)) (W.keep (hp u hu hJu).1 hJu) H (hp u hu hJu).2⟩
    | acq l w k ih => exact fun t h hJ H hp => ⟨hp.1, ih hn t h hJ _ hp.2⟩
    | rel l w k ih =>
      intro t h hJ H hp
      obtain ⟨H', h1, h2⟩ := hp
      exact ⟨H', h1, ih hn t h hJ _ h2⟩
  exact key s (W.refl s) hJ H hp

/-- The locks of process `p`. -/
def named (p : Nat) (x : L × Bool) : (Nat × L ⊕ M) × Bool := (.inl (p, x.1), x.2)

variable {svc : Conc.Sys τ M Unit Q A} {rank : M → Nat} {reW : Nat × L ⊕ M → Prop}

theorem rising_fine (hm : ∀ m, svc.reentrant m → reW (.inr m)) (hl : ∀ p l, re l → reW (.inl (p, l)))
    (hs : ∀ i q, Tidy svc.reentrant rank [] (svc.call i () q) ∧ Conc.NoRaise (svc.call i () q)) (p i : Nat) {g : Mix σ L Q A α} {w : (Nat → σ) × τ}
    (hg : Rising re W (fun _ _ => True) E s H g) (hw : W.G s (w.1 p)) (hJ : ∀ p, W.J (w.1 p)) :
    Prog.Rising reW (W.world rank) (fun _ _ => True) (E.map (named p)) w (H.map (named p)) (g.fine svc p i) := by
  induction g generalizing H s w with
  | ret a =>
    cases hg.1
    exact ⟨rfl, trivial⟩
  | raise e =>
    cases (show H = E from hg)
    exact rfl
  | act f k ih =>
    intro v hv hJv
    obtain ⟨h1, h2⟩ := hg (v.1 p) (W.trans hw (hv p)) (hJv p)
    have hu : ∀ j, W.G (v.1 j) (upd v.1 p (f (v.1 p)) j) := fun j => by
      by_cases hj : j = p
      · subst hj; rw [upd_same]; exact h1
      · rw [upd_other _ _ hj]; exact W.refl _
    refine ⟨hu, ih _ (w := (upd v.1 p (f (v.1 p)), v.2)) h2 ?_ fun j => W.keep (hu j) (hJv j)⟩
    show W.G _ (upd v.1 p (f (v.1 p)) p)
    rw [upd_same]
    exact W.refl _
  | acq l b k ih =>
    refine ⟨?_, ih hg.2 hw hJ⟩
    rcases hg.1 with h | ⟨h1, h2⟩
    · refine .inl fun x hx => ?_
      obtain ⟨y, hy, rfl⟩ := List.mem_map.mp hx
      exact ⟨rfl, h y hy⟩
    · exact .inr ⟨hl p l h1, List.mem_map.mpr ⟨_, h2, rfl⟩⟩
  | rel l b k ih =>
    obtain ⟨H', rfl, h2⟩ := hg
    exact ⟨_, rfl, ih h2 hw hJ⟩
  | ask q k ih =>
    refine rising_then (K := H.map (named p)) hJ (rising_service (H := H.map (named p)) hm (fun x hx => ?_) (hs i q).1 w)
      (HThr.noRaise_onPart (hs i q).2) fun a v hv hJv _ => ih a.1 (hg a.1) (W.trans hw (hv p)) hJv
    obtain ⟨y, _, rfl⟩ := List.mem_map.mp hx
    exact ⟨_, rfl⟩

theorem noRaise_fine (hs : ∀ i q, Conc.NoRaise (svc.call i () q)) (p i : Nat) {g : Mix σ L Q A α} (hg : NoRaise g) :
    Conc.NoRaise (g.fine svc p i) := by
  induction g with
  | ret a => trivial
  | raise e => cases hg
  | act f k ih => exact fun s => ih _ (hg _)
  | acq l w k ih => exact ih hg
  | rel l w k ih => exact ih hg
  | ask q k ih => exact Conc.NoRaise.bind (HThr.noRaise_onPart (hs i q)) fun x => ih _ (hg _)

end Mix

/-- All threads of all processes together. -/
theorem rising_mixSys {σ L Q A τ M C R : Type} {svc : Conc.Sys τ M Unit Q A} {rank : M → Nat} {re : L → Prop} {W : Rules σ L}
    (hs : ∀ i q, Tidy svc.reentrant rank [] (svc.call i () q) ∧ Conc.NoRaise (svc.call i () q)) (proc : Nat → Nat)
    {call : C → Mix σ L Q A (R × Unit)} (ok : Nat → C → Prop)
    (hc : ∀ c s, W.J s → Mix.Rising re W (fun _ _ => True) [] s [] (call c) ∧ (call c).NoRaise) :
    RisingSys (mixSys svc proc call ok re) (W.world rank) := fun i _ c _ w hw =>
  ⟨Mix.rising_fine (E := []) (H := []) (fun _ h => h) (fun _ _ h => h) hs (proc i) i (hc c (w.1 (proc i)) (hw _)).1 (W.refl _) hw,
    Mix.noRaise_fine (fun i q => (hs i q).2) (proc i) i (hc c (w.1 (proc i)) (hw _)).2⟩

end SyncStream
