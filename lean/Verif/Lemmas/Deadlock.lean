import Verif.Spec.Waiting
import Verif.Lemmas.Prog
import Mathlib.Data.Fintype.EquivFin
/-!
# Locks taken in order cannot deadlock

A program may take a lock if it comes after all locks that the program holds, or if the lock is reentrant and the program
holds it already; locks are released in the opposite order, and all are released at the end.  In the simple case (`Orderly`)
the order is given by a rank, and the program does so whatever the state is.  If the locks are found in the state, the
program does so as long as the state changes according to some rules (`Rising`).
-/

namespace SyncStream

namespace Prog
variable {σ L α β : Type}

/-- `Orderly re rank E H p`: started holding `H` (the lock taken last is the first), `p` takes locks in
descending order and ends holding `E`. -/
def Orderly (re : L → Prop) (rank : L → Nat) (E : List (L × Bool)) : List (L × Bool) → Prog σ L α → Prop
  | H, ret _ => H = E
  | H, raise _ => H = E
  | H, act _ k => ∀ s, Orderly re rank E H (k s)
  | H, acq l w k => ((∀ x ∈ H, rank l < rank x.1) ∨ (re l ∧ (l, true) ∈ H)) ∧
      Orderly re rank E ((l, w) :: H) k
  | H, rel l w k => ∃ H', H = (l, w) :: H' ∧ Orderly re rank E H' k

variable {re : L → Prop} {rank : L → Nat} {E H : List (L × Bool)}

theorem Orderly.bind {p : Prog σ L α} {g : α → Prog σ L β} (hp : Orderly re rank E H p)
    (hg : ∀ a, Orderly re rank E E (g a)) : Orderly re rank E H (p >>= g) := by
  simp only [bind_eq]
  induction p generalizing H with
  | ret a => cases hp; exact hg a
  | raise e => exact hp
  | act f k ih => exact fun s => ih s (hp s)
  | acq l w k ih => exact ⟨hp.1, ih hp.2⟩
  | rel l w k ih =>
    obtain ⟨H', h1, h2⟩ := hp
    exact ⟨H', h1, ih h2⟩

theorem Orderly.outcome {p : Prog σ L α} (hp : Orderly re rank E H p) : Orderly re rank E H p.outcome := by
  induction p generalizing H with
  | ret a => exact hp
  | raise e => exact hp
  | act f k ih => exact fun s => ih s (hp s)
  | acq l w k ih => exact ⟨hp.1, ih hp.2⟩
  | rel l w k ih =>
    obtain ⟨H', h1, h2⟩ := hp
    exact ⟨H', h1, ih h2⟩

theorem Orderly.andRelease {p : Prog σ L α} {l : L} {w : Bool} (hp : Orderly re rank ((l, w) :: E) H p) :
    Orderly re rank E H (p.andRelease l w) := by
  induction p generalizing H with
  | ret a => exact ⟨E, hp, rfl⟩
  | raise e => exact ⟨E, hp, rfl⟩
  | act f k ih => exact fun s => ih s (hp s)
  | acq l w k ih => exact ⟨hp.1, ih hp.2⟩
  | rel l w k ih =>
    obtain ⟨H', h1, h2⟩ := hp
    exact ⟨H', h1, ih h2⟩

/-- Balanced programs. -/
abbrev Tidy (re : L → Prop) (rank : L → Nat) (H : List (L × Bool)) (p : Prog σ L α) : Prop :=
  Orderly re rank H H p

theorem Tidy.withLock {p : Prog σ L α} {l : L} {w : Bool}
    (hl : (∀ x ∈ H, rank l < rank x.1) ∨ (re l ∧ (l, true) ∈ H)) (hp : Tidy re rank ((l, w) :: H) p) :
    Tidy re rank H (withLock l w p) := ⟨hl, hp.andRelease⟩

theorem Tidy.atom (m : Py σ α) : Tidy re rank H (atom m : Prog σ L α) := fun s => by
  dsimp only
  split <;> rfl

theorem Tidy.pure (a : α) : Tidy re rank H (pure a : Prog σ L α) := rfl

theorem Tidy.ret (a : α) : Tidy re rank H (ret a : Prog σ L α) := rfl

theorem Tidy.raise (e : Exc) : Tidy re rank H (raise e : Prog σ L α) := rfl

end Prog

/-- How the state changes (`G`), what always holds (`J`), and the order of the locks. -/
structure Rules (σ L : Type) where
  G : σ → σ → Prop
  J : σ → Prop
  lt : L → L → Prop
  refl : ∀ s, G s s
  trans : ∀ {s t u}, G s t → G t u → G s u
  keep : ∀ {s t}, G s t → J s → J t
  ltTrans : ∀ {a b c}, lt a b → lt b c → lt a c
  ltIrrefl : ∀ a, ¬lt a a

namespace Prog
variable {σ L α β : Type}

/-- `Rising re W Q E s H p`: if `p` starts holding `H` some time after the state was `s`, and the others keep to the rules,
then `p` keeps to the rules, takes locks in ascending order, and ends holding `E`; if it returns `a`, it has seen a state with
`Q a`. -/
def Rising (re : L → Prop) (W : Rules σ L) (Q : α → σ → Prop) (E : List (L × Bool)) :
    σ → List (L × Bool) → Prog σ L α → Prop
  | s, H, ret a => H = E ∧ Q a s
  | _, H, raise _ => H = E
  | s, H, act f k => ∀ t, W.G s t → W.J t → W.G t (f t) ∧ Rising re W Q E (f t) H (k t)
  | s, H, acq l w k => ((∀ x ∈ H, W.lt x.1 l) ∨ (re l ∧ (l, true) ∈ H)) ∧ Rising re W Q E s ((l, w) :: H) k
  | s, H, rel l w k => ∃ H', H = (l, w) :: H' ∧ Rising re W Q E s H' k

variable {re : L → Prop} {W : Rules σ L} {Q : α → σ → Prop} {E H : List (L × Bool)} {s : σ}

theorem Rising.bind {p : Prog σ L α} {g : α → Prog σ L β} {Q' : β → σ → Prop} (hJ : W.J s) (hp : Rising re W Q E s H p)
    (hg : ∀ a t, W.G s t → W.J t → Q a t → Rising re W Q' E t E (g a)) : Rising re W Q' E s H (p >>= g) := by
  simp only [bind_eq]
  have key : ∀ t, W.G s t → W.J t → ∀ H, Rising re W Q E t H p → Rising re W Q' E t H (p.bind g) := by
    clear hp
    induction p with
    | ret a => exact fun t h hJ H hp => by cases hp.1; exact hg a t h hJ hp.2
    | raise e => exact fun t _ _ H hp => hp
    | act f k ih => exact fun t h hJ H hp u hu hJu =>
        ⟨(hp u hu hJu).1, ih u _ (W.trans h (W.trans hu (hp u hu hJu).1)) (W.keep (hp u hu hJu).1 hJu) H (hp u hu hJu).2⟩
    | acq l w k ih => exact fun t h hJ H hp => ⟨hp.1, ih t h hJ _ hp.2⟩
    | rel l w k ih =>
      intro t h hJ H hp
      obtain ⟨H', h1, h2⟩ := hp
      exact ⟨H', h1, ih t h hJ _ h2⟩
  exact key s (W.refl s) hJ H hp

theorem Rising.outcome {p : Prog σ L α} (hp : Rising re W Q E s H p) :
    Rising re W (fun _ _ => True) E s H p.outcome := by
  induction p generalizing H s with
  | ret a => exact ⟨hp.1, trivial⟩
  | raise e => exact ⟨hp, trivial⟩
  | act f k ih => exact fun t h hJ => ⟨(hp t h hJ).1, ih t (hp t h hJ).2⟩
  | acq l w k ih => exact ⟨hp.1, ih hp.2⟩
  | rel l w k ih =>
    obtain ⟨H', h1, h2⟩ := hp
    exact ⟨H', h1, ih h2⟩

theorem Rising.andRelease {p : Prog σ L α} {l : L} {w : Bool} (hp : Rising re W Q ((l, w) :: E) s H p) :
    Rising re W Q E s H (p.andRelease l w) := by
  induction p generalizing H s with
  | ret a => exact ⟨E, hp.1, rfl, hp.2⟩
  | raise e => exact ⟨E, hp, rfl⟩
  | act f k ih => exact fun t h hJ => ⟨(hp t h hJ).1, ih t (hp t h hJ).2⟩
  | acq l w k ih => exact ⟨hp.1, ih hp.2⟩
  | rel l w k ih =>
    obtain ⟨H', h1, h2⟩ := hp
    exact ⟨H', h1, ih h2⟩

theorem Rising.withLock {p : Prog σ L α} {l : L} {w : Bool} (hl : (∀ x ∈ H, W.lt x.1 l) ∨ (re l ∧ (l, true) ∈ H))
    (hp : Rising re W Q ((l, w) :: H) s ((l, w) :: H) p) : Rising re W Q H s H (withLock l w p) := ⟨hl, hp.andRelease⟩

/-- The steps of a program keep to the rules. -/
def Abides (W : Rules σ L) : Prog σ L α → Prop
  | ret _ => True
  | raise _ => True
  | act f k => ∀ t, W.J t → W.G t (f t) ∧ Abides W (k t)
  | acq _ _ k => Abides W k
  | rel _ _ k => Abides W k

theorem Abides.bind {p : Prog σ L α} {g : α → Prog σ L β} (hp : Abides W p) (hg : ∀ a, Abides W (g a)) : Abides W (p >>= g) := by
  simp only [bind_eq]
  induction p with
  | ret a => exact hg a
  | raise e => trivial
  | act f k ih => exact fun s h => ⟨(hp s h).1, ih s (hp s h).2⟩
  | acq l w k ih => exact ih hp
  | rel l w k ih => exact ih hp

theorem Abides.outcome {p : Prog σ L α} (hp : Abides W p) : Abides W p.outcome := by
  induction p with
  | ret a => trivial
  | raise e => trivial
  | act f k ih => exact fun s h => ⟨(hp s h).1, ih s (hp s h).2⟩
  | acq l w k ih => exact ih hp
  | rel l w k ih => exact ih hp

theorem Abides.withLock {p : Prog σ L α} {l : L} {w : Bool} (hp : Abides W p) : Abides W (withLock l w p) := by
  show Abides W (p.andRelease l w)
  induction p with
  | ret a => trivial
  | raise e => trivial
  | act f k ih => exact fun s h => ⟨(hp s h).1, ih s (hp s h).2⟩
  | acq l w k ih => exact ih hp
  | rel l w k ih => exact ih hp

theorem Abides.atom {m : Py σ α} (h : ∀ s, W.J s → W.G s (m s).2) : Abides W (atom m : Prog σ L α) := fun s hs =>
  ⟨h s hs, by dsimp only; split <;> trivial⟩

theorem Rising.of_orderly {rank : L → Nat} {p : Prog σ L α} (hr : ∀ x l, rank l < rank x → W.lt x l)
    (hp : Orderly re rank E H p) (hk : Abides W p) : Rising re W (fun _ _ => True) E s H p := by
  induction p generalizing H s with
  | ret a => exact ⟨hp, trivial⟩
  | raise e => exact hp
  | act f k ih => exact fun t _ h => ⟨(hk t h).1, ih t (hp t) (hk t h).2⟩
  | acq l w k ih => exact ⟨hp.1.imp_left fun h x hx => hr _ _ (h x hx), ih hp.2 hk⟩
  | rel l w k ih =>
    obtain ⟨H', h1, h2⟩ := hp
    exact ⟨H', h1, ih h2 hk⟩

end Prog

/-- No rules but a rank. -/
def Rules.ofRank {σ L : Type} (rank : L → Nat) : Rules σ L where
  G _ _ := True
  J _ := True
  lt x l := rank l < rank x
  refl _ := trivial
  trans _ _ := trivial
  keep _ _ := trivial
  ltTrans h h' := Nat.lt_trans h' h
  ltIrrefl _ := Nat.lt_irrefl _

theorem Prog.abides_ofRank {σ L α : Type} (rank : L → Nat) (p : Prog σ L α) : p.Abides (.ofRank rank) := by
  induction p with
  | ret a => trivial
  | raise e => trivial
  | act f k ih => exact fun s _ => ⟨trivial, ih s⟩
  | acq l w k ih => exact ih
  | rel l w k ih => exact ih

namespace Conc
open Spec Prog
variable {σ L O C R : Type} [DecidableEq L]

/-- What a thread holds according to a stack of locks. -/
def holds (H : List (L × Bool)) (l : L) : List Bool := (H.filter (·.1 = l)).map (·.2)

/-- A program without an uncaught exception. -/
def NoRaise {α : Type} : Prog σ L α → Prop
  | .ret _ => True
  | .raise _ => False
  | .act _ k => ∀ s, NoRaise (k s)
  | .acq _ _ k => NoRaise k
  | .rel _ _ k => NoRaise k

omit [DecidableEq L] in
theorem noRaise_outcome {α : Type} (p : Prog σ L α) : NoRaise p.outcome := by
  induction p with
  | ret a => trivial
  | raise e => trivial
  | act f k ih => exact fun s => ih s
  | acq l w k ih => exact ih
  | rel l w k ih => exact ih

omit [DecidableEq L] in
theorem NoRaise.bind {α β : Type} {p : Prog σ L α} {g : α → Prog σ L β} (hp : NoRaise p)
    (hg : ∀ a, NoRaise (g a)) : NoRaise (p >>= g) := by
  simp only [bind_eq]
  induction p with
  | ret a => exact hg a
  | raise e => cases hp
  | act f k ih => exact fun s => ih s (hp s)
  | acq l w k ih => exact ih hp
  | rel l w k ih => exact ih hp

/-- The calls of `sys` take locks in descending order. -/
def OrderlySys (sys : Sys σ L O C R) (rank : L → Nat) : Prop :=
  ∀ i o c, sys.ok i c → Tidy sys.reentrant rank [] (sys.call i o c) ∧ NoRaise (sys.call i o c)

/-- The calls of `sys` keep to the rules and take locks in ascending order. -/
def RisingSys (sys : Sys σ L O C R) (W : Rules σ L) : Prop :=
  ∀ i o c, sys.ok i c → ∀ s, W.J s → Rising sys.reentrant W (fun _ _ => True) [] s [] (sys.call i o c) ∧
    NoRaise (sys.call i o c)

omit [DecidableEq L] in
theorem OrderlySys.rising {sys : Sys σ L O C R} {rank : L → Nat} (h : OrderlySys sys rank) :
    RisingSys sys (.ofRank rank) := fun i o c hc _ _ =>
  ⟨.of_orderly (fun _ _ h => h) (h i o c hc).1 (abides_ofRank rank _), (h i o c hc).2⟩

theorem holds_cons (l l' : L) (w : Bool) (H : List (L × Bool)) :
    holds ((l, w) :: H) l' = if l' = l then w :: holds H l' else holds H l' := by
  unfold holds
  by_cases h : l = l'
  · subst h; simp
  · rw [List.filter_cons_of_neg (by simpa using h), if_neg (Ne.symm h)]

theorem mem_holds {l : L} {w : Bool} {H : List (L × Bool)} : w ∈ holds H l ↔ (l, w) ∈ H := by
  simp only [holds, List.mem_map, List.mem_filter, decide_eq_true_eq]
  constructor
  · rintro ⟨⟨a, b⟩, ⟨h1, h2⟩, h3⟩
    cases h2; cases h3; exact h1
  · exact fun h => ⟨(l, w), ⟨h, rfl⟩, rfl⟩

/-- What holds in every reachable state. -/
structure Tended (sys : Sys σ L O C R) (W : Rules σ L) (κ : Conf σ L O C R) : Prop where
  stack : ∀ i, ∃ H, (∀ l, κ.held i l = holds H l) ∧ (κ.cur i = none → H = []) ∧
    ∀ c p, κ.cur i = some (c, p) → ∃ s, W.J s ∧ W.G s κ.st ∧ Rising sys.reentrant W (fun _ _ => True) [] s H p ∧ NoRaise p
  mutex : ∀ i j l, j ≠ i → true ∈ κ.held i l → κ.held j l = []
  rules : W.J κ.st

variable {sys : Sys σ L O C R} {W : Rules σ L}

theorem tended_init {s : σ} (hJ : W.J s) (obj : Nat → O) : Tended sys W (init s obj) where
  stack _ := ⟨[], fun _ => rfl, fun _ => rfl, fun _ _ h => by simp [init] at h⟩
  mutex _ _ _ _ _ := rfl
  rules := hJ

theorem tended_step (hs : RisingSys sys W) {κ κ' : Conf σ L O C R} {e : Option (Ev C R)}
    (h : Tended sys W κ) (st : Step sys κ e κ') : Tended sys W κ' := by
  obtain ⟨h1, h2, h0⟩ := h
  cases st with
  | inv i c hc hok =>
    refine ⟨fun j => ?_, h2, h0⟩
    by_cases hj : j = i
    · subst hj
      obtain ⟨H, a1, a2, a3⟩ := h1 j
      cases a2 hc
      refine ⟨[], a1, fun _ => rfl, fun c' p hp => ?_⟩
      simp only [upd_same, Option.some.injEq, Prod.mk.injEq] at hp
      obtain ⟨rfl, rfl⟩ := hp
      exact ⟨κ.st, h0, W.refl _, hs _ _ _ hok _ h0⟩
    · simp only [upd_other _ _ hj]; exact h1 j
  | act i c f k hc =>
    obtain ⟨H0, -, -, y⟩ := h1 i
    obtain ⟨s0, y1, y2, y3, -⟩ := y _ _ hc
    have hg : W.G κ.st (f κ.st) := (y3 _ y2 h0).1
    refine ⟨fun j => ?_, h2, W.keep hg h0⟩
    by_cases hj : j = i
    · subst hj
      obtain ⟨H, a1, a2, a3⟩ := h1 j
      refine ⟨H, a1, fun x => by simp at x, fun c' p hp => ?_⟩
      simp only [upd_same, Option.some.injEq, Prod.mk.injEq] at hp
      obtain ⟨rfl, rfl⟩ := hp
      obtain ⟨s, b0, b, b1, b2⟩ := a3 _ _ hc
      exact ⟨_, W.keep hg h0, W.refl _, (b1 _ b h0).2, b2 _⟩
    · simp only [upd_other _ _ hj]
      obtain ⟨H, a1, a2, a3⟩ := h1 j
      refine ⟨H, a1, a2, fun c' p hp => ?_⟩
      obtain ⟨s, b0, b, b1, b2⟩ := a3 _ _ hp
      exact ⟨s, b0, W.trans b hg, b1, b2⟩
  | acq i c l w k hc ht =>
    refine ⟨fun j => ?_, fun j m l' hm hw => ?_, h0⟩
    · by_cases hj : j = i
      · subst hj
        obtain ⟨H, a1, a2, a3⟩ := h1 j
        obtain ⟨s, s1, s2, ⟨b1, b2⟩, b3⟩ := a3 _ _ hc
        refine ⟨(l, w) :: H, fun l' => ?_, fun x => by simp at x, fun c' p hp => ?_⟩
        · simp only [upd_same, holds_cons]
          by_cases hl : l' = l
          · subst hl; simp [a1]
          · simp [hl, a1]
        · simp only [upd_same, Option.some.injEq, Prod.mk.injEq] at hp
          obtain ⟨rfl, rfl⟩ := hp
          exact ⟨s, s1, s2, b2, b3⟩
      · simp only [upd_other _ _ hj]; exact h1 j
    · obtain ⟨t1, t2⟩ := ht
      by_cases hj : j = i
      · subst hj
        simp only [upd_same] at hw
        simp only [upd_other _ _ hm]
        by_cases hl : l' = l
        · subst hl
          simp only [if_true, List.mem_cons] at hw
          rcases hw with hw | hw
          · exact (t2 m hm).2 hw.symm
          · exact h2 j m l' hm hw
        · simp only [hl, if_false] at hw
          exact h2 j m l' hm hw
      · simp only [upd_other _ _ hj] at hw
        by_cases hmi : m = i
        · subst hmi
          simp only [upd_same]
          by_cases hl : l' = l
          · subst hl
            exact absurd hw (t2 j (Ne.symm hm)).1
          · simp only [hl, if_false]; exact h2 j m l' hm hw
        · simp only [upd_other _ _ hmi]; exact h2 j m l' hm hw
  | rel i c l w k hc =>
    refine ⟨fun j => ?_, fun j m l' hm hw => ?_, h0⟩
    · by_cases hj : j = i
      · subst hj
        obtain ⟨H, a1, a2, a3⟩ := h1 j
        obtain ⟨s, s1, s2, ⟨H', b1, b2⟩, b3⟩ := a3 _ _ hc
        subst b1
        refine ⟨H', fun l' => ?_, fun x => by simp at x, fun c' p hp => ?_⟩
        · simp only [upd_same, a1, holds_cons]
          by_cases hl : l' = l
          · subst hl; simp
          · simp [hl]
        · simp only [upd_same, Option.some.injEq, Prod.mk.injEq] at hp
          obtain ⟨rfl, rfl⟩ := hp
          exact ⟨s, s1, s2, b2, b3⟩
      · simp only [upd_other _ _ hj]; exact h1 j
    · have sub : ∀ j l', true ∈ (upd κ.held i fun l' => if l' = l then (κ.held i l).tail else κ.held i l') j l' →
          true ∈ κ.held j l' := by
        intro j l' h
        by_cases hj : j = i
        · subst hj
          simp only [upd_same] at h
          by_cases hl : l' = l
          · subst hl; simp only [if_true] at h; exact List.mem_of_mem_tail h
          · simp only [hl, if_false] at h; exact h
        · simp only [upd_other _ _ hj] at h; exact h
      have e := h2 j m l' hm (sub j l' hw)
      by_cases hmi : m = i
      · subst hmi
        simp only [upd_same]
        by_cases hl : l' = l
        · subst hl; simp [e]
        · simp only [hl, if_false]; exact e
      · simp only [upd_other _ _ hmi]; exact e
  | ret i c r o hc =>
    refine ⟨fun j => ?_, h2, h0⟩
    by_cases hj : j = i
    · subst hj
      obtain ⟨H, a1, a2, a3⟩ := h1 j
      obtain ⟨s, s1, s2, b1, b2⟩ := a3 _ _ hc
      cases show H = [] from b1.1
      exact ⟨[], a1, fun _ => rfl, fun c' p hp => by simp at hp⟩
    · simp only [upd_other _ _ hj]; exact h1 j

theorem tended_exec (hs : RisingSys sys W) {κ κ' : Conf σ L O C R} {tr : List (Ev C R)}
    (h : Tended sys W κ) (hx : Exec sys κ tr κ') : Tended sys W κ' := by
  induction hx with
  | nil => exact h
  | snoc _ _ _ _ _ st ih => exact tended_step hs ih st

theorem tended_runOn (hs : RisingSys sys W) {κ κ' : Conf σ L O C R}
    (h : Tended sys W κ) (hx : RunOn sys κ κ') : Tended sys W κ' := by
  induction hx with
  | stop => exact h
  | step _ _ _ _ st _ _ ih => exact ih (tended_step hs h st)

/-- A thread that takes a reentrant lock again does not wait. -/
theorem canTake_again {κ : Conf σ L O C R} (h : Tended sys W κ) {i : Nat} {l : L} {w : Bool}
    (hr : sys.reentrant l) (hw : true ∈ κ.held i l) : CanTake sys κ i l w :=
  ⟨.inr hr, fun j hj => by
    have := h.mutex i j l hj hw
    simp [this]⟩

/-- The order of the threads by the locks they are about to take. -/
def Behind (W : Rules σ L) (κ : Conf σ L O C R) (i j : Nat) : Prop :=
  ∃ c l w k c' l' w' k', κ.cur i = some (c, .acq l w k) ∧ κ.cur j = some (c', .acq l' w' k') ∧ W.lt l' l

omit [DecidableEq L] in
theorem behind_acc {κ : Conf σ L O C R} {n : Nat} (hn : ∀ i, n ≤ i → κ.cur i = none) (i : Nat) : Acc (Behind W κ) i := by
  have : ∀ i : Fin n, Acc (fun a b : Fin n => Behind W κ a b) i := by
    haveI : IsTrans (Fin n) fun a b => Behind W κ a b := ⟨fun a b c h h' => by
      obtain ⟨_, _, _, _, _, _, _, _, h1, h2, h3⟩ := h
      obtain ⟨_, _, _, _, _, _, _, _, h4, h5, h6⟩ := h'
      rw [h2] at h4
      cases h4
      exact ⟨_, _, _, _, _, _, _, _, h1, h5, W.ltTrans h6 h3⟩⟩
    haveI : Std.Irrefl fun a b : Fin n => Behind W κ a b := ⟨fun a h => by
      obtain ⟨_, _, _, _, _, _, _, _, h1, h2, h3⟩ := h
      rw [h1] at h2
      cases h2
      exact W.ltIrrefl _ h3⟩
    exact (Finite.wellFounded_of_trans_of_irrefl fun a b : Fin n => Behind W κ a b).apply
  by_cases hi : i < n
  · have key := this ⟨i, hi⟩
    generalize hj : (⟨i, hi⟩ : Fin n) = j at key
    replace hj : i = j := by rw [← hj]
    clear hi
    induction key generalizing i with
    | intro j _ ih =>
      subst hj
      refine ⟨_, fun m hm => ?_⟩
      have : m < n := by
        obtain ⟨_, _, _, _, _, _, _, _, h1, _⟩ := hm
        apply Classical.byContradiction
        intro h
        rw [hn m (by omega)] at h1
        cases h1
      exact ih ⟨m, this⟩ hm m rfl
  · exact ⟨_, fun m hm => by
      obtain ⟨_, _, _, _, _, _, _, _, _, h2, _⟩ := hm
      rw [hn i (by omega)] at h2
      cases h2⟩

theorem waiting_ends_aux {κ : Conf σ L O C R} (h : Tended sys W κ) {i : Nat} (ha : Acc (Behind W κ) i) :
    ∀ c l w k, κ.cur i = some (c, .acq l w k) → ∃ j, Chain sys κ i j ∧ CanGoOn sys κ j := by
  induction ha with
  | intro i _ ih =>
    intro c l w k hc
    by_cases ht : CanTake sys κ i l w
    · exact ⟨i, .here i, c, _, hc, ht⟩
    · obtain ⟨H, a1, a2, a3⟩ := h.stack i
      obtain ⟨_, _, _, ⟨b1, b2⟩, b3⟩ := a3 _ _ hc
      have hfresh : ∀ x ∈ H, W.lt x.1 l := by
        rcases b1 with b1 | ⟨b1, b4⟩
        · exact b1
        · exact absurd (canTake_again h b1 (by rw [a1]; exact mem_holds.mpr b4)) ht
      have hown : κ.held i l = [] := by
        rw [a1]
        cases hh : holds H l with
        | nil => rfl
        | cons x xs =>
          have : (l, x) ∈ H := mem_holds.mp (by rw [hh]; simp)
          exact absurd (hfresh _ this) (W.ltIrrefl _)
      obtain ⟨j, hj, hb⟩ : ∃ j, j ≠ i ∧ (true ∈ κ.held j l ∨ (w = true ∧ κ.held j l ≠ [])) := by
        apply Classical.byContradiction
        intro hno
        refine ht ⟨.inl hown, fun j hj => ⟨fun hx => hno ⟨j, hj, .inl hx⟩, fun hw => ?_⟩⟩
        apply Classical.byContradiction
        intro hx
        exact hno ⟨j, hj, .inr ⟨hw, hx⟩⟩
      have hwait : WaitsFor sys κ i j := ⟨c, l, w, k, hc, .inr ⟨hj, hb⟩⟩
      obtain ⟨Hj, c1, c2, c3⟩ := h.stack j
      have hmem : ∃ v, (l, v) ∈ Hj := by
        rcases hb with hb | ⟨_, hb⟩
        · exact ⟨true, mem_holds.mp (by rw [← c1]; exact hb)⟩
        · rw [c1] at hb
          cases hh : holds Hj l with
          | nil => exact absurd hh hb
          | cons x xs => exact ⟨x, mem_holds.mp (by rw [hh]; simp)⟩
      obtain ⟨v, hmem⟩ := hmem
      cases hcj : κ.cur j with
      | none => rw [c2 hcj] at hmem; cases hmem
      | some cp =>
      obtain ⟨cj, pj⟩ := cp
      obtain ⟨_, _, _, d1, d2⟩ := c3 _ _ hcj
      cases pj with
      | ret a => exact ⟨j, .next _ _ _ hwait (.here j), cj, _, hcj, trivial⟩
      | raise e => cases d2
      | act f g => exact ⟨j, .next _ _ _ hwait (.here j), cj, _, hcj, trivial⟩
      | rel l' w' g => exact ⟨j, .next _ _ _ hwait (.here j), cj, _, hcj, trivial⟩
      | acq l' w' g =>
        rcases d1.1 with e1 | ⟨e1, e2⟩
        · obtain ⟨m, f1, f2⟩ := ih j ⟨_, _, _, _, _, _, _, _, hcj, hc, e1 _ hmem⟩ cj l' w' g hcj
          exact ⟨m, .next _ _ _ hwait f1, f2⟩
        · exact ⟨j, .next _ _ _ hwait (.here j), cj, _, hcj,
            canTake_again h e1 (by rw [c1]; exact mem_holds.mpr e2)⟩

/-- Every thread in a call can go on or waits, directly or indirectly, for one that can. -/
theorem waiting_ends {κ : Conf σ L O C R} (h : Tended sys W κ) {n : Nat} (hn : ∀ i, n ≤ i → κ.cur i = none) {i : Nat}
    (hi : κ.cur i ≠ none) :
    ∃ j, Chain sys κ i j ∧ CanGoOn sys κ j := by
  cases hc : κ.cur i with
  | none => exact absurd hc hi
  | some cp =>
    obtain ⟨c, p⟩ := cp
    obtain ⟨H, a1, a2, a3⟩ := h.stack i
    obtain ⟨_, _, _, d1, d2⟩ := a3 _ _ hc
    cases p with
    | ret a => exact ⟨i, .here i, c, _, hc, trivial⟩
    | raise e => cases d2
    | act f g => exact ⟨i, .here i, c, _, hc, trivial⟩
    | rel l' w' g => exact ⟨i, .here i, c, _, hc, trivial⟩
    | acq l w k => exact waiting_ends_aux h (behind_acc hn i) c l w k hc

/-- One that can go on does a step. -/
theorem step_of_canGoOn {κ : Conf σ L O C R} {i : Nat} (h : CanGoOn sys κ i) :
    ∃ e κ', Step sys κ e κ' ∧ (∀ j c, e ≠ some (.inv j c)) := by
  obtain ⟨c, p, hc, hp⟩ := h
  cases p with
  | ret a => exact ⟨_, _, .ret κ i c a.1 a.2 hc, by simp⟩
  | raise e => cases hp
  | act f g => exact ⟨_, _, .act κ i c f g hc, by simp⟩
  | rel l w g => exact ⟨_, _, .rel κ i c l w g hc, by simp⟩
  | acq l w k => exact ⟨_, _, .acq κ i c l w k hc hp, by simp⟩

/-! ## Without new calls everything comes to an end -/

/-- One step of a call seen from the program alone; `none` is a finished call. -/
inductive Smaller : Option (C × Prog σ L (R × O)) → Option (C × Prog σ L (R × O)) → Prop
  | act (c : C) (f : σ → σ) (k : σ → Prog σ L (R × O)) (s : σ) : Smaller (some (c, k s)) (some (c, .act f k))
  | acq (c : C) (l : L) (w : Bool) (k : Prog σ L (R × O)) : Smaller (some (c, k)) (some (c, .acq l w k))
  | rel (c : C) (l : L) (w : Bool) (k : Prog σ L (R × O)) : Smaller (some (c, k)) (some (c, .rel l w k))
  | ret (c : C) (x : R × O) : Smaller none (some (c, .ret x))

omit [DecidableEq L] in
theorem acc_none : Acc (Smaller (σ := σ) (L := L) (O := O) (C := C) (R := R)) none :=
  ⟨_, fun _ h => by cases h⟩

omit [DecidableEq L] in
theorem acc_smaller (x : Option (C × Prog σ L (R × O))) : Acc Smaller x := by
  cases x with
  | none => exact acc_none
  | some cp =>
    obtain ⟨c, p⟩ := cp
    induction p with
    | ret a => exact ⟨_, fun y h => by cases h; exact acc_none⟩
    | raise e => exact ⟨_, fun y h => by cases h⟩
    | act f k ih => exact ⟨_, fun y h => by cases h; exact ih _⟩
    | acq l w k ih => exact ⟨_, fun y h => by cases h; exact ih⟩
    | rel l w k ih => exact ⟨_, fun y h => by cases h; exact ih⟩

/-- One element of a list is replaced by a smaller one. -/
inductive OneSmaller {α : Type} (r : α → α → Prop) : List α → List α → Prop
  | here (x y : α) (l : List α) : r y x → OneSmaller r (y :: l) (x :: l)
  | there (x : α) (l m : List α) : OneSmaller r m l → OneSmaller r (x :: m) (x :: l)

theorem acc_oneSmaller {α : Type} {r : α → α → Prop} (hr : ∀ x, Acc r x) (l : List α) :
    Acc (OneSmaller r) l := by
  induction l with
  | nil => exact ⟨_, fun _ h => by cases h⟩
  | cons x l ih =>
    have key : ∀ x, Acc r x → ∀ l, Acc (OneSmaller r) l → Acc (OneSmaller r) (x :: l) := by
      intro x hx
      induction hx with
      | intro x _ ihx =>
        intro l hl
        induction hl with
        | intro l hl' ihl =>
          refine ⟨_, fun m hm => ?_⟩
          cases hm with
          | here _ y _ hy => exact ihx y hy l ⟨_, hl'⟩
          | there _ _ m hm => exact ihl m hm
    exact key x (hr x) l ih

theorem oneSmaller_map {α : Type} {r : α → α → Prop} (f g : Nat → α) (i : Nat) (hi : r (g i) (f i))
    (ho : ∀ j, j ≠ i → g j = f j) (a n : Nat) (h1 : a ≤ i) (h2 : i < a + n) :
    OneSmaller r ((List.range' a n).map g) ((List.range' a n).map f) := by
  induction n generalizing a with
  | zero => omega
  | succ n ih =>
    rw [List.range'_succ, List.map_cons, List.map_cons]
    by_cases h : a = i
    · subst h
      have : (List.range' (a + 1) n).map g = (List.range' (a + 1) n).map f := by
        apply List.map_congr_left
        intro j hj
        rw [List.mem_range'_1] at hj
        exact ho j (by omega)
      rw [this]
      exact .here _ _ _ hi
    · rw [ho a h]
      exact .there _ _ _ (ih (a + 1) (by omega) (by omega))

/-- A step that is not the start of a call makes one running call smaller. -/
theorem step_smaller {κ κ' : Conf σ L O C R} {e : Option (Ev C R)} (st : Step sys κ e κ')
    (he : ∀ i c, e ≠ some (.inv i c)) :
    ∃ i, κ.cur i ≠ none ∧ Smaller (κ'.cur i) (κ.cur i) ∧ ∀ j, j ≠ i → κ'.cur j = κ.cur j := by
  cases st with
  | inv i c => exact absurd rfl (he i c)
  | act i c f k hc =>
    exact ⟨i, by simp [hc], by simp only [upd_same, hc]; exact .act .., fun j hj => upd_other _ _ hj⟩
  | acq i c l w k hc =>
    exact ⟨i, by simp [hc], by simp only [upd_same, hc]; exact .acq .., fun j hj => upd_other _ _ hj⟩
  | rel i c l w k hc =>
    exact ⟨i, by simp [hc], by simp only [upd_same, hc]; exact .rel .., fun j hj => upd_other _ _ hj⟩
  | ret i c r o hc =>
    exact ⟨i, by simp [hc], by simp only [upd_same, hc]; exact .ret .., fun j hj => upd_other _ _ hj⟩

/-- Only finitely many threads are in a call. -/
theorem finitely_many {κ0 κ : Conf σ L O C R} {tr : List (Ev C R)} (hx : Exec sys κ0 tr κ)
    (h0 : ∀ i, κ0.cur i = none) : ∃ n, ∀ i, n ≤ i → κ.cur i = none := by
  induction hx with
  | nil => exact ⟨0, fun i _ => h0 i⟩
  | snoc κ1 κ2 tr e _ st ih =>
    obtain ⟨n, ih⟩ := ih
    cases st with
    | inv i c hc hok =>
      refine ⟨max n (i + 1), fun j hj => ?_⟩
      have : j ≠ i := by omega
      simp only [upd_other _ _ this]
      exact ih j (by omega)
    | act i c f k hc =>
      refine ⟨n, fun j hj => ?_⟩
      have : j ≠ i := fun h => by subst h; rw [ih j hj] at hc; cases hc
      simp only [upd_other _ _ this]; exact ih j hj
    | acq i c l w k hc =>
      refine ⟨n, fun j hj => ?_⟩
      have : j ≠ i := fun h => by subst h; rw [ih j hj] at hc; cases hc
      simp only [upd_other _ _ this]; exact ih j hj
    | rel i c l w k hc =>
      refine ⟨n, fun j hj => ?_⟩
      have : j ≠ i := fun h => by subst h; rw [ih j hj] at hc; cases hc
      simp only [upd_other _ _ this]; exact ih j hj
    | ret i c r o hc =>
      refine ⟨n, fun j hj => ?_⟩
      have : j ≠ i := fun h => by subst h; rw [ih j hj] at hc; cases hc
      simp only [upd_other _ _ this]; exact ih j hj

/-- The steps that are not starts of calls. -/
def Goes (sys : Sys σ L O C R) (κ' κ : Conf σ L O C R) : Prop :=
  ∃ e, Step sys κ e κ' ∧ ∀ i c, e ≠ some (.inv i c)

/-- There is no infinite execution without starts of calls. -/
theorem goes_acc {κ : Conf σ L O C R} {n : Nat} (hn : ∀ i, n ≤ i → κ.cur i = none) : Acc (Goes sys) κ := by
  have key : ∀ l, Acc (OneSmaller Smaller) l → ∀ κ : Conf σ L O C R, (∀ i, n ≤ i → κ.cur i = none) →
      (List.range' 0 n).map κ.cur = l → Acc (Goes sys) κ := by
    intro l hl
    induction hl with
    | intro l _ ih =>
      intro κ hn he
      refine ⟨_, fun κ' h => ?_⟩
      obtain ⟨e, st, hne⟩ := h
      obtain ⟨i, h1, h2, h3⟩ := step_smaller st hne
      have hi : i < n := by
        apply Classical.byContradiction
        intro h
        exact h1 (hn i (by omega))
      refine ih _ ?_ κ' (fun j hj => ?_) rfl
      · rw [← he]
        exact oneSmaller_map _ _ i h2 h3 0 n (by omega) (by omega)
      · rw [h3 j (by omega)]; exact hn j hj
  exact key _ (acc_oneSmaller acc_smaller _) κ hn rfl

/-- All running calls can be completed. -/
theorem completes (hs : RisingSys sys W) {κ : Conf σ L O C R} (ha : Acc (Goes sys) κ) {n : Nat}
    (hn : ∀ i, n ≤ i → κ.cur i = none) (ht : Tended sys W κ) : ∃ κ', RunOn sys κ κ' ∧ ∀ i, κ'.cur i = none := by
  induction ha with
  | intro κ _ ih =>
    by_cases h : ∀ i, κ.cur i = none
    · exact ⟨κ, .stop κ, h⟩
    · obtain ⟨i, hi⟩ := Classical.not_forall.mp h
      obtain ⟨j, _, hj⟩ := waiting_ends ht hn hi
      obtain ⟨e, κ1, st, he⟩ := step_of_canGoOn hj
      obtain ⟨κ', r1, r2⟩ := ih κ1 ⟨e, st, he⟩ (fun i hi => by
        obtain ⟨j, h1, h2, h3⟩ := step_smaller st he
        by_cases hij : i = j
        · exact absurd (hn j (hij ▸ hi)) h1
        · rw [h3 i hij]; exact hn i hi) (tended_step hs ht st)
      exact ⟨κ', .step _ _ _ _ st he r1, r2⟩

/-- Nothing goes on for ever without starts of calls. -/
theorem no_infinite {κ : Conf σ L O C R} (ha : Acc (Goes sys) κ) :
    ¬ ∃ f : Nat → Conf σ L O C R, f 0 = κ ∧
      ∀ n, ∃ e, Step sys (f n) e (f (n + 1)) ∧ ∀ i c, e ≠ some (.inv i c) := by
  induction ha with
  | intro κ _ ih =>
    rintro ⟨f, h0, h⟩
    subst h0
    exact ih (f 1) (h 0) ⟨fun n => f (n + 1), rfl, fun n => h (n + 1)⟩

/-- Locks that are taken in order cannot deadlock. -/
theorem deadlockFree_of_rising (hs : RisingSys sys W) {s : σ} (hJ : W.J s) (obj : Nat → O) :
    DeadlockFree sys (init s obj) := by
  intro tr κ hx
  have ht := tended_exec hs (tended_init hJ obj) hx
  obtain ⟨n, hn⟩ := finitely_many hx fun _ => rfl
  have ha : Acc (Goes sys) κ := goes_acc hn
  exact ⟨fun i hi => waiting_ends ht hn hi, completes hs ha hn ht, no_infinite ha⟩

theorem deadlockFree {rank : L → Nat} (hs : OrderlySys sys rank) (s : σ) (obj : Nat → O) :
    DeadlockFree sys (init s obj) := deadlockFree_of_rising hs.rising trivial obj

end Conc
end SyncStream
