import Verif.Lemmas.Prog
import Verif.Spec.Observe
/-!
# What holds whatever the others do

`G` says how the state can change in the long run (reflexive, transitive), for instance: what is closed
remains closed.  If every step of every program keeps to `G`, then a program can rely on the others keeping
to it.  Locks play no role here.
-/

namespace SyncStream

namespace Prog
variable {σ τ L L' α β : Type}

/-- Every step of the program, also of the parts that are not reached, keeps to `G`. -/
def Guar (G : σ → σ → Prop) : Prog σ L α → Prop
  | ret _ => True
  | raise _ => True
  | act f k => (∀ s, G s (f s)) ∧ ∀ s, (k s).Guar G
  | acq _ _ k => k.Guar G
  | rel _ _ k => k.Guar G

theorem Guar.bind {G : σ → σ → Prop} {p : Prog σ L α} {g : α → Prog σ L β} (hp : p.Guar G)
    (hg : ∀ a, (g a).Guar G) : (p >>= g).Guar G := by
  change (p.bind g).Guar G
  induction p with
  | ret a => exact hg a
  | raise e => trivial
  | act f k ih => exact ⟨hp.1, fun s => ih s (hp.2 s)⟩
  | acq l w k ih => exact ih hp
  | rel l w k ih => exact ih hp

theorem Guar.atom {G : σ → σ → Prop} {m : Py σ α} (h : ∀ s, G s (m s).2) : (atom m : Prog σ L α).Guar G := by
  refine ⟨h, fun s => ?_⟩
  show Guar G (match (m s).1 with
    | .ok a => ret a
    | .error e => raise e)
  cases (m s).1 <;> trivial

theorem Guar.andRelease {G : σ → σ → Prop} {p : Prog σ L α} {l : L} {w : Bool} (hp : p.Guar G) :
    (p.andRelease l w).Guar G := by
  induction p with
  | ret a => trivial
  | raise e => trivial
  | act f k ih => exact ⟨hp.1, fun s => ih s (hp.2 s)⟩
  | acq l w k ih => exact ih hp
  | rel l w k ih => exact ih hp

theorem Guar.withLock {G : σ → σ → Prop} {p : Prog σ L α} {l : L} {w : Bool} (hp : p.Guar G) :
    (withLock l w p).Guar G := hp.andRelease

theorem Guar.outcome {G : σ → σ → Prop} {p : Prog σ L α} (hp : p.Guar G) : p.outcome.Guar G := by
  induction p with
  | ret a => trivial
  | raise e => trivial
  | act f k ih => exact ⟨hp.1, fun s => ih s (hp.2 s)⟩
  | acq l w k ih => exact ih hp
  | rel l w k ih => exact ih hp

theorem Guar.ret {G : σ → σ → Prop} (a : α) : (pure a : Prog σ L α).Guar G := trivial

/-- Every program keeps to the relation that holds always. -/
theorem Guar.any {G : σ → σ → Prop} (h : ∀ s t, G s t) : ∀ p : Prog σ L α, p.Guar G
  | .ret _ => trivial
  | .raise _ => trivial
  | .act _ k => ⟨fun _ => h _ _, fun s => Guar.any h (k s)⟩
  | .acq _ _ k => Guar.any h k
  | .rel _ _ k => Guar.any h k

theorem Guar.raised {G : σ → σ → Prop} (e : Exc) : (.raise e : Prog σ L α).Guar G := trivial

theorem Guar.mono {G G' : σ → σ → Prop} (hG : ∀ s t, G s t → G' s t) {p : Prog σ L α} (h : p.Guar G) : p.Guar G' := by
  induction p with
  | ret a => trivial
  | raise e => trivial
  | act f k ih => exact ⟨fun s => hG _ _ (h.1 s), fun s => ih s (h.2 s)⟩
  | acq l w k ih => exact ih h
  | rel l w k ih => exact ih h

theorem Guar.ite {G : σ → σ → Prop} {c : Prop} [Decidable c] {p q : Prog σ L α} (hp : p.Guar G) (hq : q.Guar G) :
    (if c then p else q).Guar G := by
  split
  · exact hp
  · exact hq

theorem Guar.onPart {G : σ → σ → Prop} {G' : τ → τ → Prop} {get : τ → σ} {set : σ → τ → τ} {ren : L → L'}
    (h : ∀ s t, G (get t) s → G' t (set s t)) {p : Prog σ L α} (hp : p.Guar G) :
    (p.onPart get set ren).Guar G' := by
  induction p with
  | ret a => trivial
  | raise e => trivial
  | act f k ih => exact ⟨fun t => h _ t (hp.1 _), fun t => ih _ (hp.2 _)⟩
  | acq l w k ih => exact ih hp
  | rel l w k ih => exact ih hp

/-- From the state `s` on, whatever the others do within `G`, the program ends, if it ends, with a result and a
state for which `Q` holds. -/
def Meets (G : σ → σ → Prop) (Q : Except Exc α → σ → Prop) : Prog σ L α → σ → Prop
  | ret a, s => ∀ s', G s s' → Q (.ok a) s'
  | raise e, s => ∀ s', G s s' → Q (.error e) s'
  | act f k, s => ∀ s', G s s' → (k s').Meets G Q (f s')
  | acq _ _ k, s => k.Meets G Q s
  | rel _ _ k, s => k.Meets G Q s

/-- `G` is reflexive and transitive. -/
structure Steady (G : σ → σ → Prop) : Prop where
  refl : ∀ s, G s s
  trans : ∀ {s t u}, G s t → G t u → G s u

variable {G : σ → σ → Prop}

theorem Meets.later (hG : Steady G) {Q : Except Exc α → σ → Prop} {p : Prog σ L α} {s s' : σ}
    (h : p.Meets G Q s) (hs : G s s') : p.Meets G Q s' := by
  induction p generalizing s s' with
  | ret a => exact fun t ht => h t (hG.trans hs ht)
  | raise e => exact fun t ht => h t (hG.trans hs ht)
  | act f k _ => exact fun t ht => h t (hG.trans hs ht)
  | acq l w k ih => exact ih h hs
  | rel l w k ih => exact ih h hs

theorem Meets.mono {Q Q' : Except Exc α → σ → Prop} {p : Prog σ L α} {s : σ} (h : p.Meets G Q s)
    (hQ : ∀ r s, Q r s → Q' r s) : p.Meets G Q' s := by
  induction p generalizing s with
  | ret a => exact fun t ht => hQ _ _ (h t ht)
  | raise e => exact fun t ht => hQ _ _ (h t ht)
  | act f k ih => exact fun t ht => ih t (h t ht)
  | acq l w k ih => exact ih h
  | rel l w k ih => exact ih h

/-- Sequencing. -/
theorem Meets.bind (hG : Steady G) {Q : Except Exc α → σ → Prop} {Q' : Except Exc β → σ → Prop}
    {p : Prog σ L α} {g : α → Prog σ L β} {s : σ} (h : p.Meets G Q s)
    (hok : ∀ a t, Q (.ok a) t → (g a).Meets G Q' t) (herr : ∀ e t, Q (.error e) t → Q' (.error e) t) :
    (p >>= g).Meets G Q' s := by
  change (p.bind g).Meets G Q' s
  induction p generalizing s with
  | ret a => exact hok a s (h s (hG.refl s))
  | raise e => exact fun t ht => herr e t (h t ht)
  | act f k ih => exact fun t ht => ih t (h t ht)
  | acq l w k ih => exact ih h
  | rel l w k ih => exact ih h

theorem Meets.atom {Q : Except Exc α → σ → Prop} {m : Py σ α} {s : σ}
    (h : ∀ t, G s t → ∀ u, G (m t).2 u → Q (m t).1 u) : (atom m : Prog σ L α).Meets G Q s := by
  intro t ht
  have h1 := h t ht
  show Meets G Q (match (m t).1 with
    | .ok a => ret a
    | .error e => raise e) _
  revert h1
  cases (m t).1 <;> exact fun h1 => h1

theorem Meets.andRelease {Q : Except Exc α → σ → Prop} {p : Prog σ L α} {l : L} {w : Bool} {s : σ}
    (h : p.Meets G Q s) : (p.andRelease l w).Meets G Q s := by
  induction p generalizing s with
  | ret a => exact h
  | raise e => exact h
  | act f k ih => exact fun t ht => ih t (h t ht)
  | acq l w k ih => exact ih h
  | rel l w k ih => exact ih h

theorem Meets.withLock {Q : Except Exc α → σ → Prop} {p : Prog σ L α} {l : L} {w : Bool} {s : σ}
    (h : p.Meets G Q s) : (withLock l w p).Meets G Q s := h.andRelease

theorem Meets.outcome {Q : Except (Exc) α → σ → Prop} {p : Prog σ L α} {s : σ} (h : p.Meets G Q s) :
    p.outcome.Meets G (fun r t => ∃ x, r = .ok x ∧ Q x t) s := by
  induction p generalizing s with
  | ret a => exact fun t ht => ⟨_, rfl, h t ht⟩
  | raise e => exact fun t ht => ⟨_, rfl, h t ht⟩
  | act f k ih => exact fun t ht => ih t (h t ht)
  | acq l w k ih => exact ih h
  | rel l w k ih => exact ih h

theorem Meets.ret {Q : Except Exc α → σ → Prop} {a : α} {s : σ} (h : ∀ t, G s t → Q (.ok a) t) :
    (pure a : Prog σ L α).Meets G Q s := h

theorem Meets.raise {Q : Except Exc α → σ → Prop} {e : Exc} {s : σ} (h : ∀ t, G s t → Q (.error e) t) :
    (raise e : Prog σ L α).Meets G Q s := h

/-! ### What the steps do on the way -/

/-- From the state `s` on, whatever the others do within `G`, every step of the program keeps to `G` too, and it
ends, if it ends, with a result and a state for which `Q` holds. -/
def Safe (G : σ → σ → Prop) (Q : Except Exc α → σ → Prop) : Prog σ L α → σ → Prop
  | ret a, s => ∀ s', G s s' → Q (.ok a) s'
  | raise e, s => ∀ s', G s s' → Q (.error e) s'
  | act f k, s => ∀ s', G s s' → G s' (f s') ∧ (k s').Safe G Q (f s')
  | acq _ _ k, s => k.Safe G Q s
  | rel _ _ k, s => k.Safe G Q s

theorem Safe.later (hG : Steady G) {Q : Except Exc α → σ → Prop} {p : Prog σ L α} {s s' : σ}
    (h : p.Safe G Q s) (hs : G s s') : p.Safe G Q s' := by
  induction p generalizing s s' with
  | ret a => exact fun t ht => h t (hG.trans hs ht)
  | raise e => exact fun t ht => h t (hG.trans hs ht)
  | act f k _ => exact fun t ht => h t (hG.trans hs ht)
  | acq l w k ih => exact ih h hs
  | rel l w k ih => exact ih h hs

theorem Safe.mono {Q Q' : Except Exc α → σ → Prop} {p : Prog σ L α} {s : σ} (h : p.Safe G Q s)
    (hQ : ∀ r s, Q r s → Q' r s) : p.Safe G Q' s := by
  induction p generalizing s with
  | ret a => exact fun t ht => hQ _ _ (h t ht)
  | raise e => exact fun t ht => hQ _ _ (h t ht)
  | act f k ih => exact fun t ht => ⟨(h t ht).1, ih t (h t ht).2⟩
  | acq l w k ih => exact ih h
  | rel l w k ih => exact ih h

/-- Sequencing. -/
theorem Safe.bind (hG : Steady G) {Q : Except Exc α → σ → Prop} {Q' : Except Exc β → σ → Prop}
    {p : Prog σ L α} {g : α → Prog σ L β} {s : σ} (h : p.Safe G Q s)
    (hok : ∀ a t, Q (.ok a) t → (g a).Safe G Q' t) (herr : ∀ e t, Q (.error e) t → Q' (.error e) t) :
    (p >>= g).Safe G Q' s := by
  change (p.bind g).Safe G Q' s
  induction p generalizing s with
  | ret a => exact hok a s (h s (hG.refl s))
  | raise e => exact fun t ht => herr e t (h t ht)
  | act f k ih => exact fun t ht => ⟨(h t ht).1, ih t (h t ht).2⟩
  | acq l w k ih => exact ih h
  | rel l w k ih => exact ih h

theorem Safe.atom {Q : Except Exc α → σ → Prop} {m : Py σ α} {s : σ}
    (h : ∀ t, G s t → G t (m t).2 ∧ ∀ u, G (m t).2 u → Q (m t).1 u) : (atom m : Prog σ L α).Safe G Q s := by
  intro t ht
  obtain ⟨h0, h1⟩ := h t ht
  refine ⟨h0, ?_⟩
  show Safe G Q (match (m t).1 with
    | .ok a => ret a
    | .error e => raise e) _
  revert h1
  cases (m t).1 <;> exact fun h1 => h1

theorem Safe.andRelease {Q : Except Exc α → σ → Prop} {p : Prog σ L α} {l : L} {w : Bool} {s : σ}
    (h : p.Safe G Q s) : (p.andRelease l w).Safe G Q s := by
  induction p generalizing s with
  | ret a => exact h
  | raise e => exact h
  | act f k ih => exact fun t ht => ⟨(h t ht).1, ih t (h t ht).2⟩
  | acq l w k ih => exact ih h
  | rel l w k ih => exact ih h

theorem Safe.withLock {Q : Except Exc α → σ → Prop} {p : Prog σ L α} {l : L} {w : Bool} {s : σ}
    (h : p.Safe G Q s) : (withLock l w p).Safe G Q s := h.andRelease

theorem Safe.outcome {Q : Except (Exc) α → σ → Prop} {p : Prog σ L α} {s : σ} (h : p.Safe G Q s) :
    p.outcome.Safe G (fun r t => ∃ x, r = .ok x ∧ Q x t) s := by
  induction p generalizing s with
  | ret a => exact fun t ht => ⟨_, rfl, h t ht⟩
  | raise e => exact fun t ht => ⟨_, rfl, h t ht⟩
  | act f k ih => exact fun t ht => ⟨(h t ht).1, ih t (h t ht).2⟩
  | acq l w k ih => exact ih h
  | rel l w k ih => exact ih h

/-- A program that keeps to `G` from every state. -/
theorem Safe.of_guar (hG : Steady G) {p : Prog σ L α} (h : p.Guar G) (s : σ) : p.Safe G (fun _ t => G s t) s := by
  have : ∀ t, G s t → p.Safe G (fun _ t => G s t) t := by
    induction p with
    | ret a => exact fun t ht u hu => hG.trans ht hu
    | raise e => exact fun t ht u hu => hG.trans ht hu
    | act f k ih => exact fun t ht u hu => ⟨h.1 u, ih u (h.2 u) _ (hG.trans (hG.trans ht hu) (h.1 u))⟩
    | acq l w k ih => exact fun t ht => ih h t ht
    | rel l w k ih => exact fun t ht => ih h t ht
  exact this s (hG.refl s)

/-- On a part of the state. -/
theorem Safe.onPart {G' : τ → τ → Prop} {get : τ → σ} {set : σ → τ → τ} {ren : L → L'}
    (hget : ∀ t t', G' t t' → G (get t) (get t')) (hset : ∀ s t, G (get t) s → G' t (set s t))
    (hgs : ∀ s t, get (set s t) = s) {Q : Except Exc α → σ → Prop} {p : Prog σ L α} {t : τ}
    (h : p.Safe G Q (get t)) : (p.onPart get set ren).Safe G' (fun r t => Q r (get t)) t := by
  induction p generalizing t with
  | ret a => exact fun u hu => h _ (hget _ _ hu)
  | raise e => exact fun u hu => h _ (hget _ _ hu)
  | act f k ih =>
    intro u hu
    obtain ⟨h1, h2⟩ := h (get u) (hget _ _ hu)
    exact ⟨hset _ _ h1, ih _ (by rw [hgs]; exact h2)⟩
  | acq l w k ih => exact ih h
  | rel l w k ih => exact ih h

/-- On a part of the state, when the whole satisfies `A`. -/
theorem Meets.onPart {G' : τ → τ → Prop} {A : τ → Prop} {get : τ → σ} {set : σ → τ → τ} {ren : L → L'}
    (hA : ∀ t t', A t → G' t t' → A t') (hget : ∀ t t', A t → G' t t' → G (get t) (get t'))
    (hset : ∀ s t, A t → G (get t) s → A (set s t)) (hgs : ∀ s t, get (set s t) = s)
    {Q : Except Exc α → σ → Prop} {p : Prog σ L α} (hp : p.Guar G) {t : τ} (ht : A t)
    (h : p.Meets G Q (get t)) : (p.onPart get set ren).Meets G' (fun r t => Q r (get t)) t := by
  induction p generalizing t with
  | ret a => exact fun u hu => h _ (hget _ _ ht hu)
  | raise e => exact fun u hu => h _ (hget _ _ ht hu)
  | act f k ih =>
    intro u hu
    have hAu := hA _ _ ht hu
    exact ih _ (hp.2 _) (hset _ _ hAu (hp.1 _)) (by rw [hgs]; exact h (get u) (hget _ _ ht hu))
  | acq l w k ih => exact ih hp ht h
  | rel l w k ih => exact ih hp ht h

/-- What it promises in addition. -/
theorem Safe.and {Q Q' : Except Exc α → σ → Prop} {p : Prog σ L α} {s : σ} (h : p.Safe G Q s) (h' : p.Meets G Q' s) :
    p.Safe G (fun r t => Q r t ∧ Q' r t) s := by
  induction p generalizing s with
  | ret a => exact fun t ht => ⟨h t ht, h' t ht⟩
  | raise e => exact fun t ht => ⟨h t ht, h' t ht⟩
  | act f k ih => exact fun t ht => ⟨(h t ht).1, ih t (h t ht).2 (h' t ht)⟩
  | acq l w k ih => exact ih h h'
  | rel l w k ih => exact ih h h'

/-- A promise that nobody can break. -/
theorem Meets.any {Q : Except Exc α → σ → Prop} (h : ∀ r t, Q r t) (p : Prog σ L α) (s : σ) : p.Meets G Q s := by
  induction p generalizing s with
  | ret a => exact fun _ _ => h _ _
  | raise e => exact fun _ _ => h _ _
  | act f k ih => exact fun _ _ => ih _ _
  | acq l w k ih => exact ih _
  | rel l w k ih => exact ih _

/-- Less can happen, as much is promised. -/
theorem Meets.rely {G' : σ → σ → Prop} (hG : ∀ s t, G s t → G' s t) {Q : Except Exc α → σ → Prop} {p : Prog σ L α}
    {s : σ} (h : p.Meets G' Q s) : p.Meets G Q s := by
  induction p generalizing s with
  | ret a => exact fun t ht => h t (hG _ _ ht)
  | raise e => exact fun t ht => h t (hG _ _ ht)
  | act f k ih => exact fun t ht => ih t (h t (hG _ _ ht))
  | acq l w k ih => exact ih h
  | rel l w k ih => exact ih h

theorem Safe.meets {Q : Except Exc α → σ → Prop} {p : Prog σ L α} {s : σ} (h : p.Safe G Q s) : p.Meets G Q s := by
  induction p generalizing s with
  | ret a => exact h
  | raise e => exact h
  | act f k ih => exact fun t ht => ih t (h t ht).2
  | acq l w k ih => exact ih h
  | rel l w k ih => exact ih h

end Prog

namespace Conc
open Prog Spec
variable {σ L O C R : Type} [DecidableEq L] {sys : Sys σ L O C R} {G : σ → σ → Prop}

/-- All running calls keep to `G`. -/
def AllGuar (G : σ → σ → Prop) (κ : Conf σ L O C R) : Prop :=
  ∀ i c p, κ.cur i = some (c, p) → p.Guar G

theorem step_guar (hG : Steady G) (hs : ∀ i o c, sys.ok i c → (sys.call i o c).Guar G)
    {κ κ' : Conf σ L O C R} {e : Option (Ev C R)} (h : Step sys κ e κ') (hk : AllGuar G κ) :
    G κ.st κ'.st ∧ AllGuar G κ' := by
  have key : ∀ (j : Nat) (x : Option (C × Prog σ L (R × O))) (cur : Nat → Option (C × Prog σ L (R × O))),
      (∀ i c p, cur i = some (c, p) → p.Guar G) → (∀ c p, x = some (c, p) → p.Guar G) →
      ∀ i c p, upd cur j x i = some (c, p) → p.Guar G := by
    intro j x cur h1 h2 i c p hi
    by_cases hj : i = j
    · subst hj; rw [upd_same] at hi; exact h2 c p hi
    · rw [upd_other _ _ hj] at hi; exact h1 i c p hi
  cases h with
  | inv i c hi hok =>
    exact ⟨hG.refl _, key _ _ _ hk fun c' p e => by cases e; exact hs i _ c hok⟩
  | act i c f k hi =>
    have := hk i c _ hi
    exact ⟨this.1 _, key _ _ _ hk fun c' p e => by cases e; exact this.2 _⟩
  | acq i c l w k hi _ =>
    have : k.Guar G := by have := hk i c _ hi; exact this
    exact ⟨hG.refl _, key _ _ _ hk fun c' p e => by cases e; exact this⟩
  | rel i c l w k hi =>
    have : k.Guar G := by have := hk i c _ hi; exact this
    exact ⟨hG.refl _, key _ _ _ hk fun c' p e => by cases e; exact this⟩
  | ret i c r o hi => exact ⟨hG.refl _, key _ _ _ hk fun c' p e => by cases e⟩

/-- The state changes according to `G`. -/
theorem exec_guar (hG : Steady G) (hs : ∀ i o c, sys.ok i c → (sys.call i o c).Guar G)
    {κ κ' : Conf σ L O C R} {tr : List (Ev C R)} (h : Exec sys κ tr κ') (hk : AllGuar G κ) :
    G κ.st κ'.st ∧ AllGuar G κ' := by
  induction h with
  | nil => exact ⟨hG.refl _, hk⟩
  | snoc κ1 κ2 tr e h1 h2 ih =>
    obtain ⟨a, b⟩ := ih
    obtain ⟨c, d⟩ := step_guar hG hs h2 b
    exact ⟨hG.trans a c, d⟩

omit [DecidableEq L] in
theorem init_guar (s : σ) (obj : Nat → O) : AllGuar G (init s obj : Conf σ L O C R) :=
  fun _ _ _ h => nomatch h

/-- What thread `i` is doing in the observation `tr`: nothing known; in the call `c`. -/
inductive Doing (i : Nat) : List (Ev C R) → C → Prop
  | inv (tr : List (Ev C R)) (c : C) : Doing i (tr ++ [.inv i c]) c
  | other (tr : List (Ev C R)) (c : C) (e : Ev C R) : Doing i tr c → ¬ ofThread i e → Doing i (tr ++ [e]) c

theorem doing_of {i : Nat} {c : C} (a b : List (Ev C R)) (hb : ∀ e ∈ b, ¬ ofThread i e) :
    Doing i (a ++ .inv i c :: b) c := by
  rw [← List.reverse_reverse b] at hb ⊢
  revert hb
  induction b.reverse with
  | nil => exact fun _ => .inv a c
  | cons e l ih =>
    intro hb
    have : a ++ Ev.inv i c :: (e :: l).reverse = (a ++ Ev.inv i c :: l.reverse) ++ [e] := by simp
    rw [this]
    refine .other _ _ _ (ih fun x hx => hb x ?_) (hb e ?_)
    · rw [List.reverse_cons]; exact List.mem_append_left _ hx
    · rw [List.reverse_cons]; exact List.mem_append_right _ (List.mem_singleton.2 rfl)

theorem doing_snoc {i : Nat} {tr : List (Ev C R)} {e : Ev C R} {c : C} (h : Doing i (tr ++ [e]) c) :
    e = .inv i c ∨ (¬ ofThread i e ∧ Doing i tr c) := by
  generalize hx : tr ++ [e] = x at h
  cases h with
  | inv tr' =>
    obtain ⟨-, h2⟩ := List.append_inj' hx rfl
    exact .inl (List.singleton_inj.mp h2)
  | other tr' _ e' h1 h2 =>
    obtain ⟨rfl, h3⟩ := List.append_inj' hx rfl
    obtain rfl := List.singleton_inj.mp h3
    exact .inr ⟨h2, h1⟩

theorem doing_nil {i : Nat} {c : C} (h : Doing (R := R) i [] c) : False := by
  generalize hx : ([] : List (Ev C R)) = x at h
  cases h <;> simp at hx

/-- The calls started in an execution end with what they promise. -/
theorem exec_meets (hG : Steady G) (hs : ∀ i o c, sys.ok i c → (sys.call i o c).Guar G)
    {A : σ → Prop} (hA : ∀ s t, A s → G s t → A t) {Q : Nat → C → R → σ → Prop}
    (hQ : ∀ i o c, sys.ok i c → ∀ s, A s →
      (sys.call i o c).Meets G (fun x t => ∀ y, x = .ok y → Q i c y.1 t) s)
    {κ κ' : Conf σ L O C R} {tr : List (Ev C R)} (h : Exec sys κ tr κ') (hk : AllGuar G κ) (hA0 : A κ.st) :
    (∀ i c, Doing i tr c → ∃ p, κ'.cur i = some (c, p) ∧
      p.Meets G (fun x t => ∀ y, x = .ok y → Q i c y.1 t) κ'.st) ∧
    (∀ i c r, Returns tr i c r → ∃ s, Q i c r s ∧ G s κ'.st) := by
  induction h with
  | nil =>
    refine ⟨fun i c hd => (doing_nil hd).elim, fun i c r hr => ?_⟩
    obtain ⟨a, b, d, e, _⟩ := hr
    have := congrArg List.length e
    simp at this
  | snoc κ1 κ2 tr e h1 h2 ih =>
    obtain ⟨ih1, ih2⟩ := ih
    obtain ⟨g1, g2⟩ := exec_guar hG hs h1 hk
    obtain ⟨g3, g4⟩ := step_guar hG hs h2 g2
    have old : ∀ i c r, Returns tr i c r → ∃ s, Q i c r s ∧ G s κ2.st := fun i c r hr => by
      obtain ⟨s, q1, q2⟩ := ih2 i c r hr
      exact ⟨s, q1, hG.trans q2 g3⟩
    have keep : ∀ (j : Nat) x, κ2.cur = upd κ1.cur j x → ∀ i, i ≠ j → ∀ c, Doing i tr c →
        ∃ p, κ2.cur i = some (c, p) ∧ p.Meets G (fun x t => ∀ y, x = .ok y → Q i c y.1 t) κ2.st := by
      intro j x hx i hij c hd
      obtain ⟨p, p1, p2⟩ := ih1 i c hd
      exact ⟨p, by rw [hx, upd_other _ _ hij]; exact p1, p2.later hG g3⟩
    cases h2 with
    | inv i c hi hok =>
      refine ⟨fun j c' hd => ?_, fun j c' r hr => ?_⟩
      · rcases doing_snoc hd with h | ⟨h, hd⟩
        · cases h
          exact ⟨_, upd_same _ _ _, hQ i _ c hok _ (hA _ _ hA0 g1)⟩
        · exact keep i _ rfl j (fun e => h e.symm) c' hd
      · obtain ⟨a, b, d, e, hb⟩ := hr
        rcases List.eq_nil_or_concat d with rfl | ⟨d', y, rfl⟩
        · have e' : tr ++ [Ev.inv i c] = (a ++ Ev.inv j c' :: b) ++ [Ev.ret j r] := e
          have := (List.append_inj' e' rfl).2
          simp at this
        · have e' : tr ++ [Ev.inv i c] = (a ++ Ev.inv j c' :: b ++ Ev.ret j r :: d') ++ [y] := by
            rw [show (some (Ev.inv i c)).toList = ([Ev.inv i c] : List (Ev C R)) from rfl] at e
            rw [e]; simp
          exact old j c' r ⟨a, b, d', (List.append_inj' e' rfl).1, hb⟩
    | act i c f k hi =>
      simp only [Option.toList, List.append_nil]
      refine ⟨fun j c' hd => ?_, old⟩
      by_cases hj : j = i
      · subst hj
        obtain ⟨p, p1, p2⟩ := ih1 j c' hd
        rw [hi] at p1
        cases p1
        exact ⟨_, upd_same _ _ _, p2 _ (hG.refl _)⟩
      · exact keep i _ rfl j hj c' hd
    | acq i c l w k hi _ =>
      simp only [Option.toList, List.append_nil]
      refine ⟨fun j c' hd => ?_, old⟩
      by_cases hj : j = i
      · subst hj
        obtain ⟨p, p1, p2⟩ := ih1 j c' hd
        rw [hi] at p1
        cases p1
        exact ⟨_, upd_same _ _ _, p2⟩
      · exact keep i _ rfl j hj c' hd
    | rel i c l w k hi =>
      simp only [Option.toList, List.append_nil]
      refine ⟨fun j c' hd => ?_, old⟩
      by_cases hj : j = i
      · subst hj
        obtain ⟨p, p1, p2⟩ := ih1 j c' hd
        rw [hi] at p1
        cases p1
        exact ⟨_, upd_same _ _ _, p2⟩
      · exact keep i _ rfl j hj c' hd
    | ret i c r o hi =>
      refine ⟨fun j c' hd => ?_, fun j c' r' hr => ?_⟩
      · rcases doing_snoc hd with h | ⟨h, hd⟩
        · cases h
        · exact keep i _ rfl j (fun e => h e.symm) c' hd
      · obtain ⟨a, b, d, e, hb⟩ := hr
        rcases List.eq_nil_or_concat d with rfl | ⟨d', y, rfl⟩
        · have e' : tr ++ [Ev.ret i r] = (a ++ Ev.inv j c' :: b) ++ [Ev.ret j r'] := e
          obtain ⟨rfl, e2⟩ := List.append_inj' e' rfl
          cases List.singleton_inj.mp e2
          obtain ⟨p, p1, p2⟩ := ih1 i c' (doing_of a b hb)
          rw [hi] at p1
          cases p1
          exact ⟨κ1.st, p2 _ (hG.refl _) _ rfl, hG.refl _⟩
        · have e' : tr ++ [Ev.ret i r] = (a ++ Ev.inv j c' :: b ++ Ev.ret j r' :: d') ++ [y] := by
            rw [show (some (Ev.ret i r)).toList = ([Ev.ret i r] : List (Ev C R)) from rfl] at e
            rw [e]; simp
          exact old j c' r' ⟨a, b, d', (List.append_inj' e' rfl).1, hb⟩

/-- A call that has returned had returned before, or returns now. -/
theorem returns_snoc {tr : List (Ev C R)} {e : Option (Ev C R)} {i : Nat} {c : C} {r : R}
    (h : Returns (tr ++ e.toList) i c r) : Returns tr i c r ∨ (e = some (.ret i r) ∧ Doing i tr c) := by
  cases e with
  | none => simp only [Option.toList, List.append_nil] at h; exact .inl h
  | some x =>
    obtain ⟨a, b, d, e, hb⟩ := h
    rw [show (some x).toList = ([x] : List (Ev C R)) from rfl] at e
    rcases List.eq_nil_or_concat d with rfl | ⟨d', y, rfl⟩
    · have e' : tr ++ [x] = (a ++ Ev.inv i c :: b) ++ [Ev.ret i r] := e
      obtain ⟨rfl, e2⟩ := List.append_inj' e' rfl
      cases List.singleton_inj.mp e2
      exact .inr ⟨rfl, doing_of a b hb⟩
    · have e' : tr ++ [x] = (a ++ Ev.inv i c :: b ++ Ev.ret i r :: d') ++ [y] := by rw [e]; simp
      exact .inl ⟨a, b, d', (List.append_inj' e' rfl).1, hb⟩

/-- A thread that has started a call and not ended it runs it. -/
theorem exec_doing {κ κ' : Conf σ L O C R} {tr : List (Ev C R)} (h : Exec sys κ tr κ') :
    ∀ i c, Doing i tr c → ∃ p, κ'.cur i = some (c, p) := by
  induction h with
  | nil => exact fun i c hd => (doing_nil hd).elim
  | snoc κ1 κ2 tr e h1 h2 ih =>
    have keep : ∀ (j : Nat) x, κ2.cur = upd κ1.cur j x → ∀ i, i ≠ j → ∀ c, Doing i tr c →
        ∃ p, κ2.cur i = some (c, p) := by
      intro j x hx i hij c hd
      obtain ⟨p, p1⟩ := ih i c hd
      exact ⟨p, by rw [hx, upd_other _ _ hij]; exact p1⟩
    have same : ∀ (i : Nat) c p p', κ1.cur i = some (c, p) → κ2.cur = upd κ1.cur i (some (c, p')) →
        ∀ j c', Doing j tr c' → ∃ p, κ2.cur j = some (c', p) := by
      intro i c p p' hi hx j c' hd
      by_cases hj : j = i
      · subst hj
        obtain ⟨p1, hp⟩ := ih j c' hd
        rw [hi] at hp
        cases hp
        exact ⟨p', by rw [hx, upd_same]⟩
      · exact keep i _ hx j hj c' hd
    cases h2 with
    | inv i c hi hok =>
      intro j c' hd
      rcases doing_snoc hd with h | ⟨h, hd⟩
      · cases h; exact ⟨_, upd_same _ _ _⟩
      · exact keep i _ rfl j (fun e => h e.symm) c' hd
    | act i c f k hi => simp only [Option.toList, List.append_nil]; exact same i c _ _ hi rfl
    | acq i c l w k hi _ => simp only [Option.toList, List.append_nil]; exact same i c _ _ hi rfl
    | rel i c l w k hi => simp only [Option.toList, List.append_nil]; exact same i c _ _ hi rfl
    | ret i c r o hi =>
      intro j c' hd
      rcases doing_snoc hd with h | ⟨h, hd⟩
      · cases h
      · exact keep i _ rfl j (fun e => h e.symm) c' hd

/-- If every call keeps to `G` as long as the others do, the state changes according to `G`, and the calls end with
what they promise. -/
theorem exec_safe (hG : Steady G) {A : σ → Prop} (hA : ∀ s t, A s → G s t → A t) {Q : Nat → C → R → σ → Prop}
    (hQ : ∀ i o c, sys.ok i c → ∀ s, A s →
      (sys.call i o c).Safe G (fun x t => ∀ y, x = .ok y → Q i c y.1 t) s)
    {s : σ} {obj : Nat → O} {κ' : Conf σ L O C R} {tr : List (Ev C R)} (h : Exec sys (init s obj) tr κ') (hA0 : A s) :
    G s κ'.st ∧
    (∀ i c p, κ'.cur i = some (c, p) → p.Safe G (fun x t => ∀ y, x = .ok y → Q i c y.1 t) κ'.st) ∧
    (∀ i c r, Returns tr i c r → ∃ t, Q i c r t ∧ G s t ∧ G t κ'.st) := by
  generalize hk : (init s obj : Conf σ L O C R) = κ0 at h
  induction h with
  | nil =>
    subst hk
    refine ⟨hG.refl _, (fun _ _ _ h => nomatch h), fun i c r hr => ?_⟩
    obtain ⟨a, b, d, e, _⟩ := hr
    have := congrArg List.length e
    simp at this
  | snoc κ1 κ2 tr e h1 h2 ih =>
    obtain ⟨ih1, ih2, ih3⟩ := ih
    have keep : ∀ (j : Nat) (x : Option (C × Prog σ L (R × O))) (t : σ), G κ1.st t →
        (∀ c p, x = some (c, p) → p.Safe G (fun x t => ∀ y, x = .ok y → Q j c y.1 t) t) →
        ∀ i c p, upd κ1.cur j x i = some (c, p) → p.Safe G (fun x t => ∀ y, x = .ok y → Q i c y.1 t) t := by
      intro j x t hg hx i c p hi
      by_cases hij : i = j
      · subst hij; rw [upd_same] at hi; exact hx c p hi
      · rw [upd_other _ _ hij] at hi; exact (ih2 i c p hi).later hG hg
    have key : G κ1.st κ2.st ∧ ∀ i c p, κ2.cur i = some (c, p) →
        p.Safe G (fun x t => ∀ y, x = .ok y → Q i c y.1 t) κ2.st := by
      cases h2 with
      | inv i c hi hok =>
        refine ⟨hG.refl _, keep i _ _ (hG.refl _) fun c' p e => ?_⟩
        cases e; exact hQ i _ c hok _ (hA _ _ hA0 ih1)
      | act i c f k hi =>
        obtain ⟨g1, g2⟩ := ih2 i c _ hi κ1.st (hG.refl _)
        refine ⟨g1, keep i _ _ g1 fun c' p e => ?_⟩
        cases e; exact g2
      | acq i c l w k hi _ =>
        refine ⟨hG.refl _, keep i _ _ (hG.refl _) fun c' p e => ?_⟩
        cases e
        have := ih2 i c _ hi
        exact this
      | rel i c l w k hi =>
        refine ⟨hG.refl _, keep i _ _ (hG.refl _) fun c' p e => ?_⟩
        cases e
        have := ih2 i c _ hi
        exact this
      | ret i c r o hi => exact ⟨hG.refl _, keep i _ _ (hG.refl _) (fun c' p e => nomatch e)⟩
    refine ⟨hG.trans ih1 key.1, key.2, fun i c r hr => ?_⟩
    rcases returns_snoc hr with hr | ⟨rfl, hd⟩
    · obtain ⟨t, q1, q2, q3⟩ := ih3 i c r hr
      exact ⟨t, q1, q2, hG.trans q3 key.1⟩
    · obtain ⟨p, hp⟩ := exec_doing h1 i c hd
      have hs := ih2 i c p hp
      cases h2 with
      | ret _ _ _ o hi =>
        rw [hp] at hi
        cases hi
        exact ⟨κ1.st, hs _ (hG.refl _) _ rfl, ih1, hG.refl _⟩

end Conc
end SyncStream
