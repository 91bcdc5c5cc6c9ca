import Verif.Model.Death
import Verif.Lemmas.Prog
import Verif.Spec.Observe
/-!
# Parts of the state guarded by reader-writer locks, with ghosts

To every lock belongs a part of the state, which is changed only by who holds the lock for writing, and a ghost that describes the part.
A program that respects this is told what the ghost is when it takes the lock, and says how the ghost changes.
-/

namespace SyncStream

/-- `Ok l g s`: the ghost `g` describes the part of `s` that belongs to the lock `l`.  `I l g`: the ghosts that can occur.
`E l g g'`: how who holds the lock for writing may change it. -/
structure Guards (σ L G : Type) where
  Ok : L → G → σ → Prop
  I : L → G → Prop
  E : L → G → G → Prop

/-- The same with other changes. -/
def Guards.with {σ L G : Type} (P : Guards σ L G) (E : L → G → G → Prop) : Guards σ L G := { P with E := E }

/-- What a process holds: the mode and the ghost, for each lock. -/
abbrev Holding (L G : Type) := L → Option (Bool × G)

/-- Nothing is held. -/
def Holding.empty {L G : Type} : Holding L G := fun _ => none

/-- `h` with the entry for `l` replaced. -/
def Holding.set {L G : Type} [DecidableEq L] (h : Holding L G) (l : L) (x : Option (Bool × G)) : Holding L G :=
  fun l' => if l' = l then x else h l'

section
variable {L G : Type} [DecidableEq L]
@[simp] theorem Holding.set_same (h : Holding L G) (l : L) (x) : h.set l x l = x := by simp [Holding.set]
theorem Holding.set_other (h : Holding L G) {l l' : L} (x) (e : l' ≠ l) : h.set l x l' = h l' := by simp [Holding.set, e]
theorem Holding.set_set (h : Holding L G) (l : L) (x y) : (h.set l x).set l y = h.set l y := by
  funext l'; simp only [Holding.set]; split <;> rfl
theorem Holding.set_id (h : Holding L G) (l : L) : h.set l (h l) = h := by
  funext l'; simp only [Holding.set]; split
  · rename_i e; rw [e]
  · rfl
theorem Holding.set_id' {h : Holding L G} {l : L} {x} (e : h l = x) : h.set l x = h := e ▸ Holding.set_id h l
end

namespace Prog
variable {σ L G α β : Type} [DecidableEq L]

/-- The program respects the guards; `h` is what it holds, `seen` are the ghosts that it took and gave back so far.  It ends with a result, with
what it holds then and what it has seen, for which `Q`. -/
def Under (P : Guards σ L G) (Q : Except Exc α → Holding L G → List (L × G) → Prop) :
    Prog σ L α → Holding L G → List (L × G) → Prop
  | ret a, h, seen => Q (.ok a) h seen
  | raise e, h, seen => Q (.error e) h seen
  | act f k, h, seen => ∀ s, (∀ l w g, h l = some (w, g) → P.I l g ∧ P.Ok l g s) → ∃ h' : Holding L G,
      (∀ l, h' l = h l ∨ ∃ g g', h l = some (true, g) ∧ h' l = some (true, g') ∧ P.E l g g' ∧ P.I l g') ∧
      (∀ l g, (∀ x, h l ≠ some (true, x)) → P.Ok l g s → P.Ok l g (f s)) ∧
      (∀ l g, h' l = some (true, g) → P.Ok l g (f s)) ∧ (k s).Under P Q h' seen
  | acq l w k, h, seen => h l = none ∧ ∀ g, P.I l g → k.Under P Q (h.set l (some (w, g))) ((l, g) :: seen)
  | rel l w k, h, seen => ∃ g, h l = some (w, g) ∧ k.Under P Q (h.set l none) ((l, g) :: seen)

variable {P : Guards σ L G} {seen : List (L × G)}

theorem under_ret {Q : Except Exc α → Holding L G → List (L × G) → Prop} {a : α} {h : Holding L G} :
    (ret a : Prog σ L α).Under P Q h seen ↔ Q (.ok a) h seen := Iff.rfl

theorem Under.mono {Q Q' : Except Exc α → Holding L G → List (L × G) → Prop} {p : Prog σ L α} {h : Holding L G}
    (hp : p.Under P Q h seen) (hQ : ∀ r h seen, Q r h seen → Q' r h seen) : p.Under P Q' h seen := by
  induction p generalizing h seen with
  | ret a => exact hQ _ _ _ hp
  | raise e => exact hQ _ _ _ hp
  | act f k ih =>
    intro s hs
    obtain ⟨h', h1, h2, h3, h4⟩ := hp s hs
    exact ⟨h', h1, h2, h3, ih s h4⟩
  | acq l w k ih => exact ⟨hp.1, fun g hg => ih (hp.2 g hg)⟩
  | rel l w k ih =>
    obtain ⟨g, h1, h2⟩ := hp
    exact ⟨g, h1, ih h2⟩

/-- What was seen remains seen. -/
theorem Under.remembers {Q : Except Exc α → Holding L G → List (L × G) → Prop} {p : Prog σ L α} {h : Holding L G}
    (hp : p.Under P Q h seen) : p.Under P (fun r h s => Q r h s ∧ ∀ x ∈ seen, x ∈ s) h seen := by
  induction p generalizing h seen with
  | ret a => exact ⟨hp, fun _ h => h⟩
  | raise e => exact ⟨hp, fun _ h => h⟩
  | act f k ih =>
    intro s hs
    obtain ⟨h', h1, h2, h3, h4⟩ := hp s hs
    exact ⟨h', h1, h2, h3, ih s h4⟩
  | acq l w k ih =>
    exact ⟨hp.1, fun g hg => (ih (hp.2 g hg)).mono fun r h s hq => ⟨hq.1, fun x hx => hq.2 x (List.mem_cons_of_mem _ hx)⟩⟩
  | rel l w k ih =>
    obtain ⟨g, h1, h2⟩ := hp
    exact ⟨g, h1, (ih h2).mono fun r h s hq => ⟨hq.1, fun x hx => hq.2 x (List.mem_cons_of_mem _ hx)⟩⟩

theorem Under.bind {Q : Except Exc β → Holding L G → List (L × G) → Prop} {p : Prog σ L α} {k : α → Prog σ L β} {h : Holding L G}
    (hp : p.Under P (fun r h seen => match r with
      | .ok a => (k a).Under P Q h seen
      | .error e => Q (.error e) h seen) h seen) : (p >>= k).Under P Q h seen := by
  change (p.bind k).Under P Q h seen
  induction p generalizing h seen with
  | ret a => exact hp
  | raise e => exact hp
  | act f k ih =>
    intro s hs
    obtain ⟨h', h1, h2, h3, h4⟩ := hp s hs
    exact ⟨h', h1, h2, h3, ih s h4⟩
  | acq l w k ih => exact ⟨hp.1, fun g hg => ih (hp.2 g hg)⟩
  | rel l w k ih =>
    obtain ⟨g, h1, h2⟩ := hp
    exact ⟨g, h1, ih h2⟩

theorem Under.andRelease {Q : Except Exc α → Holding L G → List (L × G) → Prop} {p : Prog σ L α} {l : L} {w : Bool}
    {h : Holding L G} (hp : p.Under P (fun r h seen => ∃ g, h l = some (w, g) ∧ Q r (h.set l none) ((l, g) :: seen)) h seen) :
    (p.andRelease l w).Under P Q h seen := by
  induction p generalizing h seen with
  | ret a => exact hp
  | raise e => exact hp
  | act f k ih =>
    intro s hs
    obtain ⟨h', h1, h2, h3, h4⟩ := hp s hs
    exact ⟨h', h1, h2, h3, ih s h4⟩
  | acq l w k ih => exact ⟨hp.1, fun g hg => ih (hp.2 g hg)⟩
  | rel l w k ih =>
    obtain ⟨g, h1, h2⟩ := hp
    exact ⟨g, h1, ih h2⟩

theorem Under.withLock {Q : Except Exc α → Holding L G → List (L × G) → Prop} {p : Prog σ L α} {l : L} {w : Bool}
    {h : Holding L G} (hl : h l = none)
    (hp : ∀ g, P.I l g → p.Under P (fun r h seen => ∃ g, h l = some (w, g) ∧ Q r (h.set l none) ((l, g) :: seen))
      (h.set l (some (w, g))) ((l, g) :: seen)) :
    (withLock l w p).Under P Q h seen := ⟨hl, fun g hg => (hp g hg).andRelease⟩

theorem Under.outcome {Q : Except Exc (Except Exc α) → Holding L G → List (L × G) → Prop} {p : Prog σ L α} {h : Holding L G}
    (hp : p.Under P (fun r h seen => Q (.ok r) h seen) h seen) : p.outcome.Under P Q h seen := by
  induction p generalizing h seen with
  | ret a => exact hp
  | raise e => exact hp
  | act f k ih =>
    intro s hs
    obtain ⟨h', h1, h2, h3, h4⟩ := hp s hs
    exact ⟨h', h1, h2, h3, ih s h4⟩
  | acq l w k ih => exact ⟨hp.1, fun g hg => ih (hp.2 g hg)⟩
  | rel l w k ih =>
    obtain ⟨g, h1, h2⟩ := hp
    exact ⟨g, h1, ih h2⟩

/-- A step that only looks. -/
theorem Under.look {Q : Except Exc α → Holding L G → List (L × G) → Prop} {k : σ → Prog σ L α} {h : Holding L G}
    (hk : ∀ s, (∀ l w g, h l = some (w, g) → P.I l g ∧ P.Ok l g s) → (k s).Under P Q h seen) :
    (Prog.act id k).Under P Q h seen :=
  fun s hs => ⟨h, fun _ => .inl rfl, fun _ _ _ h => h, fun l g e => (hs l true g e).2, hk s hs⟩

/-- A step of who holds the lock `l` for writing, on its part alone. -/
theorem Under.change {Q : Except Exc α → Holding L G → List (L × G) → Prop} {f : σ → σ} {k : σ → Prog σ L α}
    {h : Holding L G} {l : L} {g : G} (hl : h l = some (true, g))
    (hf : ∀ s l' g', l' ≠ l → P.Ok l' g' s → P.Ok l' g' (f s))
    (hk : ∀ s, P.I l g → P.Ok l g s → ∃ g', P.E l g g' ∧ P.I l g' ∧ P.Ok l g' (f s) ∧
      (k s).Under P Q (h.set l (some (true, g'))) seen) :
    (Prog.act f k).Under P Q h seen := by
  intro s hs
  obtain ⟨g', h1, h2, h3, h4⟩ := hk s (hs l true g hl).1 (hs l true g hl).2
  refine ⟨_, fun l' => ?_, fun l' g1 hn ho => ?_, fun l' g1 e => ?_, h4⟩
  · by_cases e : l' = l
    · subst e; exact .inr ⟨g, g', hl, Holding.set_same .., h1, h2⟩
    · exact .inl (Holding.set_other _ _ e)
  · by_cases e : l' = l
    · subst e; exact absurd hl (hn g)
    · exact hf s l' g1 e ho
  · by_cases e' : l' = l
    · subst e'; rw [Holding.set_same] at e; cases e; exact h3
    · rw [Holding.set_other _ _ e'] at e
      exact hf s l' g1 e' (hs l' true g1 e).2

end Prog

namespace Conc
open Prog
variable {σ L O C R G : Type} [DecidableEq L]

/-- How a call may end. -/
def Ends (okObj : Nat → O → Prop) (Q : Nat → C → R → List (L × G) → Prop) (i : Nat) (c : C) (r : Except Exc (R × O)) (h : Holding L G)
    (seen : List (L × G)) : Prop :=
  h = .empty ∧ ∃ x o, r = .ok (x, o) ∧ okObj i o ∧ Q i c x seen

/-- What every running call holds agrees with the locks and with the ghosts `γ`, which describe the state; what it has seen were
ghosts of a moment since its beginning (`since`). -/
structure Tracks (P : Guards σ L G) (E : Nat → C → L → G → G → Prop) (okObj : Nat → O → Prop) (Q : Nat → C → R → List (L × G) → Prop)
    (κ : Conf σ L O C R) (γ : L → G) (since : Nat → List (L → G)) : Prop where
  ok : ∀ l, P.I l (γ l) ∧ P.Ok l (γ l) κ.st
  excl : ∀ i j l, i ≠ j → true ∈ κ.held i l → κ.held j l = []
  obj : ∀ i, okObj i (κ.obj i)
  idle : ∀ i, κ.cur i = none → ∀ l, κ.held i l = []
  run : ∀ i c p, κ.cur i = some (c, p) → γ ∈ since i ∧ ∃ (h : Holding L G) (seen : List (L × G)),
    p.Under (P.with (E i c)) (Ends okObj Q i c) h seen ∧ (∀ x ∈ seen, ∃ γ0 ∈ since i, γ0 x.1 = x.2) ∧
    ∀ l, match h l with
      | none => κ.held i l = []
      | some (w, g) => κ.held i l = [w] ∧ g = γ l

variable {P : Guards σ L G} {E : Nat → C → L → G → G → Prop} {okObj : Nat → O → Prop} {Q : Nat → C → R → List (L × G) → Prop}
  {sys : Sys σ L O C R} {Fresh : Nat → O → Prop}

theorem tracks_init {s : σ} {obj : Nat → O} {γ : L → G} (h : ∀ l, P.I l (γ l) ∧ P.Ok l (γ l) s) (ho : ∀ i, okObj i (obj i)) :
    Tracks P E okObj Q (init s obj : Conf σ L O C R) γ fun _ => [] :=
  ⟨h, fun _ _ _ _ h => (nomatch h), ho, fun _ _ _ => rfl, fun _ _ _ h => (nomatch h)⟩

theorem run_noted {κ κ' : Conf σ L O C R} {γ γ' : L → G} {since : Nat → List (L → G)} {e : Option (Ev C R)} {j : Nat} {c : C}
    {p : Prog σ L (R × O)} (hp : ∃ (h : Holding L G) (seen : List (L × G)),
      p.Under (P.with (E j c)) (Ends okObj Q j c) h seen ∧ (∀ x ∈ seen, ∃ γ0 ∈ since j, γ0 x.1 = x.2) ∧
      ∀ l, match h l with
        | none => κ.held j l = []
        | some (w, g) => κ.held j l = [w] ∧ g = γ l)
    (he : ∀ i c, e = some (.inv i c) → j ≠ i) (hh : κ'.held j = κ.held j) (hγ : ∀ l, κ.held j l ≠ [] → γ' l = γ l) :
    γ' ∈ Spec.watched since e γ' j ∧ ∃ (h : Holding L G) (seen : List (L × G)),
      p.Under (P.with (E j c)) (Ends okObj Q j c) h seen ∧ (∀ x ∈ seen, ∃ γ0 ∈ Spec.watched since e γ' j, γ0 x.1 = x.2) ∧
      ∀ l, match h l with
        | none => κ'.held j l = []
        | some (w, g) => κ'.held j l = [w] ∧ g = γ' l := by
  have hn : Spec.watched since e γ' j = γ' :: since j := by
    unfold Spec.watched
    split
    · rename_i i c; rw [if_neg (he i c rfl)]
    · rfl
  obtain ⟨h, seen, h1, h2, h3⟩ := hp
  refine ⟨hn ▸ List.mem_cons_self .., h, seen, h1, fun x hx => ?_, fun l => ?_⟩
  · obtain ⟨γ0, hg, e0⟩ := h2 x hx
    exact ⟨γ0, hn ▸ List.mem_cons_of_mem _ hg, e0⟩
  · have := h3 l
    rw [hh]
    revert this
    cases h l with
    | none => exact id
    | some x => exact fun t => ⟨t.1, t.2.trans (hγ l (by rw [t.1]; simp)).symm⟩

/-- Every step of the whole, a death included, changes the ghosts as the guards allow who makes it. -/
theorem tracks_step (hcall : ∀ i o c, sys.ok i c → okObj i o → (sys.call i o c).Under (P.with (E i c)) (Ends okObj Q i c) .empty [])
    (hfresh : ∀ i o, Fresh i o → okObj i o)
    {κ κ' : Conf σ L O C R} {e : Option (Ev C R)} {γ : L → G} {since : Nat → List (L → G)}
    (h : Tracks P E okObj Q κ γ since) (hs : DStep sys Fresh κ e κ') :
    ∃ γ' : L → G, (γ' = γ ∨ ∃ i c p, κ.cur i = some (c, p) ∧ ∀ l, γ' l = γ l ∨ E i c l (γ l) (γ' l)) ∧
      Tracks P E okObj Q κ' γ' (Spec.watched since e γ') ∧
      ∀ i r, e = some (.ret i r) → ∃ c p seen, κ.cur i = some (c, p) ∧ Q i c r seen ∧ ∀ x ∈ seen, ∃ γ0 ∈ since i, γ0 x.1 = x.2 := by
  cases hs with
  | die i o hf =>
    refine ⟨γ, .inl rfl, ⟨h.ok, fun j k l hne hj => ?_, fun j => ?_, fun j hj l => ?_, fun j c p hj => ?_⟩, fun _ _ h => nomatch h⟩
    · dsimp only at hj ⊢
      by_cases e1 : j = i
      · subst e1; rw [upd_same] at hj; cases hj
      · rw [upd_other _ _ e1] at hj
        by_cases e2 : k = i
        · subst e2; rw [upd_same]
        · rw [upd_other _ _ e2]; exact h.excl j k l hne hj
    · dsimp only
      by_cases e1 : j = i
      · subst e1; rw [upd_same]; exact hfresh _ _ hf
      · rw [upd_other _ _ e1]; exact h.obj j
    · dsimp only at hj ⊢
      by_cases e1 : j = i
      · subst e1; rw [upd_same]
      · rw [upd_other _ _ e1] at hj ⊢; exact h.idle j hj l
    · dsimp only at hj
      by_cases e1 : j = i
      · subst e1; rw [upd_same] at hj; cases hj
      · rw [upd_other _ _ e1] at hj
        exact run_noted (h.run j c p hj).2 (fun _ _ => nofun) (upd_other _ _ e1) fun _ _ => rfl
  | step =>
  rename_i hs
  cases hs with
  | inv i c hi hok =>
    refine ⟨γ, .inl rfl, ⟨h.ok, h.excl, h.obj, fun j hj => ?_, fun j c' p hj => ?_⟩, fun _ _ h => nomatch h⟩
    · dsimp only at hj
      by_cases e1 : j = i
      · subst e1; rw [upd_same] at hj; cases hj
      · rw [upd_other _ _ e1] at hj; exact h.idle j hj
    · dsimp only at hj
      by_cases e1 : j = i
      · subst e1
        rw [upd_same] at hj
        cases hj
        exact ⟨by simp [Spec.watched], .empty, [], hcall j _ c hok (h.obj j), (fun _ h => nomatch h), fun l => h.idle j hi l⟩
      · rw [upd_other _ _ e1] at hj
        refine run_noted (h.run j c' p hj).2 (fun i' c'' e2 => ?_) rfl fun _ _ => rfl
        cases e2
        exact e1
  | act i c f k hi =>
    obtain ⟨hin, hd, seen, hp, hsn, hh⟩ := h.run i c _ hi
    have hg : ∀ l w g, hd l = some (w, g) → P.I l g ∧ P.Ok l g κ.st := fun l w g e => by
      have := hh l; rw [e] at this; rw [this.2]; exact h.ok l
    obtain ⟨hd', h1, h2, h3, h4⟩ := hp κ.st hg
    generalize hγ' : (fun l => match hd' l with
      | some (true, g) => g
      | _ => γ l) = γ'
    have hγ : ∀ l, γ' l = match hd' l with
      | some (true, g) => g
      | _ => γ l := fun l => by rw [← hγ']
    have hother : ∀ j, j ≠ i → ∀ l, κ.held j l ≠ [] → γ' l = γ l := fun j e1 l hl => by
      rw [hγ]
      split
      · rename_i g' e3
        exfalso
        have hw : true ∈ κ.held i l := by
          have hil := hh l
          rcases h1 l with e4 | ⟨g1, g2, e4, _, _, _⟩
          · rw [e3] at e4; rw [← e4] at hil; rw [hil.1]; exact List.mem_singleton.2 rfl
          · rw [e4] at hil; rw [hil.1]; exact List.mem_singleton.2 rfl
        exact hl (h.excl i j l (Ne.symm e1) hw)
      · rfl
    refine ⟨γ', .inr ⟨i, c, _, hi, fun l => ?_⟩, ⟨fun l => ?_, h.excl, h.obj, fun j hj => ?_, fun j c' p hj => ?_⟩, fun _ _ h => nomatch h⟩
    · rw [hγ]
      rcases h1 l with e1 | ⟨g, g', e1, e2, he, _⟩
      · rw [e1]
        have := hh l
        split
        · rename_i g e2; rw [e2] at this; exact .inl this.2
        · exact .inl rfl
      · rw [e2]
        have := hh l
        rw [e1] at this
        rw [← this.2]
        exact .inr he
    · dsimp only
      rw [hγ]
      rcases h1 l with e1 | ⟨g, g', e1, e2, he, hI⟩
      · have hhl := hh l
        split
        · rename_i g e2
          rw [e1] at e2
          exact ⟨(hg l true g e2).1, h3 l g (e1.trans e2)⟩
        · rename_i hn
          refine ⟨(h.ok l).1, h2 l _ (fun x e2 => ?_) (h.ok l).2⟩
          exact hn x (e1.trans e2)
      · rw [e2]
        exact ⟨hI, h3 l g' e2⟩
    · dsimp only at hj
      by_cases e1 : j = i
      · subst e1; rw [upd_same] at hj; cases hj
      · rw [upd_other _ _ e1] at hj; exact h.idle j hj
    · dsimp only at hj
      by_cases e1 : j = i
      · subst e1
        rw [upd_same] at hj
        cases hj
        refine ⟨List.mem_cons_self .., hd', seen, h4, fun x hx => ?_, fun l => ?_⟩
        · obtain ⟨γ0, hg0, e0⟩ := hsn x hx
          exact ⟨γ0, List.mem_cons_of_mem _ hg0, e0⟩
        · have hhl := hh l
          rw [hγ]
          rcases h1 l with e2 | ⟨g, g', e2, e3, _, _⟩
          · rw [e2]
            revert hhl
            cases hd l with
            | none => exact id
            | some x =>
              obtain ⟨w, g⟩ := x
              cases w with
              | true => exact fun h => ⟨h.1, rfl⟩
              | false => exact fun h => ⟨h.1, h.2⟩
          · rw [e3]
            rw [e2] at hhl
            exact ⟨hhl.1, rfl⟩
      · rw [upd_other _ _ e1] at hj
        exact run_noted (h.run j c' p hj).2 (fun _ _ => nofun) rfl (hother j e1)
  | acq i c l w k hi hct =>
    obtain ⟨hin, hd, seen, hp, hsn, hh⟩ := h.run i c _ hi
    obtain ⟨hn, hk⟩ := hp
    have hil : κ.held i l = [] := by have := hh l; rw [hn] at this; exact this
    refine ⟨γ, .inl rfl, ⟨h.ok, fun j j' l' hne hj => ?_, h.obj, fun j hj => ?_, fun j c' p hj => ?_⟩, fun _ _ h => nomatch h⟩
    · dsimp only at hj ⊢
      by_cases e1 : j = i
      · subst e1
        rw [upd_same] at hj
        rw [upd_other _ _ (Ne.symm hne)]
        by_cases e2 : l' = l
        · subst e2
          rw [if_pos rfl, hil] at hj
          have hw : w = true := (List.mem_singleton.1 hj).symm
          exact (hct.2 j' (Ne.symm hne)).2 hw
        · rw [if_neg e2] at hj; exact h.excl j j' l' hne hj
      · rw [upd_other _ _ e1] at hj
        by_cases e3 : j' = i
        · subst e3
          rw [upd_same]
          by_cases e2 : l' = l
          · subst e2
            exact absurd hj (hct.2 j e1).1
          · rw [if_neg e2]; exact h.excl j j' l' hne hj
        · rw [upd_other _ _ e3]; exact h.excl j j' l' hne hj
    · dsimp only at hj
      by_cases e1 : j = i
      · subst e1; rw [upd_same] at hj; cases hj
      · rw [upd_other _ _ e1] at hj
        intro l'
        dsimp only
        rw [upd_other _ _ e1]; exact h.idle j hj l'
    · dsimp only at hj
      by_cases e1 : j = i
      · subst e1
        rw [upd_same] at hj
        cases hj
        refine ⟨List.mem_cons_self .., _, _, hk (γ l) (h.ok l).1, fun x hx => ?_, fun l' => ?_⟩
        · rcases List.mem_cons.1 hx with rfl | hx
          · exact ⟨γ, List.mem_cons_self .., rfl⟩
          · obtain ⟨γ0, hg0, e0⟩ := hsn x hx
            exact ⟨γ0, List.mem_cons_of_mem _ hg0, e0⟩
        · dsimp only
          rw [upd_same]
          by_cases e2 : l' = l
          · subst e2
            rw [Holding.set_same, if_pos rfl, hil]
            exact ⟨rfl, rfl⟩
          · rw [Holding.set_other _ _ e2, if_neg e2]; exact hh l'
      · rw [upd_other _ _ e1] at hj
        exact run_noted (h.run j c' p hj).2 (fun _ _ => nofun) (upd_other _ _ e1) fun _ _ => rfl
  | rel i c l w k hi =>
    obtain ⟨hin, hd, seen, hp, hsn, hh⟩ := h.run i c _ hi
    obtain ⟨g, hg, hk⟩ := hp
    have hil : κ.held i l = [w] := by have := hh l; rw [hg] at this; exact this.1
    refine ⟨γ, .inl rfl, ⟨h.ok, fun j j' l' hne hj => ?_, h.obj, fun j hj => ?_, fun j c' p hj => ?_⟩, fun _ _ h => nomatch h⟩
    · dsimp only at hj ⊢
      by_cases e1 : j = i
      · subst e1
        rw [upd_same] at hj
        rw [upd_other _ _ (Ne.symm hne)]
        by_cases e2 : l' = l
        · subst e2
          rw [if_pos rfl, hil] at hj
          cases hj
        · rw [if_neg e2] at hj; exact h.excl j j' l' hne hj
      · rw [upd_other _ _ e1] at hj
        by_cases e3 : j' = i
        · subst e3
          rw [upd_same]
          by_cases e2 : l' = l
          · subst e2
            rw [if_pos rfl, hil]; rfl
          · rw [if_neg e2]; exact h.excl j j' l' hne hj
        · rw [upd_other _ _ e3]; exact h.excl j j' l' hne hj
    · dsimp only at hj
      by_cases e1 : j = i
      · subst e1; rw [upd_same] at hj; cases hj
      · rw [upd_other _ _ e1] at hj
        intro l'
        dsimp only
        rw [upd_other _ _ e1]; exact h.idle j hj l'
    · dsimp only at hj
      by_cases e1 : j = i
      · subst e1
        rw [upd_same] at hj
        cases hj
        refine ⟨List.mem_cons_self .., _, _, hk, fun x hx => ?_, fun l' => ?_⟩
        · rcases List.mem_cons.1 hx with rfl | hx
          · have := hh l
            rw [hg] at this
            exact ⟨γ, List.mem_cons_self .., this.2.symm⟩
          · obtain ⟨γ0, hg0, e0⟩ := hsn x hx
            exact ⟨γ0, List.mem_cons_of_mem _ hg0, e0⟩
        · dsimp only
          rw [upd_same]
          by_cases e2 : l' = l
          · subst e2
            rw [Holding.set_same, if_pos rfl, hil]; rfl
          · rw [Holding.set_other _ _ e2, if_neg e2]; exact hh l'
      · rw [upd_other _ _ e1] at hj
        exact run_noted (h.run j c' p hj).2 (fun _ _ => nofun) (upd_other _ _ e1) fun _ _ => rfl
  | ret i c r o hi =>
    obtain ⟨hin, hd, seen, hp, hsn, hh⟩ := h.run i c _ hi
    obtain ⟨rfl, x, o', e1, ho, hq⟩ := hp
    cases e1
    refine ⟨γ, .inl rfl, ⟨h.ok, h.excl, fun j => ?_, fun j hj l => ?_, fun j c' p hj => ?_⟩, fun j r' e1 => ?_⟩
    · dsimp only
      by_cases e1 : j = i
      · subst e1; rw [upd_same]; exact ho
      · rw [upd_other _ _ e1]; exact h.obj j
    · dsimp only at hj ⊢
      by_cases e1 : j = i
      · subst e1; exact hh l
      · rw [upd_other _ _ e1] at hj; exact h.idle j hj l
    · dsimp only at hj
      by_cases e1 : j = i
      · subst e1; rw [upd_same] at hj; cases hj
      · rw [upd_other _ _ e1] at hj
        exact run_noted (h.run j c' p hj).2 (fun _ _ => nofun) rfl fun _ _ => rfl
    · cases e1
      exact ⟨c, _, seen, hi, hq, hsn⟩

end Conc
end SyncStream
