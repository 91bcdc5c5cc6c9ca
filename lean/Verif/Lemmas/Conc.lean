import Verif.Spec.Atomic
import Verif.Lemmas.Prog
import Verif.Lemmas.Deadlock
/-!
# One critical section per call makes the whole linearizable

The shared state is divided into parts: one part for every thread, which only this thread uses, and
parts used by all, each protected by a lock.  Every call belongs to one lock `S`.  Before its accesses
to the part protected by `S` a call may do anything with the own part of the thread, and take and
release locks; the part protected by `S` it uses in one section holding `S`; afterwards it uses the own
part only.  Such calls are linearizable: the moment of effect is the first access to the common part.

Tests that give the same result at any time (here: whether a buffer that nobody closes is closed)
count as accesses to the own part; that is what the invariant `I` is for.
-/

namespace SyncStream.Conc

/-- The division of the state. -/
structure Parts (σ L : Type) where
  /-- what holds at all times -/
  I : σ → Prop
  /-- the parts protected by lock `l` are the same -/
  eqS : L → σ → σ → Prop
  /-- the parts of thread `i` are the same -/
  eqL : Nat → σ → σ → Prop
  /-- the part of thread `i` from the first, the rest from the second state -/
  mix : Nat → σ → σ → σ
  S_refl : ∀ l s, eqS l s s
  S_symm : ∀ {l s t}, eqS l s t → eqS l t s
  S_trans : ∀ {l s t u}, eqS l s t → eqS l t u → eqS l s u
  L_refl : ∀ i s, eqL i s s
  L_symm : ∀ {i s t}, eqL i s t → eqL i t s
  L_trans : ∀ {i s t u}, eqL i s t → eqL i t u → eqL i s u
  mix_L : ∀ i s g, eqL i (mix i s g) s
  mix_S : ∀ l i s g, eqS l (mix i s g) g
  mix_O : ∀ {i j} s g, j ≠ i → eqL j (mix i s g) g
  mix_eq : ∀ {i s g}, eqL i s g → mix i s g = g
  mix_cong : ∀ {i s s'} g, eqL i s s' → mix i s g = mix i s' g
  mix_I : ∀ {i s g}, I s → I g → I (mix i s g)

variable {σ L O C R α β : Type}

/-- A step that depends on the own part only and changes nothing else. -/
structure Local (P : Parts σ L) (i : Nat) (f : σ → σ) (k : σ → Prog σ L α) : Prop where
  inv : ∀ s, P.I s → P.I (f s)
  state : ∀ s g, P.I s → P.I g → f (P.mix i s g) = P.mix i (f s) g
  cont : ∀ s g, P.I s → P.I g → k (P.mix i s g) = k s

/-- A step that depends on the own part and the part protected by `S`, and changes only these (the latter
only if `w`). -/
structure Shared (P : Parts σ L) (S : L) (i : Nat) (w : Bool) (f : σ → σ) (k : σ → Prog σ L α) : Prop where
  inv : ∀ s, P.I s → P.I (f s)
  others : ∀ s, P.I s → ∀ j, j ≠ i → P.eqL j (f s) s
  rest : ∀ s, P.I s → ∀ l, l ≠ S → P.eqS l (f s) s
  reads : w = false → ∀ s, P.I s → P.eqS S (f s) s
  state : ∀ s t, P.I s → P.I t → P.eqS S s t → P.eqL i s t → P.eqS S (f s) (f t) ∧ P.eqL i (f s) (f t)
  cont : ∀ s t, P.I s → P.I t → P.eqS S s t → P.eqL i s t → k s = k t

/-- `WP P S i h com p Q`: the program `p` of thread `i`, started while `i` holds `S` as described by
`h`, and after the moment of effect if `com`, obeys the discipline and ends with `Q`. -/
def WP [DecidableEq L] (P : Parts σ L) (S : L) (i : Nat) (h : Option Bool) (com : Bool) :
    Prog σ L α → (Except Exc α → Option Bool → Bool → Prop) → Prop
  | .ret a, Q => Q (.ok a) h com
  | .raise e, Q => Q (.error e) h com
  | .act f k, Q =>
    (Local P i f k ∧ ∀ s, P.I s → WP P S i h com (k s) Q) ∨
    (∃ w, h = some w ∧ Shared P S i w f k ∧ ∀ s, P.I s → WP P S i h true (k s) Q)
  | .acq l w k, Q =>
    (l ≠ S ∧ WP P S i h com k Q) ∨ (l = S ∧ h = none ∧ com = false ∧ WP P S i (some w) com k Q)
  | .rel l w k, Q => (l ≠ S ∧ WP P S i h com k Q) ∨ (l = S ∧ h = some w ∧ WP P S i none com k Q)

section Local
variable {P : Parts σ L} {i : Nat} {f : σ → σ} {k : σ → Prog σ L α}

theorem Local.eq_mix (hl : Local P i f k) {s : σ} (hs : P.I s) : f s = P.mix i (f s) s := by
  have h := hl.state s s hs hs
  rwa [P.mix_eq (P.L_refl i s)] at h

theorem Local.S (hl : Local P i f k) {s : σ} (hs : P.I s) (l : L) : P.eqS l (f s) s := by
  rw [hl.eq_mix hs]; exact P.mix_S ..

theorem Local.others (hl : Local P i f k) {s : σ} (hs : P.I s) {j : Nat} (hj : j ≠ i) : P.eqL j (f s) s := by
  rw [hl.eq_mix hs]; exact P.mix_O _ _ hj

theorem Local.cont' (hl : Local P i f k) {s t : σ} (hs : P.I s) (ht : P.I t) (h : P.eqL i s t) :
    k s = k t := by
  rw [← hl.cont s t hs ht, P.mix_eq h]

theorem Local.state' (hl : Local P i f k) {s t : σ} (hs : P.I s) (ht : P.I t) (h : P.eqL i s t) :
    P.eqL i (f s) (f t) := by
  have h1 := hl.state s t hs ht
  rw [P.mix_eq h] at h1
  rw [h1]
  exact P.L_symm (P.mix_L ..)

end Local

section WP
variable [DecidableEq L] {P : Parts σ L} {S : L} {i : Nat}

theorem WP.mono {p : Prog σ L α} {h : Option Bool} {com : Bool}
    {Q Q' : Except Exc α → Option Bool → Bool → Prop} (hp : WP P S i h com p Q)
    (hQ : ∀ r h c, Q r h c → Q' r h c) : WP P S i h com p Q' := by
  induction p generalizing h com with
  | ret a => exact hQ _ _ _ hp
  | raise e => exact hQ _ _ _ hp
  | act f k ih =>
    rcases hp with ⟨h1, h2⟩ | ⟨w, h1, h2, h3⟩
    · exact .inl ⟨h1, fun s hs => ih s (h2 s hs)⟩
    · exact .inr ⟨w, h1, h2, fun s hs => ih s (h3 s hs)⟩
  | acq l w k ih =>
    rcases hp with ⟨h1, h2⟩ | ⟨h1, h2, h3, h4⟩
    · exact .inl ⟨h1, ih h2⟩
    · exact .inr ⟨h1, h2, h3, ih h4⟩
  | rel l w k ih =>
    rcases hp with ⟨h1, h2⟩ | ⟨h1, h2, h3⟩
    · exact .inl ⟨h1, ih h2⟩
    · exact .inr ⟨h1, h2, ih h3⟩

/-- What an uninterrupted execution does to the state. -/
theorem WP.frame {p : Prog σ L α} {h : Option Bool} {com : Bool}
    {Q : Except Exc α → Option Bool → Bool → Prop} (hp : WP P S i h com p Q) {s : σ} (hs : P.I s) :
    P.I (p.seq s).2 ∧ (∀ j, j ≠ i → P.eqL j (p.seq s).2 s) ∧
    (∀ l, l ≠ S ∨ (com = true ∧ h ≠ some true) → P.eqS l (p.seq s).2 s) ∧ ∃ h' c', Q (p.seq s).1 h' c' := by
  induction p generalizing h com s with
  | ret a => exact ⟨hs, fun j _ => P.L_refl j s, fun l _ => P.S_refl l s, h, com, hp⟩
  | raise e => exact ⟨hs, fun j _ => P.L_refl j s, fun l _ => P.S_refl l s, h, com, hp⟩
  | act f k ih =>
    rcases hp with ⟨h1, h2⟩ | ⟨w, h1, h2, h3⟩
    · obtain ⟨a, b, c, d⟩ := ih s (h2 s hs) (h1.inv s hs)
      exact ⟨a, fun j hj => P.L_trans (b j hj) (h1.others hs hj),
        fun l e => P.S_trans (c l e) (h1.S hs l), d⟩
    · obtain ⟨a, b, c, d⟩ := ih s (h3 s hs) (h2.inv s hs)
      refine ⟨a, fun j hj => P.L_trans (b j hj) (h2.others s hs j hj), fun l e => ?_, d⟩
      by_cases hl : l = S
      · subst hl
        rcases e with e | ⟨_, e⟩
        · exact absurd rfl e
        · refine P.S_trans (c l (.inr ⟨rfl, e⟩)) (h2.reads ?_ s hs)
          cases w with
          | false => rfl
          | true => exact absurd h1 e
      · exact P.S_trans (c l (.inl hl)) (h2.rest s hs l hl)
  | acq l w k ih =>
    rcases hp with ⟨h1, h2⟩ | ⟨h1, h2, h3, h4⟩
    · exact ih h2 hs
    · obtain ⟨a, b, c, d⟩ := ih h4 hs
      exact ⟨a, b, fun l' e => c l' (e.imp id fun e => by simp [h3] at e), d⟩
  | rel l w k ih =>
    rcases hp with ⟨h1, h2⟩ | ⟨h1, h2, h3⟩
    · exact ih h2 hs
    · obtain ⟨a, b, c, d⟩ := ih h3 hs
      exact ⟨a, b, fun l' e => c l' (e.imp id fun e => ⟨e.1, by simp⟩), d⟩

/-- After the moment of effect the rest depends on the own part only, and on the part protected by `S`
while `S` is held. -/
theorem WP.cong {p : Prog σ L α} {h : Option Bool}
    {Q : Except Exc α → Option Bool → Bool → Prop} (hp : WP P S i h true p Q) {s t : σ} (hs : P.I s)
    (ht : P.I t) (hL : P.eqL i s t) (hS : h ≠ none → P.eqS S s t) :
    (p.seq s).1 = (p.seq t).1 ∧ P.eqL i (p.seq s).2 (p.seq t).2 ∧
    (P.eqS S s t → P.eqS S (p.seq s).2 (p.seq t).2) := by
  induction p generalizing h s t with
  | ret a => exact ⟨rfl, hL, id⟩
  | raise e => exact ⟨rfl, hL, id⟩
  | act f k ih =>
    rcases hp with ⟨h1, h2⟩ | ⟨w, h1, h2, h3⟩
    · have e := h1.cont' hs ht hL
      have hf : P.eqS S s t → P.eqS S (f s) (f t) := fun x =>
        P.S_trans (h1.S hs S) (P.S_trans x (P.S_symm (h1.S ht S)))
      obtain ⟨a, b, c⟩ := ih s (h2 s hs) (h1.inv s hs) (h1.inv t ht) (h1.state' hs ht hL)
        (fun x => hf (hS x))
      simp only [Prog.seq]
      rw [← e]
      exact ⟨a, b, fun x => c (hf x)⟩
    · have x := hS (by simp [h1])
      have e := h2.cont s t hs ht x hL
      obtain ⟨y, z⟩ := h2.state s t hs ht x hL
      obtain ⟨a, b, c⟩ := ih s (h3 s hs) (h2.inv s hs) (h2.inv t ht) z (fun _ => y)
      simp only [Prog.seq]
      rw [← e]
      exact ⟨a, b, fun _ => c y⟩
  | acq l w k ih =>
    rcases hp with ⟨h1, h2⟩ | ⟨h1, h2, h3, h4⟩
    · exact ih h2 hs ht hL hS
    · cases h3
  | rel l w k ih =>
    rcases hp with ⟨h1, h2⟩ | ⟨h1, h2, h3⟩
    · exact ih h2 hs ht hL hS
    · exact ih h3 hs ht hL (fun x => absurd rfl x)

theorem WP.bind {p : Prog σ L α} {g : α → Prog σ L β} {h : Option Bool} {com : Bool}
    {Q : Except Exc β → Option Bool → Bool → Prop}
    (hp : WP P S i h com p fun r h' c' => match r with
      | .ok a => WP P S i h' c' (g a) Q
      | .error e => Q (.error e) h' c') :
    WP P S i h com (p >>= g) Q := by
  induction p generalizing h com with
  | ret a => exact hp
  | raise e => exact hp
  | act f k ih =>
    rcases hp with ⟨h1, h2⟩ | ⟨w, h1, h2, h3⟩
    · refine .inl ⟨⟨h1.inv, h1.state, fun s t hs ht => ?_⟩, fun s hs => ih s (h2 s hs)⟩
      show (k _).bind g = (k _).bind g
      rw [h1.cont s t hs ht]
    · refine .inr ⟨w, h1, ⟨h2.inv, h2.others, h2.rest, h2.reads, h2.state, fun s t hs ht x y => ?_⟩,
        fun s hs => ih s (h3 s hs)⟩
      show (k _).bind g = (k _).bind g
      rw [h2.cont s t hs ht x y]
  | acq l w k ih =>
    rcases hp with ⟨h1, h2⟩ | ⟨h1, h2, h3, h4⟩
    · exact .inl ⟨h1, ih h2⟩
    · exact .inr ⟨h1, h2, h3, ih h4⟩
  | rel l w k ih =>
    rcases hp with ⟨h1, h2⟩ | ⟨h1, h2, h3⟩
    · exact .inl ⟨h1, ih h2⟩
    · exact .inr ⟨h1, h2, ih h3⟩

theorem WP.outcome {p : Prog σ L α} {h : Option Bool} {com : Bool}
    {Q : Except Exc (Except Exc α) → Option Bool → Bool → Prop}
    (hp : WP P S i h com p fun r h' c' => Q (.ok r) h' c') : WP P S i h com p.outcome Q := by
  induction p generalizing h com with
  | ret a => exact hp
  | raise e => exact hp
  | act f k ih =>
    rcases hp with ⟨h1, h2⟩ | ⟨w, h1, h2, h3⟩
    · refine .inl ⟨⟨h1.inv, h1.state, fun s t hs ht => ?_⟩, fun s hs => ih s (h2 s hs)⟩
      show (k _).outcome = (k _).outcome
      rw [h1.cont s t hs ht]
    · refine .inr ⟨w, h1, ⟨h2.inv, h2.others, h2.rest, h2.reads, h2.state, fun s t hs ht x y => ?_⟩,
        fun s hs => ih s (h3 s hs)⟩
      show (k _).outcome = (k _).outcome
      rw [h2.cont s t hs ht x y]
  | acq l w k ih =>
    rcases hp with ⟨h1, h2⟩ | ⟨h1, h2, h3, h4⟩
    · exact .inl ⟨h1, ih h2⟩
    · exact .inr ⟨h1, h2, h3, ih h4⟩
  | rel l w k ih =>
    rcases hp with ⟨h1, h2⟩ | ⟨h1, h2, h3⟩
    · exact .inl ⟨h1, ih h2⟩
    · exact .inr ⟨h1, h2, ih h3⟩

theorem WP.andRelease {p : Prog σ L α} {l : L} {w : Bool} {h : Option Bool} {com : Bool}
    {Q : Except Exc α → Option Bool → Bool → Prop}
    (hp : WP P S i h com p fun r h' c' =>
      (l ≠ S ∧ Q r h' c') ∨ (l = S ∧ h' = some w ∧ Q r none c')) :
    WP P S i h com (p.andRelease l w) Q := by
  induction p generalizing h com with
  | ret a => exact hp
  | raise e => exact hp
  | act f k ih =>
    rcases hp with ⟨h1, h2⟩ | ⟨w', h1, h2, h3⟩
    · refine .inl ⟨⟨h1.inv, h1.state, fun s t hs ht => ?_⟩, fun s hs => ih s (h2 s hs)⟩
      show (k _).andRelease l w = (k _).andRelease l w
      rw [h1.cont s t hs ht]
    · refine .inr ⟨w', h1, ⟨h2.inv, h2.others, h2.rest, h2.reads, h2.state, fun s t hs ht x y => ?_⟩,
        fun s hs => ih s (h3 s hs)⟩
      show (k _).andRelease l w = (k _).andRelease l w
      rw [h2.cont s t hs ht x y]
  | acq l' w' k ih =>
    rcases hp with ⟨h1, h2⟩ | ⟨h1, h2, h3, h4⟩
    · exact .inl ⟨h1, ih h2⟩
    · exact .inr ⟨h1, h2, h3, ih h4⟩
  | rel l' w' k ih =>
    rcases hp with ⟨h1, h2⟩ | ⟨h1, h2, h3⟩
    · exact .inl ⟨h1, ih h2⟩
    · exact .inr ⟨h1, h2, ih h3⟩

theorem WP.withOther {p : Prog σ L α} {l : L} {w : Bool} {h : Option Bool} {com : Bool}
    {Q : Except Exc α → Option Bool → Bool → Prop} (hl : l ≠ S) (hp : WP P S i h com p Q) :
    WP P S i h com (Prog.withLock l w p) Q :=
  .inl ⟨hl, WP.andRelease (hp.mono fun _ _ _ hq => .inl ⟨hl, hq⟩)⟩

theorem WP.withS {p : Prog σ L α} {w : Bool} {Q : Except Exc α → Option Bool → Bool → Prop}
    (hp : WP P S i (some w) false p fun r h' c' => h' = some w ∧ Q r none c') :
    WP P S i none false (Prog.withLock S w p) Q :=
  .inr ⟨rfl, rfl, rfl, WP.andRelease (hp.mono fun _ _ _ hq => .inr ⟨rfl, hq.1, hq.2⟩)⟩

end WP

/-! ## The simulation -/

/-- The calls of `sys` obey the discipline; the call `c` belongs to the lock `S c`. -/
def Disciplined [DecidableEq L] (P : Parts σ L) (S : C → L) (sys : Sys σ L O C R) (okObj : Nat → O → Prop) : Prop :=
  ∀ i o c, okObj i o → sys.ok i c →
    WP P (S c) i none false (sys.call i o c) fun r h _ => h = none ∧ ∃ x o', r = .ok (x, o') ∧ okObj i o'

/-- The calls executed one after the other, each without interruption. -/
def seqSpec (sys : Sys σ L O C R) (a : σ × (Nat → O)) (i : Nat) (c : C) (r : R) (a' : σ × (Nat → O)) : Prop :=
  ∃ o, (sys.call i (a.2 i) c).seq a.1 = (.ok (r, o), a'.1) ∧ a'.2 = upd a.2 i o ∧ sys.ok i c

/-- How a lock is held. -/
def hold (l : List Bool) : Option Bool → Prop
  | none => l = []
  | some w => l = [w]

/-- A thread in the two systems: in the interleaved one (what it runs, its object, the state) and in the
atomic one. -/
inductive Sim [DecidableEq L] (P : Parts σ L) (S : C → L) (sys : Sys σ L O C R) (okObj : Nat → O → Prop)
    (i : Nat) (s g : σ) (held : L → List Bool) (o og : O) :
    Option (C × Prog σ L (R × O)) → Spec.Stat C R → Option Bool → Bool → Prop
  | idle : P.eqL i s g → o = og → okObj i o → Sim P S sys okObj i s g held o og none .idle none false
  | before (c : C) (p : Prog σ L (R × O)) (h : Option Bool) : hold (held (S c)) h → o = og → okObj i o → sys.ok i c →
      WP P (S c) i h false p (fun r h _ => h = none ∧ ∃ x o', r = .ok (x, o') ∧ okObj i o') →
      (∀ g', P.I g' → P.eqL i g' g → (sys.call i o c).seq g' = p.seq (P.mix i s g')) →
      Sim P S sys okObj i s g held o og (some (c, p)) (.called c) h false
  | after (c : C) (p : Prog σ L (R × O)) (h : Option Bool) (r : R) (s' : σ) : hold (held (S c)) h → okObj i og →
      WP P (S c) i h true p (fun r h _ => h = none ∧ ∃ x o', r = .ok (x, o') ∧ okObj i o') →
      p.seq s = (.ok (r, og), s') → P.eqL i s' g → (h = some true → P.eqS (S c) s' g) →
      Sim P S sys okObj i s g held o og (some (c, p)) (.done r) h true

variable [DecidableEq L] {P : Parts σ L} {S : C → L} {sys : Sys σ L O C R} {okObj : Nat → O → Prop}

/-- Steps of others do not disturb a thread. -/
theorem Sim.others {i : Nat} {s g s1 g1 : σ} {held : L → List Bool} {o og : O}
    {cur : Option (C × Prog σ L (R × O))} {st : Spec.Stat C R} {h : Option Bool} {com : Bool}
    (hm : Sim P S sys okObj i s g held o og cur st h com) (hs : P.I s) (hs1 : P.I s1)
    (e1 : P.eqL i s1 s) (e2 : P.eqL i g1 g) (e3 : ∀ c p, cur = some (c, p) → h ≠ none → P.eqS (S c) s1 s)
    (e4 : ∀ c p, cur = some (c, p) → h = some true → P.eqS (S c) g1 g) :
    Sim P S sys okObj i s1 g1 held o og cur st h com := by
  cases hm with
  | idle b c d => exact .idle (P.L_trans e1 (P.L_trans b (P.L_symm e2))) c d
  | before c p h a b d e f k =>
    refine .before c p h a b d e f fun g' i1 i2 => ?_
    rw [P.mix_cong g' e1]
    exact k g' i1 (P.L_trans i2 e2)
  | after c p h r s' a b d e f k =>
    obtain ⟨x, y, z⟩ := d.cong hs1 hs e1 (e3 c p rfl)
    rw [e] at x y z
    refine .after c p h r (p.seq s1).2 a b d (Prod.ext x rfl) (P.L_trans y (P.L_trans f (P.L_symm e2))) fun hw => ?_
    exact P.S_trans (z (e3 c p rfl (by simp [hw]))) (P.S_trans (k hw) (P.S_symm (e4 c p rfl hw)))

/-- Thread `i` is in the section of its call that belongs to the lock `l`, for writing, after the moment
of effect. -/
def Writing (S : C → L) (κ : Conf σ L O C R) (a : Spec.AConf (σ × (Nat → O)) C R) (l : L) (i : Nat) : Prop :=
  ∃ c p r, κ.cur i = some (c, p) ∧ S c = l ∧ a.stat i = .done r ∧ κ.held i l = [true]

/-- The two systems. -/
structure Rel (P : Parts σ L) (S : C → L) (sys : Sys σ L O C R) (okObj : Nat → O → Prop)
    (κ : Conf σ L O C R) (a : Spec.AConf (σ × (Nat → O)) C R) : Prop where
  I : P.I κ.st
  Ig : P.I a.st.1
  sim : ∀ i, ∃ h com, Sim P S sys okObj i κ.st a.st.1 (κ.held i) (κ.obj i) (a.st.2 i) (κ.cur i) (a.stat i) h com
  mutex : ∀ l i j, j ≠ i → true ∈ κ.held i l → κ.held j l = []
  shared : ∀ l, (∀ i, ¬Writing S κ a l i) → P.eqS l κ.st a.st.1

theorem sim_hold {i : Nat} {s g : σ} {held : L → List Bool} {o og : O} {c : C} {p : Prog σ L (R × O)}
    {st : Spec.Stat C R} {h : Option Bool} {com : Bool}
    (hm : Sim P S sys okObj i s g held o og (some (c, p)) st h com) : hold (held (S c)) h := by
  cases hm with
  | before _ _ _ a => exact a
  | after _ _ _ _ _ a => exact a

theorem hold_unique {l : List Bool} {h h' : Option Bool} (a : hold l h) (b : hold l h') : h = h' := by
  cases h <;> cases h' <;> simp_all [hold]

theorem init_rel (s : σ) (obj : Nat → O) (hs : P.I s) (ho : ∀ i, okObj i (obj i)) :
    Rel P S sys okObj (init s obj) ⟨(s, obj), fun _ => .idle⟩ where
  I := hs
  Ig := hs
  sim i := ⟨none, false, .idle (P.L_refl i s) rfl (ho i)⟩
  mutex l i j _ h := by simp [init] at h
  shared l _ := P.S_refl l s

/-- Steps of a thread on its own part or in its section do not disturb another one that holds its lock. -/
theorem undisturbed {κ : Conf σ L O C R} (hmut : ∀ l i j, j ≠ i → true ∈ κ.held i l → κ.held j l = [])
    {i j : Nat} (hj : j ≠ i) {c : C} {w : Bool} {f : σ → σ} {k : σ → Prog σ L α} (d : Shared P (S c) i w f k)
    (hI : P.I κ.st) (hh : hold (κ.held i (S c)) (some w)) {cj : C} {h : Option Bool}
    (hhj : hold (κ.held j (S cj)) h) (he : h ≠ none) : P.eqS (S cj) (f κ.st) κ.st := by
  by_cases hS : S cj = S c
  · cases w with
    | false => rw [hS]; exact d.reads rfl _ hI
    | true =>
      have h1 := hmut (S c) i j hj (by rw [hh]; simp)
      rw [hS, h1] at hhj
      cases h with
      | none => exact absurd rfl he
      | some w' => cases hhj
  · exact d.rest _ hI _ hS

/-- Every step of the interleaved system corresponds to steps of the atomic one. -/
theorem step_rel (hd : Disciplined P S sys okObj) {κ κ' : Conf σ L O C R} {e : Option (Ev C R)}
    {a : Spec.AConf (σ × (Nat → O)) C R} (hfree : ∀ i, κ.cur i = none → ∀ l, κ.held i l = [])
    (hr : Rel P S sys okObj κ a) (hst : Step sys κ e κ') :
    ∃ a', (∃ a1, (a1 = a ∨ Spec.AStep (seqSpec sys) a none a1) ∧
      ((e = none ∧ a' = a1) ∨ Spec.AStep (seqSpec sys) a1 e a')) ∧ Rel P S sys okObj κ' a' := by
  obtain ⟨hI, hIg, hsim, hmut, hsh⟩ := hr
  cases hst with
  | inv i c hc hok =>
    obtain ⟨h, com, hm⟩ := hsim i
    rw [hc] at hm
    cases hst : a.stat i with
    | called => rw [hst] at hm; cases hm
    | done => rw [hst] at hm; cases hm
    | idle =>
    rw [hst] at hm
    cases hm with
    | idle b2 b3 b4 =>
    refine ⟨_, ⟨a, .inl rfl, .inr (.inv a i c hst)⟩, hI, hIg, fun j => ?_, hmut, fun l hx => hsh l fun j => ?_⟩
    · by_cases hj : j = i
      · subst hj
        refine ⟨none, false, ?_⟩
        simp only [upd_same]
        refine .before c _ none (hfree j hc _) b3 b4 hok (hd j _ c b4 hok) fun g' i1 i2 => ?_
        rw [P.mix_eq (P.L_trans b2 (P.L_symm i2))]
      · simp only [upd_other _ _ hj]; exact hsim j
    · intro ⟨c', p', r, x1, x2, x3, y⟩
      have hj : j ≠ i := fun h => by subst h; rw [hst] at x3; cases x3
      exact hx j ⟨c', p', r, by simp only [upd_other _ _ hj]; exact x1, x2,
        by simp only [upd_other _ _ hj]; exact x3, y⟩
  | act i c f k hc =>
    obtain ⟨h, com, hm⟩ := hsim i
    rw [hc] at hm
    have hh := sim_hold hm
    -- who was writing still is
    have keep : ∀ {l : L} {st : σ} {p : Prog σ L (R × O)} {j : Nat}, Writing S κ a l j →
        Writing S { κ with st := st, cur := upd κ.cur i (some (c, p)) } a l j := by
      intro l st p j ⟨c', p', r, x1, x2, x3, y⟩
      by_cases hj : j = i
      · subst hj
        rw [hc] at x1
        cases x1
        exact ⟨c, p, r, by simp, x2, x3, y⟩
      · exact ⟨c', p', r, by simp only [upd_other _ _ hj]; exact x1, x2, x3, y⟩
    cases hst : a.stat i with
    | idle => rw [hst] at hm; cases hm
    | called c' =>
      rw [hst] at hm
      cases hm with
      | before _ _ _ b1 b2 b3 b4 b5 b6 =>
      rcases b5 with ⟨d1, d2⟩ | ⟨w, d1, d2, d3⟩
      · -- a step on the own part, before the moment of effect
        refine ⟨a, ⟨a, .inl rfl, .inl ⟨rfl, rfl⟩⟩, d1.inv _ hI, hIg, fun j => ?_, hmut, fun l hx => ?_⟩
        · by_cases hj : j = i
          · subst hj
            refine ⟨h, false, ?_⟩
            simp only [upd_same]
            rw [hst]
            refine .before c _ h b1 b2 b3 b4 (d2 _ hI) fun g' i1 i2 => ?_
            rw [b6 g' i1 i2]
            show (k _).seq (f _) = _
            rw [d1.cont _ _ hI i1, d1.state _ _ hI i1]
          · simp only [upd_other _ _ hj]
            obtain ⟨h', com', hm'⟩ := hsim j
            exact ⟨h', com', hm'.others hI (d1.inv _ hI) (d1.others hI hj) (P.L_refl _ _)
              (fun _ _ _ _ => d1.S hI _) (fun _ _ _ _ => P.S_refl _ _)⟩
        · exact P.S_trans (d1.S hI l) (hsh l fun j hw => hx j (keep hw))
      · -- the moment of effect
        subst d1
        have hS : P.eqS (S c) κ.st a.st.1 := hsh _ fun j ⟨c', p', r, _, _, x, y⟩ => by
          have hj : j ≠ i := fun h => by subst h; rw [hst] at x; cases x
          have h1 := hmut _ j i (Ne.symm hj) (by rw [y]; simp)
          rw [hold, h1] at hh
          cases hh
        have hmI := P.mix_I (i := i) hI hIg
        have hmS := P.S_trans (P.mix_S (S c) i κ.st a.st.1) (P.S_symm hS)
        have hmL := P.mix_L i κ.st a.st.1
        have e1 := b6 a.st.1 hIg (P.L_refl _ _)
        have e2 : (Prog.act f k).seq (P.mix i κ.st a.st.1) = (k κ.st).seq (f (P.mix i κ.st a.st.1)) := by
          show (k _).seq (f _) = _
          rw [d2.cont _ _ hmI hI hmS hmL]
        rw [e2] at e1
        have hfI := d2.inv _ hmI
        obtain ⟨u1, u2, u3, h', c', u4, x, o', u5, u6⟩ := (d3 κ.st hI).frame hfI
        obtain ⟨v1, v2⟩ := d2.state _ _ hI hmI (P.S_symm hmS) (P.L_symm hmL)
        obtain ⟨w1, w2, w3⟩ := (d3 κ.st hI).cong (d2.inv _ hI) hfI v2 (fun _ => v1)
        have hgS : w = false → P.eqS (S c) ((k κ.st).seq (f (P.mix i κ.st a.st.1))).2 a.st.1 := fun hw => by
          refine P.S_trans (u3 _ (.inr ⟨rfl, by simp [hw]⟩)) (P.S_trans (d2.reads hw _ hmI) (P.mix_S ..))
        have hgO : ∀ l, l ≠ S c → P.eqS l ((k κ.st).seq (f (P.mix i κ.st a.st.1))).2 a.st.1 := fun l hl =>
          P.S_trans (u3 _ (.inl hl)) (P.S_trans (d2.rest _ hmI l hl) (P.mix_S ..))
        have hgL : ∀ j, j ≠ i → P.eqL j ((k κ.st).seq (f (P.mix i κ.st a.st.1))).2 a.st.1 := fun j hj =>
          P.L_trans (u2 j hj) (P.L_trans (d2.others _ hmI j hj) (P.mix_O _ _ hj))
        refine ⟨_, ⟨_, .inr (.effect a i c x (_, upd a.st.2 i o') hst ⟨o', ?_, rfl, b4⟩), .inl ⟨rfl, rfl⟩⟩,
          d2.inv _ hI, u1, fun j => ?_, hmut, fun l hx => ?_⟩
        · rw [← b2, e1]; exact Prod.ext u5 rfl
        · by_cases hj : j = i
          · subst hj
            refine ⟨some w, true, ?_⟩
            simp only [upd_same]
            refine .after c _ _ x ((k κ.st).seq (f κ.st)).2 b1 u6 (d3 _ hI) (Prod.ext (w1.trans u5) rfl) w2
              (fun _ => w3 v1)
          · simp only [upd_other _ _ hj]
            obtain ⟨h', com', hm'⟩ := hsim j
            refine ⟨h', com', hm'.others hI (d2.inv _ hI) (d2.others _ hI j hj) (hgL j hj)
              (fun cj pj hcj he => ?_) (fun cj pj hcj he => ?_)⟩
            · rw [hcj] at hm'
              exact undisturbed hmut hj d2 hI hh (sim_hold hm') he
            · by_cases hl : S cj = S c
              · exfalso
                rw [hcj] at hm'
                have := sim_hold hm'
                rw [he, hold, hl] at this
                have h1 := hmut _ j i (Ne.symm hj) (by rw [this]; simp)
                rw [hold, h1] at hh
                cases hh
              · exact hgO _ hl
        · by_cases hl : l = S c
          · subst hl
            cases w with
            | true => exact absurd ⟨c, k κ.st, x, by simp, rfl, by simp, hh⟩ (hx i)
            | false => exact P.S_trans (d2.reads rfl _ hI) (P.S_trans hS (P.S_symm (hgS rfl)))
          · refine P.S_trans (d2.rest _ hI l hl) (P.S_trans (hsh l fun j hw => ?_) (P.S_symm (hgO l hl)))
            obtain ⟨c', p', r, x1, x2, x3, y⟩ := hw
            have hj : j ≠ i := fun h => by subst h; rw [hst] at x3; cases x3
            exact hx j ⟨c', p', r, by simp only [upd_other _ _ hj]; exact x1, x2,
              by simp only [upd_other _ _ hj]; exact x3, y⟩
    | done r =>
      rw [hst] at hm
      cases hm with
      | after _ _ _ _ s' b1 b2 b3 b4 b5 b6 =>
      rcases b3 with ⟨d1, d2⟩ | ⟨w, d1, d2, d3⟩
      · refine ⟨a, ⟨a, .inl rfl, .inl ⟨rfl, rfl⟩⟩, d1.inv _ hI, hIg, fun j => ?_, hmut, fun l hx => ?_⟩
        · by_cases hj : j = i
          · subst hj
            refine ⟨h, true, ?_⟩
            simp only [upd_same]
            rw [hst]
            exact .after c _ h r s' b1 b2 (d2 _ hI) b4 b5 b6
          · simp only [upd_other _ _ hj]
            obtain ⟨h', com', hm'⟩ := hsim j
            exact ⟨h', com', hm'.others hI (d1.inv _ hI) (d1.others hI hj) (P.L_refl _ _)
              (fun _ _ _ _ => d1.S hI _) (fun _ _ _ _ => P.S_refl _ _)⟩
        · exact P.S_trans (d1.S hI l) (hsh l fun j hw => hx j (keep hw))
      · subst d1
        refine ⟨a, ⟨a, .inl rfl, .inl ⟨rfl, rfl⟩⟩, d2.inv _ hI, hIg, fun j => ?_, hmut, fun l hx => ?_⟩
        · by_cases hj : j = i
          · subst hj
            refine ⟨some w, true, ?_⟩
            simp only [upd_same]
            rw [hst]
            exact .after c _ _ r s' b1 b2 (d3 _ hI) b4 b5 b6
          · simp only [upd_other _ _ hj]
            obtain ⟨h', com', hm'⟩ := hsim j
            refine ⟨h', com', hm'.others hI (d2.inv _ hI) (d2.others _ hI j hj) (P.L_refl _ _)
              (fun cj pj hcj he => ?_) (fun _ _ _ _ => P.S_refl _ _)⟩
            rw [hcj] at hm'
            exact undisturbed hmut hj d2 hI hh (sim_hold hm') he
        · by_cases hl : l = S c
          · subst hl
            cases w with
            | true => exact absurd ⟨c, k κ.st, r, by simp, rfl, hst, hh⟩ (hx i)
            | false => exact P.S_trans (d2.reads rfl _ hI) (hsh _ fun j hw => hx j (keep hw))
          · exact P.S_trans (d2.rest _ hI l hl) (hsh l fun j hw => hx j (keep hw))
  | acq i c l w k hc hcan =>
    obtain ⟨h, com, hm⟩ := hsim i
    rw [hc] at hm
    have hh := sim_hold hm
    have key : ∃ h', Sim P S sys okObj i κ.st a.st.1 (fun l' => if l' = l then w :: κ.held i l else κ.held i l')
        (κ.obj i) (a.st.2 i) (some (c, k)) (a.stat i) h' com := by
      cases hst : a.stat i with
      | idle => rw [hst] at hm; cases hm
      | called c' =>
        rw [hst] at hm
        cases hm with
        | before _ _ _ b1 b2 b3 b4 b5 b6 =>
        rcases b5 with ⟨d1, d2⟩ | ⟨d1, d2, d3, d4⟩
        · exact ⟨h, .before c k h (by rw [if_neg (Ne.symm d1)]; exact b1) b2 b3 b4 d2 b6⟩
        · subst d1 d2
          simp only [hold] at hh
          exact ⟨some w, .before c k _ (by rw [if_pos rfl, hh]; rfl) b2 b3 b4 d4 b6⟩
      | done r =>
        rw [hst] at hm
        cases hm with
        | after _ _ _ _ s' b1 b2 b3 b4 b5 b6 =>
        rcases b3 with ⟨d1, d2⟩ | ⟨d1, d2, d3, d4⟩
        · exact ⟨h, .after c k h r s' (by rw [if_neg (Ne.symm d1)]; exact b1) b2 d2 b4 b5 b6⟩
        · cases d3
    obtain ⟨h', hm''⟩ := key
    refine ⟨a, ⟨a, .inl rfl, .inl ⟨rfl, rfl⟩⟩, hI, hIg, fun j => ?_, fun m j j' hjj hin => ?_, fun m hx => ?_⟩
    · by_cases hj : j = i
      · subst hj; simp only [upd_same]; exact ⟨h', com, hm''⟩
      · simp only [upd_other _ _ hj]; exact hsim j
    · by_cases hS : m = l
      · subst hS
        by_cases hj : j = i
        · subst hj
          simp only [upd_same, upd_other _ _ hjj, if_pos] at hin ⊢
          rcases List.mem_cons.mp hin with h1 | h1
          · exact (hcan.2 j' hjj).2 h1.symm
          · exact hmut _ _ _ hjj h1
        · simp only [upd_other _ _ hj] at hin
          exact absurd hin (hcan.2 j hj).1
      · have : ∀ j, (upd κ.held i fun l' => if l' = l then w :: κ.held i l else κ.held i l') j m = κ.held j m := by
          intro j
          by_cases hj : j = i
          · subst hj; simp [hS]
          · simp [upd_other _ _ hj]
        simp only [this] at hin ⊢
        exact hmut _ _ _ hjj hin
    · refine hsh m fun j ⟨c', p', r, x1, x2, x3, y⟩ => ?_
      by_cases hj : j = i
      · subst hj
        rw [hc] at x1
        cases x1
        by_cases hS : m = l
        · exfalso
          rw [x3] at hm
          cases hm with
          | after _ _ _ _ s' b1 b2 b3 b4 b5 b6 =>
          rcases b3 with ⟨d1, d2⟩ | ⟨d1, d2, d3, d4⟩
          · exact d1 (hS.symm.trans x2.symm)
          · cases d3
        · exact hx j ⟨c, k, r, by simp, x2, x3, by simp [hS, y]⟩
      · exact hx j ⟨c', p', r, by simp only [upd_other _ _ hj]; exact x1, x2, x3,
          by simp only [upd_other _ _ hj]; exact y⟩
  | rel i c l w k hc =>
    obtain ⟨h, com, hm⟩ := hsim i
    rw [hc] at hm
    have hh := sim_hold hm
    have key : ∃ h', Sim P S sys okObj i κ.st a.st.1 (fun l' => if l' = l then (κ.held i l).tail else κ.held i l')
        (κ.obj i) (a.st.2 i) (some (c, k)) (a.stat i) h' com := by
      cases hst : a.stat i with
      | idle => rw [hst] at hm; cases hm
      | called c' =>
        rw [hst] at hm
        cases hm with
        | before _ _ _ b1 b2 b3 b4 b5 b6 =>
        rcases b5 with ⟨d1, d2⟩ | ⟨d1, d2, d4⟩
        · exact ⟨h, .before c k h (by rw [if_neg (Ne.symm d1)]; exact b1) b2 b3 b4 d2 b6⟩
        · subst d1 d2
          simp only [hold] at hh
          exact ⟨none, .before c k _ (by rw [if_pos rfl, hh]; rfl) b2 b3 b4 d4 b6⟩
      | done r =>
        rw [hst] at hm
        cases hm with
        | after _ _ _ _ s' b1 b2 b3 b4 b5 b6 =>
        rcases b3 with ⟨d1, d2⟩ | ⟨d1, d2, d4⟩
        · exact ⟨h, .after c k h r s' (by rw [if_neg (Ne.symm d1)]; exact b1) b2 d2 b4 b5 b6⟩
        · subst d1 d2
          simp only [hold] at hh
          exact ⟨none, .after c k _ r s' (by rw [if_pos rfl, hh]; rfl) b2 d4 b4 b5 (fun h => by cases h)⟩
    obtain ⟨h', hm''⟩ := key
    have hsub : ∀ m j b, b ∈ (upd κ.held i fun l' => if l' = l then (κ.held i l).tail else κ.held i l') j m →
        b ∈ κ.held j m := by
      intro m j b hb
      by_cases hj : j = i
      · subst hj
        simp only [upd_same] at hb
        split at hb
        · rename_i e; rw [e]; exact List.mem_of_mem_tail hb
        · exact hb
      · simp only [upd_other _ _ hj] at hb; exact hb
    refine ⟨a, ⟨a, .inl rfl, .inl ⟨rfl, rfl⟩⟩, hI, hIg, fun j => ?_, fun m j j' hjj hin => ?_, fun m hx => ?_⟩
    · by_cases hj : j = i
      · subst hj; simp only [upd_same]; exact ⟨h', com, hm''⟩
      · simp only [upd_other _ _ hj]; exact hsim j
    · have h1 := hmut _ _ _ hjj (hsub _ _ _ hin)
      cases hl : (upd κ.held i fun l' => if l' = l then (κ.held i l).tail else κ.held i l') j' m with
      | nil => exact hl
      | cons b t =>
        have := hsub m j' b (by rw [hl]; simp)
        rw [h1] at this
        cases this
    · by_cases hq : Writing S κ a m i
      · obtain ⟨c', p', r, q0, q1, q2, q3⟩ := hq
        rw [hc] at q0
        cases q0
        rw [q2] at hm
        cases hm with
        | after _ _ _ _ s' b1 b2 b3 b4 b5 b6 =>
        subst q1
        rcases b3 with ⟨d1, d2⟩ | ⟨d1, d2, d4⟩
        · refine absurd ⟨c, k, r, by simp, rfl, q2, ?_⟩ (hx i)
          simp [Ne.symm d1, q3]
        · have e : h = some true := hold_unique hh q3
          have f1 := d4.frame hI
          have f2 : k.seq κ.st = (.ok (r, a.st.2 i), s') := b4
          have := f1.2.2.1 (S c) (.inr ⟨rfl, by simp⟩)
          rw [f2] at this
          exact P.S_trans (P.S_symm this) (b6 e)
      · refine hsh m fun j hw => ?_
        by_cases hj : j = i
        · subst hj; exact hq hw
        · obtain ⟨c', p', r, x1, x2, x3, y⟩ := hw
          exact hx j ⟨c', p', r, by simp only [upd_other _ _ hj]; exact x1, x2, x3,
            by simp only [upd_other _ _ hj]; exact y⟩
  | ret i c r o hc =>
    obtain ⟨h, com, hm⟩ := hsim i
    rw [hc] at hm
    have hh := sim_hold hm
    cases hst : a.stat i with
    | idle => rw [hst] at hm; cases hm
    | called c' =>
      rw [hst] at hm
      cases hm with
      | before _ _ _ b1 b2 b3 b4 b5 b6 =>
      obtain ⟨e1, x, o', e2, e3⟩ := b5
      cases e2
      subst e1
      have hmI := P.mix_I (i := i) hI hIg
      have e4 := b6 a.st.1 hIg (P.L_refl _ _)
      refine ⟨⟨(P.mix i κ.st a.st.1, upd a.st.2 i o), upd (upd a.stat i (.done r)) i .idle⟩,
        ⟨⟨(P.mix i κ.st a.st.1, upd a.st.2 i o), upd a.stat i (.done r)⟩,
        .inr (.effect a i c r (_, upd a.st.2 i o) hst ⟨o, ?_, rfl, b4⟩), .inr (.ret _ i r (by simp))⟩,
        hI, hmI, fun j => ?_, hmut, fun l hx => ?_⟩
      · rw [← b2, e4]; rfl
      · by_cases hj : j = i
        · subst hj
          simp only [upd_same]
          exact ⟨none, false, .idle (P.L_symm (P.mix_L ..)) rfl e3⟩
        · simp only [upd_other _ _ hj]
          obtain ⟨h', com', hm'⟩ := hsim j
          exact ⟨h', com', hm'.others hI hI (P.L_refl _ _) (P.mix_O _ _ hj)
              (fun _ _ _ _ => P.S_refl _ _) (fun _ _ _ _ => P.mix_S ..)⟩
      · refine P.S_trans (hsh l fun j ⟨c', p', r', x1, x2, x3, y⟩ => ?_) (P.S_symm (P.mix_S ..))
        have hj : j ≠ i := fun h => by subst h; rw [hst] at x3; cases x3
        exact hx j ⟨c', p', r', by simp only [upd_other _ _ hj]; exact x1, x2,
          by simp only [upd_other _ _ hj]; exact x3, y⟩
    | done r' =>
      rw [hst] at hm
      cases hm with
      | after _ _ _ _ s' b1 b2 b3 b4 b5 b6 =>
      obtain ⟨e1, x, o', e2, e3⟩ := b3
      cases e2
      subst e1
      cases b4
      refine ⟨_, ⟨a, .inl rfl, .inr (.ret a i r hst)⟩, hI, hIg, fun j => ?_, hmut, fun l hx => ?_⟩
      · by_cases hj : j = i
        · subst hj
          simp only [upd_same]
          exact ⟨none, false, .idle b5 rfl e3⟩
        · simp only [upd_other _ _ hj]; exact hsim j
      · refine hsh l fun j ⟨c', p', r', x1, x2, x3, y⟩ => ?_
        have hj : j ≠ i := fun h => by
          subst h
          rw [hc] at x1
          cases x1
          rw [hold, x2] at b1
          rw [b1] at y
          cases y
        exact hx j ⟨c', p', r', by simp only [upd_other _ _ hj]; exact x1, x2,
          by simp only [upd_other _ _ hj]; exact x3, y⟩

/-- Everything that can be observed of disciplined calls can be observed of calls executed one after
the other; and at every moment the two states are related. -/
theorem exec_rel {rank : L → Nat} (hs : OrderlySys sys rank) (hd : Disciplined P S sys okObj) {s : σ}
    {obj : Nat → O} (hI : P.I s) (ho : ∀ i, okObj i (obj i)) {tr : List (Ev C R)} {κ : Conf σ L O C R}
    (hx : Exec sys (init s obj) tr κ) :
    ∃ a, Spec.AExec (seqSpec sys) ⟨(s, obj), fun _ => .idle⟩ tr a ∧ Rel P S sys okObj κ a := by
  generalize hκ : init s obj = κ0 at hx
  induction hx with
  | nil => subst hκ; exact ⟨_, .nil _, init_rel s obj hI ho⟩
  | snoc κ' κ'' tr e h1 h2 ih =>
    obtain ⟨a, ha, hr⟩ := ih
    subst hκ
    have ht := tended_exec hs.rising (tended_init trivial obj) h1
    obtain ⟨a', ⟨a1, h3, h4⟩, hr'⟩ := step_rel hd (fun i hi l => by
      obtain ⟨H, x1, x2, _⟩ := ht.stack i
      rw [x1, x2 hi]; rfl) hr h2
    refine ⟨a', ?_, hr'⟩
    have ha1 : Spec.AExec (seqSpec sys) ⟨(s, obj), fun _ => .idle⟩ tr a1 := by
      rcases h3 with h3 | h3
      · rw [h3]; exact ha
      · have := Spec.AExec.snoc _ _ _ _ _ ha h3
        simpa using this
    rcases h4 with ⟨h4, h5⟩ | h4
    · rw [h4, h5]; simpa using ha1
    · exact .snoc _ _ _ _ _ ha1 h4

/-- When no call is running the two states are the same as far as the parts go. -/
theorem Rel.quiet {κ : Conf σ L O C R} {a : Spec.AConf (σ × (Nat → O)) C R}
    (hr : Rel P S sys okObj κ a) (hq : ∀ i, κ.cur i = none) :
    (∀ l, P.eqS l κ.st a.st.1) ∧ (∀ i, P.eqL i κ.st a.st.1) ∧ (∀ i, κ.obj i = a.st.2 i) := by
  have h : ∀ i, P.eqL i κ.st a.st.1 ∧ κ.obj i = a.st.2 i := fun i => by
    obtain ⟨h, com, hm⟩ := hr.sim i
    rw [hq i] at hm
    cases hst : a.stat i with
    | idle => rw [hst] at hm; cases hm with | idle y z => exact ⟨y, z⟩
    | called => rw [hst] at hm; cases hm
    | done => rw [hst] at hm; cases hm
  exact ⟨fun l => hr.shared l fun i ⟨c, p, _, x, _⟩ => by (rw [hq i] at x; cases x), fun i => (h i).1,
    fun i => (h i).2⟩

end SyncStream.Conc
