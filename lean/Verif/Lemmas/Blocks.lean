import Verif.Lemmas.Coarse
import Verif.Lemmas.Conc
/-!
# Which programs consist of blocks

Rules for composed programs: what is a block (`WB`), what refines its coarse version (`Ref`).
-/

namespace SyncStream.Prog
variable {σ L α β γ : Type}

theorem bind_assoc' (p : Prog σ L α) (g : α → Prog σ L β) (h : β → Prog σ L γ) :
    (p.bind g).bind h = p.bind fun a => (g a).bind h := by
  induction p with
  | ret a => rfl
  | raise e => rfl
  | act f k ih => exact congrArg (act f) (funext fun s => ih s)
  | acq l w k ih => exact congrArg (acq l w) ih
  | rel l w k ih => exact congrArg (rel l w) ih

/-- A value or an exception as a program. -/
def ofExcept : Except Exc α → Prog σ L α
  | .ok a => ret a
  | .error e => raise e

theorem atom_eq (m : Py σ α) : (atom m : Prog σ L α) = act (fun s => (m s).2) fun s => ofExcept (m s).1 := by
  refine congrArg (act _) (funext fun s => ?_)
  cases (m s).1 <;> rfl

theorem andRelease_eq (l : L) (w : Bool) (p : Prog σ L α) :
    p.andRelease l w = p.outcome.bind fun r => rel l w (ofExcept r) := by
  induction p with
  | ret a => rfl
  | raise e => rfl
  | act f k ih => exact congrArg (act f) (funext fun s => ih s)
  | acq l w k ih => exact congrArg (acq l w) ih
  | rel l w k ih => exact congrArg (rel l w) ih

theorem andRelease_bind (l : L) (w : Bool) (p : Prog σ L α) (g : α → Prog σ L β) :
    (p.bind g).andRelease l w = p.outcome.bind fun
      | .ok a => (g a).andRelease l w
      | .error e => rel l w (raise e) := by
  induction p with
  | ret a => rfl
  | raise e => rfl
  | act f k ih => exact congrArg (act f) (funext fun s => ih s)
  | acq l w k ih => exact congrArg (acq l w) ih
  | rel l w k ih => exact congrArg (rel l w) ih

theorem outcome_total (p : Prog σ L α) : p.outcome.Total := by
  induction p with
  | ret a => trivial
  | raise e => trivial
  | act f k ih => exact fun s => ih s
  | acq l w k ih => exact ih
  | rel l w k ih => exact ih

theorem Total.outcome_bind {p : Prog σ L α} (h : p.Total) (g : α → Prog σ L β) :
    (p.bind g).outcome = p.bind fun a => (g a).outcome := by
  induction p with
  | ret a => rfl
  | raise e => exact h.elim
  | act f k ih => exact congrArg (act f) (funext fun s => ih s (h s))
  | acq l w k ih => exact congrArg (acq l w) (ih h)
  | rel l w k ih => exact congrArg (rel l w) (ih h)

theorem Total.andRelease_bind {p : Prog σ L α} (h : p.Total) (l : L) (w : Bool) (g : α → Prog σ L β) :
    (p.bind g).andRelease l w = p.bind fun a => (g a).andRelease l w := by
  induction p with
  | ret a => rfl
  | raise e => exact h.elim
  | act f k ih => exact congrArg (act f) (funext fun s => ih s (h s))
  | acq l w k ih => exact congrArg (acq l w) (ih h)
  | rel l w k ih => exact congrArg (rel l w) (ih h)

end SyncStream.Prog

namespace SyncStream.Conc
variable {σ L K O C R α β γ : Type} {P : Regions σ L K} {k : K}

/-! ## Blocks -/

/-- `WB P k d com p Q`: `p` does what is allowed in a block, and `Q` holds of the result, of how often the lock is held
and of whether the rest has been used. -/
def WB (P : Regions σ L K) (k : K) : Nat → Bool → Prog σ L α → (Except Exc α → Nat → Bool → Prop) → Prop
  | d, com, .ret a, Q => Q (.ok a) d com
  | d, com, .raise e, Q => Q (.error e) d com
  | d, com, .act f κ, Q =>
    (OwnStep P k f κ ∧ ∀ s, P.I s → WB P k d com (κ s) Q) ∨
    (com = false ∧ UseStep P k f κ ∧ ∀ s, P.I s → WB P k d true (κ s) Q)
  | d, com, .acq l w κ, Q =>
    (l = P.lock k ∧ w = true ∧ WB P k (d + 1) com κ Q) ∨ ((∀ k', l ≠ P.lock k') ∧ WB P k d com κ Q)
  | d, com, .rel l _ κ, Q =>
    (l = P.lock k ∧ ∃ d', d = d' + 1 ∧ WB P k d' com κ Q) ∨ ((∀ k', l ≠ P.lock k') ∧ WB P k d com κ Q)

/-- Only the continuation changes. -/
theorem OwnStep.map {f : σ → σ} {κ : σ → Prog σ L α} (h : OwnStep P k f κ) (F : Prog σ L α → Prog σ L β) :
    OwnStep P k f fun s => F (κ s) :=
  ⟨h.inv, h.glob, h.other, h.state, fun s t hs ht e => congrArg F (h.cont s t hs ht e)⟩

@[inherit_doc OwnStep.map]
theorem UseStep.map {f : σ → σ} {κ : σ → Prog σ L α} (h : UseStep P k f κ) (F : Prog σ L α → Prog σ L β) :
    UseStep P k f fun s => F (κ s) :=
  ⟨h.inv, h.ginv, h.other, h.state, fun s t hs ht e e' => congrArg F (h.cont s t hs ht e e')⟩

namespace WB

theorem block {p : Prog σ L α} {d : Nat} {com : Bool} (h : WB P k d com p fun _ d _ => d = 0) :
    Block P k d com p.outcome := by
  induction p generalizing d com with
  | ret a => exact h
  | raise e => exact h
  | act f κ ih =>
    rcases h with ⟨h1, h2⟩ | ⟨h0, h1, h2⟩
    · exact .inl ⟨h1.map Prog.outcome, fun s hs => ih s (h2 s hs)⟩
    · exact .inr ⟨h0, h1.map Prog.outcome, fun s hs => ih s (h2 s hs)⟩
  | acq l w κ ih => exact h.imp (fun ⟨a, b, c⟩ => ⟨a, b, ih c⟩) fun ⟨a, b⟩ => ⟨a, ih b⟩
  | rel l w κ ih => exact h.imp (fun ⟨a, d', b, c⟩ => ⟨a, d', b, ih c⟩) fun ⟨a, b⟩ => ⟨a, ih b⟩

theorem mono {p : Prog σ L α} {d : Nat} {com : Bool} {Q Q' : Except Exc α → Nat → Bool → Prop} (h : WB P k d com p Q)
    (hQ : ∀ r d c, Q r d c → Q' r d c) : WB P k d com p Q' := by
  induction p generalizing d com with
  | ret a => exact hQ _ _ _ h
  | raise e => exact hQ _ _ _ h
  | act f κ ih =>
    rcases h with ⟨h1, h2⟩ | ⟨h0, h1, h2⟩
    · exact .inl ⟨h1, fun s hs => ih s (h2 s hs)⟩
    · exact .inr ⟨h0, h1, fun s hs => ih s (h2 s hs)⟩
  | acq l w κ ih => exact h.imp (fun ⟨a, b, c⟩ => ⟨a, b, ih c⟩) fun ⟨a, b⟩ => ⟨a, ih b⟩
  | rel l w κ ih => exact h.imp (fun ⟨a, d', b, c⟩ => ⟨a, d', b, ih c⟩) fun ⟨a, b⟩ => ⟨a, ih b⟩

theorem bind {p : Prog σ L α} {g : α → Prog σ L β} {d : Nat} {com : Bool} {Q : Except Exc β → Nat → Bool → Prop}
    (h : WB P k d com p fun r d c => match r with
      | .ok a => WB P k d c (g a) Q
      | .error e => Q (.error e) d c) : WB P k d com (p >>= g) Q := by
  induction p generalizing d com with
  | ret a => exact h
  | raise e => exact h
  | act f κ ih =>
    rcases h with ⟨h1, h2⟩ | ⟨h0, h1, h2⟩
    · exact .inl ⟨h1.map fun p => p.bind g, fun s hs => ih s (h2 s hs)⟩
    · exact .inr ⟨h0, h1.map fun p => p.bind g, fun s hs => ih s (h2 s hs)⟩
  | acq l w κ ih => exact h.imp (fun ⟨a, b, c⟩ => ⟨a, b, ih c⟩) fun ⟨a, b⟩ => ⟨a, ih b⟩
  | rel l w κ ih => exact h.imp (fun ⟨a, d', b, c⟩ => ⟨a, d', b, ih c⟩) fun ⟨a, b⟩ => ⟨a, ih b⟩

theorem outcome {p : Prog σ L α} {d : Nat} {com : Bool} {Q : Except Exc (Except Exc α) → Nat → Bool → Prop}
    (h : WB P k d com p fun r d c => Q (.ok r) d c) : WB P k d com p.outcome Q := by
  induction p generalizing d com with
  | ret a => exact h
  | raise e => exact h
  | act f κ ih =>
    rcases h with ⟨h1, h2⟩ | ⟨h0, h1, h2⟩
    · exact .inl ⟨h1.map Prog.outcome, fun s hs => ih s (h2 s hs)⟩
    · exact .inr ⟨h0, h1.map Prog.outcome, fun s hs => ih s (h2 s hs)⟩
  | acq l w κ ih => exact h.imp (fun ⟨a, b, c⟩ => ⟨a, b, ih c⟩) fun ⟨a, b⟩ => ⟨a, ih b⟩
  | rel l w κ ih => exact h.imp (fun ⟨a, d', b, c⟩ => ⟨a, d', b, ih c⟩) fun ⟨a, b⟩ => ⟨a, ih b⟩

theorem andRelease {p : Prog σ L α} {l : L} {w : Bool} {d : Nat} {com : Bool} {Q : Except Exc α → Nat → Bool → Prop}
    (h : WB P k d com p fun r d c =>
      (l = P.lock k ∧ ∃ d', d = d' + 1 ∧ Q r d' c) ∨ ((∀ k', l ≠ P.lock k') ∧ Q r d c)) :
    WB P k d com (p.andRelease l w) Q := by
  induction p generalizing d com with
  | ret a => exact h
  | raise e => exact h
  | act f κ ih =>
    rcases h with ⟨h1, h2⟩ | ⟨h0, h1, h2⟩
    · exact .inl ⟨h1.map fun p => p.andRelease l w, fun s hs => ih s (h2 s hs)⟩
    · exact .inr ⟨h0, h1.map fun p => p.andRelease l w, fun s hs => ih s (h2 s hs)⟩
  | acq l w κ ih => exact h.imp (fun ⟨a, b, c⟩ => ⟨a, b, ih c⟩) fun ⟨a, b⟩ => ⟨a, ih b⟩
  | rel l w κ ih => exact h.imp (fun ⟨a, d', b, c⟩ => ⟨a, d', b, ih c⟩) fun ⟨a, b⟩ => ⟨a, ih b⟩

theorem withOwn {p : Prog σ L α} {d : Nat} {com : Bool} {Q : Except Exc α → Nat → Bool → Prop}
    (h : WB P k (d + 1) com p fun r d c => ∃ d', d = d' + 1 ∧ Q r d' c) :
    WB P k d com (Prog.withLock (P.lock k) true p) Q :=
  .inl ⟨rfl, rfl, andRelease (h.mono fun _ _ _ h => .inl ⟨rfl, h⟩)⟩

theorem withOther {p : Prog σ L α} {l : L} (hl : ∀ k', l ≠ P.lock k') {w : Bool} {d : Nat} {com : Bool}
    {Q : Except Exc α → Nat → Bool → Prop} (h : WB P k d com p Q) : WB P k d com (Prog.withLock l w p) Q :=
  .inr ⟨hl, andRelease (h.mono fun _ _ _ h => .inr ⟨hl, h⟩)⟩

end WB

/-- The program works on the region alone. -/
def Priv (P : Regions σ L K) (k : K) (p : Prog σ L α) (Q : Except Exc α → Prop) : Prop :=
  ∀ d com, WB P k d com p fun r d' c' => d' = d ∧ c' = com ∧ Q r

/-- The program works on the region and uses the rest at most once. -/
def Uses (P : Regions σ L K) (k : K) (p : Prog σ L α) : Prop := ∀ d, WB P k d false p fun _ d' _ => d' = d

theorem Priv.uses {p : Prog σ L α} {Q : Except Exc α → Prop} (h : Priv P k p Q) : Uses P k p :=
  fun d => (h d false).mono fun _ _ _ h => h.1

theorem Priv.mono {p : Prog σ L α} {Q Q' : Except Exc α → Prop} (h : Priv P k p Q) (hQ : ∀ r, Q r → Q' r) : Priv P k p Q' :=
  fun d com => (h d com).mono fun _ _ _ h => ⟨h.1, h.2.1, hQ _ h.2.2⟩

theorem Priv.ret {a : α} {Q : Except Exc α → Prop} (h : Q (.ok a)) : Priv P k (.ret a) Q := fun _ _ => ⟨rfl, rfl, h⟩

theorem Priv.raise {e : Exc} {Q : Except Exc α → Prop} (h : Q (.error e)) : Priv P k (.raise e) Q := fun _ _ => ⟨rfl, rfl, h⟩

theorem Priv.bind {p : Prog σ L α} {g : α → Prog σ L β} {Q : Except Exc α → Prop} {Q' : Except Exc β → Prop}
    (h : Priv P k p Q) (hg : ∀ a, Q (.ok a) → Priv P k (g a) Q') (he : ∀ e, Q (.error e) → Q' (.error e)) : Priv P k (p >>= g) Q' :=
  fun d com => .bind <| (h d com).mono fun r d' c' h => by
    obtain ⟨rfl, rfl, h⟩ := h
    cases r with
    | ok a => exact hg a h _ _
    | error e => exact ⟨rfl, rfl, he e h⟩

theorem Priv.then {p : Prog σ L α} {g : α → Prog σ L β} {Q : Except Exc α → Prop} (h : Priv P k p Q)
    (hg : ∀ a, Q (.ok a) → Uses P k (g a)) : Uses P k (p >>= g) :=
  fun d => .bind <| (h d false).mono fun r d' c' h => by
    obtain ⟨rfl, rfl, h⟩ := h
    cases r with
    | ok a => exact hg a h _
    | error e => exact rfl

theorem Uses.bind {p : Prog σ L α} {g : α → Prog σ L β} (h : Uses P k p) (hg : ∀ a, Priv P k (g a) fun _ => True) :
    Uses P k (p >>= g) :=
  fun d => .bind <| (h d).mono fun r d' c' h => by
    subst h
    cases r with
    | ok a => exact (hg a _ _).mono fun _ _ _ h => h.1
    | error e => exact rfl

theorem Priv.withOwn {p : Prog σ L α} {Q : Except Exc α → Prop} (h : Priv P k p Q) :
    Priv P k (Prog.withLock (P.lock k) true p) Q :=
  fun d com => .withOwn <| (h (d + 1) com).mono fun _ _ _ h => ⟨d, h.1, rfl, h.2⟩

theorem Priv.withOther {p : Prog σ L α} {Q : Except Exc α → Prop} (h : Priv P k p Q) {l : L} {w : Bool} (hl : ∀ k', l ≠ P.lock k') :
    Priv P k (Prog.withLock l w p) Q := fun d com => .withOther hl (h d com)

theorem Uses.withOwn {p : Prog σ L α} (h : Uses P k p) : Uses P k (Prog.withLock (P.lock k) true p) :=
  fun d => .withOwn <| (h (d + 1)).mono fun _ _ _ h => ⟨d, h, rfl⟩

theorem Uses.withOther {p : Prog σ L α} (h : Uses P k p) {l : L} {w : Bool} (hl : ∀ k', l ≠ P.lock k') :
    Uses P k (Prog.withLock l w p) := fun d => .withOther hl (h d)

/-! ## Refinement -/

namespace Ref

theorem bind {h : Option K} {p c : Prog σ L α} (hr : Ref P h p c) {g g' : α → Prog σ L β}
    (hg : ∀ a, Ref P none (g a) (g' a)) : Ref P h (p >>= g) (c >>= g') := by
  induction hr with
  | ret x => exact hg x
  | raise e => exact .raise e
  | glob f κ κ' h1 h2 _ ih =>
    exact .glob f _ _ h1 (fun s t hs ht e => congrArg (fun p => Prog.bind p g') (h2 s t hs ht e)) fun s hs => ih s hs
  | still h f κ p c h1 _ ih =>
    exact .still h f _ _ _ (fun s hs => ⟨(h1 s hs).1, congrArg (fun p => Prog.bind p g) (h1 s hs).2⟩) ih
  | acqOther h l w p c hl _ ih => exact .acqOther h l w _ _ hl ih
  | relOther h l w p c hl _ ih => exact .relOther h l w _ _ hl ih
  | acq k p c _ ih => exact .acq k _ _ ih
  | rel k w p c _ ih => exact .rel k w _ _ ih
  | block k γ q g1 g1' f κ h1 _ h3 h4 ih =>
    have e : (q >>= g1) >>= g = q >>= fun b => g1 b >>= g := Prog.bind_assoc' q g1 g
    rw [e]
    exact .block k γ q _ (fun b => g1' b >>= g') f _ h1 ih
      (fun s hs b t e => ⟨(h3 s hs b t e).1, congrArg (fun p => Prog.bind p g') (h3 s hs b t e).2⟩) h4

theorem outcome {h : Option K} {p c : Prog σ L α} (hr : Ref P h p c) : Ref P h p.outcome c.outcome := by
  induction hr with
  | ret x => exact .ret _
  | raise e => exact .ret _
  | glob f κ κ' h1 h2 _ ih => exact .glob f _ _ h1 (fun s t hs ht e => congrArg Prog.outcome (h2 s t hs ht e)) fun s hs => ih s hs
  | still h f κ p c h1 _ ih => exact .still h f _ _ _ (fun s hs => ⟨(h1 s hs).1, congrArg Prog.outcome (h1 s hs).2⟩) ih
  | acqOther h l w p c hl _ ih => exact .acqOther h l w _ _ hl ih
  | relOther h l w p c hl _ ih => exact .relOther h l w _ _ hl ih
  | acq k p c _ ih => exact .acq k _ _ ih
  | rel k w p c _ ih => exact .rel k w _ _ ih
  | block k γ q g1 g1' f κ h1 _ h3 h4 ih =>
    have e : (q >>= g1).outcome = q >>= fun b => (g1 b).outcome := h4.outcome_bind g1
    rw [e]
    exact .block k γ q _ (fun b => (g1' b).outcome) f _ h1 ih
      (fun s hs b t e => ⟨(h3 s hs b t e).1, congrArg Prog.outcome (h3 s hs b t e).2⟩) h4

/-- In a section: one block to the end of the section. -/
theorem last {p : Prog σ L α} (h : WB P k 0 false p fun _ d _ => d = 0) :
    Ref P (some k) (p.andRelease (P.lock k) true) (blk p) := by
  rw [Prog.andRelease_eq]
  refine .block k _ p.outcome _ Prog.ofExcept _ _ h.block (fun r => .rel k true _ _ ?_) ?_ p.outcome_total
  · cases r with
    | ok a => exact .ret a
    | error e => exact .raise e
  · intro s _ b t e
    rw [Prog.seq_outcome] at e
    obtain ⟨e1, rfl⟩ := Prod.mk.inj e
    obtain rfl := Except.ok.inj e1
    refine ⟨rfl, ?_⟩
    dsimp only
    cases (p.seq s).1 <;> rfl

/-- In a section: one block, and more blocks. -/
theorem more {p : Prog σ L α} {g : α → Prog σ L β} {c : α → Prog σ L β} (h : WB P k 0 false p fun _ d _ => d = 0)
    (hg : ∀ a, Ref P (some k) ((g a).andRelease (P.lock k) true) (c a)) :
    Ref P (some k) ((p >>= g).andRelease (P.lock k) true) (blk p >>= c) := by
  have e : (p >>= g).andRelease (P.lock k) true = p.outcome >>= fun
      | .ok a => (g a).andRelease (P.lock k) true
      | .error e => .rel (P.lock k) true (.raise e) := Prog.andRelease_bind ..
  rw [e]
  refine .block k _ p.outcome _ (fun r => Prog.bind (.ofExcept r) c) _ _ h.block (fun r => ?_) ?_ p.outcome_total
  · cases r with
    | ok a => exact hg a
    | error e => exact .rel k true _ _ (.raise e)
  · intro s _ b t e
    rw [Prog.seq_outcome] at e
    obtain ⟨e1, rfl⟩ := Prod.mk.inj e
    obtain rfl := Except.ok.inj e1
    refine ⟨rfl, ?_⟩
    show Prog.bind _ c = _
    dsimp only
    cases (p.seq s).1 <;> rfl

/-- A section without a block. -/
theorem none (a : α) : Ref P (some k) ((Prog.ret a : Prog σ L α).andRelease (P.lock k) true) (.ret a) := .rel k true _ _ (.ret a)

theorem withLock {p c : Prog σ L α} (h : Ref P (some k) (p.andRelease (P.lock k) true) c) :
    Ref P Option.none (Prog.withLock (P.lock k) true p) c := .acq k _ _ h

theorem withOther {p c : Prog σ L α} {h : Option K} {l : L} {w : Bool} (hl : ∀ k, l ≠ P.lock k) (hr : Ref P h p c) :
    Ref P h (Prog.withLock l w p) c := by
  refine .acqOther h l w _ _ hl ?_
  induction hr with
  | ret x => exact .relOther _ l w _ _ hl (.ret x)
  | raise e => exact .relOther _ l w _ _ hl (.raise e)
  | glob f κ κ' h1 h2 _ ih => exact .glob f _ _ h1 h2 fun s hs => ih s hs
  | still h f κ p c h1 _ ih =>
    exact .still h f _ _ _ (fun s hs => ⟨(h1 s hs).1, congrArg (fun p => Prog.andRelease l w p) (h1 s hs).2⟩) ih
  | acqOther h l w p c hl _ ih => exact .acqOther h l w _ _ hl ih
  | relOther h l w p c hl _ ih => exact .relOther h l w _ _ hl ih
  | acq k p c _ ih => exact .acq k _ _ ih
  | rel k w p c _ ih => exact .rel k w _ _ ih
  | block k γ q g1 g1' f κ h1 _ h3 h4 ih =>
    have e : (q >>= g1).andRelease l w = q >>= fun b => (g1 b).andRelease l w := h4.andRelease_bind l w g1
    rw [e]
    exact .block k γ q _ g1' f _ h1 ih h3 h4

/-- Without interruption the two programs do the same. -/
theorem seq {h : Option K} {p c : Prog σ L α} (hr : Ref P h p c) {s : σ} (hs : P.I s) : c.seq s = p.seq s := by
  induction hr generalizing s with
  | ret x => rfl
  | raise e => rfl
  | glob f κ κ' h1 h2 _ ih => exact ih s hs (h1.I hs)
  | still h f κ p c h1 _ ih =>
    show _ = (κ s).seq (f s)
    rw [(h1 s hs).1, (h1 s hs).2]
    exact ih hs
  | acqOther h l w p c hl _ ih => exact ih hs
  | relOther h l w p c hl _ ih => exact ih hs
  | acq k p c _ ih => exact ih hs
  | rel k w p c _ ih => exact ih hs
  | block k γ q g1 g1' f κ h1 _ h3 h4 ih =>
    obtain ⟨b, e1, e2, _⟩ := h1.frame hs
    have e : q.seq s = (.ok b, (q.seq s).2) := Prod.ext e1 rfl
    rw [Prog.seq_bind_ok e]
    obtain ⟨x, y⟩ := h3 s hs b _ e
    show (κ s).seq (f s) = _
    rw [x, y]
    exact ih b e2

end Ref

/-! ## Calls with one moment of effect -/

/-- `Shot J com p Q`: while `J` holds, all steps of `p` but one do nothing; `com` says that this one has happened. -/
def Shot (J : σ → Prop) : Bool → Prog σ L α → (Except Exc α → Bool → Prop) → Prop
  | com, .ret a, Q => Q (.ok a) com
  | com, .raise e, Q => Q (.error e) com
  | com, .act f κ, Q =>
    ((∀ s, J s → f s = s ∧ Shot J com (κ s) Q) ∧ ∀ s t, J s → J t → κ s = κ t) ∨
    (com = false ∧ ∀ s, J s → J (f s) ∧ Shot J true (κ s) Q)
  | _, .acq _ _ _, _ => False
  | _, .rel _ _ _, _ => False

namespace Shot
variable {J : σ → Prop}

theorem mono {p : Prog σ L α} {com : Bool} {Q Q' : Except Exc α → Bool → Prop} (h : Shot J com p Q)
    (hQ : ∀ r c, Q r c → Q' r c) : Shot J com p Q' := by
  induction p generalizing com with
  | ret a => exact hQ _ _ h
  | raise e => exact hQ _ _ h
  | act f κ ih =>
    rcases h with ⟨h1, h2⟩ | ⟨h1, h2⟩
    · exact .inl ⟨fun s hs => ⟨(h1 s hs).1, ih s (h1 s hs).2⟩, h2⟩
    · exact .inr ⟨h1, fun s hs => ⟨(h2 s hs).1, ih s (h2 s hs).2⟩⟩
  | acq l w κ ih => exact h
  | rel l w κ ih => exact h

theorem bind {p : Prog σ L α} {g : α → Prog σ L β} {com : Bool} {Q : Except Exc β → Bool → Prop}
    (h : Shot J com p fun r c => match r with
      | .ok a => Shot J c (g a) Q
      | .error e => Q (.error e) c) : Shot J com (p >>= g) Q := by
  induction p generalizing com with
  | ret a => exact h
  | raise e => exact h
  | act f κ ih =>
    rcases h with ⟨h1, h2⟩ | ⟨h1, h2⟩
    · exact .inl ⟨fun s hs => ⟨(h1 s hs).1, ih s (h1 s hs).2⟩, fun s t hs ht =>
        congrArg (fun p => Prog.bind p g) (h2 s t hs ht)⟩
    · exact .inr ⟨h1, fun s hs => ⟨(h2 s hs).1, ih s (h2 s hs).2⟩⟩
  | acq l w κ ih => exact h
  | rel l w κ ih => exact h

theorem outcome {p : Prog σ L α} {com : Bool} {Q : Except Exc (Except Exc α) → Bool → Prop}
    (h : Shot J com p fun r c => Q (.ok r) c) : Shot J com p.outcome Q := by
  induction p generalizing com with
  | ret a => exact h
  | raise e => exact h
  | act f κ ih =>
    rcases h with ⟨h1, h2⟩ | ⟨h1, h2⟩
    · exact .inl ⟨fun s hs => ⟨(h1 s hs).1, ih s (h1 s hs).2⟩, fun s t hs ht => congrArg Prog.outcome (h2 s t hs ht)⟩
    · exact .inr ⟨h1, fun s hs => ⟨(h2 s hs).1, ih s (h2 s hs).2⟩⟩
  | acq l w κ ih => exact h
  | rel l w κ ih => exact h

/-- After the moment of effect the rest does nothing. -/
theorem quiet {p : Prog σ L α} {Q : Except Exc α → Bool → Prop} (h : Shot J true p Q) {s t : σ} (hs : J s) (ht : J t) :
    (p.seq s).2 = s ∧ (p.seq s).1 = (p.seq t).1 ∧ ∃ c, Q (p.seq s).1 c := by
  induction p with
  | ret a => exact ⟨rfl, rfl, _, h⟩
  | raise e => exact ⟨rfl, rfl, _, h⟩
  | act f κ ih =>
    rcases h with ⟨h1, h2⟩ | ⟨h1, _⟩
    · have e1 := (h1 s hs).1
      have e2 := (h1 t ht).1
      have := ih s (h1 s hs).2
      show ((κ s).seq (f s)).2 = s ∧ ((κ s).seq (f s)).1 = ((κ t).seq (f t)).1 ∧ ∃ c, Q ((κ s).seq (f s)).1 c
      rw [e1, e2, ← h2 s t hs ht]
      exact this
    · cases h1
  | acq l w κ ih => exact h.elim
  | rel l w κ ih => exact h.elim

end Shot

section Linear
variable [DecidableEq L] {sys : Sys σ L O C R} {J : σ → Prop}

/-- A thread in the coarse system and in the atomic one. -/
inductive SSim (sys : Sys σ L O C R) (J : σ → Prop) (i : Nat) (o og : O) :
    Option (C × Prog σ L (R × O)) → Spec.Stat C R → Prop
  | idle : o = og → SSim sys J i o og none .idle
  | before (c : C) (p : Prog σ L (R × O)) : o = og → sys.ok i c → Shot J false p (fun r _ => ∃ x, r = .ok x) →
      (∀ t, J t → (sys.call i o c).seq t = p.seq t) → SSim sys J i o og (some (c, p)) (.called c)
  | after (c : C) (p : Prog σ L (R × O)) (r : R) : Shot J true p (fun r _ => ∃ x, r = .ok x) →
      (∀ t, J t → p.seq t = (.ok (r, og), t)) → SSim sys J i o og (some (c, p)) (.done r)

/-- If every call has one moment of effect, the calls are atomic. -/
theorem shot_exec (hc : ∀ i o c, sys.ok i c → Shot J false (sys.call i o c) fun r _ => ∃ x, r = .ok x) {s : σ} {obj : Nat → O}
    (hJ : J s) {tr : List (Ev C R)} {κ : Conf σ L O C R} (hx : Exec sys (init s obj) tr κ) :
    ∃ a, Spec.AExec (fun a i c r a' => J a.1 ∧ seqSpec sys a i c r a') ⟨(s, obj), fun _ => .idle⟩ tr a ∧ J κ.st ∧ a.st.1 = κ.st ∧
      ∀ i, SSim sys J i (κ.obj i) (a.st.2 i) (κ.cur i) (a.stat i) := by
  induction hx with
  | nil => exact ⟨_, .nil _, hJ, rfl, fun i => .idle rfl⟩
  | snoc κ' κ'' tr e hx hs ih =>
    obtain ⟨a, h1, h2, h3, h4⟩ := ih
    rcases hs.cases' with ⟨i, c, e1, e2, rfl, rfl⟩ | ⟨i, c, p, e1, hs⟩
    · have hi := h4 i
      rw [e1] at hi
      generalize hst : a.stat i = st at hi
      cases hi with
      | idle ho =>
        refine ⟨_, .snoc _ _ _ _ _ h1 (.inv a i c hst), h2, h3, fun j => ?_⟩
        by_cases ej : j = i
        · subst ej
          simp only [upd_same]
          exact .before c _ ho e2 (hc j _ c e2) fun _ _ => rfl
        · simp only [upd_other _ _ ej]
          exact h4 j
    · have hi := h4 i
      rw [e1] at hi
      generalize hst : a.stat i = st at hi
      cases hs with
      | act f k =>
        cases hi with
        | before _ _ ho hok h heq =>
          rcases h with ⟨b1, b2⟩ | ⟨_, b2⟩
          · obtain ⟨f1, f2⟩ := b1 _ h2
            refine ⟨a, by simpa using h1, by simpa only [f1] using h2, by simpa only [f1] using h3, fun j => ?_⟩
            by_cases ej : j = i
            · subst ej
              simp only [upd_same, hst]
              refine .before c _ ho hok f2 fun t ht => (heq t ht).trans ?_
              show (k t).seq (f t) = _
              rw [(b1 t ht).1, b2 t _ ht h2]
            · simp only [upd_other _ _ ej]
              exact h4 j
          · obtain ⟨f1, f2⟩ := b2 _ h2
            obtain ⟨g1, -, -, ⟨r, o⟩, g3⟩ := f2.quiet f1 f1
            have hseq : (sys.call i (a.st.2 i) c).seq a.st.1 = (.ok (r, o), f κ'.st) := by
              rw [← ho, h3, heq _ h2]
              exact Prod.ext g3 g1
            refine ⟨⟨(f κ'.st, upd a.st.2 i o), upd a.stat i (.done r)⟩,
              .snoc _ _ _ _ none h1 (.effect a i c r _ hst ⟨h3 ▸ h2, o, hseq, rfl, hok⟩), f1, rfl, fun j => ?_⟩
            by_cases ej : j = i
            · subst ej
              simp only [upd_same]
              refine .after c _ r f2 fun t ht => ?_
              obtain ⟨q1, q2, _⟩ := f2.quiet ht f1
              exact Prod.ext (q2.trans g3) q1
            · simp only [upd_other _ _ ej]
              exact h4 j
        | after _ _ r h heq =>
          rcases h with ⟨b1, b2⟩ | ⟨b1, _⟩
          · obtain ⟨f1, f2⟩ := b1 _ h2
            refine ⟨a, by simpa using h1, by simpa only [f1] using h2, by simpa only [f1] using h3, fun j => ?_⟩
            by_cases ej : j = i
            · subst ej
              simp only [upd_same, hst]
              refine .after c _ r f2 fun t ht => ?_
              rw [← heq t ht, ← b2 t _ ht h2]
              show _ = (k t).seq (f t)
              rw [(b1 t ht).1]
            · simp only [upd_other _ _ ej]
              exact h4 j
          · cases b1
      | acq l w k hcan =>
        cases hi with
        | before _ _ _ _ h _ => exact h.elim
        | after _ _ _ h _ => exact h.elim
      | rel l w k =>
        cases hi with
        | before _ _ _ _ h _ => exact h.elim
        | after _ _ _ h _ => exact h.elim
      | ret r o =>
        cases hi with
        | before _ _ ho hok h heq =>
          have hseq : (sys.call i (a.st.2 i) c).seq a.st.1 = (.ok (r, o), κ'.st) := by
            rw [← ho, h3, heq _ h2]; rfl
          have s1 : Spec.AStep (fun a i c r a' => J a.1 ∧ seqSpec sys a i c r a') a none ⟨(κ'.st, upd a.st.2 i o), upd a.stat i (.done r)⟩ :=
            .effect a i c r _ hst ⟨h3 ▸ h2, o, hseq, rfl, hok⟩
          have s2 := Spec.AExec.snoc _ _ _ _ none h1 s1
          simp only [Option.toList, List.append_nil] at s2
          refine ⟨_, .snoc _ _ _ _ _ s2 (.ret _ i r (by simp)), h2, rfl, fun j => ?_⟩
          by_cases ej : j = i
          · subst ej
            simp only [upd_same]
            exact .idle rfl
          · simp only [upd_other _ _ ej]
            exact h4 j
        | after _ _ r' h heq =>
          have := Except.ok.inj (congrArg Prod.fst (heq _ h2))
          obtain ⟨rfl, rfl⟩ := Prod.mk.inj this
          refine ⟨_, .snoc _ _ _ _ _ h1 (.ret _ i r hst), h2, h3, fun j => ?_⟩
          by_cases ej : j = i
          · subst ej
            simp only [upd_same]
            exact .idle rfl
          · simp only [upd_other _ _ ej]
            exact h4 j

theorem aexec_mono {A : Type} {spec spec' : A → Nat → C → R → A → Prop} (h : ∀ a i c r a', spec a i c r a' → spec' a i c r a')
    {a a' : Spec.AConf A C R} {tr : List (Ev C R)} (hx : Spec.AExec spec a tr a') : Spec.AExec spec' a tr a' := by
  induction hx with
  | nil => exact .nil _
  | snoc a' a'' tr e _ hs ih =>
    refine .snoc _ _ _ _ _ ih ?_
    cases hs with
    | inv i c h1 => exact .inv _ i c h1
    | effect i c r st h1 h2 => exact .effect _ i c r st h1 (h _ _ _ _ _ h2)
    | ret i r h1 => exact .ret _ i r h1

/-- Sections of blocks, of which all but one do nothing while `J` holds: the calls are atomic. -/
theorem linear_exec [DecidableEq K] (P : Regions σ L K) {coarse : Nat → O → C → Prog σ L (R × O)} (hJI : ∀ s, J s → P.I s)
    (href : ∀ i o c, sys.ok i c → Ref P none (sys.call i o c) (coarse i o c))
    (hshot : ∀ i o c, sys.ok i c → Shot J false (coarse i o c) fun r _ => ∃ x, r = .ok x) {s : σ} {obj : Nat → O}
    (hJ : J s) {tr : List (Ev C R)} {κ : Conf σ L O C R} (hx : Exec sys (init s obj) tr κ) :
    ∃ a, Spec.AExec (fun a i c r a' => J a.1 ∧ seqSpec sys a i c r a') ⟨(s, obj), fun _ => .idle⟩ tr a ∧ J a.st.1 ∧
      ((∀ i, κ.cur i = none) → a.st.1 = κ.st ∧ ∀ i, a.stat i = .idle) := by
  obtain ⟨busy, κc, h1, h2⟩ := coarse_exec P (sysC := { sys with call := coarse }) href (fun _ _ h => h) (hJI _ hJ) hx
  obtain ⟨a, h3, h4, h5, h6⟩ := shot_exec (sys := { sys with call := coarse }) hshot hJ h1
  refine ⟨a, aexec_mono ?_ h3, h5 ▸ h4, fun hi => ⟨h5.trans (h2.idle hi).1.symm, fun i => ?_⟩⟩
  · intro a i c r a' ⟨q1, o, q2, q3, q4⟩
    refine ⟨q1, o, ?_, q3, q4⟩
    rw [← q2]
    exact ((href i _ c q4).seq (hJI _ q1)).symm
  · have h := h6 i
    rw [(h2.idle hi).2 i] at h
    generalize a.stat i = st at h
    cases h
    rfl

end Linear

end SyncStream.Conc
