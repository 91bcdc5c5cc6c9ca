import Verif.Lemmas.Prog
import Verif.Model.Conc
/-!
# Sections under a lock as single steps

The shared state is divided into regions, each protected by a lock, and a rest that is used without a lock.  A
section that holds the lock of a region consists of blocks: each block works on the region as it likes and uses
the rest at most once.  Then the whole can be observed as if every block were one indivisible step: the moment of
effect of a block is its use of the rest, or its end if there is none.

Locks can be taken again by a thread that holds them; other locks are ignored.
-/

/-- The program contains no `raise`. -/
def SyncStream.Prog.Total {σ L α : Type} : Prog σ L α → Prop
  | .ret _ => True
  | .raise _ => False
  | .act _ κ => ∀ s, (κ s).Total
  | .acq _ _ κ => κ.Total
  | .rel _ _ κ => κ.Total

namespace SyncStream.Conc

/-- The division of the state; `inv` is what holds of a region at all times, `ginv` of the rest. -/
structure Regions (σ L K : Type) where
  A : K → Type
  G : Type
  get : (k : K) → σ → A k
  set : (k : K) → A k → σ → σ
  glob : σ → G
  lock : K → L
  inv : (k : K) → A k → Prop
  ginv : G → Prop
  get_same : ∀ k a s, get k (set k a s) = a
  get_other : ∀ k k' a s, k' ≠ k → get k' (set k a s) = get k' s
  glob_set : ∀ k a s, glob (set k a s) = glob s
  ext : ∀ s t, (∀ k, get k s = get k t) → glob s = glob t → s = t
  lock_inj : ∀ k k', lock k = lock k' → k = k'

variable {σ L K O C R α β γ : Type}

/-- The invariants of all regions and of the rest. -/
def Regions.I (P : Regions σ L K) (s : σ) : Prop := (∀ k, P.inv k (P.get k s)) ∧ P.ginv (P.glob s)

/-- A step on the region `k` alone. -/
structure OwnStep (P : Regions σ L K) (k : K) (f : σ → σ) (κ : σ → Prog σ L α) : Prop where
  inv : ∀ s, P.I s → P.inv k (P.get k (f s))
  glob : ∀ s, P.I s → P.glob (f s) = P.glob s
  other : ∀ s, P.I s → ∀ k', k' ≠ k → P.get k' (f s) = P.get k' s
  state : ∀ s t, P.I s → P.I t → P.get k s = P.get k t → P.get k (f s) = P.get k (f t)
  cont : ∀ s t, P.I s → P.I t → P.get k s = P.get k t → κ s = κ t

/-- A step on the region `k` and the rest. -/
structure UseStep (P : Regions σ L K) (k : K) (f : σ → σ) (κ : σ → Prog σ L α) : Prop where
  inv : ∀ s, P.I s → P.inv k (P.get k (f s))
  ginv : ∀ s, P.I s → P.ginv (P.glob (f s))
  other : ∀ s, P.I s → ∀ k', k' ≠ k → P.get k' (f s) = P.get k' s
  state : ∀ s t, P.I s → P.I t → P.get k s = P.get k t → P.glob s = P.glob t →
    P.get k (f s) = P.get k (f t) ∧ P.glob (f s) = P.glob (f t)
  cont : ∀ s t, P.I s → P.I t → P.get k s = P.get k t → P.glob s = P.glob t → κ s = κ t

/-- A step on the rest alone. -/
structure GlobStep (P : Regions σ L K) (f : σ → σ) : Prop where
  ginv : ∀ s, P.I s → P.ginv (P.glob (f s))
  regions : ∀ s, P.I s → ∀ k, P.get k (f s) = P.get k s
  state : ∀ s t, P.I s → P.I t → P.glob s = P.glob t → P.glob (f s) = P.glob (f t)

/-- A block in a section of region `k`; `d` is how often the lock has been taken again, `com` says that the rest has
been used. -/
def Block (P : Regions σ L K) (k : K) : Nat → Bool → Prog σ L α → Prop
  | d, _, .ret _ => d = 0
  | _, _, .raise _ => False
  | d, com, .act f κ =>
    (OwnStep P k f κ ∧ ∀ s, P.I s → Block P k d com (κ s)) ∨
    (com = false ∧ UseStep P k f κ ∧ ∀ s, P.I s → Block P k d true (κ s))
  | d, com, .acq l w κ => (l = P.lock k ∧ w = true ∧ Block P k (d + 1) com κ) ∨ ((∀ k', l ≠ P.lock k') ∧ Block P k d com κ)
  | d, com, .rel l _ κ =>
    (l = P.lock k ∧ ∃ d', d = d' + 1 ∧ Block P k d' com κ) ∨ ((∀ k', l ≠ P.lock k') ∧ Block P k d com κ)

/-- A program executed as one indivisible step. -/
def blk (q : Prog σ L α) : Prog σ L α := Prog.atom q.seq

/-- The step `f`, `κ` does what `m` does and goes on with `g`. -/
def AsOne (P : Regions σ L K) {β : Type} (m : Py σ β) (g : β → Prog σ L α) (f : σ → σ) (κ : σ → Prog σ L α) : Prop :=
  ∀ s, P.I s → ∀ b t, m s = (.ok b, t) → f s = t ∧ κ s = g b

/-- `Ref P h p c`: the program `p`, started while its thread holds the lock of the region `h` (if any), refines `c`, in
which each block is one step. -/
inductive Ref (P : Regions σ L K) {α : Type} : Option K → Prog σ L α → Prog σ L α → Prop
  | ret (x : α) : Ref P none (.ret x) (.ret x)
  | raise (e : Exc) : Ref P none (.raise e) (.raise e)
  | glob (f : σ → σ) (κ κ' : σ → Prog σ L α) : GlobStep P f →
      (∀ s t, P.I s → P.I t → P.glob s = P.glob t → κ' s = κ' t) →
      (∀ s, P.I s → Ref P none (κ s) (κ' s)) → Ref P none (.act f κ) (.act f κ')
  | still (h : Option K) (f : σ → σ) (κ : σ → Prog σ L α) (p c : Prog σ L α) : (∀ s, P.I s → f s = s ∧ κ s = p) → Ref P h p c →
      Ref P h (.act f κ) c
  | acqOther (h : Option K) (l : L) (w : Bool) (p c : Prog σ L α) : (∀ k, l ≠ P.lock k) → Ref P h p c →
      Ref P h (.acq l w p) c
  | relOther (h : Option K) (l : L) (w : Bool) (p c : Prog σ L α) : (∀ k, l ≠ P.lock k) → Ref P h p c →
      Ref P h (.rel l w p) c
  | acq (k : K) (p c : Prog σ L α) : Ref P (some k) p c → Ref P none (.acq (P.lock k) true p) c
  | rel (k : K) (w : Bool) (p c : Prog σ L α) : Ref P none p c → Ref P (some k) (.rel (P.lock k) w p) c
  | block (k : K) (β : Type) (q : Prog σ L β) (g g' : β → Prog σ L α) (f : σ → σ) (κ : σ → Prog σ L α) :
      Block P k 0 false q → (∀ b, Ref P (some k) (g b) (g' b)) → AsOne P q.seq g' f κ → q.Total →
      Ref P (some k) (q >>= g) (.act f κ)

/-! ## Blocks run without interruption -/

section Block
variable {P : Regions σ L K} {k : K}

theorem OwnStep.I {f : σ → σ} {κ : σ → Prog σ L α} (h : OwnStep P k f κ) {s : σ} (hs : P.I s) : P.I (f s) := by
  refine ⟨fun k' => ?_, by rw [h.glob s hs]; exact hs.2⟩
  by_cases e : k' = k
  · subst e; exact h.inv s hs
  · rw [h.other s hs k' e]; exact hs.1 k'

theorem UseStep.I {f : σ → σ} {κ : σ → Prog σ L α} (h : UseStep P k f κ) {s : σ} (hs : P.I s) : P.I (f s) := by
  refine ⟨fun k' => ?_, h.ginv s hs⟩
  by_cases e : k' = k
  · subst e; exact h.inv s hs
  · rw [h.other s hs k' e]; exact hs.1 k'

theorem GlobStep.I {f : σ → σ} (h : GlobStep P f) {s : σ} (hs : P.I s) : P.I (f s) := by
  refine ⟨fun k' => ?_, h.ginv s hs⟩
  rw [h.regions s hs k']; exact hs.1 k'

theorem Regions.I_set {s : σ} (hs : P.I s) {a : P.A k} (ha : P.inv k a) : P.I (P.set k a s) := by
  refine ⟨fun k' => ?_, by rw [P.glob_set]; exact hs.2⟩
  by_cases e : k' = k
  · subst e; rw [P.get_same]; exact ha
  · rw [P.get_other _ _ _ _ e]; exact hs.1 k'

/-- What an uninterrupted block does. -/
theorem Block.frame {q : Prog σ L α} {d : Nat} {com : Bool} (hq : Block P k d com q) {s : σ} (hs : P.I s) :
    ∃ b, (q.seq s).1 = .ok b ∧ P.I (q.seq s).2 ∧ (∀ k', k' ≠ k → P.get k' (q.seq s).2 = P.get k' s) ∧
      (com = true → P.glob (q.seq s).2 = P.glob s) := by
  induction q generalizing d com s with
  | ret a => exact ⟨a, rfl, hs, fun _ _ => rfl, fun _ => rfl⟩
  | raise e => exact hq.elim
  | act f κ ih =>
    rcases hq with ⟨h1, h2⟩ | ⟨h0, h1, h2⟩
    · obtain ⟨b, e1, e2, e3, e4⟩ := ih s (h2 s hs) (h1.I hs)
      exact ⟨b, e1, e2, fun k' hk => (e3 k' hk).trans (h1.other s hs k' hk), fun h => (e4 h).trans (h1.glob s hs)⟩
    · obtain ⟨b, e1, e2, e3, e4⟩ := ih s (h2 s hs) (h1.I hs)
      exact ⟨b, e1, e2, fun k' hk => (e3 k' hk).trans (h1.other s hs k' hk), fun h => by rw [h0] at h; cases h⟩
  | acq l w κ ih =>
    rcases hq with ⟨_, _, h⟩ | ⟨_, h⟩
    · exact ih h hs
    · exact ih h hs
  | rel l w κ ih =>
    rcases hq with ⟨_, d', _, h⟩ | ⟨_, h⟩
    · exact ih h hs
    · exact ih h hs

/-- The result of a block depends on the region and the rest, after the use of the rest on the region only. -/
theorem Block.cong {q : Prog σ L α} {d : Nat} {com : Bool} (hq : Block P k d com q) {s t : σ} (hs : P.I s) (ht : P.I t)
    (h1 : P.get k s = P.get k t) (h2 : com = false → P.glob s = P.glob t) :
    (q.seq s).1 = (q.seq t).1 ∧ P.get k (q.seq s).2 = P.get k (q.seq t).2 ∧
      (com = false → P.glob (q.seq s).2 = P.glob (q.seq t).2) := by
  induction q generalizing d com s t with
  | ret a => exact ⟨rfl, h1, h2⟩
  | raise e => exact hq.elim
  | act f κ ih =>
    rcases hq with ⟨a1, a2⟩ | ⟨a0, a1, a2⟩
    · have e := a1.cont s t hs ht h1
      have := ih s (a2 s hs) (a1.I hs) (a1.I ht) (a1.state s t hs ht h1) fun hc => by
        rw [a1.glob s hs, a1.glob t ht]; exact h2 hc
      show ((κ s).seq (f s)).1 = ((κ t).seq (f t)).1 ∧ P.get k ((κ s).seq (f s)).2 = P.get k ((κ t).seq (f t)).2 ∧
        (com = false → P.glob ((κ s).seq (f s)).2 = P.glob ((κ t).seq (f t)).2)
      rw [← e]
      exact this
    · have e := a1.cont s t hs ht h1 (h2 a0)
      obtain ⟨x, y⟩ := a1.state s t hs ht h1 (h2 a0)
      obtain ⟨z1, z2, _⟩ := ih s (a2 s hs) (a1.I hs) (a1.I ht) x nofun
      obtain ⟨b1, _, _, _, w1⟩ := (a2 s hs).frame (a1.I hs)
      obtain ⟨b2, _, _, _, w2⟩ := (a2 s hs).frame (a1.I ht)
      show ((κ s).seq (f s)).1 = ((κ t).seq (f t)).1 ∧ P.get k ((κ s).seq (f s)).2 = P.get k ((κ t).seq (f t)).2 ∧
        (com = false → P.glob ((κ s).seq (f s)).2 = P.glob ((κ t).seq (f t)).2)
      rw [← e]
      exact ⟨z1, z2, fun _ => by rw [w1 rfl, w2 rfl, y]⟩
  | acq l w κ ih =>
    rcases hq with ⟨_, _, h⟩ | ⟨_, h⟩
    · exact ih h hs ht h1 h2
    · exact ih h hs ht h1 h2
  | rel l w κ ih =>
    rcases hq with ⟨_, d', _, h⟩ | ⟨_, h⟩
    · exact ih h hs ht h1 h2
    · exact ih h hs ht h1 h2

end Block

/-! ## The simulation -/

/-- Another lock of the regions than that of `k` is not held. -/
def NoOther (P : Regions σ L K) (k : K) (held : L → List Bool) : Prop := ∀ k', k' ≠ k → held (P.lock k') = []

/-- A running thread in the two systems, with the region it is working on: between blocks, in a section between blocks, in a
block before the moment of effect, in a block after it. -/
inductive TSim (P : Regions σ L K) (s t : σ) (held : L → List Bool) :
    Option K → Prog σ L α → Prog σ L α → Prop
  | free (p c : Prog σ L α) : Ref P none p c → (∀ k, held (P.lock k) = []) → TSim P s t held none p c
  | sec (k : K) (p c : Prog σ L α) : Ref P (some k) p c → held (P.lock k) = [true] → NoOther P k held →
      TSim P s t held none p c
  | pre (k : K) (β : Type) (m : Py σ β) (q : Prog σ L β) (g g' : β → Prog σ L α) (d : Nat) (f : σ → σ)
      (κ : σ → Prog σ L α) : Block P k d false q →
      (∀ u, P.I u → P.get k u = P.get k t → m u = q.seq (P.set k (P.get k s) u)) →
      (∀ b, Ref P (some k) (g b) (g' b)) → AsOne P m g' f κ →
      held (P.lock k) = List.replicate (d + 1) true → NoOther P k held →
      TSim P s t held (some k) (q >>= g) (.act f κ)
  | post (k : K) (β : Type) (q : Prog σ L β) (g g' : β → Prog σ L α) (d : Nat) (b : β) : Block P k d true q →
      (∀ u, P.I u → P.get k u = P.get k s → q.seq u = (.ok b, P.set k (P.get k t) u)) →
      (∀ b, Ref P (some k) (g b) (g' b)) → held (P.lock k) = List.replicate (d + 1) true → NoOther P k held →
      TSim P s t held (some k) (q >>= g) (g' b)

/-- A thread in the two systems. -/
inductive CSim (P : Regions σ L K) (s t : σ) (held : L → List Bool) :
    Option K → Option (C × Prog σ L α) → Option (C × Prog σ L α) → Prop
  | idle : (∀ k, held (P.lock k) = []) → CSim P s t held none none none
  | run (b : Option K) (c : C) (p pc : Prog σ L α) : TSim P s t held b p pc → CSim P s t held b (some (c, p)) (some (c, pc))

/-- The two systems; `busy` says who is working on which region. -/
structure CRel (P : Regions σ L K) (busy : Nat → Option K) (κ κc : Conf σ L O C R) : Prop where
  I : P.I κ.st
  Ic : P.I κc.st
  obj : κ.obj = κc.obj
  glob : P.glob κ.st = P.glob κc.st
  sim : ∀ i, CSim P κ.st κc.st (κ.held i) (busy i) (κ.cur i) (κc.cur i)
  mutex : ∀ l i j, j ≠ i → true ∈ κ.held i l → κ.held j l = []
  regions : ∀ k, (∀ i, busy i ≠ some k) → P.get k κ.st = P.get k κc.st

section Sim
variable {P : Regions σ L K}

theorem TSim.others {s t s' t' : σ} {held : L → List Bool} {b : Option K} {p c : Prog σ L α}
    (h : TSim P s t held b p c) (hb : ∀ k, b = some k → P.get k s' = P.get k s ∧ P.get k t' = P.get k t) :
    TSim P s' t' held b p c := by
  cases h with
  | free _ _ h1 h2 => exact .free _ _ h1 h2
  | sec k _ _ h1 h2 h3 => exact .sec k _ _ h1 h2 h3
  | pre k β m q g g' d f κ h1 h2 h3 h6 h4 h5 =>
    obtain ⟨e1, e2⟩ := hb k rfl
    refine .pre k β m q g g' d f κ h1 (fun u hu e => ?_) h3 h6 h4 h5
    rw [e1]
    exact h2 u hu (e.trans e2)
  | post k β q g g' d b h1 h2 h3 h4 h5 =>
    obtain ⟨e1, e2⟩ := hb k rfl
    refine .post k β q g g' d b h1 (fun u hu e => ?_) h3 h4 h5
    rw [e2]
    exact h2 u hu (e.trans e1)

theorem CSim.others {s t s' t' : σ} {held : L → List Bool} {b : Option K} {x y : Option (C × Prog σ L α)}
    (h : CSim P s t held b x y) (hb : ∀ k, b = some k → P.get k s' = P.get k s ∧ P.get k t' = P.get k t) :
    CSim P s' t' held b x y := by
  cases h with
  | idle h => exact .idle h
  | run _ c p pc h => exact .run _ c p pc (h.others hb)

/-- Who works on a region holds its lock. -/
theorem CSim.holds {s t : σ} {held : L → List Bool} {k : K} {x y : Option (C × Prog σ L α)}
    (h : CSim P s t held (some k) x y) : true ∈ held (P.lock k) := by
  cases h with
  | run _ c p pc h =>
    cases h with
    | pre _ _ _ _ _ _ _ _ _ _ _ _ _ h4 => rw [h4]; simp
    | post _ _ _ _ _ _ _ _ _ _ h4 => rw [h4]; simp

/-- Nobody else works on a region whose lock is held. -/
theorem CRel.alone {busy : Nat → Option K} {κ κc : Conf σ L O C R} (h : CRel P busy κ κc) {i : Nat} {k : K}
    (hk : true ∈ κ.held i (P.lock k)) {j : Nat} (hj : j ≠ i) : busy j ≠ some k := fun e => by
  have := h.sim j
  rw [e] at this
  have h1 := this.holds
  rw [h.mutex _ i j hj hk] at h1
  cases h1

/-- What thread `i` does, seen by all. -/
theorem CRel.step {busy : Nat → Option K} {κ κc : Conf σ L O C R} (h : CRel P busy κ κc) (i : Nat) {s' t' : σ}
    {held' : L → List Bool} {b' : Option K} {x y : Option (C × Prog σ L (R × O))} (o : O)
    (I : P.I s') (Ic : P.I t') (hg : P.glob s' = P.glob t') (hs : CSim P s' t' held' b' x y)
    (ho : ∀ j, j ≠ i → ∀ k, busy j = some k → P.get k s' = P.get k κ.st ∧ P.get k t' = P.get k κc.st)
    (hm : ∀ l j, j ≠ i → (true ∈ held' l → κ.held j l = []) ∧ (true ∈ κ.held j l → held' l = []))
    (hr : ∀ k, b' ≠ some k → (∀ j, j ≠ i → busy j ≠ some k) → P.get k s' = P.get k t') :
    CRel P (upd busy i b') { st := s', held := upd κ.held i held', obj := upd κ.obj i o, cur := upd κ.cur i x }
      { st := t', held := κc.held, obj := upd κc.obj i o, cur := upd κc.cur i y } where
  I := I
  Ic := Ic
  obj := by rw [h.obj]
  glob := hg
  sim j := by
    by_cases e : j = i
    · subst e; simp only [upd_same]; exact hs
    · simp only [upd_other _ _ e]; exact (h.sim j).others (ho j e)
  mutex l a b hab ht := by
    by_cases ea : a = i
    · subst ea
      simp only [upd_same, upd_other _ _ hab] at ht ⊢
      exact (hm l b hab).1 ht
    · simp only [upd_other _ _ ea] at ht
      by_cases eb : b = i
      · subst eb
        simp only [upd_same]
        exact (hm l a ea).2 ht
      · simp only [upd_other _ _ eb]
        exact h.mutex l a b hab ht
  regions k hk := hr k (by simpa using hk i) fun j hj => by simpa [upd_other _ _ hj] using hk j

theorem upd_self {α : Type} (f : Nat → α) (i : Nat) : upd f i (f i) = f := by
  funext j
  by_cases e : j = i
  · subst e; simp
  · simp [upd_other _ _ e]

theorem upd_upd {α : Type} (f : Nat → α) (i : Nat) (x y : α) : upd (upd f i x) i y = upd f i y := by
  funext j
  by_cases e : j = i
  · subst e; simp
  · simp [upd_other _ _ e]

/-- Nothing happens to the locks and the state of the interleaved system. -/
theorem CRel.change {busy : Nat → Option K} {κ κc : Conf σ L O C R} (h : CRel P busy κ κc) (i : Nat) {t' : σ}
    {b' : Option K} {c : C} {p pc : Prog σ L (R × O)} (hc : κ.cur i = some (c, p))
    (Ic : P.I t') (hg : P.glob κ.st = P.glob t') (hs : TSim P κ.st t' (κ.held i) b' p pc)
    (ho : ∀ j, j ≠ i → ∀ k, busy j = some k → P.get k t' = P.get k κc.st)
    (hr : ∀ k, b' ≠ some k → (∀ j, j ≠ i → busy j ≠ some k) → P.get k κ.st = P.get k t') :
    CRel P (upd busy i b') κ { κc with st := t', cur := upd κc.cur i (some (c, pc)) } := by
  have := h.step i (s' := κ.st) (t' := t') (held' := κ.held i) (b' := b') (κ.obj i) (h.I) Ic hg (.run b' c p pc hs)
    (fun j hj k e => ⟨rfl, ho j hj k e⟩)
    (fun l j hj => ⟨fun x => h.mutex l i j hj x, fun x => h.mutex l j i (Ne.symm hj) x⟩) hr
  rw [← hc, upd_self, upd_self, upd_self] at this
  rw [← h.obj, upd_self] at this
  show CRel P _ κ { st := t', held := κc.held, obj := κc.obj, cur := upd κc.cur i (some (c, pc)) }
  rw [← h.obj]
  exact this

/-- A step on the state. -/
theorem CRel.stepAct {busy : Nat → Option K} {κ κc : Conf σ L O C R} (h : CRel P busy κ κc) (i : Nat) {s' t' : σ}
    {b' : Option K} {c : C} {p pc : Prog σ L (R × O)}
    (I : P.I s') (Ic : P.I t') (hg : P.glob s' = P.glob t') (hs : TSim P s' t' (κ.held i) b' p pc)
    (ho : ∀ j, j ≠ i → ∀ k, busy j = some k → P.get k s' = P.get k κ.st ∧ P.get k t' = P.get k κc.st)
    (hr : ∀ k, b' ≠ some k → (∀ j, j ≠ i → busy j ≠ some k) → P.get k s' = P.get k t') :
    CRel P (upd busy i b') { κ with st := s', cur := upd κ.cur i (some (c, p)) }
      { κc with st := t', cur := upd κc.cur i (some (c, pc)) } := by
  have := h.step i (s' := s') (t' := t') (held' := κ.held i) (b' := b') (κ.obj i) I Ic hg (.run b' c p pc hs) ho
    (fun l j hj => ⟨fun x => h.mutex l i j hj x, fun x => h.mutex l j i (Ne.symm hj) x⟩) hr
  rw [← h.obj, upd_self, upd_self] at this
  show CRel P _ { κ with st := s', cur := upd κ.cur i (some (c, p)) }
    { st := t', held := κc.held, obj := κc.obj, cur := upd κc.cur i (some (c, pc)) }
  rw [← h.obj]
  exact this

/-- A step on the locks. -/
theorem CRel.stepHeld {busy : Nat → Option K} {κ κc : Conf σ L O C R} (h : CRel P busy κ κc) (i : Nat)
    {held' : L → List Bool} {b' : Option K} {c : C} {p pc : Prog σ L (R × O)} (hc : κc.cur i = some (c, pc))
    (hs : TSim P κ.st κc.st held' b' p pc) (hb : b' = busy i)
    (hm : ∀ l j, j ≠ i → (true ∈ held' l → κ.held j l = []) ∧ (true ∈ κ.held j l → held' l = [])) :
    CRel P busy { κ with held := upd κ.held i held', cur := upd κ.cur i (some (c, p)) } κc := by
  have := h.step i (s' := κ.st) (t' := κc.st) (held' := held') (b' := b') (κ.obj i) h.I h.Ic h.glob (.run b' c p pc hs)
    (fun _ _ _ _ => ⟨rfl, rfl⟩) hm fun k h1 h2 => h.regions k fun j => by
      by_cases e : j = i
      · subst e; rw [← hb]; exact h1
      · exact h2 j e
  rw [← hc, hb, upd_self, upd_self, upd_self, h.obj, upd_self] at this
  show CRel P busy { st := κ.st, held := upd κ.held i held', obj := κ.obj, cur := upd κ.cur i (some (c, p)) } κc
  rw [h.obj]
  exact this

variable [DecidableEq L]

/-- The locks of a thread after taking and after releasing. -/
def taken (held : L → List Bool) (l : L) (w : Bool) : L → List Bool := fun l' => if l' = l then w :: held l else held l'
@[inherit_doc taken]
def given (held : L → List Bool) (l : L) : L → List Bool := fun l' => if l' = l then (held l).tail else held l'

theorem mutex_taken {sys : Sys σ L O C R} {κ : Conf σ L O C R} (hm : ∀ l i j, j ≠ i → true ∈ κ.held i l → κ.held j l = [])
    {i : Nat} {l : L} {w : Bool} (h : CanTake sys κ i l w) (l' : L) (j : Nat) (hj : j ≠ i) :
    (true ∈ taken (κ.held i) l w l' → κ.held j l' = []) ∧ (true ∈ κ.held j l' → taken (κ.held i) l w l' = []) := by
  by_cases e : l' = l
  · subst e
    simp only [taken, if_true]
    refine ⟨fun hx => ?_, fun hx => absurd hx (h.2 j hj).1⟩
    rcases List.mem_cons.1 hx with hx | hx
    · exact (h.2 j hj).2 hx.symm
    · exact hm _ i j hj hx
  · simp only [taken, if_neg e]
    exact ⟨hm _ i j hj, hm _ j i (Ne.symm hj)⟩

theorem mutex_given {κ : Conf σ L O C R} (hm : ∀ l i j, j ≠ i → true ∈ κ.held i l → κ.held j l = [])
    {i : Nat} {l : L} (l' : L) (j : Nat) (hj : j ≠ i) :
    (true ∈ given (κ.held i) l l' → κ.held j l' = []) ∧ (true ∈ κ.held j l' → given (κ.held i) l l' = []) := by
  by_cases e : l' = l
  · subst e
    simp only [given, if_true]
    refine ⟨fun hx => hm _ i j hj (List.mem_of_mem_tail hx), fun hx => ?_⟩
    rw [hm _ j i (Ne.symm hj) hx]; rfl
  · simp only [given, if_neg e]
    exact ⟨hm _ i j hj, hm _ j i (Ne.symm hj)⟩

/-- A step of a thread that runs a program. -/
inductive TStep (sys : Sys σ L O C R) (κ : Conf σ L O C R) (i : Nat) (c : C) :
    Prog σ L (R × O) → Option (Ev C R) → Conf σ L O C R → Prop
  | act (f : σ → σ) (k : σ → Prog σ L (R × O)) :
      TStep sys κ i c (.act f k) none { κ with st := f κ.st, cur := upd κ.cur i (some (c, k κ.st)) }
  | acq (l : L) (w : Bool) (k : Prog σ L (R × O)) : CanTake sys κ i l w →
      TStep sys κ i c (.acq l w k) none
        { κ with held := upd κ.held i (taken (κ.held i) l w), cur := upd κ.cur i (some (c, k)) }
  | rel (l : L) (w : Bool) (k : Prog σ L (R × O)) :
      TStep sys κ i c (.rel l w k) none
        { κ with held := upd κ.held i (given (κ.held i) l), cur := upd κ.cur i (some (c, k)) }
  | ret (r : R) (o : O) : TStep sys κ i c (.ret (r, o)) (some (.ret i r))
      { κ with obj := upd κ.obj i o, cur := upd κ.cur i none }

theorem Step.cases' {sys : Sys σ L O C R} {κ κ' : Conf σ L O C R} {e : Option (Ev C R)} (h : Step sys κ e κ') :
    (∃ i c, κ.cur i = none ∧ sys.ok i c ∧ e = some (.inv i c) ∧
      κ' = { κ with cur := upd κ.cur i (some (c, sys.call i (κ.obj i) c)) }) ∨
    ∃ i c p, κ.cur i = some (c, p) ∧ TStep sys κ i c p e κ' := by
  cases h with
  | inv i c h1 h2 => exact .inl ⟨i, c, h1, h2, rfl, rfl⟩
  | act i c f k h => exact .inr ⟨i, c, _, h, .act f k⟩
  | acq i c l w k h1 h2 => exact .inr ⟨i, c, _, h1, .acq l w k h2⟩
  | rel i c l w k h => exact .inr ⟨i, c, _, h, .rel l w k⟩
  | ret i c r o h => exact .inr ⟨i, c, _, h, .ret r o⟩

/-- What is to be shown of a step. -/
def Follows (P : Regions σ L K) (sysC : Sys σ L O C R) (κ0 : Conf σ L O C R) (tr : List (Ev C R))
    (e : Option (Ev C R)) (κ' : Conf σ L O C R) : Prop :=
  ∃ busy' κc', Exec sysC κ0 (tr ++ e.toList) κc' ∧ CRel P busy' κ' κc'

variable {sys sysC : Sys σ L O C R} {κ0 : Conf σ L O C R} {tr : List (Ev C R)}

theorem taken_own {held : L → List Bool} {k : K} {d : Nat} (h : held (P.lock k) = List.replicate (d + 1) true) :
    taken held (P.lock k) true (P.lock k) = List.replicate (d + 1 + 1) true := by
  simp only [taken, if_true, h]; rfl

theorem given_own {held : L → List Bool} {k : K} {d : Nat} (h : held (P.lock k) = List.replicate (d + 1) true) :
    given held (P.lock k) (P.lock k) = List.replicate d true := by
  simp only [given, if_true, h]; rfl

theorem NoOther.taken {held : L → List Bool} {k : K} (h : NoOther P k held) {w : Bool} :
    NoOther P k (taken held (P.lock k) w) := fun k' hk => by
  have : P.lock k' ≠ P.lock k := fun e => hk (P.lock_inj _ _ e)
  simp only [Conc.taken, if_neg this]; exact h k' hk

theorem NoOther.given {held : L → List Bool} {k : K} (h : NoOther P k held) : NoOther P k (given held (P.lock k)) :=
    fun k' hk => by
  have : P.lock k' ≠ P.lock k := fun e => hk (P.lock_inj _ _ e)
  simp only [Conc.given, if_neg this]; exact h k' hk

theorem taken_other {held : L → List Bool} {l : L} (hl : ∀ k, l ≠ P.lock k) {w : Bool} (k : K) :
    taken held l w (P.lock k) = held (P.lock k) := by simp only [taken, if_neg (Ne.symm (hl k))]

theorem given_other {held : L → List Bool} {l : L} (hl : ∀ k, l ≠ P.lock k) (k : K) :
    given held l (P.lock k) = held (P.lock k) := by simp only [given, if_neg (Ne.symm (hl k))]

/-- A step in a block after the moment of effect. -/
theorem post_step {busy : Nat → Option K} {κ κc κ' : Conf σ L O C R} (h : CRel P busy κ κc) (hx : Exec sysC κ0 tr κc)
    {i : Nat} {c : C} {k : K} {β : Type} {q : Prog σ L β} {g g' : β → Prog σ L (R × O)} {d : Nat} {b : β}
    (hb : busy i = some k) (hcc : κc.cur i = some (c, g' b)) (h1 : Block P k d true q)
    (h2 : ∀ u, P.I u → P.get k u = P.get k κ.st → q.seq u = (.ok b, P.set k (P.get k κc.st) u))
    (h3 : ∀ b, Ref P (some k) (g b) (g' b)) (h4 : κ.held i (P.lock k) = List.replicate (d + 1) true)
    (h5 : NoOther P k (κ.held i)) (hq : ∀ b, q ≠ .ret b) {e : Option (Ev C R)}
    (ht : TStep sys κ i c (q >>= g) e κ') : Follows P sysC κ0 tr e κ' := by
  have hal : ∀ j, j ≠ i → busy j ≠ some k := fun j hj => h.alone (by rw [h4]; simp) hj
  cases q with
  | ret a => exact absurd rfl (hq a)
  | raise _ => exact h1.elim
  | act f κ1 =>
    replace ht : TStep sys κ i c (.act f fun s => (κ1 s).bind g) e κ' := ht
    cases ht
    rcases h1 with ⟨a1, a2⟩ | ⟨a0, _⟩
    · refine ⟨upd busy i (some k), _, by simpa using hx, ?_⟩
      have := h.stepAct i (c := c) (s' := f κ.st) (t' := κc.st) (b' := some k) (p := κ1 κ.st >>= g) (pc := g' b)
        (a1.I h.I) h.Ic ((a1.glob _ h.I).trans h.glob)
        (.post k β (κ1 κ.st) g g' d b (a2 _ h.I) (fun u hu e => ?_) h3 h4 h5)
        (fun j hj k' e => ⟨a1.other _ h.I _ fun e' => hal j hj (e' ▸ e), rfl⟩)
        (fun k' hk hk' => by
          have hne : k' ≠ k := fun e => hk (congrArg some e.symm)
          rw [a1.other _ h.I _ hne]
          refine h.regions k' fun j e => ?_
          by_cases ej : j = i
          · rw [ej, hb] at e; exact hne (Option.some.inj e).symm
          · exact hk' j ej e)
      · rw [← hcc, upd_self] at this
        exact this
      · let v := P.set k (P.get k κ.st) u
        have hv : P.I v := P.I_set hu (h.I.1 k)
        have e1 : P.get k κ.st = P.get k v := (P.get_same ..).symm
        have ev := h2 v hv e1.symm
        have e2 : κ1 v = κ1 κ.st := (a1.cont _ _ h.I hv e1).symm
        have e3 : f v = u := by
          refine P.ext _ _ (fun k' => ?_) ((a1.glob v hv).trans (P.glob_set ..))
          by_cases ek : k' = k
          · subst ek; rw [← a1.state _ _ h.I hv e1, e]
          · rw [a1.other _ hv _ ek, P.get_other _ _ _ _ ek]
        replace ev : (κ1 v).seq (f v) = (.ok b, P.set k (P.get k κc.st) v) := ev
        rw [e2, e3] at ev
        rw [ev]
        refine congrArg _ (P.ext _ _ (fun k' => ?_) (by rw [P.glob_set, P.glob_set, P.glob_set]))
        by_cases ek : k' = k
        · subst ek; rw [P.get_same, P.get_same]
        · rw [P.get_other _ _ _ _ ek, P.get_other _ _ _ _ ek, P.get_other _ _ _ _ ek]
    · cases a0
  | acq l w κ1 =>
    replace ht : TStep sys κ i c (.acq l w (κ1.bind g)) e κ' := ht
    cases ht with
    | acq _ _ _ hcan =>
      refine ⟨busy, κc, by simpa using hx, ?_⟩
      rcases h1 with ⟨rfl, rfl, a⟩ | ⟨hl, a⟩
      · exact h.stepHeld i hcc (.post k β κ1 g g' (d + 1) b a h2 h3 (taken_own h4) h5.taken) hb.symm
          (mutex_taken h.mutex hcan)
      · exact h.stepHeld i hcc (.post k β κ1 g g' d b a h2 h3 ((taken_other hl k).trans h4)
          fun k' hk => (taken_other hl k').trans (h5 k' hk)) hb.symm (mutex_taken h.mutex hcan)
  | rel l w κ1 =>
    replace ht : TStep sys κ i c (.rel l w (κ1.bind g)) e κ' := ht
    cases ht with
    | rel _ _ _ =>
      refine ⟨busy, κc, by simpa using hx, ?_⟩
      rcases h1 with ⟨rfl, d', rfl, a⟩ | ⟨hl, a⟩
      · exact h.stepHeld i hcc (.post k β κ1 g g' d' b a h2 h3 (given_own h4) h5.given) hb.symm (mutex_given h.mutex)
      · exact h.stepHeld i hcc (.post k β κ1 g g' d b a h2 h3 ((given_other hl k).trans h4)
          fun k' hk => (given_other hl k').trans (h5 k' hk)) hb.symm (mutex_given h.mutex)

/-- A block of the coarse system. -/
theorem blk_step {κc : Conf σ L O C R} (hx : Exec sysC κ0 tr κc) (hI : P.I κc.st) {i : Nat} {c : C} {β : Type}
    {m : Py σ β} {g' : β → Prog σ L (R × O)} {f : σ → σ} {κ : σ → Prog σ L (R × O)} (ha : AsOne P m g' f κ)
    (hcc : κc.cur i = some (c, .act f κ)) {b : β} {t' : σ} (h : m κc.st = (.ok b, t')) :
    Exec sysC κ0 tr { κc with st := t', cur := upd κc.cur i (some (c, g' b)) } := by
  have := Exec.snoc _ _ _ _ _ hx (Step.act κc i c _ _ hcc)
  obtain ⟨e1, e2⟩ := ha _ hI _ _ h
  simp only [e1, e2, Option.toList, List.append_nil] at this
  exact this

/-- A step in a block before the moment of effect. -/
theorem pre_step {busy : Nat → Option K} {κ κc κ' : Conf σ L O C R} (h : CRel P busy κ κc) (hx : Exec sysC κ0 tr κc)
    {i : Nat} {c : C} {k : K} {β : Type} {m : Py σ β} {q : Prog σ L β}
    {g g' : β → Prog σ L (R × O)} {d : Nat} {fc : σ → σ} {kc : σ → Prog σ L (R × O)}
    (hb : busy i = some k) (hcc : κc.cur i = some (c, .act fc kc)) (h1 : Block P k d false q)
    (h2 : ∀ u, P.I u → P.get k u = P.get k κc.st → m u = q.seq (P.set k (P.get k κ.st) u))
    (h3 : ∀ b, Ref P (some k) (g b) (g' b)) (h6 : AsOne P m g' fc kc)
    (h4 : κ.held i (P.lock k) = List.replicate (d + 1) true)
    (h5 : NoOther P k (κ.held i)) (hq : ∀ b, q ≠ .ret b) {e : Option (Ev C R)}
    (ht : TStep sys κ i c (q >>= g) e κ') : Follows P sysC κ0 tr e κ' := by
  have hal : ∀ j, j ≠ i → busy j ≠ some k := fun j hj => h.alone (by rw [h4]; simp) hj
  have hreg : ∀ k', k' ≠ k → (∀ j, j ≠ i → busy j ≠ some k') → P.get k' κ.st = P.get k' κc.st := fun k' hne hk' => by
    refine h.regions k' fun j e => ?_
    by_cases ej : j = i
    · rw [ej, hb] at e; exact hne (Option.some.inj e).symm
    · exact hk' j ej e
  cases q with
  | ret a => exact absurd rfl (hq a)
  | raise _ => exact h1.elim
  | act f κ1 =>
    replace ht : TStep sys κ i c (.act f fun s => (κ1 s).bind g) e κ' := ht
    cases ht
    rcases h1 with ⟨a1, a2⟩ | ⟨_, a1, a2⟩
    · refine ⟨upd busy i (some k), _, by simpa using hx, ?_⟩
      have := h.stepAct i (c := c) (s' := f κ.st) (t' := κc.st) (b' := some k) (p := κ1 κ.st >>= g) (pc := .act fc kc)
        (a1.I h.I) h.Ic ((a1.glob _ h.I).trans h.glob)
        (.pre k β m (κ1 κ.st) g g' d fc kc (a2 _ h.I) (fun u hu e => ?_) h3 h6 h4 h5)
        (fun j hj k' e => ⟨a1.other _ h.I _ fun e' => hal j hj (e' ▸ e), rfl⟩)
        (fun k' hk hk' => by
          have hne : k' ≠ k := fun e => hk (congrArg some e.symm)
          rw [a1.other _ h.I _ hne]
          exact hreg k' hne hk')
      · rw [← hcc, upd_self] at this
        exact this
      · let v := P.set k (P.get k κ.st) u
        have hv : P.I v := P.I_set hu (h.I.1 k)
        have e1 : P.get k κ.st = P.get k v := (P.get_same ..).symm
        have ev : m u = (κ1 v).seq (f v) := h2 u hu e
        rw [ev, ← a1.cont _ _ h.I hv e1]
        refine congrArg _ (P.ext _ _ (fun k' => ?_) ?_)
        · by_cases ek : k' = k
          · subst ek; rw [P.get_same, a1.state _ _ h.I hv e1]
          · rw [a1.other _ hv _ ek, P.get_other _ _ _ _ ek, P.get_other _ _ _ _ ek]
        · rw [a1.glob v hv, P.glob_set, P.glob_set]
    · let v := P.set k (P.get k κ.st) κc.st
      have hv : P.I v := P.I_set h.Ic (h.I.1 k)
      have e1 : P.get k κ.st = P.get k v := (P.get_same ..).symm
      have e0 : P.glob κ.st = P.glob v := h.glob.trans (P.glob_set ..).symm
      have ev : m κc.st = (κ1 v).seq (f v) := h2 _ h.Ic rfl
      rw [← a1.cont _ _ h.I hv e1 e0] at ev
      obtain ⟨es1, es2⟩ := a1.state _ _ h.I hv e1 e0
      have hq' := a2 _ h.I
      obtain ⟨b, f1, f2, f3, f4⟩ := hq'.frame (a1.I hv)
      rw [← ev] at f1 f2 f3 f4
      have hx' := blk_step hx h.Ic h6 hcc (b := b) (t' := (m κc.st).2) (by rw [← f1])
      refine ⟨upd busy i (some k), _, by simpa using hx', ?_⟩
      refine h.stepAct i (c := c) (s' := f κ.st) (t' := (m κc.st).2) (b' := some k) (p := κ1 κ.st >>= g) (pc := g' b)
        (a1.I h.I) f2 ((f4 rfl).trans es2.symm).symm
        (.post k β (κ1 κ.st) g g' d b hq' (fun u hu e => ?_) h3 h4 h5)
        (fun j hj k' e => ?_) (fun k' hk hk' => ?_)
      · obtain ⟨c1, c2, _⟩ := hq'.cong hu (a1.I hv) (e.trans es1) nofun
        obtain ⟨_, g1, g2, g3, g4⟩ := hq'.frame hu
        rw [← ev] at c1 c2
        refine Prod.ext (c1.trans f1) (P.ext _ _ (fun k' => ?_) ?_)
        · by_cases ek : k' = k
          · subst ek; rw [P.get_same, c2]
          · rw [g3 _ ek, P.get_other _ _ _ _ ek]
        · rw [g4 rfl, P.glob_set]
      · have hne : k' ≠ k := fun e' => hal j hj (e' ▸ e)
        exact ⟨a1.other _ h.I _ hne, by rw [f3 _ hne, a1.other _ hv _ hne, P.get_other _ _ _ _ hne]⟩
      · have hne : k' ≠ k := fun e => hk (congrArg some e.symm)
        rw [a1.other _ h.I _ hne, f3 _ hne, a1.other _ hv _ hne, P.get_other _ _ _ _ hne]
        exact hreg k' hne hk'
  | acq l w κ1 =>
    replace ht : TStep sys κ i c (.acq l w (κ1.bind g)) e κ' := ht
    cases ht with
    | acq _ _ _ hcan =>
      refine ⟨busy, κc, by simpa using hx, ?_⟩
      rcases h1 with ⟨rfl, rfl, a⟩ | ⟨hl, a⟩
      · exact h.stepHeld i hcc (.pre k β m κ1 g g' (d + 1) fc kc a h2 h3 h6 (taken_own h4) h5.taken) hb.symm
          (mutex_taken h.mutex hcan)
      · exact h.stepHeld i hcc (.pre k β m κ1 g g' d fc kc a h2 h3 h6 ((taken_other hl k).trans h4)
          fun k' hk => (taken_other hl k').trans (h5 k' hk)) hb.symm (mutex_taken h.mutex hcan)
  | rel l w κ1 =>
    replace ht : TStep sys κ i c (.rel l w (κ1.bind g)) e κ' := ht
    cases ht with
    | rel _ _ _ =>
      refine ⟨busy, κc, by simpa using hx, ?_⟩
      rcases h1 with ⟨rfl, d', rfl, a⟩ | ⟨hl, a⟩
      · exact h.stepHeld i hcc (.pre k β m κ1 g g' d' fc kc a h2 h3 h6 (given_own h4) h5.given) hb.symm (mutex_given h.mutex)
      · exact h.stepHeld i hcc (.pre k β m κ1 g g' d fc kc a h2 h3 h6 ((given_other hl k).trans h4)
          fun k' hk => (given_other hl k').trans (h5 k' hk)) hb.symm (mutex_given h.mutex)

theorem upd_of_eq {α : Type} (f : Nat → α) {i : Nat} {x : α} (h : f i = x) : upd f i x = f := by subst h; exact upd_self f i

/-- A step between blocks. -/
theorem ref_step [DecidableEq K] {hk : Option K} {p pc : Prog σ L (R × O)} (hr : Ref P hk p pc) {busy : Nat → Option K}
    {κ κc κ' : Conf σ L O C R} (h : CRel P busy κ κc) (hx : Exec sysC κ0 tr κc) {i : Nat} {c : C} (hb : busy i = none)
    (hc : κ.cur i = some (c, p)) (hcc : κc.cur i = some (c, pc))
    (hl : ∀ k, κ.held i (P.lock k) = if some k = hk then [true] else [])
    {e : Option (Ev C R)} (ht : TStep sys κ i c p e κ') : Follows P sysC κ0 tr e κ' := by
  have mk : ∀ {s t : σ} {held : L → List Bool} {hk : Option K} {p pc : Prog σ L (R × O)}, Ref P hk p pc →
      (∀ k, held (P.lock k) = if some k = hk then [true] else []) → TSim P s t held none p pc := by
    intro s t held hk p pc hr hl
    cases hk with
    | none => exact .free _ _ hr fun k => by simpa using hl k
    | some k => exact .sec k _ _ hr (by simpa using hl k) fun k' hne => by simpa [hne] using hl k'
  induction hr generalizing busy κ κc with
  | ret x =>
    obtain ⟨r, o⟩ := x
    cases ht
    refine ⟨busy, _, .snoc _ _ _ _ _ hx (.ret κc i c r o hcc), ?_⟩
    have := h.step i (s' := κ.st) (t' := κc.st) (held' := κ.held i) (b' := none) o h.I h.Ic h.glob
      (.idle fun k => by simpa using hl k) (fun _ _ _ _ => ⟨rfl, rfl⟩)
      (fun l j hj => ⟨fun x => h.mutex l i j hj x, fun x => h.mutex l j i (Ne.symm hj) x⟩)
      (fun k _ hk => h.regions k fun j => by
        by_cases ej : j = i
        · subst ej; rw [hb]; nofun
        · exact hk j ej)
    rw [upd_of_eq _ hb, upd_self] at this
    exact this
  | raise _ => nomatch ht
  | glob f κ1 κ2 hf hκ hr ih =>
    cases ht
    have hxx := Exec.snoc _ _ _ _ _ hx (Step.act κc i c f κ2 hcc)
    refine ⟨upd busy i none, _, hxx, ?_⟩
    have e0 : κ2 κc.st = κ2 κ.st := hκ _ _ h.Ic h.I h.glob.symm
    rw [e0]
    exact h.stepAct i (b' := none) (hf.I h.I) (hf.I h.Ic) (hf.state _ _ h.I h.Ic h.glob) (mk (hr _ h.I) hl)
      (fun j _ k _ => ⟨hf.regions _ h.I k, hf.regions _ h.Ic k⟩)
      (fun k _ hk => by
        rw [hf.regions _ h.I k, hf.regions _ h.Ic k]
        exact h.regions k fun j => by
          by_cases ej : j = i
          · subst ej; rw [hb]; nofun
          · exact hk j ej)
  | still hk f κ1 p1 c1 hs hr ih =>
    cases ht
    obtain ⟨e1, e2⟩ := hs _ h.I
    rw [e1, e2]
    refine ⟨upd busy i none, κc, by simpa using hx, ?_⟩
    have := h.stepAct i (s' := κ.st) (t' := κc.st) (c := c) (b' := none) h.I h.Ic h.glob (mk hr hl)
      (fun j _ k _ => ⟨rfl, rfl⟩)
      (fun k _ hk => h.regions k fun j => by
        by_cases ej : j = i
        · subst ej; rw [hb]; nofun
        · exact hk j ej)
    rw [← hcc, upd_self] at this
    exact this
  | acqOther hk l w p1 c1 hne hr ih =>
    cases ht with
    | acq _ _ _ hcan =>
      exact ⟨busy, κc, by simpa using hx, h.stepHeld i hcc (mk hr fun k => (taken_other hne k).trans (hl k)) hb.symm
        (mutex_taken h.mutex hcan)⟩
  | relOther hk l w p1 c1 hne hr ih =>
    cases ht with
    | rel _ _ _ =>
      exact ⟨busy, κc, by simpa using hx, h.stepHeld i hcc (mk hr fun k => (given_other hne k).trans (hl k)) hb.symm
        (mutex_given h.mutex)⟩
  | acq k p1 c1 hr ih =>
    cases ht with
    | acq _ _ _ hcan =>
      refine ⟨busy, κc, by simpa using hx, h.stepHeld i hcc (mk hr fun k' => ?_) hb.symm (mutex_taken h.mutex hcan)⟩
      have hl0 : ∀ k, κ.held i (P.lock k) = [] := fun k => by simpa using hl k
      by_cases e : k' = k
      · subst e; simp [taken, hl0]
      · have : P.lock k' ≠ P.lock k := fun e' => e (P.lock_inj _ _ e')
        simp [taken, this, hl0, e]
  | rel k w p1 c1 hr ih =>
    cases ht with
    | rel _ _ _ =>
      refine ⟨busy, κc, by simpa using hx, h.stepHeld i hcc (mk hr fun k' => ?_) hb.symm (mutex_given h.mutex)⟩
      by_cases e : k' = k
      · subst e; simp [given, hl]
      · have : P.lock k' ≠ P.lock k := fun e' => e (P.lock_inj _ _ e')
        simp [given, this, hl, e]
  | block k β q g g' fc kc hq hg ha _ ih =>
    have hown : κ.held i (P.lock k) = [true] := by simpa using hl k
    have hoth : NoOther P k (κ.held i) := fun k' hne => by simpa [hne] using hl k'
    have hclean : P.get k κ.st = P.get k κc.st := h.regions k fun j => by
      by_cases ej : j = i
      · subst ej; rw [hb]; nofun
      · exact h.alone (i := i) (by rw [hown]; simp) ej
    by_cases hret : ∃ b, q = .ret b
    · obtain ⟨b, rfl⟩ := hret
      have hx' := blk_step hx h.Ic ha hcc (b := b) (t' := κc.st) rfl
      refine ih b (busy := upd busy i none) (κ := κ)
        (h.change i (t' := κc.st) hc h.Ic h.glob (mk (hg b) hl) (fun _ _ _ _ => rfl) (fun k' _ hk' => h.regions k' fun j => ?_))
        hx' (by simp) hc (by simp) hl ht
      by_cases ej : j = i
      · subst ej; rw [hb]; nofun
      · exact hk' j ej
    · have hset : ∀ u, P.get k u = P.get k κ.st → P.set k (P.get k κ.st) u = u := fun u hu => by
        refine P.ext _ _ (fun k' => ?_) (P.glob_set ..)
        by_cases ek : k' = k
        · subst ek; rw [P.get_same, hu]
        · exact P.get_other _ _ _ _ ek
      have h2 : ∀ u, P.I u → P.get k u = P.get k κc.st → q.seq u = q.seq (P.set k (P.get k κ.st) u) := fun u _ hu => by
        rw [hset u (hu.trans hclean.symm)]
      have h' : CRel P (upd busy i (some k)) κ κc := by
        have := h.change i (t' := κc.st) (b' := some k) hc h.Ic h.glob
          (.pre k β q.seq q g g' 0 fc kc hq h2 hg ha hown hoth) (fun _ _ _ _ => rfl) (fun k' _ hk' => h.regions k' fun j => by
            by_cases ej : j = i
            · subst ej; rw [hb]; nofun
            · exact hk' j ej)
        rw [← hcc, upd_self] at this
        exact this
      exact pre_step h' hx (by simp) hcc hq h2 hg ha hown hoth (fun b e => hret ⟨b, e⟩) ht

/-- A step of a running call. -/
theorem run_step [DecidableEq K] {busy : Nat → Option K} {κ κc κ' : Conf σ L O C R} (h : CRel P busy κ κc)
    (hx : Exec sysC κ0 tr κc) {i : Nat} {c : C} {p : Prog σ L (R × O)} (hc : κ.cur i = some (c, p))
    {e : Option (Ev C R)} (ht : TStep sys κ i c p e κ') : Follows P sysC κ0 tr e κ' := by
  have hsim := h.sim i
  generalize hb : busy i = bi at hsim
  generalize hcc : κc.cur i = y at hsim
  rw [hc] at hsim
  cases hsim with
  | run _ _ _ pc hs =>
    cases hs with
    | free _ _ h1 h2 => exact ref_step h1 h hx hb hc hcc (fun k => by simpa using h2 k) ht
    | sec k _ _ h1 h2 h3 =>
      refine ref_step h1 h hx hb hc hcc (fun k' => ?_) ht
      by_cases ek : k' = k
      · subst ek; simpa using h2
      · simpa [ek] using h3 k' ek
    | pre k β m q g g' d fc kc h1 h2 h3 h6 h4 h5 =>
      by_cases hret : ∃ b, q = .ret b
      · obtain ⟨b, rfl⟩ := hret
        cases (h1 : d = 0)
        have hl : ∀ k', κ.held i (P.lock k') = if some k' = some k then [true] else [] := fun k' => by
          by_cases ek : k' = k
          · subst ek; simpa using h4
          · simpa [ek] using h5 k' ek
        have hal : ∀ j, j ≠ i → busy j ≠ some k := fun j hj => h.alone (by rw [h4]; simp) hj
        have ev : m κc.st = (.ok b, P.set k (P.get k κ.st) κc.st) := h2 _ h.Ic rfl
        have hx' := blk_step hx h.Ic h6 hcc ev
        refine ref_step (h3 b) (busy := upd busy i none) (h.change i hc (P.I_set h.Ic (h.I.1 k)) (h.glob.trans (P.glob_set ..).symm)
          (.sec k _ _ (h3 b) h4 h5) (fun j hj k' e => ?_) (fun k' _ hk' => ?_)) hx' (by simp) hc (by simp) hl ht
        · exact P.get_other _ _ _ _ fun e' => hal j hj (e' ▸ e)
        · by_cases ek : k' = k
          · subst ek; rw [P.get_same]
          · rw [P.get_other _ _ _ _ ek]
            refine h.regions k' fun j e => ?_
            by_cases ej : j = i
            · rw [ej, hb] at e; exact ek (Option.some.inj e).symm
            · exact hk' j ej e
      · exact pre_step h hx hb hcc h1 h2 h3 h6 h4 h5 (fun b e => hret ⟨b, e⟩) ht
    | post k β q g g' d b h1 h2 h3 h4 h5 =>
      by_cases hret : ∃ b, q = .ret b
      · obtain ⟨b', rfl⟩ := hret
        cases (h1 : d = 0)
        have hl : ∀ k', κ.held i (P.lock k') = if some k' = some k then [true] else [] := fun k' => by
          by_cases ek : k' = k
          · subst ek; simpa using h4
          · simpa [ek] using h5 k' ek
        have ev : (Except.ok b', κ.st) = ((.ok b : Except Exc β), P.set k (P.get k κc.st) κ.st) := h2 _ h.I rfl
        obtain rfl : b' = b := Except.ok.inj (congrArg Prod.fst ev)
        have es : P.get k κ.st = P.get k κc.st := by
          have := congrArg (P.get k) (congrArg Prod.snd ev)
          rwa [P.get_same] at this
        have h' : CRel P (upd busy i none) κ κc := by
          have := h.change i (t' := κc.st) (b' := none) hc h.Ic h.glob
            (.sec k _ _ (h3 b') h4 h5) (fun _ _ _ _ => rfl) (fun k' _ hk' => by
              by_cases ek : k' = k
              · subst ek; exact es
              · refine h.regions k' fun j e => ?_
                by_cases ej : j = i
                · rw [ej, hb] at e; exact ek (Option.some.inj e).symm
                · exact hk' j ej e)
          rw [← hcc, upd_self] at this
          exact this
        exact ref_step (h3 b') h' hx (by simp) hc hcc hl ht
      · exact post_step h hx hb hcc h1 h2 h3 h4 h5 (fun b e => hret ⟨b, e⟩) ht

/-- Every execution can be observed as one in which the blocks are single steps. -/
theorem coarse_exec [DecidableEq K] (P : Regions σ L K) {sys sysC : Sys σ L O C R}
    (hcall : ∀ i o c, sys.ok i c → Ref P none (sys.call i o c) (sysC.call i o c)) (hok : ∀ i c, sys.ok i c → sysC.ok i c)
    {s : σ} {obj : Nat → O} (hI : P.I s) {tr : List (Ev C R)} {κ : Conf σ L O C R} (hx : Exec sys (init s obj) tr κ) :
    ∃ busy κc, Exec sysC (init s obj) tr κc ∧ CRel P busy κ κc := by
  generalize h0 : init s obj = κ0 at hx
  induction hx with
  | nil =>
    subst h0
    exact ⟨fun _ => none, _, .nil _, hI, hI, rfl, rfl, fun _ => .idle fun _ => rfl, fun _ _ _ _ h => (List.not_mem_nil h).elim,
      fun _ _ => rfl⟩
  | snoc κ' κ'' tr e hx hs ih =>
    obtain ⟨busy, κc, hxc, h⟩ := ih
    rcases hs.cases' with ⟨i, c, h1, h2, rfl, rfl⟩ | ⟨i, c, p, h1, h2⟩
    · have hsim := h.sim i
      generalize hb : busy i = bi at hsim
      generalize hcc : κc.cur i = y at hsim
      rw [h1] at hsim
      cases hsim with
      | idle hl =>
        refine ⟨upd busy i none, _, .snoc _ _ _ _ _ hxc (.inv κc i c hcc (hok i c h2)), ?_⟩
        have hr : Ref P none (sys.call i (κ'.obj i) c) (sysC.call i (κc.obj i) c) := by
          rw [← h.obj]; exact hcall i _ c h2
        exact h.stepAct i (b' := none) h.I h.Ic h.glob (.free _ _ hr hl) (fun _ _ _ _ => ⟨rfl, rfl⟩)
          fun k _ hk => h.regions k fun j => by
            by_cases ej : j = i
            · subst ej; rw [hb]; nofun
            · exact hk j ej
    · exact run_step h hxc h1 h2

omit [DecidableEq L] in
/-- When nobody works on anything, the two states are the same. -/
theorem CRel.idle {busy : Nat → Option K} {κ κc : Conf σ L O C R} (h : CRel P busy κ κc) (hi : ∀ i, κ.cur i = none) :
    κ.st = κc.st ∧ ∀ i, κc.cur i = none := by
  have key : ∀ i, busy i = none ∧ κc.cur i = none := fun i => by
    have hsim := h.sim i
    rw [hi i] at hsim
    generalize busy i = bi at hsim
    generalize κc.cur i = y at hsim
    cases hsim
    exact ⟨rfl, rfl⟩
  exact ⟨P.ext _ _ (fun k => h.regions k fun i => by rw [(key i).1]; nofun) h.glob, fun i => (key i).2⟩

end Sim

end SyncStream.Conc
