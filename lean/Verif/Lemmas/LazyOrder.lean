import Verif.Lemmas.Deadlock
import Verif.Spec.LazyThreads
/-!
# The order in which lazy modules are locked

If modules use one another without cycles, locks are taken in ascending order.
-/

namespace SyncStream.LazyThreads
open Prog Conc Spec
variable {α β : Type}

/-- Dependencies are only removed. -/
def depRules (rank : Nat → Nat) : Rules LTWorld Nat where
  G s t := ∀ i, ∀ d ∈ (t.objs i).deps, d ∈ (s.objs i).deps
  J s := ∀ i, ∀ d ∈ (s.objs i).deps, d = i ∨ rank i < rank d
  lt i j := rank i < rank j
  refl _ _ _ := id
  trans h h' i d hd := h i d (h' i d hd)
  keep h hJ i d hd := hJ i d (h i d hd)
  ltTrans := Nat.lt_trans
  ltIrrefl _ := Nat.lt_irrefl _

variable {rank : Nat → Nat}

/-- A thread that holds `H` may take the lock of `i`. -/
def Fits (rank : Nat → Nat) (H : List (Nat × Bool)) (i : Nat) : Prop := ∀ x ∈ H, x.2 = true ∧ (rank x.1 < rank i ∨ x.1 = i)

theorem Fits.next {H : List (Nat × Bool)} {i j : Nat} (h : Fits rank H i) (hj : j = i ∨ rank i < rank j) : Fits rank H j := fun x hx => by
  rcases hj with rfl | hj
  · exact h x hx
  · refine ⟨(h x hx).1, .inl ?_⟩
    rcases (h x hx).2 with e | e
    · exact Nat.lt_trans e hj
    · rw [e]; exact hj

theorem Fits.push {H : List (Nat × Bool)} {i : Nat} (h : Fits rank H i) : Fits rank ((i, true) :: H) i := fun x hx => by
  rcases List.mem_cons.mp hx with rfl | hx
  · exact ⟨rfl, .inr rfl⟩
  · exact h x hx

/-- The program takes locks in order. -/
def Fit (rank : Nat → Nat) (H : List (Nat × Bool)) (p : LTProg α) : Prop :=
  ∀ s, (depRules rank).J s → Rising (fun _ => True) (depRules rank) (fun _ _ => True) H s H p

variable {H : List (Nat × Bool)}

theorem Fit.ret (a : α) : Fit rank H (Prog.ret a : LTProg α) := fun _ _ => ⟨rfl, trivial⟩
theorem Fit.raise (e : Exc) : Fit rank H (Prog.raise e : LTProg α) := fun _ _ => rfl

theorem Fit.bind {p : LTProg α} {f : α → LTProg β} (hp : Fit rank H p) (hf : ∀ a, Fit rank H (f a)) : Fit rank H (p >>= f) :=
  fun s hs => Rising.bind hs (hp s hs) fun a t _ ht _ => hf a t ht

theorem Fit.outcome {p : LTProg α} (hp : Fit rank H p) : Fit rank H p.outcome := fun s hs => (hp s hs).outcome

theorem Fit.ite {c : Prop} [Decidable c] {p q : LTProg α} (hp : Fit rank H p) (hq : Fit rank H q) : Fit rank H (if c then p else q) := by
  split
  · exact hp
  · exact hq

theorem Fit.atom {m : Py LTWorld α} (hm : ∀ s i, ∀ d ∈ ((m s).2.objs i).deps, d ∈ (s.objs i).deps) : Fit rank H (Prog.atom m : LTProg α) :=
  fun _ _ t _ _ => ⟨hm t, by
    dsimp only
    split
    · exact ⟨rfl, trivial⟩
    · exact rfl⟩

theorem fit_gets (f : LTWorld → α) : Fit rank H (gets f) := .atom fun _ _ _ => id

theorem fit_setObj (i : Nat) (f : LTMod → LTMod) (hf : ∀ m, ∀ d ∈ (f m).deps, d ∈ m.deps) : Fit rank H (setObj i f) :=
  .atom fun s j d => by
    show d ∈ (if j = i then f (s.objs j) else s.objs j).deps → _
    split
    · exact hf _ d
    · exact id

theorem Fit.withLock {p : LTProg α} {i : Nat} (hi : Fits rank H i) (hp : Fit rank ((i, true) :: H) p) :
    Fit rank H (Prog.withLock i true p) := fun s hs =>
  Rising.withLock (by
    by_cases h : (i, true) ∈ H
    · exact .inr ⟨trivial, h⟩
    · exact .inl fun x hx => (hi x hx).2.resolve_right fun e => h (by
        have : x = (i, true) := Prod.ext e (hi x hx).1
        exact this ▸ hx)) (hp s hs)

variable {env : LTEnv} {self : Job → LTProg Unit}

/-- The job takes locks that may be taken. -/
def JobFits (rank : Nat → Nat) (H : List (Nat × Bool)) : Job → Prop
  | .get i _ => Fits rank H i
  | .force i => Fits rank H i
  | .acts l => ∀ u t, (u, t) ∈ l → ∀ j, Concerns j u → Fits rank H j

/-- The jobs of `self` take locks in order. -/
def Rises (rank : Nat → Nat) (self : Job → LTProg Unit) : Prop := ∀ H j, JobFits rank H j → Fit rank H (self j)

/-- The code of the modules uses later modules. -/
def CodeFits (rank : Nat → Nat) (env : LTEnv) : Prop := ∀ i u t, (u, t) ∈ env.code i → ∀ j, Concerns j u → j = i ∨ rank i < rank j

theorem fit_lookup (i : Nat) (attr : PyStr) : Fit rank H (lookup env i attr) := .atom fun s j d => by
  split <;> exact id

theorem fit_exec (hc : CodeFits rank env) (hs : Rises rank self) {i : Nat} (hi : Fits rank H i) : Fit rank H (exec env self i) := by
  refine Fit.bind (.atom fun _ _ _ => id) fun _ => Fit.bind (.outcome (hs H _ fun u t hu j hj => hi.next (hc i u t hu j hj))) fun r => ?_
  cases r with
  | ok a => exact .atom fun _ _ _ => id
  | error e => exact Fit.bind (p := modify _) (.atom fun _ _ _ => id) fun _ => .raise e

theorem fit_impGet (hc : CodeFits rank env) (hs : Rises rank self) {i : Nat} (hi : Fits rank H i) (attr : PyStr) :
    Fit rank H (impGet env self i attr) := by
  unfold impGet
  split
  · refine Fit.bind (.withLock hi ?_) fun _ => .ite (.ret _) (hs H _ hi)
    refine Fit.bind (fit_gets _) fun _ => .ite (Fit.bind (fit_gets _) fun _ => .ite (Fit.bind (fit_lookup i attr) fun _ => .ret _) ?_) (.ret _)
    exact Fit.bind (fit_setObj i _ fun _ _ => id) fun _ => Fit.bind (fit_exec hc hs hi.push) fun _ => Fit.bind (fit_setObj i _ fun _ _ => id) fun _ => .ret _
  · exact Fit.bind (fit_setObj i _ fun _ _ => id) fun _ => Fit.bind (fit_exec hc hs hi) fun _ => hs H _ hi

theorem fit_classOf (hs : Rises rank self) {i : Nat} (hi : Fits rank H i) : Fit rank H (classOf self i) :=
  Fit.bind (fit_gets _) fun _ => .ite (Fit.bind (hs H _ hi) fun _ => fit_gets _) (.ret _)

theorem fit_loadEach (hs : Rises rank self) (l : List Nat) (hl : ∀ d ∈ l, Fits rank H d) : Fit rank H (loadEach self l) := by
  induction l with
  | nil => exact .ret _
  | cons d ds ih =>
    have hd := hl d (.head _)
    have ih := ih fun d hd => hl d (.tail _ hd)
    exact Fit.bind (fit_classOf hs hd) fun _ => .ite (Fit.bind (hs H _ hd) fun _ => ih) ih

theorem fit_loadDeps (hs : Rises rank self) {i : Nat} (hi : Fits rank H i) : Fit rank H (loadDeps self i) := by
  intro s hJ
  refine Rising.bind (Q := fun l _ => ∀ d ∈ l, d = i ∨ rank i < rank d) hJ (fun t _ ht => ⟨fun _ _ => id, rfl, ht i⟩) fun l t _ ht hl => ?_
  exact Fit.bind (fit_loadEach hs l fun d hd => hi.next (hl d hd)) (fun _ => fit_setObj i (fun m => { m with deps := [] }) fun _ _ h => (nomatch h)) t ht

theorem fit_findLoadDeps (i : Nat) : Fit rank H (findLoadDeps i) := .atom fun s j d => by
  split <;> exact id

theorem fit_forceLoad (hc : CodeFits rank env) (hs : Rises rank self) {i : Nat} (hi : Fits rank H i) : Fit rank H (forceLoad env self i) :=
  Fit.bind (fit_findLoadDeps i) fun _ => Fit.bind (fit_loadDeps hs hi) fun _ => fit_impGet hc hs hi _

theorem fit_lazyGet (hc : CodeFits rank env) (hs : Rises rank self) {i : Nat} (hi : Fits rank H i) (attr : PyStr) :
    Fit rank H (lazyGet env self i attr) :=
  .ite (.raise _) (.ite (.ret _) (Fit.bind (fit_findLoadDeps i) fun _ => Fit.bind (fit_loadDeps hs hi) fun _ => Fit.bind (fit_classOf hs hi) fun _ =>
    .ite (fit_impGet hc hs hi _) (Fit.bind (fit_setObj i _ fun _ _ => id) fun _ => fit_impGet hc hs hi _)))

theorem fit_getattr (hc : CodeFits rank env) (hs : Rises rank self) {i : Nat} (hi : Fits rank H i) (attr : PyStr) :
    Fit rank H (getattr env self i attr) := by
  refine Fit.bind (fit_gets _) fun c => ?_
  cases c with
  | placeholder => exact .ite (.raise _) (.ite (.ret _) (.raise _))
  | lazy => exact fit_lazyGet hc hs hi attr
  | imp => exact fit_impGet hc hs hi attr
  | plain => exact fit_lookup i attr

theorem fit_callForce (hc : CodeFits rank env) (hs : Rises rank self) {i : Nat} (hi : Fits rank H i) : Fit rank H (callForce env self i) := by
  refine Fit.bind (fit_gets _) fun c => ?_
  cases c with
  | placeholder => exact .ret _
  | lazy => exact fit_forceLoad hc hs hi
  | imp => exact Fit.bind (p := self (.get i (lit "force_load"))) (hs H _ hi) fun _ => .raise _
  | plain => exact .raise _

theorem fit_acts (hs : Rises rank self) (l : List (LUse × Bool)) (hl : ∀ u t, (u, t) ∈ l → ∀ j, Concerns j u → Fits rank H j) :
    Fit rank H (acts self l) := by
  induction l with
  | nil => exact .ret _
  | cons b l ih =>
    obtain ⟨u, t⟩ := b
    have ih := ih fun u t h => hl u t (.tail _ h)
    have hu : Fit rank H (act self u) := by
      cases u with
      | get i attr => exact hs H _ (hl _ _ (.head _) i rfl)
      | force i => exact hs H _ (hl _ _ (.head _) i rfl)
      | raise e => exact .raise e
    cases t with
    | false => exact hu.bind fun _ => ih
    | true => exact hu.outcome.bind fun _ => ih

theorem rises_go (hc : CodeFits rank env) (n : Nat) : Rises rank (go env n) := by
  induction n with
  | zero => exact fun _ _ _ => .raise _
  | succ n ih =>
    intro H j hj
    cases j with
    | get i attr => exact fit_getattr hc ih hj attr
    | force i => exact fit_callForce hc ih hj
    | acts l => exact fit_acts ih l hj

theorem rising (hc : CodeFits rank env) (n : Nat) : RisingSys (lazyThreads env n) (depRules rank) := fun _ _ c _ s hs =>
  ⟨Fit.bind (.outcome (rises_go hc n [] (.acts c) fun _ _ _ _ _ _ hx => nomatch hx)) (fun _ => .ret _) s hs,
    (noRaise_outcome _).bind fun _ => trivial⟩

end SyncStream.LazyThreads
