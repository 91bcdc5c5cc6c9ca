import Verif.Spec.LazyAttrThreads
import Verif.Lemmas.Rely
import Verif.Lemmas.LazyThreads
import Verif.Lemmas.LazyOrder
import Verif.Lemmas.LazyAlone
import Verif.Lemmas.HostThreads
/-!
# Lazy attributes used by several threads
-/

namespace SyncStream

namespace Prog
variable {σ τ L K α : Type} [DecidableEq L]

/-- A program that works on a part of the state. -/
theorem Minds.onPart {P : LockProtocol σ L K} {P' : LockProtocol τ L K} {get : τ → σ} {set : σ → τ → τ}
    (hOk : ∀ x h t, P'.Ok x h t → P.Ok x h (get t)) (hT : ∀ x h t s y, P'.Ok x h t → P.T x h (get t) s y → P'.T x h t (set s t) y)
    (hrel : ∀ x h h', (∀ s, P.Ok x h s → P.Ok x h' s) → ∀ t, P'.Ok x h t → P'.Ok x h' t)
    {Q : Except Exc α → K → (L → List Bool) → Prop} {p : Prog σ L α} {x : K} {h : L → List Bool} (hp : p.Minds P Q x h) :
    (p.onPart get set id).Minds P' Q x h := by
  induction p generalizing x h with
  | ret a => exact hp
  | raise e => exact hp
  | act f k ih =>
    intro t ht
    obtain ⟨y, h1, h2⟩ := hp _ (hOk x h t ht)
    exact ⟨y, hT _ _ _ _ _ ht h1, ih _ h2⟩
  | acq l w k ih => exact ih hp
  | rel l w k ih => exact ⟨hrel _ _ _ hp.1, ih hp.2⟩

omit [DecidableEq L] in
theorem Rising.onPart {re : L → Prop} {W : Rules σ L} {W' : Rules τ L} {get : τ → σ} {set : σ → τ → τ}
    (hG : ∀ s t, W'.G s t → W.G (get s) (get t)) (hJ : ∀ t, W'.J t → W.J (get t)) (hset : ∀ s t, W.G (get t) s → W'.G t (set s t))
    (hlt : ∀ a b, W.lt a b → W'.lt a b) (hgs : ∀ s t, get (set s t) = s)
    {E H : List (L × Bool)} {s : τ} {p : Prog σ L α} (hp : Rising re W (fun _ _ => True) E (get s) H p) :
    Rising re W' (fun _ _ => True) E s H (p.onPart get set id) := by
  induction p generalizing s H with
  | ret a => exact hp
  | raise e => exact hp
  | act f k ih =>
    intro t ht hJt
    obtain ⟨h1, h2⟩ := hp _ (hG _ _ ht) (hJ _ hJt)
    exact ⟨hset _ _ h1, ih _ (by rw [hgs]; exact h2)⟩
  | acq l w k ih => exact ⟨hp.1.imp_left fun h x hx => hlt _ _ (h x hx), ih hp.2⟩
  | rel l w k ih =>
    obtain ⟨H', h1, h2⟩ := hp
    exact ⟨H', h1, ih h2⟩

/-- However the program comes to its end, this holds of its result. -/
def Gives (φ : Except Exc α → Prop) : Prog σ L α → Prop
  | ret a => φ (.ok a)
  | raise e => φ (.error e)
  | act _ k => ∀ s, (k s).Gives φ
  | acq _ _ k => k.Gives φ
  | rel _ _ k => k.Gives φ

omit [DecidableEq L] in
theorem Gives.any {φ : Except Exc α → Prop} (h : ∀ r, φ r) (p : Prog σ L α) : p.Gives φ := by
  induction p with
  | ret | raise => exact h _
  | act f k ih => exact ih
  | acq l w k ih => exact ih
  | rel l w k ih => exact ih

omit [DecidableEq L] in
theorem Gives.bind {β : Type} {φ : Except Exc α → Prop} {ψ : Except Exc β → Prop} {p : Prog σ L α} {g : α → Prog σ L β} (hp : p.Gives φ)
    (hg : ∀ a, φ (.ok a) → (g a).Gives ψ) (he : ∀ e, φ (.error e) → ψ (.error e)) : (p >>= g).Gives ψ := by
  change (p.bind g).Gives ψ
  induction p with
  | ret a => exact hg a hp
  | raise e => exact he e hp
  | act f k ih => exact fun s => ih s (hp s)
  | acq l w k ih => exact ih hp
  | rel l w k ih => exact ih hp

omit [DecidableEq L] in
theorem Gives.andRelease {φ : Except Exc α → Prop} {l : L} {w : Bool} {p : Prog σ L α} (hp : p.Gives φ) : (p.andRelease l w).Gives φ := by
  induction p with
  | ret | raise => exact hp
  | act f k ih => exact fun s => ih s (hp s)
  | acq l w k ih => exact ih hp
  | rel l w k ih => exact ih hp

omit [DecidableEq L] in
theorem Gives.onPart {φ : Except Exc α → Prop} {get : τ → σ} {set : σ → τ → τ} {p : Prog σ L α} (hp : p.Gives φ) :
    (p.onPart get set (id : L → L)).Gives φ := by
  induction p with
  | ret | raise => exact hp
  | act f k ih => exact fun s => ih _ (hp _)
  | acq l w k ih => exact ih hp
  | rel l w k ih => exact ih hp

omit [DecidableEq L] in
theorem Safe.gives {G : σ → σ → Prop} {Q : Except Exc α → σ → Prop} {φ : Except Exc α → Prop} {p : Prog σ L α} {s : σ} (h : p.Safe G Q s)
    (hp : p.Gives φ) : p.Safe G (fun r t => Q r t ∧ φ r) s := by
  induction p generalizing s with
  | ret | raise => exact fun t ht => ⟨h t ht, hp⟩
  | act f k ih => exact fun t ht => ⟨(h t ht).1, ih t (h t ht).2 (hp t)⟩
  | acq l w k ih => exact ih h hp
  | rel l w k ih => exact ih h hp

end Prog

namespace LazyThreads
open Prog Spec
variable {env : LTEnv}

theorem gives_lookup (i : Nat) (attr : PyStr) : (lookup env i attr).Gives fun r => r = .ok () → ModuleHas env i attr := by
  intro w
  dsimp only
  split
  · rename_i h
    split at h
    · rename_i hh
      intro _
      simp only [has, Bool.or_eq_true, Bool.and_eq_true] at hh
      rcases hh with (hh | hh) | hh
      · exact .inl hh
      · exact .inr (.inl hh.1)
      · exact .inr (.inr hh.1)
    · cases h
  · exact fun h => nomatch h

/-- An access succeeds only if the module has the attribute. -/
theorem gives_get (n i : Nat) (attr : PyStr) : (go env n (.get i attr)).Gives fun r => r = .ok () → ModuleHas env i attr := by
  induction n generalizing i attr with
  | zero => exact fun h => nomatch h
  | succ n ih =>
    have imp : (impGet env (go env n) i attr).Gives fun r => r = .ok () → ModuleHas env i attr := by
      unfold impGet
      split
      · refine Gives.bind (φ := fun r => r = .ok true → ModuleHas env i attr) (Gives.andRelease ?_) (fun done h => ?_) (fun e _ h => nomatch h)
        · refine Gives.bind (Gives.any (φ := fun _ => True) (fun _ => trivial) _) (fun c _ => ?_) (fun e _ h => nomatch h)
          split
          · refine Gives.bind (Gives.any (φ := fun _ => True) (fun _ => trivial) _) (fun l _ => ?_) (fun e _ h => nomatch h)
            split
            · exact Gives.bind (gives_lookup i attr) (fun _ h _ => h rfl) (fun e _ h => nomatch h)
            · refine Gives.bind (Gives.any (φ := fun _ => True) (fun _ => trivial) _) (fun _ _ => ?_) (fun e _ h => nomatch h)
              refine Gives.bind (Gives.any (φ := fun _ => True) (fun _ => trivial) _) (fun _ _ => ?_) (fun e _ h => nomatch h)
              exact Gives.bind (Gives.any (φ := fun _ => True) (fun _ => trivial) _) (fun _ _ h => nomatch h) (fun e _ h => nomatch h)
          · exact fun h => nomatch h
        · cases done with
          | true => exact fun _ => h rfl
          | false => exact ih i attr
      · refine Gives.bind (Gives.any (φ := fun _ => True) (fun _ => trivial) _) (fun _ _ => ?_) (fun e _ h => nomatch h)
        exact Gives.bind (Gives.any (φ := fun _ => True) (fun _ => trivial) _) (fun _ _ => ih i attr) (fun e _ h => nomatch h)
    refine Gives.bind (Gives.any (φ := fun _ => True) (fun _ => trivial) _) (fun c _ => ?_) (fun e _ h => nomatch h)
    cases c with
    | placeholder =>
      dsimp only [placeholderGet]
      split
      · exact fun h => nomatch h
      · split
        · rename_i h; exact fun _ => .inl h
        · exact fun h => nomatch h
    | lazy =>
      dsimp only [lazyGet]
      split
      · exact fun h => nomatch h
      · split
        · rename_i h
          exact fun _ => .inl (Bool.and_eq_true _ _ ▸ h).2
        · refine Gives.bind (Gives.any (φ := fun _ => True) (fun _ => trivial) _) (fun _ _ => ?_) (fun e _ h => nomatch h)
          refine Gives.bind (Gives.any (φ := fun _ => True) (fun _ => trivial) _) (fun _ _ => ?_) (fun e _ h => nomatch h)
          refine Gives.bind (Gives.any (φ := fun _ => True) (fun _ => trivial) _) (fun c _ => ?_) (fun e _ h => nomatch h)
          split
          · exact imp
          · exact Gives.bind (Gives.any (φ := fun _ => True) (fun _ => trivial) _) (fun _ _ => imp) (fun e _ h => nomatch h)
    | imp => exact imp
    | plain => exact gives_lookup i attr

end LazyThreads

namespace LazyAttrThreads
open Prog Conc Spec
variable {α β : Type} {env : ATEnv} {w0 : ATWorld}

/-- The module of the lazy attribute has it. -/
def Real (env : ATEnv) (a : Nat) : Prop := ModuleHas env.mods (env.attrs a).mobj (env.attrs a).attr

/-! ## What holds with all versions of Python -/

/-- Objects are kept and names are replaced only by the objects they stand for. -/
structure Good (env : ATEnv) (w0 s : ATWorld) : Prop where
  objs : ∀ a v, s.objs a = some v → env.target a = some v ∧ Real env a ∧ ∃ p, (env.attrs a).parent = some p ∧ Replaced env s p (env.attrs a).attr
  names : ∀ p x, s.ns p x = w0.ns p x ∨ Replaced env s p x

/-- What has been kept and replaced remains so. -/
structure Later (env : ATEnv) (w0 s t : ATWorld) : Prop where
  good : Good env w0 t
  objs : ∀ a v, s.objs a = some v → t.objs a = some v
  names : ∀ p x, Replaced env s p x → Replaced env t p x

/-- How the state changes. -/
def Goes (env : ATEnv) (w0 s t : ATWorld) : Prop := Good env w0 s → Later env w0 s t

theorem steady : Steady (Goes env w0) where
  refl _ hs := ⟨hs, fun _ _ => id, fun _ _ => id⟩
  trans h h' hs := by
    have h := h hs
    have h' := h' h.good
    exact ⟨h'.good, fun a v hv => h'.objs a v (h.objs a v hv), fun p x hx => h'.names p x (h.names p x hx)⟩

theorem goes_same {s t : ATWorld} (h1 : t.objs = s.objs) (h2 : t.ns = s.ns) : Goes env w0 s t := fun hs => by
  have hr : ∀ p x, Replaced env s p x → Replaced env t p x := fun p x h => by unfold Replaced; rw [h2]; exact h
  refine ⟨⟨fun a v hv => ?_, fun p x => ?_⟩, fun a v hv => by rw [h1]; exact hv, hr⟩
  · rw [h1] at hv
    obtain ⟨e, he, p, hp, h⟩ := hs.objs a v hv
    exact ⟨e, he, p, hp, hr _ _ h⟩
  · rw [h2]
    exact (hs.names p x).imp id (hr p x)

theorem replaced_of {s : ATWorld} {p : Nat} {x : PyStr} {v : Option Nat} (h : s.ns p x = some (.ofValue v)) (hv : IsTarget env p x v) :
    Replaced env s p x := by
  cases v with
  | none => exact .inr ⟨h, hv⟩
  | some v => exact .inl ⟨v, h, hv⟩

theorem goes_bind {a p : Nat} (hp : (env.attrs a).parent = some p) (ha : Real env a) (s : ATWorld) :
    Goes env w0 s { s with ns := fun q y => if q = p ∧ y = (env.attrs a).attr then some (.ofValue (env.target a)) else s.ns q y } ∧
    Replaced env { s with ns := fun q y => if q = p ∧ y = (env.attrs a).attr then some (.ofValue (env.target a)) else s.ns q y } p (env.attrs a).attr := by
  have h0 : Replaced env { s with ns := fun q y => if q = p ∧ y = (env.attrs a).attr then some (.ofValue (env.target a)) else s.ns q y } p (env.attrs a).attr :=
    replaced_of (if_pos ⟨rfl, rfl⟩) ⟨a, hp, rfl, rfl, ha⟩
  have hr : ∀ q y, Replaced env s q y →
      Replaced env { s with ns := fun q y => if q = p ∧ y = (env.attrs a).attr then some (.ofValue (env.target a)) else s.ns q y } q y := fun q y h => by
    by_cases e : q = p ∧ y = (env.attrs a).attr
    · obtain ⟨rfl, rfl⟩ := e; exact h0
    · unfold Replaced
      dsimp only
      rw [if_neg e]
      exact h
  refine ⟨fun hs => ⟨⟨fun b v hv => ?_, fun q y => ?_⟩, fun _ _ => id, hr⟩, h0⟩
  · obtain ⟨e, he, p, hp, h⟩ := hs.objs b v hv
    exact ⟨e, he, p, hp, hr _ _ h⟩
  · by_cases e : q = p ∧ y = (env.attrs a).attr
    · obtain ⟨rfl, rfl⟩ := e; exact .inr h0
    · dsimp only
      rw [if_neg e]
      exact (hs.names q y).imp id (hr q y)

theorem goes_keep {a p : Nat} (hp : (env.attrs a).parent = some p) (ha : Real env a) {s : ATWorld} (hr : Replaced env s p (env.attrs a).attr) :
    Goes env w0 s { s with objs := fun b => if b = a then env.target a else s.objs b } := fun hs => by
  refine ⟨⟨fun b v hv => ?_, hs.names⟩, fun b v hv => ?_, fun _ _ => id⟩
  · dsimp only at hv
    split at hv
    · rename_i e
      subst e
      exact ⟨hv, ha, p, hp, hr⟩
    · exact hs.objs b v hv
  · dsimp only
    split
    · rename_i e
      subst e
      exact (hs.objs b v hv).1
    · exact hv

theorem safe_guar (p : LTProg α) : (onMods p).Guar (Goes env w0) :=
  Guar.onPart (G := fun _ _ => True) (fun s t _ => goes_same (s := t) (t := { t with mods := s }) rfl rfl) (Guar.any (fun _ _ => trivial) p)

theorem safe_mods (p : LTProg α) {s : ATWorld} (hs : Good env w0 s) : (onMods p).Safe (Goes env w0) (fun _ t => Good env w0 t) s :=
  (Safe.of_guar steady (safe_guar p) s).mono
    fun _ _ g => (g hs).good

/-- What is known after the object of a lazy attribute has been found. -/
def Found (env : ATEnv) (w0 : ATWorld) (a : Nat) (v : Option Nat) (t : ATWorld) : Prop :=
  Good env w0 t ∧ (v = env.target a ∧ Real env a) ∧ (∀ u, v = some u → t.objs a = some u) ∧ ∃ p, (env.attrs a).parent = some p ∧ Replaced env t p (env.attrs a).attr

theorem Found.later {a : Nat} {v : Option Nat} {s t : ATWorld} (h : Found env w0 a v s) (g : Goes env w0 s t) : Found env w0 a v t := by
  obtain ⟨h1, h2, h3, p, h4, h5⟩ := h
  have g := g h1
  exact ⟨g.good, h2, fun u hu => g.objs _ _ (h3 u hu), p, h4, g.names _ _ h5⟩

theorem safe_loadAttr (n a : Nat) {s : ATWorld} (hs : Good env w0 s) :
    (loadAttr env n a).Safe (Goes env w0) (fun r t => Good env w0 t ∧ ∀ v, r = .ok v → Found env w0 a v t) s := by
  have err : ∀ e t, Good env w0 t → Good env w0 t ∧ ∀ v, (.error e : Except Exc (Option Nat)) = .ok v → Found env w0 a v t :=
    fun e t h => ⟨h, fun v h => nomatch h⟩
  refine Safe.bind steady (Q := fun r t => Good env w0 t ∧ ∀ v, r = .ok (some v) → Found env w0 a (some v) t)
    (Safe.atom fun t ht => ⟨goes_same rfl rfl, fun u hu => ?_⟩) (fun o t ht => ?_) (fun e t ht => err e t ht.1)
  · have h1 := (ht hs).good
    refine ⟨(hu h1).good, fun v hv => ?_⟩
    have hv : t.objs a = some v := Except.ok.inj hv
    obtain ⟨e, he, p, hp, hr⟩ := h1.objs a v hv
    exact Found.later ⟨h1, ⟨e.symm, he⟩, fun u hu => by cases hu; exact hv, p, hp, hr⟩ hu
  · cases o with
    | some v => exact fun u hu => ⟨(hu ht.1).good, fun w hw => by cases hw; exact (ht.2 v rfl).later hu⟩
    | none =>
      refine Safe.bind steady (safe_mods _ ht.1) (fun _ t ht => ?_) (fun e t ht => err e t ht)
      refine Safe.bind steady ((safe_mods _ ht).gives (Gives.onPart (LazyThreads.gives_get ..))) (fun _ t ht => ?_) (fun e t ht => err e t ht.1)
      obtain ⟨ht, ha⟩ := ht
      have ha : Real env a := ha rfl
      split
      · exact fun u hu => err _ u (hu ht).good
      · rename_i p hp
        refine Safe.bind steady (Q := fun _ t => Good env w0 t ∧ Replaced env t p (env.attrs a).attr)
          (Safe.atom fun u hu => ?_) (fun _ t ht => ?_) (fun e t ht => err e t ht.1)
        · have hu := (hu ht).good
          obtain ⟨g1, g2⟩ := goes_bind (w0 := w0) hp ha u
          exact ⟨g1, fun w hw => ⟨(hw (g1 hu).good).good, (hw (g1 hu).good).names _ _ g2⟩⟩
        · refine Safe.bind steady (Q := fun _ t => Found env w0 a (env.target a) t)
            (Safe.atom fun u hu => ?_) (fun _ t ht => ?_) (fun e t ht => err e t ht.1)
          · have hu := hu ht.1
            have hr := hu.names _ _ ht.2
            have g := goes_keep (w0 := w0) hp ha hr
            exact ⟨g, fun w hw => Found.later ⟨(g hu.good).good, ⟨rfl, ha⟩, fun v hv => by
              show (if a = a then _ else _) = _
              rw [if_pos rfl]; exact hv, p, hp, hr⟩ hw⟩
          · exact fun u hu => ⟨(hu ht.1).good, fun v hv => by cases hv; exact ht.later hu⟩

/-- What is known of the result of a call. -/
def Result (env : ATEnv) (w0 : ATWorld) (c : ATCall) (r : Except Exc ATRes) (t : ATWorld) : Prop :=
  Good env w0 t ∧
  (∀ v, r = .ok (.obj v) →
    (∀ a, UsesAttr a c → env.has v (Asked c) = true ∧ Found env w0 a v t) ∧
    (∀ p x, c = .use p x → env.has v (lit "__call__") = true ∧
      (IsTarget env p x v ∧ Replaced env t p x ∨ ∃ u, v = some u ∧ w0.ns p x = some (.obj u)))) ∧
  ∀ b, r = .ok (.bound b) → ∃ p x, c = .name p x ∧ (w0.ns p x = some b ∨ ∃ v, b = .ofValue v ∧ IsTarget env p x v)

theorem safe_finish {n a : Nat} {attr : PyStr} {s : ATWorld} (hs : Good env w0 s) :
    (loadAttr env n a >>= fun v => if env.has v attr then return ATRes.obj v else Prog.raise .attributeError).Safe (Goes env w0)
      (fun r t => Good env w0 t ∧ ∀ v, r = .ok v → ∃ u, v = .obj u ∧ env.has u attr = true ∧ Found env w0 a u t) s := by
  refine Safe.bind steady (safe_loadAttr n a hs) (fun v t ht => ?_) (fun e t ht => ⟨ht.1, fun v h => nomatch h⟩)
  have ht := ht.2 v rfl
  split
  · rename_i hh
    exact fun u hu => ⟨(hu ht.1).good, fun w hw => by cases hw; exact ⟨v, rfl, hh, ht.later hu⟩⟩
  · exact fun u hu => ⟨(hu ht.1).good, fun w hw => nomatch hw⟩

theorem ofValue_some {v : Option Nat} {u : Nat} (h : ABind.ofValue v = .obj u) : v = some u := by
  cases v <;> cases h; rfl

theorem safe_lookName (p : Nat) (x : PyStr) {s : ATWorld} (hs : Good env w0 s) :
    (lookName p x).Safe (Goes env w0) (fun r t => Good env w0 t ∧ ∀ b, r = .ok b →
      w0.ns p x = some b ∨ Replaced env t p x ∧ ∃ v, b = .ofValue v ∧ IsTarget env p x v) s := by
  refine Safe.atom fun t ht => ?_
  have ht := (ht hs).good
  cases hb : t.ns p x with
  | none => exact ⟨goes_same rfl rfl, fun u hu => ⟨(hu ht).good, fun b h => nomatch h⟩⟩
  | some b =>
    refine ⟨goes_same rfl rfl, fun u hu => ⟨(hu ht).good, fun b' h => ?_⟩⟩
    cases h
    rcases ht.names p x with h | h
    · rw [hb] at h; exact .inl h.symm
    · refine .inr ⟨(hu ht).names _ _ h, ?_⟩
      rcases h with ⟨v, h1, h2⟩ | ⟨h1, h2⟩
      · rw [hb] at h1; cases h1; exact ⟨some v, rfl, h2⟩
      · rw [hb] at h1; cases h1; exact ⟨none, rfl, h2⟩

theorem safe_body (hw : AttrsDefined env w0) (n : Nat) (c : ATCall) {s : ATWorld} (hs : Good env w0 s) :
    (body env n c).Safe (Goes env w0) (fun r t => Result env w0 c r t) s := by
  have other : ∀ (c : ATCall) (r : Except Exc ATRes) t, Good env w0 t → (∀ v, r ≠ .ok (.obj v)) → (∀ b, r ≠ .ok (.bound b)) → Result env w0 c r t :=
    fun c r t ht h1 h2 => ⟨ht, fun v h => absurd h (h1 v), fun b h => absurd h (h2 b)⟩
  cases c with
  | run l =>
    refine Safe.bind steady (safe_mods _ hs) (fun _ t ht => ?_) (fun e t ht => other _ _ _ ht nofun nofun)
    exact fun u hu => other _ _ _ (hu ht).good nofun nofun
  | name p x =>
    refine Safe.bind steady (safe_lookName p x hs) (fun b t ht => ?_) (fun e t ht => other _ _ _ ht.1 nofun nofun)
    refine fun u hu => ⟨(hu ht.1).good, fun v h => (nomatch h), fun b' h => ?_⟩
    cases h
    exact ⟨p, x, rfl, (ht.2 b rfl).imp id And.right⟩
  | use p x =>
    refine Safe.bind steady (safe_lookName p x hs) (fun b t ht => ?_) (fun e t ht => other _ _ _ ht.1 nofun nofun)
    have hb := ht.2 b rfl
    cases b with
    | none => exact fun u hu => other _ _ _ (hu ht.1).good nofun nofun
    | lazy a =>
      refine (safe_finish ht.1).mono fun r t h => ⟨h.1, fun v hv => ⟨fun a h => h.elim, fun q y hc => ?_⟩, fun b hb => ?_⟩
      · obtain ⟨u, h1, h2, h3⟩ := h.2 _ hv
        cases h1
        cases hc
        refine ⟨h2, .inl ?_⟩
        rcases hb with hb | ⟨-, v', hb, -⟩
        · obtain ⟨e1, e2⟩ := hw.names _ _ _ hb
          obtain ⟨-, ⟨e3, e6⟩, -, p', e4, e5⟩ := h3
          rw [e1] at e4
          cases e4
          rw [e2] at e5
          exact ⟨⟨a, e1, e2, e3.trans (by unfold ATEnv.target; rw [e2]), by unfold Real at e6; rw [e2] at e6; exact e6⟩, e5⟩
        · cases v' <;> cases hb
      · obtain ⟨u, h1, -⟩ := h.2 _ hb
        cases h1
    | obj v =>
      dsimp only
      split
      · rename_i hh
        refine fun u hu => ⟨(hu ht.1).good, fun w hw => ⟨fun a h => h.elim, fun q y hc => ?_⟩, fun b hb => nomatch hb⟩
        cases hw
        cases hc
        refine ⟨hh, ?_⟩
        rcases hb with hb | ⟨h1, v', hb, h2⟩
        · exact .inr ⟨v, rfl, hb⟩
        · rw [ofValue_some hb.symm] at h2
          exact .inl ⟨h2, (hu ht.1).names _ _ h1⟩
      · exact fun u hu => other _ _ _ (hu ht.1).good nofun nofun
  | call a =>
    refine (safe_finish hs).mono fun r t h => ⟨h.1, fun v hv => ⟨fun b hb => ?_, fun q y hc => nomatch hc⟩, fun b hb => ?_⟩
    · obtain ⟨u, h1, h2, h3⟩ := h.2 _ hv
      cases h1
      cases hb
      exact ⟨h2, h3⟩
    · obtain ⟨u, h1, -⟩ := h.2 _ hb
      cases h1
  | getattr a attr =>
    show (attrGetattr env n a attr).Safe _ _ _
    unfold attrGetattr
    split
    · exact fun u hu => other _ _ _ (hu hs).good nofun nofun
    · refine (safe_finish hs).mono fun r t h => ⟨h.1, fun v hv => ⟨fun b hb => ?_, fun q y hc => nomatch hc⟩, fun b hb => ?_⟩
      · obtain ⟨u, h1, h2, h3⟩ := h.2 _ hv
        cases h1
        cases hb.1
        exact ⟨h2, h3⟩
      · obtain ⟨u, h1, -⟩ := h.2 _ hb
        cases h1

theorem good_start (hw : AttrsDefined env w0) : Good env w0 w0 :=
  ⟨fun a v h => (by rw [hw.unused a] at h; cases h), fun _ _ => .inl rfl⟩

theorem safe_prog (hw : AttrsDefined env w0) (n : Nat) (c : ATCall) {s : ATWorld} (hs : Good env w0 s) :
    (prog env n c).Safe (Goes env w0) (fun x t => ∀ y, x = .ok y → Result env w0 c y.1 t) s := by
  refine Safe.bind steady (safe_body hw n c hs).outcome (fun r t ht => ?_) (fun e t _ y h => nomatch h)
  obtain ⟨x, hx, hr⟩ := ht
  cases hx
  intro u hu y hy
  cases hy
  have g := hu hr.1
  obtain ⟨h1, h2, h3⟩ := hr
  refine ⟨g.good, fun v hv => ⟨fun a ha => ?_, fun p y hc => ?_⟩, h3⟩
  · obtain ⟨e1, e2⟩ := (h2 v hv).1 a ha
    exact ⟨e1, e2.later hu⟩
  · obtain ⟨e1, e2⟩ := (h2 v hv).2 p y hc
    exact ⟨e1, e2.imp (fun e => ⟨e.1, g.names _ _ e.2⟩) id⟩

/-- All that is reached is good. -/
theorem reached (hw : AttrsDefined env w0) {n : Nat} {tr : List (Ev ATCall (Except Exc ATRes))}
    {κ : Conf ATWorld Nat Unit ATCall (Except Exc ATRes)} (hx : Exec (lazyAttrThreads env n) (init w0 fun _ => ()) tr κ) :
    Good env w0 κ.st ∧
    (∀ i c p, κ.cur i = some (c, p) → p.Safe (Goes env w0) (fun x t => ∀ y, x = .ok y → Result env w0 c y.1 t) κ.st) ∧
    ∀ i c r, Returns tr i c r → ∃ t, Result env w0 c r t ∧ Later env w0 t κ.st := by
  obtain ⟨h1, h2, h3⟩ := exec_safe (sys := lazyAttrThreads env n) steady (A := Good env w0) (fun s t hs h => (h hs).good)
    (Q := fun _ c r t => Result env w0 c r t) (fun i o c _ s hs => safe_prog hw n c hs) hx (good_start hw)
  refine ⟨(h1 (good_start hw)).good, h2, fun i c r hr => ?_⟩
  obtain ⟨t, q1, q2, q3⟩ := h3 i c r hr
  exact ⟨t, q1, q3 q1.1⟩

/-! ## Newer versions of Python: nothing half loaded -/

/-- The module of the lazy attribute has come to its end. -/
def Ended (env : ATEnv) (s : ATWorld) (a : Nat) : Prop := env.mods.bare (env.attrs a).attr = false → CodeEnded s.mods (env.attrs a).mobj

/-- Objects are kept, and names replaced, only when the module has come to its end. -/
structure AttrsOk (env : ATEnv) (w0 s : ATWorld) : Prop where
  objs : ∀ a v, s.objs a = some v → Ended env s a
  names : ∀ p x, s.ns p x = w0.ns p x ∨ ∃ a, (env.attrs a).parent = some p ∧ (env.attrs a).attr = x ∧
    s.ns p x = some (.ofValue (env.target a)) ∧ Ended env s a

/-- A step on the modules, one on the lazy attributes, or a look that teaches that a module has come to its end. -/
def protocol (env : ATEnv) (w0 : ATWorld) : LockProtocol ATWorld Nat LazyThreads.Stage where
  Ok x h s := x.Ok h s.mods ∧ AttrsOk env w0 s
  T x h s t y := (LazyThreads.Stage.T x h s.mods t.mods y ∧ t.objs = s.objs ∧ t.ns = s.ns) ∨
    (y = x ∧ t.mods = s.mods ∧ AttrsOk env w0 t) ∨ (t = s ∧ ∃ i, CodeEnded s.mods i ∧ y = { x with known := i :: x.known })

open LazyThreads (Stage Ext Fine JobQ)

theorem ended_grows {x y : Stage} {h : Nat → List Bool} {s t : LTWorld} (hT : Stage.T x h s t y) {i : Nat} (hi : CodeEnded s i) : CodeEnded t i := by
  cases hT with
  | quiet _ _ h2 h3 => unfold CodeEnded; rw [h2, h3]; exact hi
  | forget | see | find | learn | plain => exact hi
  | mark _ _ _ _ h2 h3 => unfold CodeEnded; rw [h2, h3]; exact hi
  | start => exact hi
  | finish => exact hi.imp (fun h => List.mem_append.mpr (.inl h)) id
  | fail => exact hi.imp id (fun h => List.mem_append.mpr (.inl h))
  | settle _ _ _ _ _ _ _ h2 h3 => unfold CodeEnded; rw [h2, h3]; exact hi

theorem AttrsOk.grows {s t : ATWorld} (h : AttrsOk env w0 s) (ho : t.objs = s.objs) (hn : t.ns = s.ns)
    (hg : ∀ i, CodeEnded s.mods i → CodeEnded t.mods i) : AttrsOk env w0 t := by
  refine ⟨fun a v hv hb => ?_, fun p x => ?_⟩
  · rw [ho] at hv
    exact hg _ (h.objs a v hv hb)
  · rw [hn]
    exact (h.names p x).imp id fun ⟨a, h1, h2, h3, h4⟩ => ⟨a, h1, h2, h3, fun hb => hg _ (h4 hb)⟩

theorem keeps (a : Nat → Stage) (H : Nat → Nat → List Bool) (s t : ATWorld) (i : Nat) (y : Stage) (hE : Excl H)
    (hok : ∀ j, (protocol env w0).Ok (a j) (H j) s) (hI : LazyThreads.Inv a s.mods) (hT : (protocol env w0).T (a i) (H i) s t y) :
    (∀ j, (protocol env w0).Ok (upd a i y j) (H j) t) ∧ LazyThreads.Inv (upd a i y) t.mods := by
  rcases hT with ⟨h1, h2, h3⟩ | ⟨rfl, h2, h3⟩ | ⟨rfl, k, hk, rfl⟩
  · obtain ⟨g1, g2⟩ := LazyThreads.step_keeps a H s.mods t.mods i y hE (fun j => (hok j).1) hI h1
    exact ⟨fun j => ⟨g1 j, (hok j).2.grows h2 h3 fun _ => ended_grows h1⟩, g2⟩
  · have e : upd a i (a i) = a := by
      funext j
      by_cases e : j = i
      · subst e; exact upd_same _ _ _
      · exact upd_other _ _ e
    rw [e, h2]
    exact ⟨fun j => ⟨by rw [h2]; exact (hok j).1, h3⟩, hI⟩
  · refine ⟨fun j => ⟨?_, (hok j).2⟩, hI.nodup, hI.loading, hI.plain, hI.finished, fun l hl => (hI.begun l hl).imp id (LazyThreads.phase_upd' id),
      fun l hl => (hI.running l hl).imp id (.imp id (LazyThreads.run_upd id))⟩
    by_cases e : j = i
    · subst e
      rw [upd_same]
      have o := (hok j).1
      exact ⟨o.phase, o.run, fun l hl => (List.mem_cons.mp hl).elim (fun e => by rw [e]; exact hk) (o.known l), o.fin⟩
    · rw [upd_other _ _ e]; exact (hok j).1

/-- The program keeps to the protocol, ends with the locks it has begun with, and with `Q`. -/
def At (env : ATEnv) (w0 : ATWorld) (x : Stage) (h : Nat → List Bool) (p : ATProg α) (Q : Except Exc α → Stage → Prop) : Prop :=
  p.Minds (protocol env w0) (fun r y h' => h' = h ∧ Ext x y ∧ Q r y) x h

variable {x : Stage} {h : Nat → List Bool}

theorem At.mono {p : ATProg α} {Q Q' : Except Exc α → Stage → Prop} (hp : At env w0 x h p Q) (hQ : ∀ r y, Q r y → Q' r y) : At env w0 x h p Q' :=
  Minds.mono hp fun r y _ hq => ⟨hq.1, hq.2.1, hQ r y hq.2.2⟩

theorem At.bind {p : ATProg α} {g : α → ATProg β} {Q : Except Exc α → Stage → Prop}
    {Q' : Except Exc β → Stage → Prop} (hp : At env w0 x h p Q) (hg : ∀ a y, Ext x y → Q (.ok a) y → At env w0 y h (g a) Q')
    (he : ∀ e y, Q' (.error e) y) : At env w0 x h (p >>= g) Q' := by
  refine Minds.bind (Minds.mono hp fun r y h' hq => ?_)
  obtain ⟨e1, e2, e3⟩ := hq
  subst e1
  cases r with
  | ok a => exact Minds.mono (hg a y e2 e3) fun r z _ hz => ⟨hz.1, e2.trans hz.2.1, hz.2.2⟩
  | error e => exact ⟨rfl, e2, he e y⟩

theorem At.ret (hx : Fine x h) {a : α} {Q : Except Exc α → Stage → Prop} (hq : Q (.ok a) x) : At env w0 x h (Prog.ret a) Q := ⟨rfl, hx.refl, hq⟩

theorem At.raise (hx : Fine x h) {e : Exc} {Q : Except Exc α → Stage → Prop} (hq : Q (.error e) x) : At env w0 x h (Prog.raise e) Q := ⟨rfl, hx.refl, hq⟩

/-- A part that concerns the modules only. -/
theorem At.mods {p : LTProg α} {Q : Except Exc α → Stage → Prop} (hp : LazyThreads.At x h p Q) : At env w0 x h (onMods p) Q :=
  Minds.onPart (P := LazyThreads.protocol) (P' := protocol env w0) (set := fun m w => { w with mods := m }) (fun _ _ _ ok => ok.1) (fun _ _ _ _ _ _ hT => .inl ⟨hT, rfl, rfl⟩)
    (fun _ _ _ hr _ ok => ⟨hr _ ok.1, ok.2⟩) hp

theorem ext_know (hx : Fine x h) (i : Nat) : Ext x { x with known := i :: x.known } := ⟨hx.1, rfl, fun _ hi => .tail _ hi, fun _ => id⟩

/-- It is known that the module of the lazy attribute has come to its end. -/
def Knows (env : ATEnv) (a : Nat) (y : Stage) : Prop := env.mods.bare (env.attrs a).attr = false → (env.attrs a).mobj ∈ y.known

theorem Knows.ext {a : Nat} {y : Stage} (hk : Knows env a x) (e : Ext x y) : Knows env a y := fun hb => e.known _ (hk hb)

/-- Learning that the module of a lazy attribute has come to its end. -/
theorem know (hx : Fine x h) {s : ATWorld} (ok : (protocol env w0).Ok x h s) {a : Nat} (ha : Ended env s a) :
    ∃ y, (protocol env w0).T x h s s y ∧ Ext x y ∧ Knows env a y := by
  cases hb : env.mods.bare (env.attrs a).attr with
  | true => exact ⟨x, .inr (.inl ⟨rfl, rfl, ok.2⟩), hx.refl, fun h => by rw [hb] at h; cases h⟩
  | false => exact ⟨_, .inr (.inr ⟨rfl, _, ha hb, rfl⟩), ext_know hx _, fun _ => .head _⟩

theorem at_loadAttr (he : env.mods.strict = true) (n a : Nat) (hx : Fine x h) (hr : x.run = []) :
    At env w0 x h (loadAttr env n a) fun r y => ∀ v, r = .ok v → Knows env a y := by
  refine At.bind (Q := fun r y => ∀ v, r = .ok (some v) → Knows env a y) (Minds.atom fun s ok => ?_) (fun o y e hq => ?_) (fun e y v h => nomatch h)
  · cases hv : s.objs a with
    | none => exact ⟨x, .inr (.inl ⟨rfl, rfl, ok.2⟩), rfl, hx.refl, fun v h => by have h := Except.ok.inj h; dsimp only at h; rw [hv] at h; cases h⟩
    | some v =>
      obtain ⟨y, h1, h2, h3⟩ := know hx ok (ok.2.objs a v hv)
      exact ⟨y, h1, rfl, h2, fun _ _ => h3⟩
  · have hy := hx.ext e
    have hry := e.run.trans hr
    cases o with
    | some v => exact .ret hy fun _ _ => hq v rfl
    | none =>
      refine At.bind (.mods (LazyThreads.sound_go he n _ y h hy)) (fun _ y1 e1 _ => ?_) (fun e y v h => nomatch h)
      have hy1 := hy.ext e1
      refine At.bind (.mods (LazyThreads.sound_go he n _ y1 h hy1)) (fun _ y2 e2 hq => ?_) (fun e y v h => nomatch h)
      have hy2 := hy1.ext e2
      have hk : Knows env a y2 := fun hb => (hq.1 rfl hb).resolve_right fun h => by
        rw [e2.run, e1.run, hry] at h; cases h
      split
      · exact .raise hy2 fun v h => nomatch h
      · rename_i p hp
        have hkn : ∀ s, (protocol env w0).Ok y2 h s → Ended env s a := fun s ok hb => ok.1.known _ (hk hb)
        refine At.bind (Q := fun _ y => y = y2) (Minds.atom fun s ok => ⟨y2, .inr (.inl ⟨rfl, rfl, ok.2.objs, fun q z => ?_⟩), rfl, hy2.refl, rfl⟩)
          (fun _ y3 e3 hq => ?_) (fun e y v h => nomatch h)
        · by_cases e : q = p ∧ z = (env.attrs a).attr
          · obtain ⟨rfl, rfl⟩ := e
            exact .inr ⟨a, hp, rfl, if_pos ⟨rfl, rfl⟩, hkn s ok⟩
          · have hn := ok.2.names q z
            rwa [show s.ns q z = if q = p ∧ z = (env.attrs a).attr then some (.ofValue (env.target a)) else s.ns q z from (if_neg e).symm] at hn
        · subst hq
          refine At.bind (Q := fun _ y => y = y3) (Minds.atom fun s ok => ⟨y3, .inr (.inl ⟨rfl, rfl, fun b v hv => ?_, ok.2.names⟩), rfl, hy2.refl, rfl⟩)
            (fun _ y4 e4 hq => ?_) (fun e y v h => nomatch h)
          · by_cases e : b = a
            · subst e; exact hkn s ok
            · have hv : (if b = a then env.target a else s.objs b) = some v := hv
              rw [if_neg e] at hv
              exact ok.2.objs b v hv
          · subst hq
            exact .ret hy2 fun _ _ => hk

/-- What is known after a call: the modules of the lazy attributes whose objects were used have come to their ends. -/
def LoadedQ (env : ATEnv) (w0 : ATWorld) (c : ATCall) (r : Except Exc ATRes) (y : Stage) : Prop :=
  ∀ v, r = .ok (.obj v) → (∀ a, UsesAttr a c → Knows env a y) ∧
    ∀ p x, c = .use p x → (∃ u, v = some u ∧ w0.ns p x = some (.obj u)) ∨
      ∃ a, (env.attrs a).parent = some p ∧ (env.attrs a).attr = x ∧ Knows env a y

theorem at_finish (he : env.mods.strict = true) (n a : Nat) (attr : PyStr) (hx : Fine x h) (hr : x.run = []) :
    At env w0 x h (loadAttr env n a >>= fun v => if env.has v attr then return ATRes.obj v else Prog.raise .attributeError)
      fun r y => ∀ v, r = .ok v → Knows env a y := by
  refine At.bind (at_loadAttr he n a hx hr) (fun v y e hq => ?_) (fun e y v h => nomatch h)
  split
  · exact .ret (hx.ext e) fun _ _ => hq v rfl
  · exact .raise (hx.ext e) fun _ h => nomatch h

theorem at_lookName (p : Nat) (z : PyStr) (hx : Fine x h) :
    At env w0 x h (lookName p z) fun r y => ∀ b, r = .ok b → w0.ns p z = some b ∨
      ∃ a, (env.attrs a).parent = some p ∧ (env.attrs a).attr = z ∧ b = .ofValue (env.target a) ∧ Knows env a y := by
  refine Minds.atom fun s ok => ?_
  cases hb : s.ns p z with
  | none => exact ⟨x, .inr (.inl ⟨rfl, rfl, ok.2⟩), rfl, hx.refl, fun b h => nomatch h⟩
  | some b =>
    rcases ok.2.names p z with h1 | ⟨a, h1, h2, h3, h4⟩
    · refine ⟨x, .inr (.inl ⟨rfl, rfl, ok.2⟩), rfl, hx.refl, fun b' h => .inl ?_⟩
      cases h
      rw [← h1, hb]
    · obtain ⟨y, g1, g2, g3⟩ := know hx ok h4
      refine ⟨y, g1, rfl, g2, fun b' h => .inr ⟨a, h1, h2, ?_, g3⟩⟩
      cases h
      rw [hb] at h3
      exact Option.some.inj h3

theorem at_body (he : env.mods.strict = true) (hw : AttrsDefined env w0) (n : Nat) (c : ATCall) (hx : Fine x h) (hr : x.run = []) :
    At env w0 x h (body env n c) (LoadedQ env w0 c) := by
  cases c with
  | run l =>
    exact At.bind (.mods (LazyThreads.sound_go he n _ x h hx)) (fun _ y e _ => .ret (hx.ext e) fun v h => nomatch h) (fun e y v h => nomatch h)
  | name p z =>
    exact At.bind (at_lookName p z hx) (fun _ y e _ => .ret (hx.ext e) fun v h => nomatch h) (fun e y v h => nomatch h)
  | use p z =>
    refine At.bind (at_lookName p z hx) (fun b y e hq => ?_) (fun e y v h => nomatch h)
    have hq := hq b rfl
    have hy := hx.ext e
    cases b with
    | none => exact .raise hy fun v h => nomatch h
    | lazy a =>
      refine (at_finish he n a _ hy (e.run.trans hr)).mono fun r y' hk v hv => ⟨fun a h => h.elim, fun q z' hc => .inr ⟨a, ?_⟩⟩
      cases hc
      rcases hq with hq | ⟨b, -, -, hq, -⟩
      · exact ⟨(hw.names _ _ _ hq).1, (hw.names _ _ _ hq).2, hk _ hv⟩
      · cases ht : env.target b <;> rw [ht] at hq <;> cases hq
    | obj v =>
      dsimp only
      split
      · refine .ret hy fun w hv => ⟨fun a h => h.elim, fun q z' hc => ?_⟩
        cases hv
        cases hc
        rcases hq with hq | ⟨b, h1, h2, hq, h3⟩
        · exact .inl ⟨v, rfl, hq⟩
        · exact .inr ⟨b, h1, h2, h3⟩
      · exact .raise hy fun v h => nomatch h
  | call a =>
    refine (at_finish he n a _ hx hr).mono fun r y hk v hv => ⟨fun b hb => ?_, fun p z hc => nomatch hc⟩
    cases hb
    exact hk _ hv
  | getattr a attr =>
    show At env w0 x h (attrGetattr env n a attr) _
    unfold attrGetattr
    split
    · exact .ret hx fun v h => nomatch h
    · refine (at_finish he n a _ hx hr).mono fun r y hk v hv => ⟨fun b hb => ?_, fun p z hc => nomatch hc⟩
      cases hb.1
      exact hk _ hv

/-- A thread between its calls. -/
def Idle (x : Stage) : Prop := x.phase = .none ∧ x.run = []

theorem minds_prog (he : env.mods.strict = true) (hw : AttrsDefined env w0) (n : Nat) (c : ATCall) {x : Stage} (hx : Idle x) :
    (prog env n c).Minds (protocol env w0) (fun r y h => (∀ v, r = .ok v → Idle y ∧ h = fun _ => []) ∧
      ∀ v, r = .ok v → LoadedQ env w0 c v.1 y) x fun _ => [] := by
  have hf : Fine x fun _ => [] := ⟨hx.1, by rw [hx.2]; exact fun j h => nomatch h⟩
  refine Minds.bind (Minds.outcome (Minds.mono (at_body he hw n c hf hx.2) fun r y h hq => ?_))
  obtain ⟨e1, e2, e3⟩ := hq
  exact ⟨fun _ _ => ⟨⟨e2.phase, e2.run.trans hx.2⟩, e1⟩, fun v hv => by cases hv; exact e3⟩

theorem minding (he : env.mods.strict = true) (hw : AttrsDefined env w0) (hm : AtRest w0.mods) {n : Nat}
    {tr : List (Ev ATCall (Except Exc ATRes))} {κ : Conf ATWorld Nat Unit ATCall (Except Exc ATRes)}
    (hx : Exec (lazyAttrThreads env n) (init w0 fun _ => ()) tr κ) :
    ∃ a, Minding (protocol env w0) (fun a s => LazyThreads.Inv a s.mods) Idle (fun _ c r y => ∀ v, r = .ok v → LoadedQ env w0 c v.1 y) κ a := by
  have h0 : (protocol env w0).Ok ⟨.none, [], [], []⟩ (fun _ => []) w0 :=
    ⟨⟨trivial, (fun _ h => nomatch h), (fun _ h => nomatch h), (fun _ h => nomatch h)⟩,
      fun a v h => (by rw [hw.unused a] at h; cases h), fun _ _ => .inl rfl⟩
  have hI : LazyThreads.Inv (fun _ => (⟨.none, [], [], []⟩ : Stage)) w0.mods := by
    refine ⟨hm.1, fun i hi => ?_, fun i hi => ?_, fun i hi => ?_, fun i hi => .inl ?_, fun i hi => ?_⟩ <;> rcases hm.2 i with h | h | h
    · exact absurd hi h.2.2.1
    · exact h.2.1
    · exact h.2.1
    · exact absurd hi h.1
    · exact h.2.2.2
    · rw [h.1] at hi; cases hi
    · exact absurd hi h.2.2.2
    · exact ⟨h.2.1, h.1.symm⟩
    · exact absurd hi h.2.2.2.1
    · rw [h.2.1] at hi; cases hi
    · exact h.2.2.1
    · exact h.2.2.1
    · exact absurd hi h.2.2.1
    · exact .inl h.2.2.2
    · exact .inr (.inl h.2.2.2.2)
  exact minding_exec (P := protocol env w0) (Inv := fun a s => LazyThreads.Inv a s.mods) keeps
    (fun _ _ l w _ ok => ⟨ok.1.took l w, ok.2⟩) (fun i o c x _ hx => minds_prog he hw n c hx) (minding_init h0 hI ⟨rfl, rfl⟩) hx

/-! ## The order of the locks -/

/-- Dependencies are only removed. -/
def attrRules (rank : Nat → Nat) : Rules ATWorld Nat where
  G s t := (LazyThreads.depRules rank).G s.mods t.mods
  J s := (LazyThreads.depRules rank).J s.mods
  lt := (LazyThreads.depRules rank).lt
  refl _ := (LazyThreads.depRules rank).refl _
  trans h h' := (LazyThreads.depRules rank).trans h h'
  keep h hJ := (LazyThreads.depRules rank).keep h hJ
  ltTrans := (LazyThreads.depRules rank).ltTrans
  ltIrrefl := (LazyThreads.depRules rank).ltIrrefl

variable {rank : Nat → Nat}

/-- The program takes locks in order. -/
def Fit (rank : Nat → Nat) (p : ATProg α) : Prop :=
  ∀ s, (attrRules rank).J s → Rising (fun _ => True) (attrRules rank) (fun _ _ => True) [] s [] p

theorem Fit.ret (a : α) : Fit rank (Prog.ret a : ATProg α) := fun _ _ => ⟨rfl, trivial⟩
theorem Fit.raise (e : Exc) : Fit rank (Prog.raise e : ATProg α) := fun _ _ => rfl

theorem Fit.bind {p : ATProg α} {f : α → ATProg β} (hp : Fit rank p) (hf : ∀ a, Fit rank (f a)) : Fit rank (p >>= f) :=
  fun s hs => Rising.bind hs (hp s hs) fun a t _ ht _ => hf a t ht

theorem Fit.ite {c : Prop} [Decidable c] {p q : ATProg α} (hp : Fit rank p) (hq : Fit rank q) : Fit rank (if c then p else q) := by
  split
  · exact hp
  · exact hq

theorem Fit.atom {m : Py ATWorld α} (hm : ∀ s, (m s).2.mods = s.mods) : Fit rank (Prog.atom m : ATProg α) :=
  fun _ _ t _ _ => ⟨by show (LazyThreads.depRules rank).G _ _; rw [hm t]; exact (LazyThreads.depRules rank).refl _, by
    dsimp only
    split
    · exact ⟨rfl, trivial⟩
    · exact rfl⟩

theorem Fit.mods {p : LTProg α} (hp : LazyThreads.Fit rank [] p) : Fit rank (onMods p) := fun s hs =>
  Rising.onPart (W := LazyThreads.depRules rank) (W' := attrRules rank) (fun _ _ => id) (fun _ => id) (fun _ _ => id) (fun _ _ => id)
    (fun _ _ => rfl) (hp s.mods hs)

theorem fit_loadAttr (hc : LazyThreads.CodeFits rank env.mods) (n a : Nat) : Fit rank (loadAttr env n a) := by
  refine Fit.bind (.atom fun _ => rfl) fun o => ?_
  cases o with
  | some v => exact .ret _
  | none =>
    refine Fit.bind (.mods (LazyThreads.rises_go hc n [] _ fun _ hx => nomatch hx)) fun _ =>
      Fit.bind (.mods (LazyThreads.rises_go hc n [] _ fun _ hx => nomatch hx)) fun _ => ?_
    split
    · exact .raise _
    · exact Fit.bind (p := bindName _ _ _) (.atom fun _ => rfl) fun _ => Fit.bind (p := keepObj _ _) (.atom fun _ => rfl) fun _ => .ret _

theorem fit_lookName (p : Nat) (x : PyStr) : Fit rank (lookName p x) := .atom fun s => by split <;> rfl

theorem fit_callAttr (hc : LazyThreads.CodeFits rank env.mods) (n a : Nat) : Fit rank (callAttr env n a) :=
  Fit.bind (fit_loadAttr hc n a) fun _ => .ite (.ret _) (.raise _)

theorem fit_body (hc : LazyThreads.CodeFits rank env.mods) (n : Nat) (c : ATCall) : Fit rank (body env n c) := by
  cases c with
  | run l => exact Fit.bind (.mods (LazyThreads.rises_go hc n [] _ fun _ _ _ _ _ _ hx => nomatch hx)) fun _ => .ret _
  | name p x => exact Fit.bind (fit_lookName p x) fun _ => .ret _
  | use p x =>
    refine Fit.bind (fit_lookName p x) fun b => ?_
    cases b with
    | none => exact .raise _
    | lazy a => exact fit_callAttr hc n a
    | obj v => exact .ite (.ret _) (.raise _)
  | call a => exact fit_callAttr hc n a
  | getattr a attr => exact .ite (.ret _) (Fit.bind (fit_loadAttr hc n a) fun _ => .ite (.ret _) (.raise _))

theorem rising (hc : LazyThreads.CodeFits rank env.mods) (n : Nat) : RisingSys (lazyAttrThreads env n) (attrRules rank) := fun _ _ c _ s hs =>
  ⟨Fit.bind (p := (body env n c).outcome) (fun s hs => (fit_body hc n c s hs).outcome) (fun _ => .ret _) s hs,
    (noRaise_outcome _).bind fun _ => trivial⟩

end LazyAttrThreads
end SyncStream
