import Verif.Model.LazyAttr
import Verif.Lemmas.Lazy
/-!
# Lemmas about lazy attributes
-/

namespace SyncStream
namespace Lazy

/-- Whatever relation loading follows, this change follows it. -/
def Loads (env : LEnv) (i : Nat) (w m : LWorld) : Prop :=
  ∀ R, Allows R env → Reg w → i < w.count → Goes R w m

theorem loads_go (env : LEnv) (n i : Nat) (attr : PyStr) (w : LWorld) : Loads env i w (go env n (.get i attr) w).2 :=
  fun _ hR hw hi => moves_go hR n _ w hw hi

theorem Loads.trans {env : LEnv} {i : Nat} {a b c : LWorld} (h : Loads env i a b) (k : Loads env i b c) :
    Loads env i a c := fun R hR ha hi =>
  have h1 := h R hR ha hi
  Goes.trans hR h1 (k R hR h1.reg (Nat.lt_of_lt_of_le hi h1.keeps.count))

/-- What `__load_module` can do. -/
inductive LoadCase (env : AEnv) (n a : Nat) (w : AWorld) : Except Exc (Option Nat) × AWorld → Prop
  | cached (v : Nat) : (w.attrs a).obj = some v → LoadCase env n a w (.ok (some v), w)
  | failed (e : Exc) (m : LWorld) : (w.attrs a).obj = none → Loads env.mods (w.attrs a).mobj w.mods m →
      LoadCase env n a w (.error e, { w with mods := m })
  | loaded (m1 m : LWorld) (p : Nat) : (w.attrs a).obj = none →
      go env.mods n (.get (w.attrs a).mobj (lit "__getattribute__")) w.mods = (.ok (), m1) →
      go env.mods n (.get (w.attrs a).mobj (w.attrs a).attr) m1 = (.ok (), m) →
      resolve m (w.attrs a).parent = some p →
      LoadCase env n a w (.ok (env.value (m.objs (w.attrs a).mobj).name (w.attrs a).attr),
        (({ w with mods := m } : AWorld).bind p (w.attrs a).attr
          (.ofValue (env.value (m.objs (w.attrs a).mobj).name (w.attrs a).attr))).setAttr a
            fun l => { l with obj := env.value (m.objs (w.attrs a).mobj).name (w.attrs a).attr })

theorem onMods_apply {α : Type} {p : Py LWorld α} {w : AWorld} {r : Except Exc α} {m : LWorld} (h : p w.mods = (r, m)) :
    onMods p w = (r, { w with mods := m }) := by
  unfold onMods
  rw [h]

theorem loadAttr_cases (env : AEnv) (n a : Nat) (w : AWorld) : LoadCase env n a w (loadAttr env n a w) := by
  unfold loadAttr
  rw [Py.bind_ok (Py.gets_apply _ _)]
  rcases ho : (w.attrs a).obj with _ | v
  · dsimp only
    rcases h1 : go env.mods n (.get (w.attrs a).mobj (lit "__getattribute__")) w.mods with ⟨r1, m1⟩
    have g1 := loads_go env.mods n (w.attrs a).mobj (lit "__getattribute__") w.mods
    rw [h1] at g1
    cases r1 with
    | error e =>
      rw [Py.bind_error (onMods_apply h1)]
      exact .failed e m1 ho g1
    | ok u =>
      rw [Py.bind_ok (onMods_apply h1)]
      rcases h2 : go env.mods n (.get (w.attrs a).mobj (w.attrs a).attr) m1 with ⟨r2, m⟩
      have g2 := loads_go env.mods n (w.attrs a).mobj (w.attrs a).attr m1
      rw [h2] at g2
      cases r2 with
      | error e =>
        rw [Py.bind_error (onMods_apply (w := { w with mods := m1 }) h2)]
        exact .failed e m ho (g1.trans g2)
      | ok u' =>
        rw [Py.bind_ok (onMods_apply (w := { w with mods := m1 }) h2), Py.bind_ok (Py.gets_apply _ _),
          Py.bind_ok (Py.gets_apply _ _)]
        dsimp only
        rcases hp : resolve m (w.attrs a).parent with _ | p
        · exact .failed _ m ho (g1.trans g2)
        · exact .loaded m1 m p ho h1 h2 hp
  · exact .cached v ho

/-- What stays true of the lazy attributes. -/
structure AGood (env : AEnv) (w : AWorld) : Prop where
  reg : Reg w.mods
  mobj : ∀ a, a < w.made → (w.attrs a).mobj < w.mods.count
  value : ∀ a, a < w.made → ∀ v, (w.attrs a).obj = some v →
    env.value (w.mods.objs (w.attrs a).mobj).name (w.attrs a).attr = some v

/-- What a step of a program does to the lazy attributes that exist. -/
structure AStay (w w' : AWorld) : Prop where
  made : w.made ≤ w'.made
  mobj : ∀ a, a < w.made → (w'.attrs a).mobj = (w.attrs a).mobj
  attr : ∀ a, a < w.made → (w'.attrs a).attr = (w.attrs a).attr
  parent : ∀ a, a < w.made → (w'.attrs a).parent = (w.attrs a).parent
  obj : ∀ a, a < w.made → ∀ v, (w.attrs a).obj = some v → (w'.attrs a).obj = some v

theorem AStay.refl (w : AWorld) : AStay w w :=
  ⟨Nat.le_refl _, fun _ _ => rfl, fun _ _ => rfl, fun _ _ => rfl, fun _ _ _ h => h⟩

theorem AStay.trans {a b c : AWorld} (h : AStay a b) (k : AStay b c) : AStay a c :=
  ⟨Nat.le_trans h.made k.made,
    fun i hi => (k.mobj i (Nat.lt_of_lt_of_le hi h.made)).trans (h.mobj i hi),
    fun i hi => (k.attr i (Nat.lt_of_lt_of_le hi h.made)).trans (h.attr i hi),
    fun i hi => (k.parent i (Nat.lt_of_lt_of_le hi h.made)).trans (h.parent i hi),
    fun i hi v hv => k.obj i (Nat.lt_of_lt_of_le hi h.made) v (h.obj i hi v hv)⟩

/-- What a step of a program does. -/
structure AStepped (env : AEnv) (w w' : AWorld) : Prop where
  good : AGood env w'
  stay : AStay w w'
  goes : ∀ R, Allows R env.mods → Goes R w.mods w'.mods

theorem AStepped.refl {env : AEnv} {w : AWorld} (h : AGood env w) : AStepped env w w :=
  ⟨h, .refl w, fun _ hR => Goes.refl hR h.reg⟩

theorem AStepped.trans {env : AEnv} {a b c : AWorld} (h : AStepped env a b) (k : AStepped env b c) : AStepped env a c :=
  ⟨k.good, h.stay.trans k.stay, fun R hR => Goes.trans hR (h.goes R hR) (k.goes R hR)⟩

/-- Only the modules change. -/
theorem stepped_mods {env : AEnv} {w : AWorld} (h : AGood env w) (m : LWorld)
    (hm : ∀ R, Allows R env.mods → Goes R w.mods m) : AStepped env w { w with mods := m } := by
  have g := hm _ (allows_true env.mods)
  refine ⟨⟨g.reg, fun a ha => Nat.lt_of_lt_of_le (h.mobj a ha) g.keeps.count, fun a ha v hv => ?_⟩,
    ⟨Nat.le_refl _, fun _ _ => rfl, fun _ _ => rfl, fun _ _ => rfl, fun _ _ _ h => h⟩, hm⟩
  show env.value (m.objs (w.attrs a).mobj).name (w.attrs a).attr = some v
  rw [g.keeps.name _ (h.mobj a ha)]
  exact h.value a ha v hv

/-- Binding a name changes nothing of this. -/
theorem AStepped.bind {env : AEnv} {w w' : AWorld} (h : AStepped env w w') (p : Nat) (x : PyStr) (b : ABind) :
    AStepped env w (w'.bind p x b) :=
  ⟨⟨h.good.reg, h.good.mobj, h.good.value⟩, ⟨h.stay.made, h.stay.mobj, h.stay.attr, h.stay.parent, h.stay.obj⟩, h.goes⟩

theorem setAttr_attrs (w : AWorld) (a : Nat) (f : LAttr → LAttr) (b : Nat) :
    (w.setAttr a f).attrs b = if b = a then f (w.attrs b) else w.attrs b := rfl

theorem stepped_load {env : AEnv} {n a : Nat} {w : AWorld} (h : AGood env w) (ha : a < w.made)
    {r : Except Exc (Option Nat) × AWorld} (hc : LoadCase env n a w r) : AStepped env w r.2 := by
  cases hc with
  | cached v hv => exact .refl h
  | failed e m ho hl => exact stepped_mods h m fun R hR => hl R hR h.reg (h.mobj a ha)
  | loaded m1 m p ho h1 h2 hp =>
    have g1 := loads_go env.mods n (w.attrs a).mobj (lit "__getattribute__") w.mods
    rw [h1] at g1
    have g2 := loads_go env.mods n (w.attrs a).mobj (w.attrs a).attr m1
    rw [h2] at g2
    have k := (stepped_mods h m fun R hR => (g1.trans g2) R hR h.reg (h.mobj a ha)).bind p (w.attrs a).attr
      (.ofValue (env.value (m.objs (w.attrs a).mobj).name (w.attrs a).attr))
    generalize hv : env.value (m.objs (w.attrs a).mobj).name (w.attrs a).attr = v at k
    refine ⟨⟨k.good.reg, fun b hb => ?_, fun b hb u hu => ?_⟩, ⟨k.stay.made, ?_, ?_, ?_, fun b hb u hu => ?_⟩, k.goes⟩
    · rw [setAttr_attrs]
      have := k.good.mobj b hb
      split
      · exact this
      · exact this
    · rw [setAttr_attrs] at hu ⊢
      by_cases e : b = a
      · subst e
        rw [if_pos rfl] at hu ⊢
        exact hv.trans hu
      · rw [if_neg e] at hu ⊢
        exact k.good.value b hb u hu
    · intro b _
      rw [setAttr_attrs]
      split <;> rfl
    · intro b _
      rw [setAttr_attrs]
      split <;> rfl
    · intro b _
      rw [setAttr_attrs]
      split <;> rfl
    · rw [setAttr_attrs]
      by_cases e : b = a
      · subst e; rw [ho] at hu; cases hu
      · rw [if_neg e]; exact hu

/-- A new lazy attribute. -/
theorem stepped_create {env : AEnv} {w : AWorld} (h : AGood env w) (l : LAttr) (hl : l.mobj < w.mods.count)
    (ho : l.obj = none) : AStepped env w (w.create l) := by
  have old : ∀ a, a < w.made → (w.create l).attrs a = w.attrs a := fun a ha => if_neg (Nat.ne_of_lt ha)
  refine ⟨⟨h.reg, fun a ha => ?_, fun a ha v hv => ?_⟩, ⟨Nat.le_succ _, ?_, ?_, ?_, ?_⟩, fun R hR => Goes.refl hR h.reg⟩
  · by_cases e : a = w.made
    · subst e
      show (if w.made = w.made then l else _).mobj < _
      rw [if_pos rfl]
      exact hl
    · have ha' : a < w.made := Nat.lt_of_le_of_ne (Nat.le_of_lt_succ ha) e
      rw [old a ha']
      exact h.mobj a ha'
  · by_cases e : a = w.made
    · subst e
      change (if w.made = w.made then l else _).obj = _ at hv
      rw [if_pos rfl, ho] at hv
      cases hv
    · have ha' : a < w.made := Nat.lt_of_le_of_ne (Nat.le_of_lt_succ ha) e
      rw [old a ha'] at hv ⊢
      exact h.value a ha' v hv
  · exact fun a ha => by rw [old a ha]
  · exact fun a ha => by rw [old a ha]
  · exact fun a ha => by rw [old a ha]
  · exact fun a ha v hv => by rw [old a ha]; exact hv

theorem callAttr_state (env : AEnv) (n a : Nat) (w : AWorld) : (callAttr env n a w).2 = (loadAttr env n a w).2 := by
  unfold callAttr
  rcases h : loadAttr env n a w with ⟨r, w1⟩
  cases r with
  | error e => rw [Py.bind_error h]
  | ok v =>
    rw [Py.bind_ok h]
    split <;> rfl

theorem attrGetattr_state (env : AEnv) (n a : Nat) (attr : PyStr) (w : AWorld) :
    (attrGetattr env n a attr w).2 = w ∨ (attrGetattr env n a attr w).2 = (loadAttr env n a w).2 := by
  unfold attrGetattr
  split
  · exact .inl rfl
  · right
    rcases h : loadAttr env n a w with ⟨r, w1⟩
    cases r with
    | error e => rw [Py.bind_error h]
    | ok v =>
      rw [Py.bind_ok h]
      split <;> rfl

theorem withAttr_state {α : Type} (a : Nat) (p : Py AWorld α) (w : AWorld) :
    (withAttr a p w).2 = w ∨ (a < w.made ∧ (withAttr a p w).2 = (p w).2) := by
  unfold withAttr
  rw [Py.bind_ok (Py.gets_apply _ _)]
  split
  · rename_i h
    refine .inr ⟨h, ?_⟩
    rcases hp : p w with ⟨r, w1⟩
    cases r with
    | error e => rw [Py.bind_error hp]
    | ok v => rw [Py.bind_ok hp]; rfl
  · exact .inl rfl

theorem getLazyAttribute_eq (i : Nat) (attr parent : PyStr) (w : AWorld) : getLazyAttribute i attr parent w =
    if (w.mods.objs i).cls = .placeholder then (.ok none, w)
    else (.ok (some w.made), w.create { mobj := i, attr := attr, parent := parent }) := by
  unfold getLazyAttribute isModuleInvalid
  rw [Py.bind_ok (Py.gets_apply _ _)]
  by_cases h : (w.mods.objs i).cls = .placeholder
  · rw [if_pos (by rw [h]; rfl), if_pos h]
    rfl
  · rw [if_neg (by simpa using h), if_neg h]
    rfl

theorem stepped_aact (env : AEnv) (n : Nat) (b : AAct) (w : AWorld) (h : AGood env w) :
    AStepped env w (aact env n b w).2 := by
  cases b with
  | mods b =>
    exact stepped_mods h _ fun R hR => moves_act hR (fun j v hv hj => moves_go hR n j v hv hj) b w.mods h.reg trivial
  | define x attr parent =>
    dsimp only [aact]
    rw [Py.bind_ok (Py.gets_apply _ _)]
    rcases hx : resolve w.mods x with _ | i
    · exact .refl h
    · rcases hp : resolve w.mods parent with _ | p
      · exact .refl h
      · dsimp only
        have g := getLazyAttribute_eq i attr parent w
        by_cases hc : (w.mods.objs i).cls = .placeholder
        · rw [if_pos hc] at g
          rw [Py.bind_ok g]
          exact (AStepped.refl h).bind p attr .none
        · rw [if_neg hc] at g
          rw [Py.bind_ok g]
          exact (stepped_create h _ (h.reg.modules x i (resolve_eq.1 hx)) rfl).bind p attr (.lazy w.made)
  | call a =>
    show AStepped env w (withAttr a (callAttr env n a) w).2
    rcases withAttr_state a (callAttr env n a) w with e | ⟨ha, e⟩
    · rw [e]; exact .refl h
    · rw [e, callAttr_state]
      exact stepped_load h ha (loadAttr_cases env n a w)
  | getattr a attr =>
    show AStepped env w (withAttr a (attrGetattr env n a attr) w).2
    rcases withAttr_state a (attrGetattr env n a attr) w with e | ⟨ha, e⟩
    · rw [e]; exact .refl h
    · rw [e]
      rcases attrGetattr_state env n a attr w with e | e
      · rw [e]; exact .refl h
      · rw [e]
        exact stepped_load h ha (loadAttr_cases env n a w)
  | repr a =>
    show AStepped env w (withAttr a (attrRepr env n a) w).2
    rcases withAttr_state a (attrRepr env n a) w with e | ⟨ha, e⟩
    · rw [e]; exact .refl h
    · rw [e]
      unfold attrRepr
      rw [Py.bind_ok (Py.gets_apply _ _)]
      exact stepped_mods h _ fun R hR => moves_go hR n _ w.mods h.reg (h.mobj a ha)

theorem stepped_arun (env : AEnv) (n : Nat) (l : List AAct) (w : AWorld) (h : AGood env w) :
    AStepped env w (arun env n l w) := by
  induction l generalizing w with
  | nil => exact .refl h
  | cons b l ih =>
    have h1 := stepped_aact env n b w h
    exact h1.trans (ih _ h1.good)

/-- A name that is bound to no lazy attribute stays so until it is defined again. -/
theorem notLazy_aact (env : AEnv) (n : Nat) (b : AAct) (w : AWorld) (p : Nat) (x : PyStr)
    (hb : ∀ y q, b ≠ .define y x q) (h : ∀ a, w.ns p x ≠ some (.lazy a)) (a : Nat) :
    (aact env n b w).2.ns p x ≠ some (.lazy a) := by
  have load : ∀ c, (loadAttr env n c w).2.ns p x ≠ some (.lazy a) := by
    intro c
    have hc := loadAttr_cases env n c w
    generalize loadAttr env n c w = r at hc
    cases hc with
    | cached => exact h a
    | failed => exact h a
    | loaded m1 m q =>
      show (if p = q ∧ x = (w.attrs c).attr then some (ABind.ofValue _) else w.ns p x) ≠ _
      split
      · generalize env.value _ _ = v
        cases v <;> nofun
      · exact h a
  cases b with
  | mods b => exact h a
  | define y attr parent =>
    dsimp only [aact]
    rw [Py.bind_ok (Py.gets_apply _ _)]
    have hx : x ≠ attr := fun e => hb y parent (by rw [e])
    rcases resolve w.mods y with _ | i
    · exact h a
    · rcases resolve w.mods parent with _ | q
      · exact h a
      · dsimp only
        have g := getLazyAttribute_eq i attr parent w
        by_cases hc : (w.mods.objs i).cls = .placeholder
        · rw [if_pos hc] at g
          rw [Py.bind_ok g]
          show (if p = q ∧ x = attr then some ABind.none else w.ns p x) ≠ _
          rw [if_neg fun e => hx e.2]
          exact h a
        · rw [if_neg hc] at g
          rw [Py.bind_ok g]
          show (if p = q ∧ x = attr then some (ABind.lazy w.made) else w.ns p x) ≠ _
          rw [if_neg fun e => hx e.2]
          exact h a
  | call c =>
    show (withAttr c (callAttr env n c) w).2.ns p x ≠ _
    rcases withAttr_state c (callAttr env n c) w with e | ⟨_, e⟩
    · rw [e]; exact h a
    · rw [e, callAttr_state]; exact load c
  | getattr c attr =>
    show (withAttr c (attrGetattr env n c attr) w).2.ns p x ≠ _
    rcases withAttr_state c (attrGetattr env n c attr) w with e | ⟨_, e⟩
    · rw [e]; exact h a
    · rw [e]
      rcases attrGetattr_state env n c attr w with e | e
      · rw [e]; exact h a
      · rw [e]; exact load c
  | repr c =>
    show (withAttr c (attrRepr env n c) w).2.ns p x ≠ _
    rcases withAttr_state c (attrRepr env n c) w with e | ⟨_, e⟩
    · rw [e]; exact h a
    · rw [e]
      exact h a

end Lazy
end SyncStream
