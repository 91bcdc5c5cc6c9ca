import Verif.Lemmas.LazyAttr
import Verif.Props.Lazy
/-!
# C64: lazy attributes
-/

namespace SyncStream
open Lazy Spec

/-- The beginning: no lazy attributes. -/
structure Spec.FreshAttrs (w : AWorld) : Prop where
  mods : Fresh w.mods
  made : w.made = 0

theorem Spec.FreshAttrs.good {w : AWorld} (h : FreshAttrs w) (env : AEnv) : AGood env w :=
  ⟨h.mods.reg, fun a ha => by rw [h.made] at ha; omega, fun a ha => by rw [h.made] at ha; omega⟩

/-- A call of the lazy attribute, or the use of an attribute of it, succeeds and acts on the object `v`. -/
def Spec.Used (env : AEnv) (m a : Nat) (u : AWorld) (v : Option Nat) (w' : AWorld) : Prop :=
  callAttr env m a u = (.ok v, w') ∨ ∃ attr, attrGetattr env m a attr u = (.ok (some v), w')

theorem Spec.Used.load {env : AEnv} {m a : Nat} {u : AWorld} {v : Option Nat} {w' : AWorld} (h : Used env m a u v w') :
    loadAttr env m a u = (.ok v, w') := by
  rcases hl : loadAttr env m a u with ⟨r, u1⟩
  rcases h with h | ⟨attr, h⟩
  · unfold callAttr at h
    cases r with
    | error e => rw [Py.bind_error hl] at h; cases h
    | ok v' =>
      rw [Py.bind_ok hl] at h
      split at h
      · exact h
      · cases h
  · unfold attrGetattr at h
    split at h
    · cases h
    · cases r with
      | error e => rw [Py.bind_error hl] at h; cases h
      | ok v' =>
        rw [Py.bind_ok hl] at h
        split at h
        · cases h; rfl
        · cases h

/-- **C64** `get_lazy_attribute` gives `None` exactly for placeholders; it does nothing to modules and names. -/
theorem C64_none (i : Nat) (attr parent : PyStr) (w : AWorld) :
    ((getLazyAttribute i attr parent w).1 = .ok none ↔ (w.mods.objs i).cls = .placeholder) ∧
      (getLazyAttribute i attr parent w).2.mods = w.mods ∧ (getLazyAttribute i attr parent w).2.ns = w.ns := by
  rw [getLazyAttribute_eq]
  split
  · exact ⟨⟨fun _ => by assumption, fun _ => rfl⟩, rfl, rfl⟩
  · exact ⟨⟨nofun, fun h => absurd h (by assumption)⟩, rfl, rfl⟩

/-- **C64** Definitions of lazy attributes load nothing. -/
theorem C64_define (env : AEnv) (n : Nat) (x attr parent : PyStr) (w : AWorld) :
    (aact env n (.define x attr parent) w).2.mods = w.mods := by
  dsimp only [aact]
  rw [Py.bind_ok (Py.gets_apply _ _)]
  rcases resolve w.mods x with _ | i
  · rfl
  · rcases resolve w.mods parent with _ | q
    · rfl
    · dsimp only
      have g := getLazyAttribute_eq i attr parent w
      by_cases hc : (w.mods.objs i).cls = .placeholder
      · rw [if_pos hc] at g
        rw [Py.bind_ok g]
        rfl
      · rw [if_neg hc] at g
        rw [Py.bind_ok g]
        rfl

/-- **C64** Neither do the names a lazy attribute has itself, and showing it while its module is lazy. -/
theorem C64_show (env : AEnv) (n a : Nat) (w : AWorld) :
    (∀ attr ∈ [lit "__repr__", lit "__str__", lit "__call__"], attrGetattr env n a attr w = (.ok none, w)) ∧
      ((w.mods.objs (w.attrs a).mobj).cls = .lazy → env.mods.bare (lit "__name__") = true →
        attrRepr env (n + 1) a w = (.ok (), w)) := by
  refine ⟨fun attr ha => ?_, fun hc hb => ?_⟩
  · unfold attrGetattr
    rw [if_pos]
    · rfl
    · revert attr
      decide +kernel
  · unfold attrRepr
    rw [Py.bind_ok (Py.gets_apply _ _), onMods_apply (C50_protected env.mods n _ _ w.mods hc (by decide +kernel) hb)]

/-- **C64** The first use that succeeds loads the module: its code has been started, the name in the parent module is bound to the
object, and so is the lazy attribute. -/
theorem C64_first_use (env : AEnv) (n m a : Nat) (l : List AAct) (w w' : AWorld) (hw : FreshAttrs w)
    (v : Option Nat) (ha : a < (arun env n l w).made) (hc : ((arun env n l w).mods.objs ((arun env n l w).attrs a).mobj).cls = .lazy)
    (ho : ((arun env n l w).attrs a).obj = none) (h : Used env m a (arun env n l w) v w') :
    (w'.attrs a).mobj ∈ w'.mods.started ∧ (w'.attrs a).obj = v ∧
      ∃ p, w'.mods.modules (w'.attrs a).parent = some (.mod p) ∧ w'.ns p (w'.attrs a).attr = some (.ofValue v) := by
  have st := stepped_arun env n l w (hw.good env)
  have hf : Flagged (arun env n l w).mods := (st.goes _ (allows_flagged env.mods)).rel
    fun j hj hl => by rw [hw.mods.idle j hj] at hl; cases hl
  have hg := st.good
  generalize arun env n l w = u at ha hc ho h hf hg
  have e := h.load
  have e1 : (loadAttr env m a u).1 = .ok v := by rw [e]
  have e2 : w' = (loadAttr env m a u).2 := by rw [e]
  have hcs := loadAttr_cases env m a u
  clear e h
  generalize loadAttr env m a u = r at hcs e1 e2
  subst e2
  cases hcs with
  | cached v' hv => rw [ho] at hv; cases hv
  | failed => cases e1
  | loaded m1 m' p _ h1 h2 hp =>
    cases e1
    have s1 := starts_of_get env.mods m _ u.mods m1 hg.reg hf _ (hg.mobj a ha) hc (by
      rw [show protectedKw.contains (lit "__getattribute__") = false from by decide +kernel]; rfl) h1
    have g1 := loads_go env.mods m (u.attrs a).mobj (lit "__getattribute__") u.mods _ (allows_true env.mods) hg.reg
      (hg.mobj a ha)
    rw [h1] at g1
    have g2 := loads_go env.mods m (u.attrs a).mobj (u.attrs a).attr m1 _ (allows_true env.mods) g1.reg
      (Nat.lt_of_lt_of_le (hg.mobj a ha) g1.keeps.count)
    rw [h2] at g2
    rw [setAttr_attrs, if_pos rfl]
    exact ⟨g2.keeps.started.subset s1, rfl, p, resolve_eq.1 hp, if_pos ⟨rfl, rfl⟩⟩

/-- **C64** From then on the name in the parent module is bound to the object and to no lazy attribute, whatever runs, unless
it is defined again. -/
theorem C64_replaced (env : AEnv) (n : Nat) (l : List AAct) (w : AWorld) (p : Nat) (x : PyStr)
    (hl : ∀ b ∈ l, ∀ y q, b ≠ .define y x q) (h : ∀ a, w.ns p x ≠ some (.lazy a)) (a : Nat) :
    (arun env n l w).ns p x ≠ some (.lazy a) := by
  induction l generalizing w with
  | nil => exact h a
  | cons b l ih =>
    exact ih _ (fun c hc => hl c (List.mem_cons_of_mem _ hc))
      (fun c => notLazy_aact env n b w p x (hl b List.mem_cons_self) h c)

/-- **C64** Every use of a lazy attribute, through whatever reference and whenever, is a use of the object its module
has under the name. -/
theorem C64_same (env : AEnv) (n m a : Nat) (l : List AAct) (w w' : AWorld) (hw : FreshAttrs w)
    (ha : a < (arun env n l w).made) (v : Option Nat)
    (h : Used env m a (arun env n l w) v w') :
    v = env.value (w'.mods.objs (w'.attrs a).mobj).name (w'.attrs a).attr := by
  have hg := (stepped_arun env n l w (hw.good env)).good
  generalize arun env n l w = u at ha h hg
  have e := h.load
  have hcs := loadAttr_cases env m a u
  rw [e] at hcs
  generalize hr : ((.ok v, w') : Except Exc (Option Nat) × AWorld) = r at hcs
  cases hcs with
  | cached v' hv => cases hr; exact (hg.value a ha v' hv).symm
  | failed => cases hr
  | loaded => cases hr; rw [setAttr_attrs, if_pos rfl]; rfl

/-- **C64** After a use of an object (not of `None`), whatever runs, a use loads nothing and changes nothing, and it is a use of the same
object. -/
theorem C64_again (env : AEnv) (n m k : Nat) (l l' : List AAct) (w w' : AWorld) (hw : FreshAttrs w) (a v : Nat)
    (ha : a < (arun env n l w).made) (h : Used env m a (arun env n l w) (some v) w') :
    (env.has (some v) (lit "__call__") = true →
      callAttr env k a (arun env n l' w') = (.ok (some v), arun env n l' w')) ∧
    (∀ attr, env.has (some v) attr = true → attr ∉ attrProtectedKw →
      attrGetattr env k a attr (arun env n l' w') = (.ok (some (some v)), arun env n l' w')) := by
  have hg := (stepped_arun env n l w (hw.good env)).good
  generalize arun env n l w = u at ha h hg
  have e := h.load
  have hcs := loadAttr_cases env m a u
  have st := stepped_load hg ha hcs
  rw [e] at hcs st
  have hv : (w'.attrs a).obj = some v := by
    generalize hr : ((.ok (some v), w') : Except Exc (Option Nat) × AWorld) = r at hcs
    cases hcs with
    | cached v' hv => cases hr; exact hv
    | failed => cases hr
    | loaded =>
      rw [Prod.mk.injEq] at hr
      rw [hr.2, setAttr_attrs, if_pos rfl]
      injection hr.1 with hr1
      exact hr1.symm
  have h := (stepped_arun env n l' w' st.good).stay.obj a (Nat.lt_of_lt_of_le ha st.stay.made) v hv
  have e : loadAttr env k a (arun env n l' w') = (.ok (some v), arun env n l' w') := by
    unfold loadAttr
    rw [Py.bind_ok (Py.gets_apply _ _), h]
    rfl
  refine ⟨fun hh => ?_, fun attr hh hp => ?_⟩
  · unfold callAttr
    rw [Py.bind_ok e, if_pos hh]
    rfl
  · unfold attrGetattr
    rw [if_neg (by simpa using hp), Py.bind_ok e, if_pos hh]
    rfl

/-- **C64** What is used is what the object has: a name that is not one of the lazy attribute itself is given by the object, and by
an object that has it; what is called can be called. -/
theorem C64_has (env : AEnv) (n a : Nat) (w w' : AWorld) :
    (∀ attr x, attr ∉ attrProtectedKw → attrGetattr env n a attr w = (.ok x, w') →
      ∃ v, x = some v ∧ env.has v attr = true) ∧
    (∀ v, callAttr env n a w = (.ok v, w') → env.has v (lit "__call__") = true) := by
  refine ⟨fun attr x hp h => ?_, fun v h => ?_⟩
  · unfold attrGetattr at h
    rw [if_neg (by simpa using hp)] at h
    rcases hl : loadAttr env n a w with ⟨e | v, u⟩
    · rw [Py.bind_error hl] at h; cases h
    · rw [Py.bind_ok hl] at h
      by_cases hv : env.has v attr = true
      · rw [if_pos hv] at h; cases h; exact ⟨v, rfl, hv⟩
      · rw [if_neg hv] at h; cases h
  · unfold callAttr at h
    rcases hl : loadAttr env n a w with ⟨e | v', u⟩
    · rw [Py.bind_error hl] at h; cases h
    · rw [Py.bind_ok hl] at h
      by_cases hv : env.has v' (lit "__call__") = true
      · rw [if_pos hv] at h; cases h; exact hv
      · rw [if_neg hv] at h; cases h

/-- **C64** A use that does not find the object leaves the lazy attribute and all names as they are. -/
theorem C64_failed (env : AEnv) (n a : Nat) (w w' : AWorld) (e : Exc)
    (h : loadAttr env n a w = (.error e, w')) : w'.attrs = w.attrs ∧ w'.ns = w.ns := by
  have hcs := loadAttr_cases env n a w
  rw [h] at hcs
  generalize hr : ((.error e, w') : Except Exc (Option Nat) × AWorld) = r at hcs
  cases hcs with
  | cached => cases hr
  | failed => cases hr; exact ⟨rfl, rfl⟩
  | loaded => cases hr

/-- **C64**, newer versions of Python: the code of a module runs at most once, whatever lazy modules and lazy attributes are used. -/
theorem C64_once_newer (env : AEnv) (hs : env.mods.strict = true) (n : Nat) (l : List AAct) (w : AWorld)
    (hw : FreshAttrs w) : (arun env n l w).mods.started.Nodup := by
  refine (((stepped_arun env n l w (hw.good env)).goes _ (allows_marked env.mods hs)).rel ⟨?_, ?_⟩).nodup
  · rw [hw.mods.started]; exact .nil
  · intro i hi; rw [hw.mods.started] at hi; cases hi

/-- The package: it is the module 0. -/
def attrWorld : AWorld where
  mods := { objs := fun _ => { name := lit "p", cls := .plain }, count := 1,
            modules := fun x => if x = lit "p" then some (.mod 0) else none }
  attrs := fun _ => ⟨0, [], [], none⟩
  made := 0
  ns := fun _ _ => none

theorem freshAttrs_world : FreshAttrs attrWorld := by
  refine ⟨⟨fun x i h => ?_, fun i _ => ⟨rfl, rfl, rfl⟩, fun _ _ => rfl, rfl⟩, rfl⟩
  change (if x = lit "p" then some (LEntry.mod 0) else none) = _ at h
  split at h
  · cases h; exact Nat.zero_lt_one
  · cases h

/-- The classes of the modules `p.file` and `p.host`. -/
def attrEnv (strict : Bool) : AEnv where
  mods := lazyEnv strict fun _ => []
  value x y := if x = lit "p.file" ∧ y = lit "LineFileBuffer" then some 7 else some 8
  has v y := v != none && y != lit "absent"

/-- What `__init__.py` does: `p.file` exists, a dependency of `p.host` does not. -/
def attrPackage : List AAct :=
  [.mods (.lazyImport { name := lit "file", package := some (lit "p"), required := false }),
   .define (lit "p.file") (lit "LineFileBuffer") (lit "p"),
   .mods (.lazyImport { name := lit "host", package := some (lit "p"), required := false, dependencies := [lit "missing"] }),
   .define (lit "p.host") (lit "LineHostBuffer") (lit "p")]

/-- The package in use: nothing is loaded by the definitions or by showing the attribute; `LineHostBuffer` is `None`; the call loads the
module `p.file` and replaces the name. -/
example (strict : Bool) :
    let w := arun (attrEnv strict) 9 (attrPackage ++ [.repr 0]) attrWorld
    let w' := arun (attrEnv strict) 9 [.call 0, .getattr 0 (lit "absent"), .call 0] w
    w.mods.started = [] ∧ w.ns 0 (lit "LineFileBuffer") = some (.lazy 0) ∧ w.ns 0 (lit "LineHostBuffer") = some .none ∧
      w'.mods.started = [1] ∧ w'.ns 0 (lit "LineFileBuffer") = some (.obj 7) ∧ (w'.attrs 0).obj = some 7 := by
  revert strict
  decide +kernel

/-- An attribute that does not exist: the use fails and the name keeps the lazy attribute. -/
example :
    let w := arun (attrEnv true) 9 [.mods (.lazyImport { name := lit "file", package := some (lit "p") }),
      .define (lit "p.file") (lit "absent") (lit "p"), .call 0] attrWorld
    w.mods.started = [1] ∧ w.ns 0 (lit "absent") = some (.lazy 0) := by
  decide +kernel

/-- The object has `write` but not `absent`. -/
example :
    let w := arun (attrEnv true) 9 attrPackage attrWorld
    (attrGetattr (attrEnv true) 9 0 (lit "write") w).1 = .ok (some (some 7)) ∧
      (attrGetattr (attrEnv true) 9 0 (lit "absent") w).1 = .error .attributeError :=
  ⟨rfl, rfl⟩

end SyncStream
