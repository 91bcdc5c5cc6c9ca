import Verif.Model.Lazy
/-!
# Invariants of the registry of lazy modules
-/

namespace SyncStream
namespace Lazy
open LWorld

/-! ## `lazy_import` -/

theorem findSpec_state (env : LEnv) (x : PyStr) (w : LWorld) : (findSpec env x w).2 = w := by
  unfold findSpec
  rw [Py.bind_ok (Py.gets_apply _ _)]
  rcases w.modules x with _ | ⟨i⟩ | _ | _
  · rfl
  · show ((Py.gets (fun w : LWorld => w.objs i) >>= _) w).2 = w
    rw [Py.bind_ok (Py.gets_apply _ _)]
    cases (w.objs i).cls <;> rfl
  all_goals rfl

theorem checkIsDepMissing_state (env : LEnv) (l : List PyStr) (w : LWorld) :
    (checkIsDepMissing env l w).2 = w := by
  induction l with
  | nil => rfl
  | cons x l ih =>
    have h1 := findSpec_state env x w
    unfold checkIsDepMissing
    rcases h : findSpec env x w with ⟨r, w1⟩
    rw [h] at h1
    obtain rfl : w1 = w := h1
    cases r with
    | error e => rw [Py.bind_error h]
    | ok b =>
      rw [Py.bind_ok h]
      cases b
      · rfl
      · exact ih

theorem resolve_eq {w : LWorld} {x : PyStr} {d : Nat} : resolve w x = some d ↔ w.modules x = some (.mod d) := by
  unfold resolve
  split
  · rename_i i h; rw [h]; constructor <;> (rintro ⟨⟩; rfl)
  · rename_i h; exact ⟨nofun, fun e => absurd e (h d)⟩

/-- `deps` are the lazy modules among the given ones. -/
def Gathered (w : LWorld) (rel : List PyStr) (deps : List Nat) : Prop :=
  ∀ d, d ∈ deps ↔ (w.objs d).cls = .lazy ∧ ∃ x ∈ rel, w.modules x = some (.mod d)

theorem gatherRelative_cases (rel : List PyStr) (missing : Bool) (w : LWorld) :
    ∃ r, gatherRelative rel missing w = (r, w) ∧
      ∀ deps, missing = false → r = .ok deps → Gathered w rel deps ∧ ∀ x ∈ rel, ∃ d, w.modules x = some (.mod d) := by
  unfold gatherRelative
  cases missing with
  | true => exact ⟨_, rfl, nofun⟩
  | false =>
    rw [if_neg (by simp), Py.bind_ok (Py.gets_apply _ _)]
    split
    · exact ⟨_, rfl, nofun⟩
    · rename_i hn
      rw [Py.bind_ok (Py.gets_apply _ _)]
      refine ⟨_, rfl, ?_⟩
      rintro deps - ⟨⟩
      refine ⟨fun d => ?_, fun x hx => ?_⟩
      · simp only [List.mem_filter, List.mem_filterMap, List.mem_map, id_eq, beq_iff_eq]
        constructor
        · rintro ⟨⟨o, ⟨x, hx, rfl⟩, ho⟩, hc⟩
          exact ⟨hc, x, hx, resolve_eq.1 ho⟩
        · rintro ⟨hc, x, hx, h⟩
          exact ⟨⟨_, ⟨x, hx, rfl⟩, resolve_eq.2 h⟩, hc⟩
      · cases hr : resolve w x with
        | none => exact absurd (List.any_eq_true.2 ⟨none, List.mem_map.2 ⟨x, hx, hr⟩, by simp⟩) hn
        | some d => exact ⟨d, resolve_eq.1 hr⟩

/-- A new object, registered. -/
def register (m : LMod) (w : LWorld) : LWorld := (w.create m).setModule m.name (.mod w.count)

/-- What `lazy_import` does. -/
inductive Imported (env : LEnv) (a : ImportArgs) (w : LWorld) : Except Exc Nat × LWorld → Prop
  | found (i : Nat) (h : w.modules (fullName a) = some (.mod i)) : Imported env a w (.ok i, w)
  | failed (e : Exc) (h : ∀ i, w.modules (fullName a) ≠ some (.mod i)) : Imported env a w (.error e, w)
  | placeholder (h : ∀ i, w.modules (fullName a) ≠ some (.mod i)) (hf : w.modules (fullName a) ≠ some .foreign)
      (hr : a.required = false) :
      Imported env a w (.ok w.count, register { name := fullName a, cls := .placeholder } w)
  | made (h : ∀ i, w.modules (fullName a) ≠ some (.mod i)) (deps : List Nat)
      (hd : Gathered w a.relDependencies deps) (ha : ∀ x ∈ a.relDependencies, ∃ d, w.modules x = some (.mod d)) :
      Imported env a w
        (.ok w.count, register { name := fullName a, cls := .lazy, deps := deps, declared := deps } w)

theorem createPlaceholder_cases (env : LEnv) (a : ImportArgs) (w : LWorld)
    (h : ∀ i, w.modules (fullName a) ≠ some (.mod i)) :
    Imported env a w (createPlaceholder (fullName a) a.required w) := by
  unfold createPlaceholder
  cases hr : a.required with
  | true => exact .failed _ h
  | false =>
    rw [if_neg (by simp), Py.bind_ok (Py.gets_apply _ _)]
    rcases hm : w.modules (fullName a) with _ | ⟨i⟩ | _ | _
    · exact .placeholder h (by rw [hm]; nofun) hr
    · exact .failed _ h
    · exact .failed _ h
    · exact .placeholder h (by rw [hm]; nofun) hr

/-- `lazy_import` of a name that is not registered. -/
def importNew (env : LEnv) (a : ImportArgs) : Py LWorld Nat := do
  let missing ← checkIsDepMissing env a.dependencies
  let deps ← gatherRelative a.relDependencies missing
  if a.package = some [] then Py.raise .importError
  else if fullName a = [] then Py.raise .valueError
  else
    let spec ← findSpec env (fullName a)
    if missing || !spec then createPlaceholder (fullName a) a.required
    else
      let i ← Py.gets (·.count)
      Py.modify (·.create { name := fullName a, cls := .lazy, deps := deps, declared := deps })
      Py.modify (·.setModule (fullName a) (.mod i))
      return i

theorem importNew_cases (env : LEnv) (a : ImportArgs) (w : LWorld)
    (h : ∀ i, w.modules (fullName a) ≠ some (.mod i)) : Imported env a w (importNew env a w) := by
  unfold importNew
  have h1 := checkIsDepMissing_state env a.dependencies w
  rcases h2 : checkIsDepMissing env a.dependencies w with ⟨r, w1⟩
  rw [h2] at h1
  obtain rfl : w1 = w := h1
  cases r with
  | error e => rw [Py.bind_error h2]; exact .failed _ h
  | ok missing =>
    rw [Py.bind_ok h2]
    obtain ⟨r, h3, h4⟩ := gatherRelative_cases a.relDependencies missing w1
    cases r with
    | error e => rw [Py.bind_error h3]; exact .failed _ h
    | ok deps =>
      rw [Py.bind_ok h3]
      split
      · exact .failed _ h
      · split
        · exact .failed _ h
        · have h5 := findSpec_state env (fullName a) w1
          rcases h6 : findSpec env (fullName a) w1 with ⟨r, w2⟩
          rw [h6] at h5
          obtain rfl : w2 = w1 := h5
          cases r with
          | error e => rw [Py.bind_error h6]; exact .failed _ h
          | ok spec =>
            rw [Py.bind_ok h6]
            split
            · exact createPlaceholder_cases env a w2 h
            · rename_i hm
              have hm : missing = false := by cases missing <;> simp_all
              exact .made h deps (h4 _ hm rfl).1 (h4 _ hm rfl).2

theorem lazyImport_cases (env : LEnv) (a : ImportArgs) (w : LWorld) :
    Imported env a w (lazyImport env a w) := by
  unfold lazyImport
  rw [Py.bind_ok (Py.gets_apply _ _)]
  rcases hm : w.modules (fullName a) with _ | ⟨i⟩ | _ | _
  · exact importNew_cases env a w (by rw [hm]; nofun)
  · exact .found i hm
  · exact importNew_cases env a w (by rw [hm]; nofun)
  · exact importNew_cases env a w (by rw [hm]; nofun)

/-! ## What never changes -/

/-- Everything that exists stays: registered modules, names, declared dependencies, the history. -/
structure Keeps (w w' : LWorld) : Prop where
  count : w.count ≤ w'.count
  modules : ∀ x i, w.modules x = some (.mod i) → w'.modules x = some (.mod i)
  name : ∀ i, i < w.count → (w'.objs i).name = (w.objs i).name
  declared : ∀ i, i < w.count → (w'.objs i).declared = (w.objs i).declared
  started : w.started <+: w'.started
  finished : w.finished <+: w'.finished

theorem Keeps.refl (w : LWorld) : Keeps w w :=
  ⟨Nat.le_refl _, fun _ _ h => h, fun _ _ => rfl, fun _ _ => rfl, List.prefix_refl _, List.prefix_refl _⟩

theorem Keeps.trans {a b c : LWorld} (h : Keeps a b) (k : Keeps b c) : Keeps a c :=
  ⟨Nat.le_trans h.count k.count, fun x i e => k.modules x i (h.modules x i e),
    fun i hi => (k.name i (Nat.lt_of_lt_of_le hi h.count)).trans (h.name i hi),
    fun i hi => (k.declared i (Nat.lt_of_lt_of_le hi h.count)).trans (h.declared i hi),
    h.started.trans k.started, h.finished.trans k.finished⟩

theorem keeps_setObj (w : LWorld) (i : Nat) (f : LMod → LMod) (h1 : ∀ m, (f m).name = m.name)
    (h2 : ∀ m, (f m).declared = m.declared) : Keeps w (w.setObj i f) := by
  refine ⟨Nat.le_refl _, fun _ _ h => h, fun j _ => ?_, fun j _ => ?_, List.prefix_refl _, List.prefix_refl _⟩
  · show (if j = i then f (w.objs j) else w.objs j).name = _
    split
    · exact h1 _
    · rfl
  · show (if j = i then f (w.objs j) else w.objs j).declared = _
    split
    · exact h2 _
    · rfl

theorem keeps_register (w : LWorld) (m : LMod) (h : ∀ i, w.modules m.name ≠ some (.mod i)) :
    Keeps w (register m w) := by
  refine ⟨Nat.le_succ _, fun x i e => ?_, fun j hj => ?_, fun j hj => ?_, List.prefix_refl _, List.prefix_refl _⟩
  · show (if x = m.name then some (LEntry.mod w.count) else w.modules x) = _
    rw [if_neg]
    · exact e
    · rintro rfl; exact h i e
  · show (if j = w.count then m else w.objs j).name = _
    rw [if_neg (Nat.ne_of_lt hj)]
  · show (if j = w.count then m else w.objs j).declared = _
    rw [if_neg (Nat.ne_of_lt hj)]

theorem keeps_start (w : LWorld) (i : Nat) : Keeps w { w with started := w.started ++ [i] } :=
  ⟨Nat.le_refl _, fun _ _ h => h, fun _ _ => rfl, fun _ _ => rfl, List.prefix_append _ _, List.prefix_refl _⟩

theorem keeps_finish (w : LWorld) (i : Nat) : Keeps w { w with finished := w.finished ++ [i] } :=
  ⟨Nat.le_refl _, fun _ _ h => h, fun _ _ => rfl, fun _ _ => rfl, List.prefix_refl _, List.prefix_append _ _⟩

theorem keeps_lazyImport (env : LEnv) (a : ImportArgs) (w : LWorld) : Keeps w (lazyImport env a w).2 := by
  have := lazyImport_cases env a w
  generalize lazyImport env a w = r at this
  cases this with
  | found => exact .refl _
  | failed => exact .refl _
  | placeholder h => exact keeps_register _ _ h
  | made h => exact keeps_register _ _ h

/-- Only objects that exist are registered or are dependencies. -/
structure Reg (w : LWorld) : Prop where
  modules : ∀ x i, w.modules x = some (.mod i) → i < w.count
  deps : ∀ i, i < w.count → ∀ d ∈ (w.objs i).deps, d < w.count

theorem reg_setObj {w : LWorld} (h : Reg w) (i : Nat) (f : LMod → LMod) (hf : ∀ m, ∀ d ∈ (f m).deps, d ∈ m.deps) :
    Reg (w.setObj i f) := by
  refine ⟨h.modules, fun j hj d hd => ?_⟩
  change d ∈ (if j = i then f (w.objs j) else w.objs j).deps at hd
  split at hd
  · exact h.deps j hj d (hf _ _ hd)
  · exact h.deps j hj d hd

theorem reg_register {w : LWorld} (h : Reg w) (m : LMod) (hm : ∀ d ∈ m.deps, d < w.count) :
    Reg (register m w) := by
  refine ⟨fun x i hx => ?_, fun j hj d hd => ?_⟩
  · change (if x = m.name then some (LEntry.mod w.count) else w.modules x) = _ at hx
    split at hx
    · cases hx; exact Nat.lt_succ_self _
    · exact Nat.lt_succ_of_lt (h.modules x i hx)
  · change d ∈ (if j = w.count then m else w.objs j).deps at hd
    split at hd
    · exact Nat.lt_succ_of_lt (hm d hd)
    · refine Nat.lt_succ_of_lt (h.deps j ?_ d hd)
      rcases Nat.lt_succ_iff_lt_or_eq.1 hj with h | h
      · exact h
      · contradiction

theorem reg_lazyImport (env : LEnv) (a : ImportArgs) {w : LWorld} (h : Reg w) : Reg (lazyImport env a w).2 := by
  have := lazyImport_cases env a w
  generalize lazyImport env a w = r at this
  cases this with
  | found => exact h
  | failed => exact h
  | placeholder => exact reg_register h _ nofun
  | made _ deps hd =>
    refine reg_register h _ fun d hdd => ?_
    obtain ⟨_, x, _, hx⟩ := (hd d).1 hdd
    exact h.modules x d hx

/-- The state in which the code of `i` begins. -/
def begun (env : LEnv) (i : Nat) (w : LWorld) : LWorld :=
  if env.strict then
    { w.setObj i fun m => { m with loading := true } with started := w.started ++ [i] }
  else { w.setObj i fun m => { m with cls := .plain } with started := w.started ++ [i] }

/-- The code of a module and what follows. -/
def rest (env : LEnv) (self : LJob → Py LWorld Unit) (i : Nat) (attr : PyStr) : Py LWorld Unit := do
  let x ← Py.gets fun w => (w.objs i).name
  self (.acts (env.code x))
  Py.modify fun w => { w with finished := w.finished ++ [i] }
  if env.strict then Py.modify (·.setObj i fun m => { m with cls := .plain })
  self (.get i attr)

theorem bind_assoc' {α β γ : Type} (m : Py LWorld α) (f : α → Py LWorld β) (g : β → Py LWorld γ) :
    (m >>= f) >>= g = m >>= fun a => f a >>= g := by
  funext w
  rw [Py.bind_apply, Py.bind_apply, Py.bind_apply]
  rcases m w with ⟨r, w1⟩
  cases r <;> rfl

theorem impGetattr_eq (env : LEnv) (self : LJob → Py LWorld Unit) (i : Nat) (attr : PyStr) (w : LWorld) :
    impGetattr env self i attr w =
      if env.strict = true ∧ (w.objs i).cls ≠ .imp then self (.get i attr) w
      else if env.strict = true ∧ (w.objs i).loading = true then
        (if env.bare attr || env.defines (w.objs i).name attr then .ok () else .error .attributeError, w)
      else rest env self i attr (begun env i w) := by
  unfold impGetattr begun rest
  rw [Py.bind_ok (Py.gets_apply _ _)]
  by_cases hs : env.strict = true
  · by_cases hc : (w.objs i).cls = .imp
    · by_cases hl : (w.objs i).loading = true
      · simp only [hs, hc, hl, ne_eq, not_true_eq_false, and_false, if_false, if_true, and_self]
        split <;> rfl
      · simp only [hs, hc, hl, ne_eq, not_true_eq_false, and_false, if_false, if_true, exec, bind_assoc',
          Bool.false_eq_true]
        rfl
    · simp only [hs, hc, ne_eq, not_false_eq_true, and_self, if_false, if_true]
  · simp only [hs, if_false, exec, bind_assoc', Bool.false_eq_true, false_and]
    rfl

/-! A relation that every step respects is respected by every job. -/

/-- A step, or several, with a relation. -/
structure Goes (R : LWorld → LWorld → Prop) (w w' : LWorld) : Prop where
  keeps : Keeps w w'
  reg : Reg w'
  rel : R w w'

/-- The method moves along the relation. -/
def Moves {α : Type} (R : LWorld → LWorld → Prop) (P : LWorld → Prop) (m : Py LWorld α) : Prop :=
  ∀ w, Reg w → P w → Goes R w (m w).2

/-- Predicates that stay true. -/
def Stable (P : LWorld → Prop) : Prop := ∀ w w', Keeps w w' → P w → P w'

theorem stable_lt (i : Nat) : Stable (i < ·.count) := fun _ _ h hi => Nat.lt_of_lt_of_le hi h.count
theorem stable_true : Stable fun _ => True := fun _ _ _ _ => trivial

/-- The relation allows every single step. -/
structure Allows (R : LWorld → LWorld → Prop) (env : LEnv) : Prop where
  refl : ∀ w, R w w
  trans : ∀ a b c, R a b → R b c → R a c
  imp : ∀ a w, Reg w → R w (lazyImport env a w).2
  cls : ∀ i w c, R w (w.setObj i fun m => { m with cls := c })
  deps : ∀ i w, R w (w.setObj i fun m => { m with deps := [] })
  fin : ∀ i w, R w { w with finished := w.finished ++ [i] }
  begin : ∀ i w, i < w.count → (env.strict = true → (w.objs i).loading = false) → R w (begun env i w)

theorem Reg.begun {w : LWorld} (h : Reg w) (env : LEnv) (i : Nat) : Reg (Lazy.begun env i w) := by
  unfold Lazy.begun
  split
  · have := reg_setObj h i (fun m => { m with loading := true }) fun _ _ hd => hd
    exact ⟨this.modules, this.deps⟩
  · have := reg_setObj h i (fun m => { m with cls := .plain }) fun _ _ hd => hd
    exact ⟨this.modules, this.deps⟩

theorem keeps_begun (w : LWorld) (env : LEnv) (i : Nat) : Keeps w (begun env i w) := by
  unfold begun
  split
  · exact (keeps_setObj w i (fun m => { m with loading := true }) (fun _ => rfl) fun _ => rfl).trans
      (keeps_start _ i)
  · exact (keeps_setObj w i (fun m => { m with cls := .plain }) (fun _ => rfl) fun _ => rfl).trans
      (keeps_start _ i)

/-- What is required of a job. -/
def JobOk (w : LWorld) : LJob → Prop
  | .get i _ => i < w.count
  | .force i => i < w.count
  | .acts _ => True

theorem act_lazyImport (env : LEnv) (self : LJob → Py LWorld Unit) (a : ImportArgs) (w : LWorld) :
    (act env self (.lazyImport a) w).2 = (lazyImport env a w).2 := by
  show ((lazyImport env a >>= fun _ => pure ()) w).2 = _
  rw [Py.bind_apply]
  rcases lazyImport env a w with ⟨r, w1⟩
  cases r <;> rfl

theorem act_getattr (env : LEnv) (self : LJob → Py LWorld Unit) (x attr : PyStr) (w : LWorld) :
    (resolve w x = none ∧ act env self (.getattr x attr) w = (.error .keyError, w)) ∨
    ∃ i, w.modules x = some (.mod i) ∧ act env self (.getattr x attr) w = getattr env self i attr w := by
  have e : act env self (.getattr x attr) w = (match resolve w x with
    | some i => getattr env self i attr | none => Py.raise .keyError : Py LWorld Unit) w := rfl
  rw [e]
  cases hx : resolve w x with
  | none => exact .inl ⟨rfl, rfl⟩
  | some i =>
    refine .inr ⟨i, ?_, rfl⟩
    unfold resolve at hx
    split at hx
    · rename_i h; cases hx; exact h
    · cases hx

theorem act_forceLoad (env : LEnv) (self : LJob → Py LWorld Unit) (x : PyStr) (w : LWorld) :
    (∃ r, act env self (.forceLoad x) w = (r, w)) ∨
    ∃ i, w.modules x = some (.mod i) ∧ (w.objs i).cls = .lazy ∧
      act env self (.forceLoad x) w = forceLoad env self i w := by
  have e : act env self (.forceLoad x) w = (match resolve w x with
    | some i => callForceLoad env self i | none => Py.raise .keyError : Py LWorld Unit) w := rfl
  rw [e]
  cases hx : resolve w x with
  | none => exact .inl ⟨_, rfl⟩
  | some i =>
    have e2 : callForceLoad env self i w = (match (w.objs i).cls with
      | .placeholder => pure ()
      | .lazy => forceLoad env self i
      | _ => Py.raise .attributeError : Py LWorld Unit) w := rfl
    show (∃ r, callForceLoad env self i w = (r, w)) ∨ _
    cases hc : (w.objs i).cls with
    | lazy =>
      refine .inr ⟨i, ?_, hc, ?_⟩
      · unfold resolve at hx
        split at hx
        · rename_i h; cases hx; exact h
        · cases hx
      · show callForceLoad env self i w = _
        rw [e2, hc]
    | _ => rw [e2, hc]; exact .inl ⟨_, rfl⟩

section Moves
variable {R : LWorld → LWorld → Prop} {env : LEnv} (hR : Allows R env)
include hR

theorem Goes.refl {w : LWorld} (h : Reg w) : Goes R w w := ⟨.refl w, h, hR.refl w⟩

theorem Goes.trans {a b c : LWorld} (h : Goes R a b) (k : Goes R b c) : Goes R a c :=
  ⟨h.keeps.trans k.keeps, k.reg, hR.trans _ _ _ h.rel k.rel⟩

theorem Moves.bind {α β : Type} {P : LWorld → Prop} (hP : Stable P) {m : Py LWorld α} {f : α → Py LWorld β}
    (hm : Moves R P m) (hf : ∀ a, Moves R P (f a)) : Moves R P (m >>= f) := by
  intro w hw hp
  have h1 := hm w hw hp
  rcases h : m w with ⟨r, w1⟩
  rw [h] at h1
  cases r with
  | error e => rw [Py.bind_error h]; exact h1
  | ok a => rw [Py.bind_ok h]; exact Goes.trans hR h1 (hf a w1 h1.reg (hP _ _ h1.keeps hp))

theorem Moves.same {α : Type} {P : LWorld → Prop} {m : Py LWorld α} (h : ∀ w, (m w).2 = w) : Moves R P m :=
  fun w hw _ => by rw [h]; exact Goes.refl hR hw

omit hR in
/-- First look at the state. -/
theorem Moves.gets {α β : Type} {P : LWorld → Prop} {g : LWorld → α} {f : α → Py LWorld β}
    (hf : ∀ w, Reg w → P w → Goes R w (f (g w) w).2) : Moves R P (Py.gets g >>= f) := by
  intro w hw hp
  rw [Py.bind_ok (Py.gets_apply _ _)]
  exact hf w hw hp

omit hR in
theorem Moves.ite {α : Type} {P : LWorld → Prop} {c : Prop} [Decidable c] {m n : Py LWorld α}
    (hm : Moves R P m) (hn : Moves R P n) : Moves R P (if c then m else n) := by
  split
  · exact hm
  · exact hn

theorem moves_cls {P : LWorld → Prop} (i : Nat) (c : LCls) :
    Moves R P (Py.modify fun w => w.setObj i fun m => { m with cls := c }) :=
  fun w hw _ => ⟨keeps_setObj w i (fun m => { m with cls := c }) (fun _ => rfl) fun _ => rfl,
    reg_setObj hw i (fun m => { m with cls := c }) fun _ _ h => h, hR.cls i w c⟩

theorem moves_noDeps {P : LWorld → Prop} (i : Nat) :
    Moves R P (Py.modify fun w => w.setObj i fun m => { m with deps := [] }) :=
  fun w hw _ => ⟨keeps_setObj w i (fun m => { m with deps := [] }) (fun _ => rfl) fun _ => rfl,
    reg_setObj hw i (fun m => { m with deps := [] }) fun _ _ h => absurd h List.not_mem_nil, hR.deps i w⟩

theorem moves_fin {P : LWorld → Prop} (i : Nat) :
    Moves R P (Py.modify fun w => { w with finished := w.finished ++ [i] }) :=
  fun w hw _ => ⟨keeps_finish w i, ⟨hw.modules, hw.deps⟩, hR.fin i w⟩

variable {self : LJob → Py LWorld Unit} (hs : ∀ j w, Reg w → JobOk w j → Goes R w (self j w).2)
include hs

theorem moves_rest (i : Nat) (attr : PyStr) : Moves R (i < ·.count) (rest env self i attr) := by
  refine Moves.bind hR (stable_lt i) (.same hR fun _ => rfl) fun x => ?_
  refine Moves.bind hR (stable_lt i) (fun w hw _ => hs _ w hw trivial) fun _ => ?_
  refine Moves.bind hR (stable_lt i) (moves_fin hR i) fun _ => ?_
  split
  · exact Moves.bind hR (stable_lt i) (moves_cls hR i _) fun _ w hw hi => hs _ w hw hi
  · exact fun w hw hi => hs _ w hw hi

theorem moves_impGetattr (i : Nat) (attr : PyStr) : Moves R (i < ·.count) (impGetattr env self i attr) := by
  intro w hw hi
  rw [impGetattr_eq]
  split
  · exact hs _ w hw hi
  · split
    · exact Goes.refl hR hw
    · rename_i h1 h2
      refine Goes.trans hR (b := begun env i w) ⟨keeps_begun w env i, hw.begun env i,
        hR.begin i w hi (by intro h; simpa [h] using h2)⟩ ?_
      exact moves_rest hR hs i attr _ (hw.begun env i) (stable_lt i _ _ (keeps_begun w env i) hi)

theorem moves_loadEach (l : List Nat) : Moves R (fun w => ∀ d ∈ l, d < w.count) (loadEach self l) := by
  induction l with
  | nil => exact .same hR fun _ => rfl
  | cons d l ih =>
    have st : Stable fun w => ∀ d' ∈ d :: l, d' < w.count :=
      fun w w' k h d' hd => Nat.lt_of_lt_of_le (h d' hd) k.count
    have ih' : Moves R (fun w => ∀ d' ∈ d :: l, d' < w.count) (loadEach self l) :=
      fun w hw h => ih w hw fun d' hd => h d' (List.mem_cons_of_mem _ hd)
    refine Moves.bind hR st (.same hR fun _ => rfl) fun m => ?_
    dsimp only
    split
    · exact Moves.bind hR st (fun w hw h => hs _ w hw (h d List.mem_cons_self)) fun _ => ih'
    · exact ih'

theorem moves_loadDeps (i : Nat) : Moves R (i < ·.count) (loadDeps self i) := by
  refine Moves.gets fun w hw hi => ?_
  have h1 := moves_loadEach hR hs (w.objs i).deps w hw (hw.deps i hi)
  rcases h : loadEach self (w.objs i).deps w with ⟨r, w1⟩
  rw [h] at h1
  cases r with
  | error e => rw [Py.bind_error h]; exact h1
  | ok a => rw [Py.bind_ok h]; exact Goes.trans hR h1 (moves_noDeps hR (P := fun _ => True) i w1 h1.reg trivial)

theorem moves_forceLoad (i : Nat) : Moves R (i < ·.count) (forceLoad env self i) :=
  Moves.bind hR (stable_lt i) (moves_loadDeps hR hs i) fun _ => moves_impGetattr hR hs i _

theorem moves_lazyGetattr (i : Nat) (attr : PyStr) : Moves R (i < ·.count) (lazyGetattr env self i attr) := by
  unfold lazyGetattr
  refine .ite (.same hR fun _ => rfl) (.ite (.same hR fun _ => rfl) ?_)
  refine Moves.bind hR (stable_lt i) (moves_loadDeps hR hs i) fun _ => ?_
  exact Moves.bind hR (stable_lt i) (moves_cls hR i _) fun _ => moves_impGetattr hR hs i _

theorem moves_getattr (i : Nat) (attr : PyStr) : Moves R (i < ·.count) (getattr env self i attr) := by
  refine Moves.bind hR (stable_lt i) (.same hR fun _ => rfl) fun m => ?_
  cases m.cls with
  | placeholder => exact .ite (.same hR fun _ => rfl) (.ite (.same hR fun _ => rfl) (.same hR fun _ => rfl))
  | lazy => exact moves_lazyGetattr hR hs i attr
  | imp => exact moves_impGetattr hR hs i attr
  | plain => exact .ite (.same hR fun _ => rfl) (.same hR fun _ => rfl)

theorem moves_act (a : LAct) : Moves R (fun _ => True) (act env self a) := by
  intro w hw _
  cases a with
  | lazyImport a =>
    rw [act_lazyImport]
    exact ⟨keeps_lazyImport env a w, reg_lazyImport env a hw, hR.imp a w hw⟩
  | getattr x attr =>
    rcases act_getattr env self x attr w with ⟨_, e⟩ | ⟨i, h, e⟩
    · rw [e]; exact Goes.refl hR hw
    · rw [e]; exact moves_getattr hR hs i attr w hw (hw.modules x i h)
  | forceLoad x =>
    rcases act_forceLoad env self x w with ⟨_, e⟩ | ⟨i, h, _, e⟩
    · rw [e]; exact Goes.refl hR hw
    · rw [e]; exact moves_forceLoad hR hs i w hw (hw.modules x i h)
  | raise e => exact Goes.refl hR hw

theorem moves_acts (l : List (LAct × Bool)) : Moves R (fun _ => True) (acts env self l) := by
  induction l with
  | nil => exact .same hR fun _ => rfl
  | cons a l ih =>
    obtain ⟨a, b⟩ := a
    cases b with
    | false => exact Moves.bind hR stable_true (moves_act hR hs a) fun _ => ih
    | true =>
      intro w hw _
      have h1 := moves_act hR hs a w hw trivial
      exact Goes.trans hR h1 (ih _ h1.reg trivial)

omit hs in
theorem moves_go (n : Nat) (j : LJob) (w : LWorld) (hw : Reg w) (hj : JobOk w j) : Goes R w (go env n j w).2 := by
  induction n generalizing j w with
  | zero => exact Goes.refl hR hw
  | succ n ih =>
    cases j with
    | get i attr => exact moves_getattr hR (fun j w => ih j w) i attr w hw hj
    | force i => exact moves_forceLoad hR (fun j w => ih j w) i w hw hj
    | acts l => exact moves_acts hR (fun j w => ih j w) l w hw trivial

end Moves

theorem allows_true (env : LEnv) : Allows (fun _ _ => True) env :=
  ⟨fun _ => trivial, fun _ _ _ _ _ => trivial, fun _ _ _ => trivial, fun _ _ _ => trivial, fun _ _ => trivial,
    fun _ _ => trivial, fun _ _ _ _ => trivial⟩

theorem keeps_go (env : LEnv) (n : Nat) (j : LJob) (w : LWorld) (hw : Reg w) (hj : JobOk w j) :
    Keeps w (go env n j w).2 ∧ Reg (go env n j w).2 :=
  ⟨(moves_go (allows_true env) n j w hw hj).keeps, (moves_go (allows_true env) n j w hw hj).reg⟩

/-! ## The newer version: code runs at most once -/

/-- What has been started is marked. -/
structure Marked (w : LWorld) : Prop where
  nodup : w.started.Nodup
  mark : ∀ i ∈ w.started, i < w.count ∧ (w.objs i).loading = true

theorem marked_setObj {w : LWorld} (h : Marked w) (i : Nat) (f : LMod → LMod)
    (hf : ∀ m, m.loading = true → (f m).loading = true) : Marked (w.setObj i f) := by
  refine ⟨h.nodup, fun j hj => ⟨(h.mark j hj).1, ?_⟩⟩
  show (if j = i then f (w.objs j) else w.objs j).loading = true
  split
  · exact hf _ (h.mark j hj).2
  · exact (h.mark j hj).2

theorem marked_register {w : LWorld} (h : Marked w) (m : LMod) : Marked (register m w) := by
  refine ⟨h.nodup, fun j hj => ⟨Nat.lt_succ_of_lt (h.mark j hj).1, ?_⟩⟩
  show (if j = w.count then m else w.objs j).loading = true
  rw [if_neg (Nat.ne_of_lt (h.mark j hj).1)]
  exact (h.mark j hj).2

theorem allows_marked (env : LEnv) (hs : env.strict = true) : Allows (fun w w' => Marked w → Marked w') env where
  refl _ h := h
  trans _ _ _ h k x := k (h x)
  imp a w _ h := by
    have := lazyImport_cases env a w
    generalize lazyImport env a w = r at this
    cases this with
    | found => exact h
    | failed => exact h
    | placeholder => exact marked_register h _
    | made => exact marked_register h _
  cls i w c h := marked_setObj h i (fun m => { m with cls := c }) fun _ x => x
  deps i w h := marked_setObj h i (fun m => { m with deps := [] }) fun _ x => x
  fin i w h := ⟨h.nodup, h.mark⟩
  begin i w hi hl h := by
    have h1 := marked_setObj h i (fun m => { m with loading := true }) fun _ _ => rfl
    unfold begun
    rw [if_pos hs]
    refine ⟨?_, fun j hj => ?_⟩
    · refine List.nodup_append.2 ⟨h.nodup, by simp, ?_⟩
      rintro a ha b hb rfl
      simp only [List.mem_singleton] at hb
      subst hb
      exact absurd (h.mark _ ha).2 (by simp [hl hs])
    · rcases List.mem_append.1 hj with hj | hj
      · exact h1.mark j hj
      · simp only [List.mem_singleton] at hj
        subst hj
        refine ⟨hi, ?_⟩
        show (if j = j then _ else w.objs j).loading = true
        rw [if_pos rfl]

/-! ## What is marked has been started -/

/-- What is marked has been started. -/
def Flagged (w : LWorld) : Prop := ∀ j, j < w.count → (w.objs j).loading = true → j ∈ w.started

theorem flagged_setObj {w : LWorld} (h : Flagged w) (i : Nat) (f : LMod → LMod)
    (hf : ∀ m, (f m).loading = m.loading) : Flagged (w.setObj i f) := by
  intro j hj hl
  change (if j = i then f (w.objs j) else w.objs j).loading = true at hl
  refine h j hj ?_
  split at hl
  · rw [hf] at hl; exact hl
  · exact hl

theorem flagged_register {w : LWorld} (h : Flagged w) (m : LMod) (hm : m.loading = false) : Flagged (register m w) := by
  intro j hj hl
  change (if j = w.count then m else w.objs j).loading = true at hl
  split at hl
  · rw [hm] at hl; cases hl
  · rename_i hn
    exact h j (by have : j < w.count + 1 := hj; omega) hl

theorem allows_flagged (env : LEnv) : Allows (fun w w' => Flagged w → Flagged w') env where
  refl _ h := h
  trans _ _ _ h k x := k (h x)
  imp a w _ h := by
    have := lazyImport_cases env a w
    generalize lazyImport env a w = r at this
    cases this with
    | found => exact h
    | failed => exact h
    | placeholder => exact flagged_register h _ rfl
    | made => exact flagged_register h _ rfl
  cls i w c h := flagged_setObj h i (fun m => { m with cls := c }) fun _ => rfl
  deps i w h := flagged_setObj h i (fun m => { m with deps := [] }) fun _ => rfl
  fin i w h := h
  begin i w hi hl h := by
    unfold begun
    split
    · intro j hj hl
      change (if j = i then _ else w.objs j : LMod).loading = true at hl
      refine List.mem_append.2 ?_
      split at hl
      · rename_i e; exact .inr (List.mem_singleton.2 e)
      · exact .inl (h j hj hl)
    · have h1 := flagged_setObj h i (fun m => { m with cls := .plain }) fun _ => rfl
      exact fun j hj hl => List.mem_append_left _ (h1 j hj hl)

theorem begun_started (env : LEnv) (i : Nat) (w : LWorld) : i ∈ (begun env i w).started := by
  unfold begun
  split <;> exact List.mem_append_right _ (List.mem_singleton.2 rfl)

/-! ## The older version: dependencies come first -/

/-- The invariant; `n0` modules existed from the beginning. -/
structure Orders (n0 : Nat) (w : LWorld) : Prop where
  base : n0 ≤ w.count
  init : ∀ i, i < n0 → (w.objs i).cls = .plain
  noImp : ∀ i, i < w.count → (w.objs i).cls ≠ .imp
  plain : ∀ i, n0 ≤ i → i < w.count → (w.objs i).cls = .plain → i ∈ w.started
  decl : ∀ i, i < w.count → ∀ d ∈ (w.objs i).declared, n0 ≤ d ∧ d < i ∧ (w.objs d).cls ≠ .placeholder
  sub : ∀ i, i < w.count → ∀ d ∈ (w.objs i).deps, d ∈ (w.objs i).declared
  pend : ∀ i, i < w.count → (w.objs i).cls = .lazy → ∀ d ∈ (w.objs i).declared,
    d ∈ (w.objs i).deps ∨ d ∈ w.started
  order : ∀ l1 i l2, w.started = l1 ++ i :: l2 → i < w.count ∧ ∀ d ∈ (w.objs i).declared, d ∈ l1

theorem snoc_split {α : Type} {s l1 l2 : List α} {i j : α} (h : s ++ [i] = l1 ++ j :: l2) :
    (l1 = s ∧ j = i) ∨ ∃ l2', s = l1 ++ j :: l2' := by
  rcases List.eq_nil_or_concat l2 with rfl | ⟨l, x, rfl⟩
  · obtain ⟨h1, h2⟩ := List.append_inj' h rfl
    cases h2
    exact .inl ⟨h1.symm, rfl⟩
  · rw [List.concat_eq_append, ← List.cons_append, ← List.append_assoc] at h
    exact .inr ⟨l, (List.append_inj' h rfl).1⟩

theorem Orders.declared_started {n0 : Nat} {w : LWorld} (h : Orders n0 w) {i : Nat} (hi : i ∈ w.started) :
    ∀ d ∈ (w.objs i).declared, d ∈ w.started := by
  obtain ⟨l1, l2, e⟩ := List.append_of_mem hi
  intro d hd
  rw [e]
  exact List.mem_append_left _ ((h.order l1 i l2 e).2 d hd)

theorem setObj_self (w : LWorld) (i : Nat) (f : LMod → LMod) : (w.setObj i f).objs i = f (w.objs i) := if_pos rfl
theorem setObj_other (w : LWorld) {i j : Nat} (f : LMod → LMod) (h : j ≠ i) : (w.setObj i f).objs j = w.objs j :=
  if_neg h

theorem orders_noDeps {n0 : Nat} {w : LWorld} (h : Orders n0 w) (i : Nat)
    (hd : ∀ d ∈ (w.objs i).declared, d ∈ w.started) :
    Orders n0 (w.setObj i fun m => { m with deps := [] }) := by
  have hc : ∀ j, ((w.setObj i fun m => { m with deps := [] }).objs j).cls = (w.objs j).cls := by
    intro j
    by_cases hj : j = i
    · subst hj; rw [setObj_self]
    · rw [setObj_other _ _ hj]
  have hdc : ∀ j, ((w.setObj i fun m => { m with deps := [] }).objs j).declared = (w.objs j).declared := by
    intro j
    by_cases hj : j = i
    · subst hj; rw [setObj_self]
    · rw [setObj_other _ _ hj]
  refine ⟨h.base, fun j hj => (hc j).trans (h.init j hj), fun j hj => by rw [hc]; exact h.noImp j hj,
    fun j h1 h2 h3 => h.plain j h1 h2 ((hc j).symm.trans h3), fun j hj d hdd => ?_, fun j hj d hdd => ?_,
    fun j hj hl d hdd => ?_, fun l1 j l2 e => ?_⟩
  · rw [hdc] at hdd; rw [hc]; exact h.decl j hj d hdd
  · rw [hdc]
    by_cases hji : j = i
    · subst hji; rw [setObj_self] at hdd; cases hdd
    · rw [setObj_other _ _ hji] at hdd; exact h.sub j hj d hdd
  · rw [hdc] at hdd; rw [hc] at hl
    by_cases hji : j = i
    · subst hji; exact .inr (hd d hdd)
    · rw [setObj_other _ _ hji]; exact h.pend j hj hl d hdd
  · rw [hdc]; exact h.order l1 j l2 e

theorem orders_begun {n0 : Nat} {w : LWorld} (env : LEnv) (hs : env.strict = false) (h : Orders n0 w) (i : Nat)
    (h0 : n0 ≤ i) (hi : i < w.count) (hd : ∀ d ∈ (w.objs i).declared, d ∈ w.started) :
    Orders n0 (begun env i w) := by
  unfold begun
  rw [if_neg (by simp [hs])]
  have hdc : ∀ j, ((w.setObj i fun m => { m with cls := .plain }).objs j).declared = (w.objs j).declared := by
    intro j
    by_cases hj : j = i
    · subst hj; rw [setObj_self]
    · rw [setObj_other _ _ hj]
  have hdp : ∀ j, ((w.setObj i fun m => { m with cls := .plain }).objs j).deps = (w.objs j).deps := by
    intro j
    by_cases hj : j = i
    · subst hj; rw [setObj_self]
    · rw [setObj_other _ _ hj]
  have hpl : ((w.setObj i fun m => { m with cls := .plain }).objs i).cls = .plain := by rw [setObj_self]
  refine ⟨h.base, fun j hj => ?_, fun j hj => ?_, fun j h1 h2 h3 => ?_, fun j hj d hdd => ?_,
    fun j hj d hdd => ?_, fun j hj hl d hdd => ?_, fun l1 j l2 e => ?_⟩
  · show ((w.setObj i fun m => { m with cls := .plain }).objs j).cls = _
    rw [setObj_other _ _ (by omega)]; exact h.init j hj
  · show ((w.setObj i fun m => { m with cls := .plain }).objs j).cls ≠ _
    by_cases hji : j = i
    · subst hji; rw [hpl]; nofun
    · rw [setObj_other _ _ hji]; exact h.noImp j hj
  · by_cases hji : j = i
    · subst hji; exact List.mem_append_right _ (List.mem_singleton.2 rfl)
    · have h3' : ((w.setObj i fun m => { m with cls := .plain }).objs j).cls = .plain := h3
      rw [setObj_other _ _ hji] at h3'
      exact List.mem_append_left _ (h.plain j h1 h2 h3')
  · have hdd' : d ∈ (w.objs j).declared := by rw [← hdc j]; exact hdd
    obtain ⟨g1, g2, g3⟩ := h.decl j hj d hdd'
    refine ⟨g1, g2, ?_⟩
    show ((w.setObj i fun m => { m with cls := .plain }).objs d).cls ≠ _
    by_cases hdi : d = i
    · subst hdi; rw [hpl]; nofun
    · rw [setObj_other _ _ hdi]; exact g3
  · have hdd' : d ∈ (w.objs j).deps := by rw [← hdp j]; exact hdd
    have := h.sub j hj d hdd'
    rw [← hdc j] at this; exact this
  · by_cases hji : j = i
    · subst hji; exact absurd (hpl.symm.trans hl) nofun
    · have hl' : ((w.setObj i fun m => { m with cls := .plain }).objs j).cls = .lazy := hl
      rw [setObj_other _ _ hji] at hl'
      have hdd' : d ∈ (w.objs j).declared := by rw [← hdc j]; exact hdd
      rcases h.pend j hj hl' d hdd' with g | g
      · rw [← hdp j] at g; exact .inl g
      · exact .inr (List.mem_append_left _ g)
  · have key : j < w.count ∧ ∀ d ∈ (w.objs j).declared, d ∈ l1 := by
      rcases snoc_split e with ⟨rfl, rfl⟩ | ⟨l2', e'⟩
      · exact ⟨hi, hd⟩
      · exact h.order l1 j l2' e'
    refine ⟨key.1, fun d hdd => key.2 d ?_⟩
    rw [← hdc j]; exact hdd

theorem register_objs_new (w : LWorld) (m : LMod) : (register m w).objs w.count = m := if_pos rfl
theorem register_objs_old (w : LWorld) (m : LMod) {j : Nat} (h : j < w.count) :
    (register m w).objs j = w.objs j := if_neg (Nat.ne_of_lt h)

theorem orders_register {n0 : Nat} {w : LWorld} (h : Orders n0 w) (m : LMod)
    (hc : m.cls = .lazy ∨ m.cls = .placeholder) (hm : m.declared = m.deps)
    (hd : ∀ d ∈ m.deps, n0 ≤ d ∧ d < w.count ∧ (w.objs d).cls ≠ .placeholder) : Orders n0 (register m w) := by
  have cases : ∀ {P : Nat → LMod → Prop}, (∀ j, j < w.count → P j (w.objs j)) → P w.count m →
      ∀ j, j < (register m w).count → P j ((register m w).objs j) := by
    intro P h1 h2 j hj
    rcases Nat.lt_succ_iff_lt_or_eq.1 (show j < w.count + 1 from hj) with g | g
    · rw [register_objs_old w m g]; exact h1 j g
    · subst g; rw [register_objs_new]; exact h2
  have mem : ∀ j ∈ w.started, j < w.count := fun j hj => by
    obtain ⟨l1, l2, e⟩ := List.append_of_mem hj
    exact (h.order l1 j l2 e).1
  refine ⟨Nat.le_succ_of_le h.base, fun j hj => ?_, ?_, ?_, ?_, ?_, ?_, ?_⟩
  · rw [register_objs_old w m (Nat.lt_of_lt_of_le hj h.base)]; exact h.init j hj
  · refine cases (P := fun _ x => x.cls ≠ .imp) h.noImp ?_
    rcases hc with hc | hc <;> rw [hc] <;> nofun
  · intro j h0 hj
    revert h0
    refine cases (P := fun j x => n0 ≤ j → x.cls = .plain → j ∈ w.started) (fun j hj h0 => h.plain j h0 hj) ?_ j hj
    intro _ hp
    rcases hc with hc | hc <;> rw [hc] at hp <;> cases hp
  · refine cases (P := fun j x => ∀ d ∈ x.declared, n0 ≤ d ∧ d < j ∧ ((register m w).objs d).cls ≠ .placeholder) ?_ ?_
    · intro j hj d hdd
      obtain ⟨g1, g2, g3⟩ := h.decl j hj d hdd
      refine ⟨g1, g2, ?_⟩
      rw [register_objs_old w m (Nat.lt_trans g2 hj)]; exact g3
    · intro d hdd
      rw [hm] at hdd
      obtain ⟨g1, g2, g3⟩ := hd d hdd
      refine ⟨g1, g2, ?_⟩
      rw [register_objs_old w m g2]; exact g3
  · exact cases (P := fun _ x => ∀ d ∈ x.deps, d ∈ x.declared) h.sub (by rw [hm]; exact fun _ h => h)
  · exact cases (P := fun _ x => x.cls = .lazy → ∀ d ∈ x.declared, d ∈ x.deps ∨ d ∈ w.started) h.pend
      (by rw [hm]; exact fun _ _ h => .inl h)
  · intro l1 j l2 e
    obtain ⟨g1, g2⟩ := h.order l1 j l2 e
    refine ⟨Nat.lt_succ_of_lt g1, ?_⟩
    rw [register_objs_old w m g1]; exact g2

theorem orders_lazyImport {n0 : Nat} (env : LEnv) (a : ImportArgs) {w : LWorld} (hw : Reg w) (h : Orders n0 w) :
    Orders n0 (lazyImport env a w).2 := by
  have := lazyImport_cases env a w
  generalize lazyImport env a w = r at this
  cases this with
  | found => exact h
  | failed => exact h
  | placeholder => exact orders_register h _ (.inr rfl) rfl nofun
  | made _ deps hd =>
    refine orders_register h _ (.inl rfl) rfl fun d hdd => ?_
    obtain ⟨g1, x, _, g2⟩ := (hd d).1 hdd
    refine ⟨?_, hw.modules x d g2, by rw [g1]; nofun⟩
    rcases Nat.lt_or_ge d n0 with g | g
    · rw [h.init d g] at g1; cases g1
    · exact g

/-- What the jobs of the older version do. -/
structure Does (n0 : Nat) (sf : LJob → Py LWorld Unit) : Prop where
  keeps : ∀ j w, Reg w → JobOk w j → Goes (fun _ _ => True) w (sf j w).2
  get : ∀ i attr w, Reg w → Orders n0 w → i < w.count → Orders n0 (sf (.get i attr) w).2
  acts : ∀ l w, Reg w → Orders n0 w → Orders n0 (sf (.acts l) w).2
  force : ∀ i w, Reg w → Orders n0 w → i < w.count → (w.objs i).cls = .lazy → Orders n0 (sf (.force i) w).2 ∧
    ((sf (.force i) w).1 = .ok () → i ∈ (sf (.force i) w).2.started)

section Older
variable {n0 : Nat} {env : LEnv} (hst : env.strict = false) {self : LJob → Py LWorld Unit} (hs : Does n0 self)
include hs

theorem orders_loadEach (env : LEnv) (i : Nat) (l : List Nat) (w : LWorld) (hw : Reg w) (h : Orders n0 w) (hi : i < w.count)
    (hl : ∀ d ∈ l, d ∈ (w.objs i).declared) :
    Orders n0 (loadEach self l w).2 ∧
    ((loadEach self l w).1 = .ok () → ∀ d ∈ l, d ∈ (loadEach self l w).2.started) := by
  induction l generalizing w with
  | nil => exact ⟨h, fun _ => nofun⟩
  | cons d l ih =>
    have hd := h.decl i hi d (hl d List.mem_cons_self)
    have hdc : d < w.count := Nat.lt_trans hd.2.1 hi
    unfold loadEach
    rw [Py.bind_ok (Py.gets_apply _ _)]
    dsimp only
    split
    · rename_i hc
      obtain ⟨h1, h2⟩ := hs.force d w hw h hdc hc
      have h3 := hs.keeps (.force d) w hw hdc
      rcases hr : self (.force d) w with ⟨r, w1⟩
      rw [hr] at h1 h2 h3
      cases r with
      | error e => rw [Py.bind_error hr]; exact ⟨h1, nofun⟩
      | ok u =>
        rw [Py.bind_ok hr]
        have hdec := h3.keeps.declared i hi
        have hi1 : i < w1.count := Nat.lt_of_lt_of_le hi h3.keeps.count
        have hl1 : ∀ d ∈ l, d ∈ (w1.objs i).declared := fun d hd => by
          rw [hdec]; exact hl d (List.mem_cons_of_mem _ hd)
        obtain ⟨g1, g2⟩ := ih w1 h3.reg h1 hi1 hl1
        refine ⟨g1, fun ho d' hd' => ?_⟩
        rcases List.mem_cons.1 hd' with rfl | hd'
        · have k := (moves_loadEach (allows_true env) hs.keeps l w1 h3.reg
            fun d hd => Nat.lt_trans (h1.decl i hi1 d (hl1 d hd)).2.1 hi1).keeps
          exact k.started.subset (h2 rfl)
        · exact g2 ho d' hd'
    · rename_i hc
      have hl1 : ∀ d ∈ l, d ∈ (w.objs i).declared := fun d hd => hl d (List.mem_cons_of_mem _ hd)
      obtain ⟨g1, g2⟩ := ih w hw h hi hl1
      refine ⟨g1, fun ho d' hd' => ?_⟩
      rcases List.mem_cons.1 hd' with rfl | hd'
      · have k := (moves_loadEach (allows_true env) hs.keeps l w hw
          fun d hd => Nat.lt_trans (h.decl i hi d (hl1 d hd)).2.1 hi).keeps
        refine k.started.subset (h.plain d' hd.1 hdc ?_)
        have h1 := h.noImp d' hdc
        cases hcl : (w.objs d').cls with
        | plain => rfl
        | lazy => exact absurd hcl hc
        | imp => exact absurd hcl h1
        | placeholder => exact absurd hcl hd.2.2
      · exact g2 ho d' hd'

theorem orders_loadDeps (env : LEnv) (i : Nat) (w : LWorld) (hw : Reg w) (h : Orders n0 w) (hi : i < w.count)
    (hc : (w.objs i).cls = .lazy) :
    Orders n0 (loadDeps self i w).2 ∧
    ((loadDeps self i w).1 = .ok () →
      ∀ d ∈ ((loadDeps self i w).2.objs i).declared, d ∈ (loadDeps self i w).2.started) := by
  unfold loadDeps
  rw [Py.bind_ok (Py.gets_apply _ _)]
  obtain ⟨h1, h2⟩ := orders_loadEach hs env i (w.objs i).deps w hw h hi (h.sub i hi)
  have h3 := moves_loadEach (allows_true env) hs.keeps (w.objs i).deps w hw (hw.deps i hi)
  rcases hr : loadEach self (w.objs i).deps w with ⟨r, w1⟩
  rw [hr] at h1 h2 h3
  cases r with
  | error e => rw [Py.bind_error hr]; exact ⟨h1, nofun⟩
  | ok u =>
    rw [Py.bind_ok hr]
    have hd : ∀ d ∈ (w1.objs i).declared, d ∈ w1.started := by
      intro d hd
      rw [h3.keeps.declared i hi] at hd
      rcases h.pend i hi hc d hd with g | g
      · exact h2 rfl d g
      · exact h3.keeps.started.subset g
    refine ⟨orders_noDeps h1 i hd, fun _ d hdd => ?_⟩
    have : ((w1.setObj i fun m => { m with deps := [] }).objs i).declared = (w1.objs i).declared := by
      rw [setObj_self]
    exact hd d (this ▸ hdd)

include hst

theorem orders_impGetattr (i : Nat) (attr : PyStr) (w : LWorld) (hw : Reg w) (h : Orders n0 w) (h0 : n0 ≤ i)
    (hi : i < w.count) (hd : ∀ d ∈ (w.objs i).declared, d ∈ w.started) :
    Orders n0 (impGetattr env self i attr w).2 ∧ i ∈ (impGetattr env self i attr w).2.started := by
  rw [impGetattr_eq, if_neg (by simp [hst]), if_neg (by simp [hst])]
  have hb := orders_begun env hst h i h0 hi hd
  have hbr := hw.begun env i
  have hbk := keeps_begun w env i
  have hbi : i < (begun env i w).count := Nat.lt_of_lt_of_le hi hbk.count
  have hk := (moves_rest (allows_true env) hs.keeps i attr (begun env i w) hbr hbi).keeps
  refine ⟨?_, hk.started.subset ?_⟩
  · unfold rest
    rw [Py.bind_ok (Py.gets_apply _ _)]
    have h1 := hs.acts (env.code ((begun env i w).objs i).name) _ hbr hb
    have h2 := hs.keeps (.acts (env.code ((begun env i w).objs i).name)) _ hbr trivial
    rcases hr : self (.acts (env.code ((begun env i w).objs i).name)) (begun env i w) with ⟨r, w1⟩
    rw [hr] at h1 h2
    cases r with
    | error e => rw [Py.bind_error hr]; exact h1
    | ok u =>
      rw [Py.bind_ok hr, Py.bind_ok (Py.modify_apply _ _), if_neg (by simp [hst])]
      exact hs.get i attr _ ⟨h2.reg.modules, h2.reg.deps⟩
        ⟨h1.base, h1.init, h1.noImp, h1.plain, h1.decl, h1.sub, h1.pend, h1.order⟩
        (Nat.lt_of_lt_of_le hbi h2.keeps.count)
  · unfold begun
    rw [if_neg (by simp [hst])]
    exact List.mem_append_right _ (List.mem_singleton.2 rfl)

omit hs in
theorem impGetattr_imp (i : Nat) (attr : PyStr) (w : LWorld) :
    impGetattr env self i attr (w.setObj i fun m => { m with cls := .imp }) = impGetattr env self i attr w := by
  rw [impGetattr_eq, impGetattr_eq, if_neg (by simp [hst]), if_neg (by simp [hst]), if_neg (by simp [hst]),
    if_neg (by simp [hst])]
  have : (fun j => if j = i then ({ (w.setObj i fun m => { m with cls := .imp }).objs j with cls := .plain } : LMod)
        else (w.setObj i fun m => { m with cls := .imp }).objs j) =
      fun j => if j = i then { w.objs j with cls := .plain } else w.objs j := by
    funext j
    by_cases hj : j = i <;> simp [hj, LWorld.setObj]
  have e : begun env i (w.setObj i fun m => { m with cls := .imp }) = begun env i w := by
    unfold begun
    rw [if_neg (by simp [hst]), if_neg (by simp [hst])]
    exact congrArg (fun o => LWorld.mk o w.count w.modules (w.started ++ [i]) w.finished) this
  rw [e]

theorem orders_forceLoad (i : Nat) (w : LWorld) (hw : Reg w) (h : Orders n0 w) (hi : i < w.count)
    (hc : (w.objs i).cls = .lazy) : Orders n0 (forceLoad env self i w).2 ∧
    ((forceLoad env self i w).1 = .ok () → i ∈ (forceLoad env self i w).2.started) := by
  have h0 : n0 ≤ i := by
    rcases Nat.lt_or_ge i n0 with g | g
    · rw [h.init i g] at hc; cases hc
    · exact g
  unfold forceLoad
  obtain ⟨h1, h2⟩ := orders_loadDeps hs env i w hw h hi hc
  have h3 := moves_loadDeps (allows_true env) hs.keeps i w hw hi
  rcases hr : loadDeps self i w with ⟨r, w1⟩
  rw [hr] at h1 h2 h3
  cases r with
  | error e => rw [Py.bind_error hr]; exact ⟨h1, nofun⟩
  | ok u =>
    rw [Py.bind_ok hr]
    obtain ⟨g1, g2⟩ := orders_impGetattr hst hs i (lit "__name__") w1 h3.reg h1 h0
      (Nat.lt_of_lt_of_le hi h3.keeps.count) (h2 rfl)
    exact ⟨g1, fun _ => g2⟩

theorem orders_getattr (i : Nat) (attr : PyStr) (w : LWorld) (hw : Reg w) (h : Orders n0 w) (hi : i < w.count) :
    Orders n0 (getattr env self i attr w).2 := by
  unfold getattr
  rw [Py.bind_ok (Py.gets_apply _ _)]
  cases hc : (w.objs i).cls with
  | placeholder =>
    show Orders n0 (placeholderGetattr env attr w).2
    unfold placeholderGetattr
    split
    · exact h
    · split <;> exact h
  | imp => exact absurd hc (h.noImp i hi)
  | plain =>
    show Orders n0 ((if env.defines (w.objs i).name attr = true then pure () else Py.raise .attributeError :
      Py LWorld Unit) w).2
    split <;> exact h
  | lazy =>
    show Orders n0 (lazyGetattr env self i attr w).2
    have h0 : n0 ≤ i := by
      rcases Nat.lt_or_ge i n0 with g | g
      · rw [h.init i g] at hc; cases hc
      · exact g
    unfold lazyGetattr
    split
    · exact h
    · split
      · exact h
      · obtain ⟨h1, h2⟩ := orders_loadDeps hs env i w hw h hi hc
        have h3 := moves_loadDeps (allows_true env) hs.keeps i w hw hi
        rcases hr : loadDeps self i w with ⟨r, w1⟩
        rw [hr] at h1 h2 h3
        cases r with
        | error e => rw [Py.bind_error hr]; exact h1
        | ok u =>
          rw [Py.bind_ok hr, Py.bind_ok (Py.modify_apply _ _), impGetattr_imp hst]
          exact (orders_impGetattr hst hs i attr w1 h3.reg h1 h0 (Nat.lt_of_lt_of_le hi h3.keeps.count) (h2 rfl)).1

theorem orders_act (a : LAct) (w : LWorld) (hw : Reg w) (h : Orders n0 w) : Orders n0 (act env self a w).2 := by
  cases a with
  | lazyImport a => rw [act_lazyImport]; exact orders_lazyImport env a hw h
  | getattr x attr =>
    rcases act_getattr env self x attr w with ⟨_, e⟩ | ⟨i, hx, e⟩
    · rw [e]; exact h
    · rw [e]; exact orders_getattr hst hs i attr w hw h (hw.modules x i hx)
  | forceLoad x =>
    rcases act_forceLoad env self x w with ⟨_, e⟩ | ⟨i, hx, hc, e⟩
    · rw [e]; exact h
    · rw [e]; exact (orders_forceLoad hst hs i w hw h (hw.modules x i hx) hc).1
  | raise e => exact h

theorem orders_acts (l : List (LAct × Bool)) (w : LWorld) (hw : Reg w) (h : Orders n0 w) :
    Orders n0 (acts env self l w).2 := by
  induction l generalizing w with
  | nil => exact h
  | cons a l ih =>
    obtain ⟨a, b⟩ := a
    have h1 := orders_act hst hs a w hw h
    have h2 := moves_act (allows_true env) hs.keeps a w hw trivial
    cases b with
    | true => exact ih _ h2.reg h1
    | false =>
      unfold acts
      rcases hr : act env self a w with ⟨r, w1⟩
      rw [hr] at h1 h2
      cases r with
      | error e => rw [Py.bind_error hr]; exact h1
      | ok u => rw [Py.bind_ok hr]; exact ih w1 h2.reg h1

omit hs in
theorem does_go (n : Nat) : Does n0 (go env n) := by
  induction n with
  | zero => exact ⟨fun j w hw _ => Goes.refl (allows_true env) hw, fun _ _ _ _ h _ => h, fun _ _ _ h => h,
      fun _ _ _ h _ _ => ⟨h, nofun⟩⟩
  | succ n ih =>
    exact ⟨fun j w hw hj => moves_go (allows_true env) (n + 1) j w hw hj, orders_getattr hst ih,
      orders_acts hst ih, orders_forceLoad hst ih⟩

end Older

/-! ## The older version: code runs at most once if the modules are layered -/

/-- The statement uses only modules below `r`. -/
def ActBelow (rank : PyStr → Nat) (r : Nat) : LAct → Prop
  | .getattr y _ => rank y < r
  | .forceLoad y => rank y < r
  | _ => True

/-- A module is imported with dependencies below it. -/
def ActOk (rank : PyStr → Nat) : LAct → Prop
  | .lazyImport a => ∀ y ∈ a.relDependencies, rank y < rank (fullName a)
  | _ => True

/-- The code of every module uses only modules below it. -/
structure Layered (env : LEnv) (rank : PyStr → Nat) : Prop where
  below : ∀ x, ∀ a ∈ env.code x, ActBelow rank (rank x) a.1
  ok : ∀ x, ∀ a ∈ env.code x, ActOk rank a.1

structure Once (rank : PyStr → Nat) (n0 : Nat) (w : LWorld) : Prop where
  orders : Orders n0 w
  nodup : w.started.Nodup
  notLazy : ∀ i ∈ w.started, (w.objs i).cls ≠ .lazy
  named : ∀ x i, w.modules x = some (.mod i) → n0 ≤ i → (w.objs i).name = x
  layer : ∀ i, i < w.count → ∀ d ∈ (w.objs i).declared, rank (w.objs d).name < rank (w.objs i).name

/-- Modules of rank `r` and above are not touched. -/
def Frame (rank : PyStr → Nat) (r : Nat) (w w' : LWorld) : Prop :=
  ∀ i, i < w.count → r ≤ rank (w.objs i).name →
    (w'.objs i).cls = (w.objs i).cls ∧ (i ∈ w'.started → i ∈ w.started)

section Once
variable {rank : PyStr → Nat} {n0 : Nat}

theorem Frame.refl (r : Nat) (w : LWorld) : Frame rank r w w := fun _ _ _ => ⟨rfl, fun h => h⟩

theorem Frame.trans {r : Nat} {a b c : LWorld} (k : Keeps a b) (h : Frame rank r a b) (h' : Frame rank r b c) :
    Frame rank r a c := by
  intro i hi hr
  obtain ⟨h1, h2⟩ := h i hi hr
  obtain ⟨g1, g2⟩ := h' i (Nat.lt_of_lt_of_le hi k.count) (by rw [k.name i hi]; exact hr)
  exact ⟨g1.trans h1, fun x => h2 (g2 x)⟩

theorem Frame.mono {r r' : Nat} {a b : LWorld} (h : Frame rank r a b) (hr : r ≤ r') : Frame rank r' a b :=
  fun i hi hi' => h i hi (Nat.le_trans hr hi')

theorem once_noDeps {w : LWorld} (h : Once rank n0 w) (i : Nat)
    (ho : Orders n0 (w.setObj i fun m => { m with deps := [] })) :
    Once rank n0 (w.setObj i fun m => { m with deps := [] }) := by
  have hc : ∀ j, ((w.setObj i fun m => { m with deps := [] }).objs j).cls = (w.objs j).cls ∧
      ((w.setObj i fun m => { m with deps := [] }).objs j).name = (w.objs j).name ∧
      ((w.setObj i fun m => { m with deps := [] }).objs j).declared = (w.objs j).declared := by
    intro j
    by_cases hj : j = i
    · subst hj; rw [setObj_self]; exact ⟨rfl, rfl, rfl⟩
    · rw [setObj_other _ _ hj]; exact ⟨rfl, rfl, rfl⟩
  refine ⟨ho, h.nodup, fun j hj => by rw [(hc j).1]; exact h.notLazy j hj,
    fun x j hx h0 => (hc j).2.1.trans (h.named x j hx h0), fun j hj d hd => ?_⟩
  rw [(hc j).2.2] at hd
  rw [(hc j).2.1, (hc d).2.1]
  exact h.layer j hj d hd

theorem frame_noDeps (r : Nat) (w : LWorld) (i : Nat) :
    Frame rank r w (w.setObj i fun m => { m with deps := [] }) := by
  intro j _ _
  refine ⟨?_, fun h => h⟩
  by_cases hj : j = i
  · subst hj; rw [setObj_self]
  · rw [setObj_other _ _ hj]

theorem once_begun {w : LWorld} (env : LEnv) (hs : env.strict = false) (h : Once rank n0 w) (i : Nat)
    (hi : i ∉ w.started) (ho : Orders n0 (begun env i w)) : Once rank n0 (begun env i w) := by
  have e : begun env i w =
      { w.setObj i fun m => { m with cls := .plain } with started := w.started ++ [i] } := by
    unfold begun; rw [if_neg (by simp [hs])]
  have hn : ∀ j, ((begun env i w).objs j).name = (w.objs j).name ∧
      ((begun env i w).objs j).declared = (w.objs j).declared := by
    intro j
    rw [e]
    show ((w.setObj i fun m => { m with cls := .plain }).objs j).name = _ ∧
      ((w.setObj i fun m => { m with cls := .plain }).objs j).declared = _
    by_cases hj : j = i
    · subst hj; rw [setObj_self]; exact ⟨rfl, rfl⟩
    · rw [setObj_other _ _ hj]; exact ⟨rfl, rfl⟩
  refine ⟨ho, ?_, fun j hj => ?_, fun x j hx h0 => ?_, fun j hj d hd => ?_⟩
  · rw [e]
    refine List.nodup_append.2 ⟨h.nodup, by simp, ?_⟩
    rintro a ha b hb rfl
    simp only [List.mem_singleton] at hb
    subst hb
    exact hi ha
  · rw [e] at hj ⊢
    show ((w.setObj i fun m => { m with cls := .plain }).objs j).cls ≠ _
    by_cases hji : j = i
    · subst hji; rw [setObj_self]; nofun
    · rw [setObj_other _ _ hji]
      rcases List.mem_append.1 hj with hj | hj
      · exact h.notLazy j hj
      · exact absurd (List.mem_singleton.1 hj) hji
  · rw [(hn j).1]; rw [e] at hx; exact h.named x j hx h0
  · rw [(hn j).2] at hd
    rw [(hn j).1, (hn d).1]
    rw [e] at hj
    exact h.layer j hj d hd

theorem frame_begun {w : LWorld} (env : LEnv) (hs : env.strict = false) (i : Nat) {r : Nat}
    (hr : rank (w.objs i).name < r) : Frame rank r w (begun env i w) := by
  intro j hj hjr
  have hji : j ≠ i := by rintro rfl; omega
  unfold begun
  rw [if_neg (by simp [hs])]
  refine ⟨?_, fun h => ?_⟩
  · show ((w.setObj i fun m => { m with cls := .plain }).objs j).cls = _
    rw [setObj_other _ _ hji]
  · rcases List.mem_append.1 h with h | h
    · exact h
    · exact absurd (List.mem_singleton.1 h) hji

theorem once_lazyImport (env : LEnv) (a : ImportArgs) (ha : ActOk rank (.lazyImport a)) {w : LWorld} (hw : Reg w)
    (h : Once rank n0 w) : Once rank n0 (lazyImport env a w).2 ∧ ∀ r, Frame rank r w (lazyImport env a w).2 := by
  have ho := orders_lazyImport env a hw h.orders
  have := lazyImport_cases env a w
  have mem : ∀ j ∈ w.started, j < w.count := fun j hj => by
    obtain ⟨l1, l2, e⟩ := List.append_of_mem hj
    exact (h.orders.order l1 j l2 e).1
  have key : ∀ m : LMod, (∀ d ∈ m.declared, d < w.count ∧ rank (w.objs d).name < rank m.name) →
      Orders n0 (register m w) →
      Once rank n0 (register m w) ∧ ∀ r, Frame rank r w (register m w) := by
    intro m hm ho
    refine ⟨⟨ho, h.nodup, fun j hj => ?_, fun x j hx h0 => ?_, fun j hj d hd => ?_⟩, fun r j hj _ => ?_⟩
    · rw [register_objs_old w m (mem j hj)]; exact h.notLazy j hj
    · change (if x = m.name then some (LEntry.mod w.count) else w.modules x) = _ at hx
      split at hx
      · rename_i e; cases hx; rw [register_objs_new]; exact e.symm
      · rw [register_objs_old w m (hw.modules x j hx)]; exact h.named x j hx h0
    · rcases Nat.lt_succ_iff_lt_or_eq.1 (show j < w.count + 1 from hj) with g | g
      · rw [register_objs_old w m g] at hd ⊢
        rw [register_objs_old w m (Nat.lt_trans (h.orders.decl j g d hd).2.1 g)]
        exact h.layer j g d hd
      · subst g
        rw [register_objs_new] at hd ⊢
        rw [register_objs_old w m (hm d hd).1]
        exact (hm d hd).2
    · rw [register_objs_old w m hj]; exact ⟨rfl, fun h => h⟩
  generalize lazyImport env a w = r at this ho
  cases this with
  | found => exact ⟨h, fun r => .refl r _⟩
  | failed => exact ⟨h, fun r => .refl r _⟩
  | placeholder => exact key _ nofun ho
  | made _ deps hd =>
    refine key _ (fun d hdd => ?_) ho
    obtain ⟨g1, x, hx, g2⟩ := (hd d).1 hdd
    refine ⟨hw.modules x d g2, ?_⟩
    have h0 : n0 ≤ d := by
      rcases Nat.lt_or_ge d n0 with g | g
      · rw [h.orders.init d g] at g1; cases g1
      · exact g
    rw [h.named x d g2 h0]
    exact ha x hx

/-- What is required of a job. -/
def JobFine (rank : PyStr → Nat) : LJob → Prop
  | .acts l => ∀ a ∈ l, ActOk rank a.1
  | _ => True

/-- The job uses only modules below `r`. -/
def JobBelow (rank : PyStr → Nat) (r : Nat) (w : LWorld) : LJob → Prop
  | .get i _ => rank (w.objs i).name < r
  | .force i => rank (w.objs i).name < r
  | .acts l => ∀ a ∈ l, ActBelow rank r a.1

/-- What a job does. -/
def OnceJob (rank : PyStr → Nat) (n0 : Nat) (sf : LJob → Py LWorld Unit) (j : LJob) : Prop :=
  ∀ w, Reg w → Once rank n0 w → JobOk w j → JobFine rank j → (∀ i, j = .force i → (w.objs i).cls = .lazy) →
    Once rank n0 (sf j w).2 ∧ ∀ r, JobBelow rank r w j → Frame rank r w (sf j w).2

variable {env : LEnv} (hst : env.strict = false) (hly : Layered env rank) {self : LJob → Py LWorld Unit}
  (hd : Does n0 self) (hs : ∀ j, OnceJob rank n0 self j)
include hd hs

theorem once_loadEach (i : Nat) (l : List Nat) (w : LWorld) (hw : Reg w) (h : Once rank n0 w)
    (hi : i < w.count) (hl : ∀ d ∈ l, d ∈ (w.objs i).declared) :
    Once rank n0 (loadEach self l w).2 ∧ Frame rank (rank (w.objs i).name) w (loadEach self l w).2 := by
  induction l generalizing w with
  | nil => exact ⟨h, .refl _ _⟩
  | cons d l ih =>
    have hdd := h.orders.decl i hi d (hl d List.mem_cons_self)
    have hdc : d < w.count := Nat.lt_trans hdd.2.1 hi
    unfold loadEach
    rw [Py.bind_ok (Py.gets_apply _ _)]
    dsimp only
    split
    · rename_i hc
      obtain ⟨h1, h2⟩ := hs (.force d) w hw h hdc trivial (by rintro _ ⟨⟩; exact hc)
      have h2 := h2 (rank (w.objs i).name) (h.layer i hi d (hl d List.mem_cons_self))
      have h3 := hd.keeps (.force d) w hw hdc
      rcases hr : self (.force d) w with ⟨r, w1⟩
      rw [hr] at h1 h2 h3
      cases r with
      | error e => rw [Py.bind_error hr]; exact ⟨h1, h2⟩
      | ok u =>
        rw [Py.bind_ok hr]
        obtain ⟨g1, g2⟩ := ih w1 h3.reg h1 (Nat.lt_of_lt_of_le hi h3.keeps.count) fun d hd => by
          rw [h3.keeps.declared i hi]; exact hl d (List.mem_cons_of_mem _ hd)
        rw [h3.keeps.name i hi] at g2
        exact ⟨g1, .trans h3.keeps h2 g2⟩
    · exact ih w hw h hi fun d hd => hl d (List.mem_cons_of_mem _ hd)

theorem once_loadDeps (env : LEnv) (i : Nat) (w : LWorld) (hw : Reg w) (h : Once rank n0 w) (hi : i < w.count)
    (hc : (w.objs i).cls = .lazy) :
    Once rank n0 (loadDeps self i w).2 ∧ Frame rank (rank (w.objs i).name) w (loadDeps self i w).2 := by
  have ho := (orders_loadDeps hd env i w hw h.orders hi hc).1
  unfold loadDeps at ho ⊢
  rw [Py.bind_ok (Py.gets_apply _ _)] at ho ⊢
  obtain ⟨h1, h2⟩ := once_loadEach hd hs i (w.objs i).deps w hw h hi (h.orders.sub i hi)
  have h3 := moves_loadEach (allows_true env) hd.keeps (w.objs i).deps w hw (hw.deps i hi)
  rcases hr : loadEach self (w.objs i).deps w with ⟨r, w1⟩
  rw [hr] at h1 h2 h3
  cases r with
  | error e => rw [Py.bind_error hr]; exact ⟨h1, h2⟩
  | ok u =>
    rw [Py.bind_ok hr] at ho ⊢
    exact ⟨once_noDeps h1 i ho, .trans h3.keeps h2 (frame_noDeps _ w1 i)⟩

include hst hly

theorem once_impGetattr (i : Nat) (attr : PyStr) (w : LWorld) (hw : Reg w) (h : Once rank n0 w) (h0 : n0 ≤ i)
    (hi : i < w.count) (hdc : ∀ d ∈ (w.objs i).declared, d ∈ w.started) (hn : i ∉ w.started) :
    Once rank n0 (impGetattr env self i attr w).2 ∧
    ∀ r, rank (w.objs i).name < r → Frame rank r w (impGetattr env self i attr w).2 := by
  rw [impGetattr_eq, if_neg (by simp [hst]), if_neg (by simp [hst])]
  have hb := once_begun env hst h i hn (orders_begun env hst h.orders i h0 hi hdc)
  have hbr := hw.begun env i
  have hbk := keeps_begun w env i
  have hbi : i < (begun env i w).count := Nat.lt_of_lt_of_le hi hbk.count
  have hbn := hbk.name i hi
  unfold rest
  rw [Py.bind_ok (Py.gets_apply _ _), hbn]
  obtain ⟨h1, h2⟩ := hs (.acts (env.code (w.objs i).name)) _ hbr hb trivial (hly.ok _) nofun
  have h2 := h2 _ (hly.below _)
  have h3 := hd.keeps (.acts (env.code (w.objs i).name)) _ hbr trivial
  rcases hr : self (.acts (env.code (w.objs i).name)) (begun env i w) with ⟨r, w1⟩
  rw [hr] at h1 h2 h3
  have hf : ∀ r, rank (w.objs i).name < r → Frame rank r w w1 := fun r hr =>
    .trans hbk (frame_begun env hst i hr) (h2.mono (Nat.le_of_lt hr))
  cases r with
  | error e => rw [Py.bind_error hr]; exact ⟨h1, hf⟩
  | ok u =>
    rw [Py.bind_ok hr, Py.bind_ok (Py.modify_apply _ _), if_neg (by simp [hst])]
    have ho := h1.orders
    obtain ⟨g1, g2⟩ := hs (.get i attr) { w1 with finished := w1.finished ++ [i] }
      ⟨h3.reg.modules, h3.reg.deps⟩
      ⟨⟨ho.base, ho.init, ho.noImp, ho.plain, ho.decl, ho.sub, ho.pend, ho.order⟩, h1.nodup, h1.notLazy, h1.named,
        h1.layer⟩
      (Nat.lt_of_lt_of_le hbi h3.keeps.count) trivial nofun
    refine ⟨g1, fun r hr => .trans (hbk.trans h3.keeps) (hf r hr) (g2 r ?_)⟩
    show rank (w1.objs i).name < r
    rw [h3.keeps.name i hbi, hbn]
    exact hr

theorem once_forceLoad (i : Nat) : OnceJob rank n0 (fun _ => forceLoad env self i) (.force i) := by
  intro w hw h hi _ hc
  have hc := hc i rfl
  have h0 : n0 ≤ i := by
    rcases Nat.lt_or_ge i n0 with g | g
    · rw [h.orders.init i g] at hc; cases hc
    · exact g
  dsimp only
  unfold forceLoad
  obtain ⟨h1, h2⟩ := once_loadDeps hd hs env i w hw h hi hc
  have h4 := (orders_loadDeps hd env i w hw h.orders hi hc).2
  have h3 := moves_loadDeps (allows_true env) hd.keeps i w hw hi
  rcases hr : loadDeps self i w with ⟨r, w1⟩
  rw [hr] at h1 h2 h3 h4
  cases r with
  | error e => rw [Py.bind_error hr]; exact ⟨h1, fun r hr => h2.mono (Nat.le_of_lt hr)⟩
  | ok u =>
    rw [Py.bind_ok hr]
    have hn : i ∉ w1.started := fun hm => h.notLazy i ((h2 i hi (Nat.le_refl _)).2 hm) hc
    obtain ⟨g1, g2⟩ := once_impGetattr hst hly hd hs i (lit "__name__") w1 h3.reg h1 h0
      (Nat.lt_of_lt_of_le hi h3.keeps.count) (h4 rfl) hn
    exact ⟨g1, fun r hr => .trans h3.keeps (h2.mono (Nat.le_of_lt hr)) (g2 r (by rw [h3.keeps.name i hi]; exact hr))⟩

theorem once_getattr (i : Nat) (attr : PyStr) : OnceJob rank n0 (fun _ => getattr env self i attr) (.get i attr) := by
  intro w hw h hi _ _
  dsimp only
  have same : Once rank n0 w ∧ ∀ r, JobBelow rank r w (.get i attr) → Frame rank r w w := ⟨h, fun r _ => .refl r w⟩
  unfold getattr
  rw [Py.bind_ok (Py.gets_apply _ _)]
  cases hc : (w.objs i).cls with
  | placeholder =>
    show Once rank n0 (placeholderGetattr env attr w).2 ∧
      ∀ r, JobBelow rank r w (.get i attr) → Frame rank r w (placeholderGetattr env attr w).2
    unfold placeholderGetattr
    split
    · exact same
    · split <;> exact same
  | imp => exact absurd hc (h.orders.noImp i hi)
  | plain =>
    dsimp only
    split <;> exact same
  | lazy =>
    show Once rank n0 (lazyGetattr env self i attr w).2 ∧
      ∀ r, JobBelow rank r w (.get i attr) → Frame rank r w (lazyGetattr env self i attr w).2
    have h0 : n0 ≤ i := by
      rcases Nat.lt_or_ge i n0 with g | g
      · rw [h.orders.init i g] at hc; cases hc
      · exact g
    unfold lazyGetattr
    split
    · exact same
    · split
      · exact same
      · obtain ⟨h1, h2⟩ := once_loadDeps hd hs env i w hw h hi hc
        have h4 := (orders_loadDeps hd env i w hw h.orders hi hc).2
        have h3 := moves_loadDeps (allows_true env) hd.keeps i w hw hi
        rcases hr : loadDeps self i w with ⟨r, w1⟩
        rw [hr] at h1 h2 h3 h4
        cases r with
        | error e => rw [Py.bind_error hr]; exact ⟨h1, fun r hr => h2.mono (Nat.le_of_lt hr)⟩
        | ok u =>
          rw [Py.bind_ok hr, Py.bind_ok (Py.modify_apply _ _), impGetattr_imp hst]
          have hn : i ∉ w1.started := fun hm => h.notLazy i ((h2 i hi (Nat.le_refl _)).2 hm) hc
          obtain ⟨g1, g2⟩ := once_impGetattr hst hly hd hs i attr w1 h3.reg h1 h0
            (Nat.lt_of_lt_of_le hi h3.keeps.count) (h4 rfl) hn
          exact ⟨g1, fun r hr =>
            .trans h3.keeps (h2.mono (Nat.le_of_lt hr)) (g2 r (by rw [h3.keeps.name i hi]; exact hr))⟩

theorem once_act (a : LAct) (ha : ActOk rank a) (w : LWorld) (hw : Reg w) (h : Once rank n0 w) :
    Once rank n0 (act env self a w).2 ∧ ∀ r, ActBelow rank r a → Frame rank r w (act env self a w).2 := by
  cases a with
  | lazyImport a =>
    rw [act_lazyImport]
    obtain ⟨h1, h2⟩ := once_lazyImport env a ha hw h
    exact ⟨h1, fun r _ => h2 r⟩
  | getattr x attr =>
    rcases act_getattr env self x attr w with ⟨_, e⟩ | ⟨i, hx, e⟩
    · rw [e]; exact ⟨h, fun r _ => .refl r w⟩
    · rw [e]
      rcases Nat.lt_or_ge i n0 with g | g
      · have e2 : (getattr env self i attr w).2 = w := by
          unfold getattr
          rw [Py.bind_ok (Py.gets_apply _ _), h.orders.init i g]
          dsimp only
          split <;> rfl
        rw [e2]; exact ⟨h, fun r _ => .refl r w⟩
      · obtain ⟨h1, h2⟩ := once_getattr hst hly hd hs i attr w hw h (hw.modules x i hx) trivial nofun
        refine ⟨h1, fun r hr => h2 r ?_⟩
        show rank (w.objs i).name < r
        rw [h.named x i hx g]
        exact hr
  | forceLoad x =>
    rcases act_forceLoad env self x w with ⟨_, e⟩ | ⟨i, hx, hc, e⟩
    · rw [e]; exact ⟨h, fun r _ => .refl r w⟩
    · rw [e]
      have g : n0 ≤ i := by
        rcases Nat.lt_or_ge i n0 with g | g
        · rw [h.orders.init i g] at hc; cases hc
        · exact g
      obtain ⟨h1, h2⟩ := once_forceLoad hst hly hd hs i w hw h (hw.modules x i hx) trivial (by rintro _ ⟨⟩; exact hc)
      refine ⟨h1, fun r hr => h2 r ?_⟩
      show rank (w.objs i).name < r
      rw [h.named x i hx g]
      exact hr
  | raise e => exact ⟨h, fun r _ => .refl r w⟩

theorem once_acts (l : List (LAct × Bool)) : OnceJob rank n0 (fun _ => acts env self l) (.acts l) := by
  intro w hw h _ hf _
  dsimp only
  induction l generalizing w with
  | nil => exact ⟨h, fun r _ => .refl r w⟩
  | cons a l ih =>
    obtain ⟨a, b⟩ := a
    obtain ⟨h1, h2⟩ := once_act hst hly hd hs a (hf _ List.mem_cons_self) w hw h
    have h3 := moves_act (allows_true env) hd.keeps a w hw trivial
    have hf' : JobFine rank (.acts l) := fun a ha => hf a (List.mem_cons_of_mem _ ha)
    cases b with
    | true =>
      obtain ⟨g1, g2⟩ := ih _ h3.reg h1 trivial hf' nofun
      exact ⟨g1, fun r hr => .trans h3.keeps (h2 r (hr _ List.mem_cons_self))
        (g2 r fun a ha => hr a (List.mem_cons_of_mem _ ha))⟩
    | false =>
      unfold acts
      rcases hr : act env self a w with ⟨r, w1⟩
      rw [hr] at h1 h2 h3
      cases r with
      | error e => rw [Py.bind_error hr]; exact ⟨h1, fun r hr => h2 r (hr _ List.mem_cons_self)⟩
      | ok u =>
        rw [Py.bind_ok hr]
        obtain ⟨g1, g2⟩ := ih w1 h3.reg h1 trivial hf' nofun
        exact ⟨g1, fun r hr => .trans h3.keeps (h2 r (hr _ List.mem_cons_self))
          (g2 r fun a ha => hr a (List.mem_cons_of_mem _ ha))⟩

omit hd hs in
theorem once_go (n : Nat) (j : LJob) : OnceJob rank n0 (go env n) j := by
  induction n generalizing j with
  | zero => exact fun w _ h _ _ _ => ⟨h, fun r _ => .refl r w⟩
  | succ n ih =>
    cases j with
    | get i attr => exact once_getattr hst hly (does_go hst n) ih i attr
    | force i => exact once_forceLoad hst hly (does_go hst n) ih i
    | acts l => exact once_acts hst hly (does_go hst n) ih l

end Once

end Lazy
end SyncStream
