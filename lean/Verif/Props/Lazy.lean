import Verif.Lemmas.Lazy
import Verif.Spec.Modules
/-!
# Lazy modules: C50, C51

`strict = true` is Python 3.11.8, 3.12.2, 3.13 and later, `strict = false` the versions before.
-/

namespace SyncStream
open Spec Lazy

theorem Spec.Fresh.reg {w : LWorld} (h : Fresh w) : Reg w :=
  ⟨h.exist, fun i hi d hd => by rw [(h.plain i hi).2.1] at hd; cases hd⟩

theorem Spec.Fresh.orders {w : LWorld} (h : Fresh w) : Orders w.count w where
  base := Nat.le_refl _
  init i hi := (h.plain i hi).1
  noImp i hi := by rw [(h.plain i hi).1]; nofun
  plain i h1 h2 := by omega
  decl i hi d hd := by rw [(h.plain i hi).2.2] at hd; cases hd
  sub i hi d hd := by rw [(h.plain i hi).2.1] at hd; cases hd
  pend i hi hc := by rw [(h.plain i hi).1] at hc; cases hc
  order l1 i l2 e := by rw [h.started] at e; simp at e

theorem Spec.Fresh.once {w : LWorld} (h : Fresh w) (rank : PyStr → Nat) : Once rank w.count w where
  orders := h.orders
  nodup := by rw [h.started]; exact .nil
  notLazy i hi := by rw [h.started] at hi; cases hi
  named x i hx hi := absurd (h.exist x i hx) (by omega)
  layer i hi d hd := by rw [(h.plain i hi).2.2] at hd; cases hd

/-! ## One object for each name -/

/-- **C50** When a name has been imported, every later import of it, whatever its other arguments and whatever has run in between,
returns the same module and changes nothing. -/
theorem C50_same (env : LEnv) (a b : ImportArgs) (hab : fullName b = fullName a) (w : LWorld) (hw : Reg w) (i : Nat)
    (w1 : LWorld) (h : lazyImport env a w = (.ok i, w1)) (n : Nat) (l : List (LAct × Bool)) :
    lazyImport env b (run env n l w1) = (.ok i, run env n l w1) := by
  have h1 := reg_lazyImport env a hw
  have h2 := lazyImport_cases env a w
  rw [h] at h1 h2
  have h3 : w1.modules (fullName a) = some (.mod i) := by
    cases h2 with
    | found _ hm => exact hm
    | placeholder => exact if_pos rfl
    | made => exact if_pos rfl
  have h4 := (keeps_go env n (.acts l) w1 h1 trivial).1.modules _ i h3
  have h5 := lazyImport_cases env b (run env n l w1)
  rw [← hab] at h4
  generalize lazyImport env b (run env n l w1) = r at h5
  cases h5 with
  | found j h =>
    rw [show (run env n l w1).modules (fullName b) = _ from h4] at h
    cases h; rfl
  | failed _ h => exact absurd h4 (h i)
  | placeholder h => exact absurd h4 (h i)
  | made h => exact absurd h4 (h i)

/-- **C50** A registered module is never replaced, whatever runs. -/
theorem C50_kept (env : LEnv) (n : Nat) (l : List (LAct × Bool)) (w : LWorld) (hw : Reg w) (x : PyStr) (i : Nat)
    (h : w.modules x = some (.mod i)) : (run env n l w).modules x = some (.mod i) :=
  (keeps_go env n (.acts l) w hw trivial).1.modules x i h

/-- **C50** A lazy import runs no code of any module, and neither does any sequence of lazy imports. -/
theorem C50_lazy (env : LEnv) (n : Nat) (l : List (LAct × Bool)) (hl : ∀ a ∈ l, ∃ b, a.1 = .lazyImport b) (w : LWorld) :
    (run env n l w).started = w.started ∧ (run env n l w).finished = w.finished := by
  cases n with
  | zero => exact ⟨rfl, rfl⟩
  | succ n =>
    show (acts env (go env n) l w).2.started = _ ∧ (acts env (go env n) l w).2.finished = _
    induction l generalizing w with
    | nil => exact ⟨rfl, rfl⟩
    | cons a l ih =>
      obtain ⟨a, b⟩ := a
      obtain ⟨b', rfl⟩ := hl _ List.mem_cons_self
      replace ih := ih fun a ha => hl a (List.mem_cons_of_mem _ ha)
      have h1 : (act env (go env n) (.lazyImport b') w).2.started = w.started ∧
          (act env (go env n) (.lazyImport b') w).2.finished = w.finished := by
        rw [act_lazyImport]
        have := lazyImport_cases env b' w
        generalize lazyImport env b' w = r at this
        cases this <;> exact ⟨rfl, rfl⟩
      cases b with
      | true =>
        obtain ⟨g1, g2⟩ := ih (act env (go env n) (.lazyImport b') w).2
        exact ⟨g1.trans h1.1, g2.trans h1.2⟩
      | false =>
        rw [acts]
        rcases hr : act env (go env n) (.lazyImport b') w with ⟨r, w1⟩
        rw [hr] at h1
        cases r with
        | error e => rw [Py.bind_error hr]; exact h1
        | ok u =>
          rw [Py.bind_ok hr]
          obtain ⟨g1, g2⟩ := ih w1
          exact ⟨g1.trans h1.1, g2.trans h1.2⟩

/-! ## What an import of a new name gives -/

theorem findSpec_available {env : LEnv} {w : LWorld} {x : PyStr} (h : Available env w x) :
    findSpec env x w = (.ok true, w) := by
  unfold findSpec
  rw [Py.bind_ok (Py.gets_apply _ _)]
  rcases h with ⟨i, h1, h2⟩ | ⟨h1, h2⟩
  · rw [h1]
    show (Py.gets (fun w : LWorld => w.objs i) >>= _) w = _
    rw [Py.bind_ok (Py.gets_apply _ _)]
    cases hc : (w.objs i).cls <;> first | exact absurd hc h2 | rfl
  · rw [h1]
    show (Except.ok (env.found x), w) = _
    rw [h2]

theorem findSpec_absent {env : LEnv} {w : LWorld} {x : PyStr} (h : Absent env w x) :
    findSpec env x w = (.ok false, w) := by
  unfold findSpec
  rw [Py.bind_ok (Py.gets_apply _ _)]
  rcases h with h1 | ⟨h1, h2⟩
  · rw [h1]; rfl
  · rw [h1]
    show (Except.ok (env.found x), w) = _
    rw [h2]

theorem check_available {env : LEnv} {w : LWorld} {l : List PyStr} (h : ∀ x ∈ l, Available env w x) :
    checkIsDepMissing env l w = (.ok false, w) := by
  induction l with
  | nil => rfl
  | cons x l ih =>
    unfold checkIsDepMissing
    rw [Py.bind_ok (findSpec_available (h x List.mem_cons_self))]
    exact ih fun y hy => h y (List.mem_cons_of_mem _ hy)

theorem check_absent {env : LEnv} {w : LWorld} {p q : List PyStr} {x : PyStr} (h : ∀ y ∈ p, Available env w y)
    (hx : Absent env w x) : checkIsDepMissing env (p ++ x :: q) w = (.ok true, w) := by
  induction p with
  | nil =>
    show checkIsDepMissing env (x :: q) w = _
    unfold checkIsDepMissing
    rw [Py.bind_ok (findSpec_absent hx)]
    rfl
  | cons y p ih =>
    show checkIsDepMissing env (y :: (p ++ x :: q)) w = _
    unfold checkIsDepMissing
    rw [Py.bind_ok (findSpec_available (h y List.mem_cons_self))]
    exact ih fun z hz => h z (List.mem_cons_of_mem _ hz)

theorem lazyImport_unused {env : LEnv} {a : ImportArgs} {w : LWorld} (hu : Unused w (fullName a)) :
    lazyImport env a w = importNew env a w := by
  unfold lazyImport
  rw [Py.bind_ok (Py.gets_apply _ _)]
  rcases hu with h | h <;> rw [h] <;> rfl

theorem findSpec_unused {env : LEnv} {x : PyStr} {w : LWorld} (hu : Unused w x) :
    ∃ b, findSpec env x w = (.ok b, w) := by
  unfold findSpec
  rw [Py.bind_ok (Py.gets_apply _ _)]
  rcases hu with h | h <;> rw [h] <;> exact ⟨_, rfl⟩

theorem createPlaceholder_unused {x : PyStr} {w : LWorld} (hu : Unused w x) (required : Bool) :
    createPlaceholder x required w =
      if required then (.error .moduleNotFound, w) else (.ok w.count, register { name := x, cls := .placeholder } w) := by
  unfold createPlaceholder
  cases required with
  | true => rfl
  | false =>
    rw [if_neg (by simp), if_neg (by simp), Py.bind_ok (Py.gets_apply _ _)]
    rcases hu with h | h <;> rw [h] <;> rfl

/-- A world with one more module, registered under its name, and nothing else changed. -/
structure Adds (w w' : LWorld) (i : Nat) (m : LMod) : Prop where
  new : i = w.count ∧ w'.count = w.count + 1
  obj : w'.objs i = m
  others : ∀ j, j ≠ i → w'.objs j = w.objs j
  modules : ∀ y, w'.modules y = if y = m.name then some (.mod i) else w.modules y
  quiet : w'.started = w.started ∧ w'.finished = w.finished

theorem adds_register (m : LMod) (w : LWorld) : Adds w (register m w) w.count m :=
  ⟨⟨rfl, rfl⟩, if_pos rfl, fun _ h => if_neg h, fun _ => rfl, rfl, rfl⟩

/-- **C50** If a dependency does not exist (and those before it do), an optional import of a new name gives a placeholder that is registered
under the name, and a required one raises `ModuleNotFoundError` and changes nothing. -/
theorem C50_placeholder_dependency (env : LEnv) (a : ImportArgs) (w : LWorld) (hu : Unused w (fullName a))
    (hn : fullName a ≠ []) (hp : a.package ≠ some []) (p q : List PyStr) (x : PyStr)
    (hd : a.dependencies = p ++ x :: q) (h1 : ∀ y ∈ p, Available env w y) (h2 : Absent env w x) :
    (a.required = false → ∃ i w', lazyImport env a w = (.ok i, w') ∧
      Adds w w' i { name := fullName a, cls := .placeholder }) ∧
    (a.required = true → lazyImport env a w = (.error .moduleNotFound, w)) := by
  have h3 := check_absent (q := q) h1 h2
  rw [← hd] at h3
  obtain ⟨b, h4⟩ := findSpec_unused (env := env) hu
  have e : lazyImport env a w = createPlaceholder (fullName a) a.required w := by
    rw [lazyImport_unused hu]
    unfold importNew
    rw [Py.bind_ok h3]
    show (if a.package = some [] then Py.raise .importError else _ : Py LWorld Nat) w = _
    rw [if_neg hp, if_neg hn, Py.bind_ok h4]
    rfl
  rw [e, createPlaceholder_unused hu]
  refine ⟨fun h => ?_, fun h => ?_⟩
  · rw [h]; exact ⟨_, _, rfl, adds_register _ w⟩
  · rw [h]; rfl

theorem gatherRelative_modules {w : LWorld} {rel : List PyStr} (h : ∀ x ∈ rel, ∃ d, w.modules x = some (.mod d)) :
    ∃ deps, gatherRelative rel false w = (.ok deps, w) := by
  unfold gatherRelative
  rw [if_neg (by simp), Py.bind_ok (Py.gets_apply _ _), if_neg, Py.bind_ok (Py.gets_apply _ _)]
  · exact ⟨_, rfl⟩
  · rw [List.any_eq_true]
    rintro ⟨o, ho, e⟩
    obtain ⟨x, hx, rfl⟩ := List.mem_map.1 ho
    obtain ⟨d, hd⟩ := h x hx
    rw [resolve_eq.2 hd] at e
    simp at e

theorem importNew_found {env : LEnv} {a : ImportArgs} {w : LWorld} (hn : fullName a ≠ []) (hp : a.package ≠ some [])
    (h1 : ∀ y ∈ a.dependencies, Available env w y) (h2 : ∀ x ∈ a.relDependencies, ∃ d, w.modules x = some (.mod d))
    {b : Bool} (h3 : findSpec env (fullName a) w = (.ok b, w)) :
    ∃ deps, Gathered w a.relDependencies deps ∧ importNew env a w =
      if b then (.ok w.count, register { name := fullName a, cls := .lazy, deps := deps, declared := deps } w)
      else createPlaceholder (fullName a) a.required w := by
  obtain ⟨deps, hg⟩ := gatherRelative_modules h2
  obtain ⟨r, e1, e2⟩ := gatherRelative_cases a.relDependencies false w
  rw [hg] at e1
  cases e1
  refine ⟨deps, (e2 deps rfl rfl).1, ?_⟩
  unfold importNew
  rw [Py.bind_ok (check_available h1), Py.bind_ok hg, if_neg hp, if_neg hn, Py.bind_ok h3]
  cases b <;> rfl

/-- **C50** If all dependencies exist but the module itself does not, it is the same. -/
theorem C50_placeholder_module (env : LEnv) (a : ImportArgs) (w : LWorld)
    (hn : fullName a ≠ []) (hp : a.package ≠ some []) (h1 : ∀ y ∈ a.dependencies, Available env w y)
    (h2 : ∀ x ∈ a.relDependencies, ∃ d, w.modules x = some (.mod d)) (h3 : Absent env w (fullName a)) :
    (a.required = false → ∃ i w', lazyImport env a w = (.ok i, w') ∧
      Adds w w' i { name := fullName a, cls := .placeholder }) ∧
    (a.required = true → lazyImport env a w = (.error .moduleNotFound, w)) := by
  have hu : Unused w (fullName a) := h3.elim .inr fun h => .inl h.1
  obtain ⟨deps, _, e⟩ := importNew_found hn hp h1 h2 (findSpec_absent h3)
  rw [lazyImport_unused hu, e, if_neg (by simp), createPlaceholder_unused hu]
  refine ⟨fun h => ?_, fun h => ?_⟩
  · rw [h]; exact ⟨_, _, rfl, adds_register _ w⟩
  · rw [h]; rfl

/-- **C50** If everything exists, the import gives a new lazy module; it declares the lazy modules among
those it was given as relative dependencies. -/
theorem C50_made (env : LEnv) (a : ImportArgs) (w : LWorld) (hn : fullName a ≠ []) (hp : a.package ≠ some [])
    (h1 : ∀ y ∈ a.dependencies, Available env w y) (h2 : ∀ x ∈ a.relDependencies, ∃ d, w.modules x = some (.mod d))
    (h3 : w.modules (fullName a) = none) (h4 : env.found (fullName a) = true) :
    ∃ i w' deps, lazyImport env a w = (.ok i, w') ∧
      Adds w w' i { name := fullName a, cls := .lazy, deps := deps, declared := deps } ∧
      ∀ d, d ∈ deps ↔ (w.objs d).cls = .lazy ∧ ∃ x ∈ a.relDependencies, w.modules x = some (.mod d) := by
  obtain ⟨deps, hd, e⟩ := importNew_found hn hp h1 h2 (findSpec_available (.inr ⟨h3, h4⟩))
  rw [lazyImport_unused (.inl h3), e]
  exact ⟨_, _, deps, rfl, adds_register _ w, hd⟩

/-- **C50** The name of a module of a package is the name of the package, a dot and the given name. -/
theorem C50_full_name (p x : PyStr) (hp : p ≠ []) (hx : x ≠ []) (r : Bool) (d e : List PyStr) :
    fullName { name := x, package := some p, required := r, dependencies := d, relDependencies := e } =
      p ++ lit "." ++ x ∧
    fullName { name := x, package := none, required := r, dependencies := d, relDependencies := e } = x := by
  refine ⟨?_, rfl⟩
  show (if p = [] then x else if x = [] then p else p ++ lit "." ++ x) = _
  rw [if_neg hp, if_neg hx]

/-- **C50** is false if a dependency that does not exist has a placeholder: also an optional import then raises
`ValueError`. -/
theorem C50_placeholder_violated (env : LEnv) (a : ImportArgs) (w : LWorld) (hu : Unused w (fullName a))
    (p q : List PyStr) (x : PyStr) (i : Nat) (hd : a.dependencies = p ++ x :: q) (h1 : ∀ y ∈ p, Available env w y)
    (hx : w.modules x = some (.mod i)) (hi : (w.objs i).cls = .placeholder) :
    lazyImport env a w = (.error .valueError, w) := by
  have h2 : findSpec env x w = (.error .valueError, w) := by
    unfold findSpec
    rw [Py.bind_ok (Py.gets_apply _ _), hx]
    show (Py.gets (fun w : LWorld => w.objs i) >>= _) w = _
    rw [Py.bind_ok (Py.gets_apply _ _), hi]
    rfl
  have h3 : checkIsDepMissing env a.dependencies w = (.error .valueError, w) := by
    rw [hd]
    clear hd
    induction p with
    | nil =>
      show checkIsDepMissing env (x :: q) w = _
      unfold checkIsDepMissing
      rw [Py.bind_error h2]
    | cons y p ih =>
      show checkIsDepMissing env (y :: (p ++ x :: q)) w = _
      unfold checkIsDepMissing
      rw [Py.bind_ok (findSpec_available (h1 y List.mem_cons_self))]
      exact ih fun z hz => h1 z (List.mem_cons_of_mem _ hz)
  rw [lazyImport_unused hu]
  unfold importNew
  rw [Py.bind_error h3]

/-! ## Use of a module -/

/-- **C50** An attribute of a placeholder that is not one of a bare module gives `ImportError`, and nothing changes. -/
theorem C50_placeholder_use (env : LEnv) (n i : Nat) (attr : PyStr) (w : LWorld) (hi : (w.objs i).cls = .placeholder)
    (ha : env.bare attr = false) (hr : attr ≠ lit "__path__") :
    go env (n + 1) (.get i attr) w = (.error .importError, w) := by
  show getattr env (go env n) i attr w = _
  unfold getattr
  rw [Py.bind_ok (Py.gets_apply _ _), hi]
  show placeholderGetattr env attr w = _
  unfold placeholderGetattr
  rw [if_neg (by simpa [removedKw] using hr), if_neg (by simp [ha])]
  rfl

/-- **C50** `__path__` of a lazy module or a placeholder gives `AttributeError`, and nothing changes. -/
theorem C50_path (env : LEnv) (n i : Nat) (w : LWorld) (hi : (w.objs i).cls = .placeholder ∨ (w.objs i).cls = .lazy) :
    go env (n + 1) (.get i (lit "__path__")) w = (.error .attributeError, w) := by
  show getattr env (go env n) i (lit "__path__") w = _
  unfold getattr
  rw [Py.bind_ok (Py.gets_apply _ _)]
  rcases hi with hi | hi
  · rw [hi]; rfl
  · rw [hi]; rfl

/-- **C50** The names by which a lazy module is described can be used without running anything. -/
theorem C50_protected (env : LEnv) (n i : Nat) (attr : PyStr) (w : LWorld) (hi : (w.objs i).cls = .lazy)
    (ha : attr ∈ [lit "__name__", lit "__spec__", lit "__class__", lit "__dict__", lit "force_load", lit "load_deps"])
    (hb : env.bare attr = true) : go env (n + 1) (.get i attr) w = (.ok (), w) := by
  show getattr env (go env n) i attr w = _
  unfold getattr
  rw [Py.bind_ok (Py.gets_apply _ _), hi]
  show lazyGetattr env (go env n) i attr w = _
  have h1 : removedKw.contains attr = false ∧ protectedKw.contains attr = true := by
    clear hb
    revert attr
    decide +kernel
  unfold lazyGetattr
  rw [if_neg (by rw [h1.1]; simp), if_pos (by rw [h1.2, hb]; rfl)]
  rfl

theorem starts_of_get (env : LEnv) (m i : Nat) (v w' : LWorld) (hr : Reg v) (hf : Flagged v) (attr : PyStr)
    (hi : i < v.count) (hc : (v.objs i).cls = .lazy) (ha : (protectedKw.contains attr && env.bare attr) = false)
    (h : go env m (.get i attr) v = (.ok (), w')) : i ∈ w'.started := by
  cases m with
  | zero => cases h
  | succ m =>
    change getattr env (go env m) i attr v = _ at h
    unfold getattr at h
    rw [Py.bind_ok (Py.gets_apply _ _), hc] at h
    change lazyGetattr env (go env m) i attr v = _ at h
    unfold lazyGetattr at h
    split at h
    · cases h
    · rw [if_neg (by rw [ha]; simp)] at h
      have g := moves_loadDeps (allows_flagged env) (fun j w => moves_go (allows_flagged env) m j w) i v hr hi
      rcases hd : loadDeps (go env m) i v with ⟨r, v1⟩
      rw [hd] at g
      cases r with
      | error e => rw [Py.bind_error hd] at h; cases h
      | ok u =>
        rw [Py.bind_ok hd, Py.bind_ok (Py.modify_apply _ _)] at h
        have hi1 : i < v1.count := Nat.lt_of_lt_of_le hi g.keeps.count
        have hf1 : Flagged (v1.setObj i fun m => { m with cls := .imp }) :=
          flagged_setObj (g.rel hf) i (fun m => { m with cls := .imp }) fun _ => rfl
        have hr1 : Reg (v1.setObj i fun m => { m with cls := .imp }) :=
          reg_setObj g.reg i (fun m => { m with cls := .imp }) fun _ _ h => h
        rw [impGetattr_eq, if_neg (by simp [setObj_self])] at h
        split at h
        · rename_i hl
          have h2 : (v1.setObj i fun m => { m with cls := .imp }) = w' := congrArg Prod.snd h
          rw [← h2]
          exact hf1 i hi1 hl.2
        · have k := moves_rest (allows_flagged env) (fun j w => moves_go (allows_flagged env) m j w) i attr _
            (hr1.begun env i)
            (Nat.lt_of_lt_of_le (m := v1.count) hi1 (keeps_begun (v1.setObj i fun m => { m with cls := .imp }) env i).count)
          rw [h] at k
          exact k.keeps.started.subset (begun_started env i _)

/-- **C50** The module is loaded when it is used: after an access to an attribute of a lazy module that is none of the names a bare
module has, if the access succeeds, its code has been started. -/
theorem C50_loads (env : LEnv) (n m i : Nat) (l : List (LAct × Bool)) (w w' : LWorld) (hw : Fresh w) (attr : PyStr)
    (hi : i < (run env n l w).count) (hc : ((run env n l w).objs i).cls = .lazy) (ha : env.bare attr = false)
    (h : go env m (.get i attr) (run env n l w) = (.ok (), w')) : i ∈ w'.started := by
  have hk := moves_go (allows_flagged env) n (.acts l) w hw.reg trivial
  have hf : Flagged (run env n l w) := hk.rel fun j hj hl => by rw [hw.idle j hj] at hl; cases hl
  have hr : Reg (run env n l w) := hk.reg
  exact starts_of_get env m i _ w' hr hf attr hi hc (by rw [ha, Bool.and_false]) h

/-! ## Dependencies come first -/

/-- **C50**, older versions of Python: whatever is imported and used, the code of a module starts only after that of all
lazy modules it declared as dependencies.  What is missing: the newer versions, for which it is false
(`C50_order_violated`). -/
theorem C50_order_partial (env : LEnv) (hs : env.strict = false) (n : Nat) (l : List (LAct × Bool)) (w : LWorld)
    (hw : Fresh w) (i d : Nat) (hd : d ∈ ((run env n l w).objs i).declared) :
    After (run env n l w).started i d :=
  fun p q e => (((does_go hs n).acts l w hw.reg hw.orders).order p i q e).2 d hd

/-- **C50**, older versions of Python, in terms of the calls: if an import makes a new module `i` and is given `d`
as a relative dependency, then whatever runs afterwards, the code of `i` starts only after that of `d`,
unless `d` was no lazy module to begin with (a normal module or a placeholder). -/
theorem C50_order_calls_partial (env : LEnv) (hs : env.strict = false) (n m : Nat) (l l' : List (LAct × Bool))
    (w : LWorld) (hw : Fresh w) (a : ImportArgs) (i d : Nat) (x : PyStr) (w1 : LWorld)
    (hu : ∀ j, (run env n l w).modules (fullName a) ≠ some (.mod j))
    (h : lazyImport env a (run env n l w) = (.ok i, w1)) (hp : (w1.objs i).cls ≠ .placeholder)
    (hx : x ∈ a.relDependencies) (hd : (run env n l w).modules x = some (.mod d)) :
    After (run env m l' w1).started i d ∨ d < w.count ∨ (w1.objs d).cls = .placeholder := by
  have hk := keeps_go env n (.acts l) w hw.reg trivial
  have ho := (does_go hs n).acts l w hw.reg hw.orders
  have ho1 := orders_lazyImport env a hk.2 ho
  have hr1 := reg_lazyImport env a hk.2
  have hc := lazyImport_cases env a (run env n l w)
  rw [show lazyImport env a (go env n (.acts l) w).2 = _ from h] at ho1 hr1
  rw [h] at hc
  have ho2 := (does_go hs m).acts l' w1 hr1 ho1
  have hk2 := keeps_go env m (.acts l') w1 hr1 trivial
  cases hc with
  | found _ hm => exact absurd hm (hu _)
  | placeholder => exact absurd (congrArg LMod.cls (if_pos rfl)) hp
  | made _ deps hg _ =>
    have hdc : d < (run env n l w).count := hk.2.modules x d hd
    rcases Nat.lt_or_ge d w.count with g | g
    · exact .inr (.inl g)
    · cases hcl : ((run env n l w).objs d).cls with
      | lazy =>
        refine .inl fun p q e => (ho2.order p _ q e).2 d ?_
        rw [hk2.1.declared _ (Nat.lt_succ_self _)]
        show d ∈ (if _ = _ then _ else _ : LMod).declared
        rw [if_pos rfl]
        exact (hg d).2 ⟨hcl, x, hx, hd⟩
      | placeholder =>
        refine .inr (.inr ?_)
        rw [register_objs_old _ _ hdc]
        exact hcl
      | imp => exact absurd hcl (ho.noImp d hdc)
      | plain =>
        refine .inl fun p q e => ?_
        have h1 := ho.plain d g hdc hcl
        obtain ⟨t, ht⟩ := hk2.1.started
        have e' : (run env n l w).started ++ t = p ++ (run env n l w).count :: q := ht.trans e
        have hlt : ∀ j ∈ (run env n l w).started, j < (run env n l w).count := fun j hj => by
          obtain ⟨a1, a2, ea⟩ := List.append_of_mem hj
          exact (ho.order a1 j a2 ea).1
        rcases List.append_eq_append_iff.1 e' with ⟨b, hb1, hb2⟩ | ⟨b, hb1, hb2⟩
        · rw [hb1]; exact List.mem_append_left _ h1
        · cases b with
          | nil => rw [List.append_nil] at hb1; rw [← hb1]; exact h1
          | cons c b =>
            rw [List.cons_append] at hb2
            cases hb2
            exact absurd (hlt _ (by rw [hb1]; exact List.mem_append_right _ List.mem_cons_self)) (Nat.lt_irrefl _)

/-! ## Code runs once -/

/-- **C50**, newer versions of Python: the code of a module runs at most once, whatever is imported and
used. -/
theorem C50_once_newer (env : LEnv) (hs : env.strict = true) (n : Nat) (l : List (LAct × Bool)) (w : LWorld)
    (hw : Fresh w) : (run env n l w).started.Nodup := by
  have := (moves_go (allows_marked env hs) n (.acts l) w hw.reg trivial).rel
  refine (this ⟨?_, ?_⟩).nodup
  · rw [hw.started]; exact .nil
  · intro i hi; rw [hw.started] at hi; cases hi

/-- **C50**, older versions of Python: the code of a module runs at most once if there are no cycles.  What is missing:
cycles, for which it is false (`C50_once_violated`). -/
theorem C50_once_partial (env : LEnv) (hs : env.strict = false) (n : Nat) (l : List (LAct × Bool)) (hl : Acyclic env l)
    (w : LWorld) (hw : Fresh w) : (run env n l w).started.Nodup := by
  obtain ⟨rank, h1, h2, h3⟩ := hl
  have ok : ∀ a : LAct, (∀ e ∈ declares a, rank e.2 < rank e.1) → ActOk rank a := by
    intro a h
    cases a with
    | lazyImport b => exact fun y hy => h (fullName b, y) (List.mem_map.2 ⟨y, hy, rfl⟩)
    | _ => trivial
  have below : ∀ (a : LAct) (r : Nat), (∀ y ∈ uses a, rank y < r) → ActBelow rank r a := by
    intro a r h
    cases a with
    | getattr y _ => exact h y List.mem_cons_self
    | forceLoad y => exact h y List.mem_cons_self
    | _ => trivial
  have hly : Layered env rank :=
    ⟨fun x a ha => below _ _ (h1 x a ha), fun x a ha => ok _ (h2 x a ha)⟩
  exact (once_go (n0 := w.count) hs hly n (.acts l) w hw.reg (hw.once rank) trivial (fun a ha => ok _ (h3 a ha))
    nofun).1.nodup

/-! ## What the code gets wrong -/

/-- Nothing has run and no module has been loaded. -/
structure Quiet (w w' : LWorld) : Prop where
  started : w'.started = w.started
  finished : w'.finished = w.finished
  cls : ∀ j, (w'.objs j).cls = (w.objs j).cls

theorem Quiet.trans {a b c : LWorld} (h : Quiet a b) (k : Quiet b c) : Quiet a c :=
  ⟨k.started.trans h.started, k.finished.trans h.finished, fun j => (k.cls j).trans (h.cls j)⟩

theorem quiet_force (env : LEnv) (hs : env.strict = true) (hb : env.bare (lit "__name__") = true) (n i : Nat)
    (w : LWorld) (hi : (w.objs i).cls = .lazy) : Quiet w (go env n (.force i) w).2 := by
  induction n generalizing i w with
  | zero => exact ⟨rfl, rfl, fun _ => rfl⟩
  | succ n ih =>
    have each : ∀ (l : List Nat) (w : LWorld), Quiet w (loadEach (go env n) l w).2 := by
      intro l
      induction l with
      | nil => exact fun w => ⟨rfl, rfl, fun _ => rfl⟩
      | cons d l ihl =>
        intro w
        unfold loadEach
        rw [Py.bind_ok (Py.gets_apply _ _)]
        dsimp only
        split
        · rename_i hc
          have h1 := ih d w hc
          rcases hr : go env n (.force d) w with ⟨r, w1⟩
          rw [hr] at h1
          cases r with
          | error e => rw [Py.bind_error hr]; exact h1
          | ok u => rw [Py.bind_ok hr]; exact h1.trans (ihl w1)
        · exact ihl w
    have deps : Quiet w (loadDeps (go env n) i w).2 := by
      unfold loadDeps
      rw [Py.bind_ok (Py.gets_apply _ _)]
      have h1 := each (w.objs i).deps w
      rcases hr : loadEach (go env n) (w.objs i).deps w with ⟨r, w1⟩
      rw [hr] at h1
      cases r with
      | error e => rw [Py.bind_error hr]; exact h1
      | ok u =>
        rw [Py.bind_ok hr]
        refine h1.trans ⟨rfl, rfl, fun j => ?_⟩
        show (if j = i then _ else w1.objs j : LMod).cls = _
        split <;> rfl
    show Quiet w (forceLoad env (go env n) i w).2
    unfold forceLoad
    rcases hr : loadDeps (go env n) i w with ⟨r, w1⟩
    rw [hr] at deps
    cases r with
    | error e => rw [Py.bind_error hr]; exact deps
    | ok u =>
      rw [Py.bind_ok hr]
      have hc : (w1.objs i).cls = .lazy := (deps.cls i).trans hi
      rw [impGetattr_eq, if_pos (by simp [hs, hc])]
      refine deps.trans ?_
      cases n with
      | zero => exact ⟨rfl, rfl, fun _ => rfl⟩
      | succ n =>
        show Quiet w1 (getattr env (go env n) i (lit "__name__") w1).2
        unfold getattr
        rw [Py.bind_ok (Py.gets_apply _ _), hc]
        show Quiet w1 (lazyGetattr env (go env n) i (lit "__name__") w1).2
        unfold lazyGetattr
        rw [if_neg (by decide +kernel), if_pos (by rw [hb]; decide +kernel)]
        exact ⟨rfl, rfl, fun _ => rfl⟩

/-- **C50**, newer versions of Python: `force_load()` of a lazy module, which is how dependencies are loaded, runs no
code at all and loads nothing, whatever the module and its dependencies. -/
theorem C50_force_violated (env : LEnv) (hs : env.strict = true) (hb : env.bare (lit "__name__") = true) (n i : Nat)
    (w : LWorld) (hi : (w.objs i).cls = .lazy) :
    (go env n (.force i) w).2.started = w.started ∧ ∀ j, ((go env n (.force i) w).2.objs j).cls = (w.objs j).cls :=
  ⟨(quiet_force env hs hb n i w hi).started, (quiet_force env hs hb n i w hi).cls⟩

/-- No modules. -/
def LWorld.empty : LWorld := { objs := fun _ => { name := [], cls := .plain }, count := 0, modules := fun _ => none }

theorem fresh_empty : Fresh .empty := ⟨nofun, nofun, nofun, rfl⟩

/-- Modules that can all be found and define all attributes. -/
def lazyEnv (strict : Bool) (code : PyStr → List (LAct × Bool)) : LEnv where
  strict := strict
  found x := x != lit "missing"
  bare x := protectedKw.contains x
  defines _ x := x != lit "absent"
  code := code

/-- As the package does it: `host` depends on `webtools`. -/
def lazyPackage : List (LAct × Bool) :=
  [(.lazyImport { name := lit "webtools", package := some (lit "p"), dependencies := [lit "urllib3"] }, false),
   (.lazyImport { name := lit "host", package := some (lit "p"), relDependencies := [lit "p.webtools"] }, false),
   (.getattr (lit "p.host") (lit "__name__"), false)]

/-- **C50**, newer versions of Python: the code of `host` runs without that of its declared dependency. -/
theorem C50_order_violated : ∃ (env : LEnv) (n : Nat) (l : List (LAct × Bool)) (w : LWorld), Fresh w ∧
    0 ∈ ((run env n l w).objs 1).declared ∧ ¬ After (run env n l w).started 1 0 := by
  refine ⟨lazyEnv true fun _ => [], 9, lazyPackage ++ [(.getattr (lit "p.host") (lit "LineHostBuffer"), false)], .empty,
    fresh_empty, by decide +kernel, fun h => ?_⟩
  have e : (run (lazyEnv true fun _ => []) 9 (lazyPackage ++ [(.getattr (lit "p.host") (lit "LineHostBuffer"), false)])
    .empty).started = [] ++ 1 :: [] := by decide +kernel
  cases h _ _ e

/-- With the older versions both run, in order, and none runs before the first use. -/
example : (run (lazyEnv false fun _ => []) 9 lazyPackage .empty).started = [] ∧
    (run (lazyEnv false fun _ => []) 9 (lazyPackage ++ [(.getattr (lit "p.host") (lit "LineHostBuffer"), false)])
      .empty).started = [0, 1] := by decide +kernel

/-- The code of `webtools` uses `host`. -/
def lazyCycle (x : PyStr) : List (LAct × Bool) :=
  if x = lit "p.webtools" then [(.getattr (lit "p.host") (lit "LineHostBuffer"), false)] else []

/-- **C50**, older versions of Python: with a cycle the code of a module can run twice. -/
theorem C50_once_violated : ∃ (env : LEnv) (n : Nat) (l : List (LAct × Bool)) (w : LWorld), Fresh w ∧
    env.strict = false ∧ ¬ (run env n l w).started.Nodup :=
  ⟨lazyEnv false lazyCycle, 9, lazyPackage ++ [(.getattr (lit "p.host") (lit "LineHostBuffer"), false)], .empty,
    fresh_empty, rfl, by decide +kernel⟩

/-- What happens: `webtools`, then `host` for it, then `host` again. -/
example : (run (lazyEnv false lazyCycle) 9
    (lazyPackage ++ [(.getattr (lit "p.host") (lit "LineHostBuffer"), false)]) .empty).started = [0, 1, 1] := by
  decide +kernel

/-- The package without the cycle is acyclic, also if `host` uses `webtools`. -/
example : Acyclic (lazyEnv false fun x => if x = lit "p.host" then [(.getattr (lit "p.webtools") (lit "f"), false)] else [])
    lazyPackage := by
  refine ⟨fun x => if x = lit "p.host" then 1 else 0, fun x a ha y hy => ?_, fun x a ha e he => ?_, ?_⟩
  · by_cases h : x = lit "p.host"
    · simp only [lazyEnv, h, if_true, List.mem_singleton] at ha
      subst ha
      simp only [uses, List.mem_singleton] at hy
      subst hy
      subst h
      decide +kernel
    · simp [lazyEnv, h] at ha
  · by_cases h : x = lit "p.host"
    · simp only [lazyEnv, h, if_true, List.mem_singleton] at ha
      subst ha
      cases he
    · simp [lazyEnv, h] at ha
  · decide +kernel

/-! ## Required imports -/

/-- **C51** A required import returns a module that is no placeholder or raises, unless a placeholder was registered before.
What is missing: the exception (`C51_violated`). -/
theorem C51_partial (env : LEnv) (a : ImportArgs) (hr : a.required = true) (w : LWorld)
    (h : ∀ i, w.modules (fullName a) = some (.mod i) → (w.objs i).cls ≠ .placeholder) (i : Nat) (w' : LWorld)
    (hi : lazyImport env a w = (.ok i, w')) : (w'.objs i).cls ≠ .placeholder := by
  have hc := lazyImport_cases env a w
  rw [hi] at hc
  cases hc with
  | found _ hm => exact h i hm
  | placeholder _ _ hf => rw [hr] at hf; cases hf
  | made =>
    rw [register_objs_new]
    nofun

/-- **C51** is false: after an optional import of a module that does not exist, a required import of it returns the
placeholder, whatever has run in between. -/
theorem C51_violated (env : LEnv) (a b : ImportArgs) (hab : fullName b = fullName a) (w : LWorld) (hw : Reg w)
    (ha : a.required = false) (hn : fullName a ≠ []) (hp : a.package ≠ some []) (hd : a.dependencies = [])
    (hre : a.relDependencies = []) (hx : w.modules (fullName a) = none) (hf : env.found (fullName a) = false)
    (n : Nat) (l : List (LAct × Bool)) :
    ∃ i w1, lazyImport env a w = (.ok i, w1) ∧ (w1.objs i).cls = .placeholder ∧
      lazyImport env b (run env n l w1) = (.ok i, run env n l w1) := by
  obtain ⟨i, w1, h1, h2⟩ := (C50_placeholder_module env a w hn hp (by rw [hd]; nofun) (by rw [hre]; nofun)
    (.inr ⟨hx, hf⟩)).1 ha
  exact ⟨i, w1, h1, by rw [h2.obj], C50_same env a b hab w hw i w1 h1 n l⟩

example : fullName { name := lit "missing", package := none, required := true } =
    fullName { name := lit "missing", package := none, required := false } := rfl

/-- The second import succeeds and the object is a placeholder. -/
example : ((lazyImport (lazyEnv true fun _ => []) { name := lit "missing", required := true }
    (run (lazyEnv true fun _ => []) 3 [(.lazyImport { name := lit "missing", required := false }, false)] .empty)).1.toOption,
    ((run (lazyEnv true fun _ => []) 3 [(.lazyImport { name := lit "missing", required := false }, false)] .empty).objs 0).cls) =
    (some 0, LCls.placeholder) := by decide +kernel

end SyncStream
