import Verif.Model.LazyImports
import Verif.Lemmas.Prog
import Verif.Lemmas.Protocol
/-!
# Lemmas about `lazy_import` in several threads
-/

namespace SyncStream.LazyImports
open Prog Conc Spec

/-! ### Alone -/

theorem seq_look {α : Type} (f : LWorld → α) (w : LWorld) : (look f).seq w = (.ok (f w), w) := seq_atom ..

theorem seq_change (f : LWorld → LWorld) (w : LWorld) : (change f).seq w = (.ok (), f w) := seq_atom ..

theorem seq_create (m : LMod) (w : LWorld) : (create m).seq w = (.ok w.count, w.create m) := seq_atom ..

theorem seq_findSpec (env : LEnv) (x : PyStr) (w : LWorld) : (findSpec env x).seq w = Lazy.findSpec env x w := by
  rw [findSpec, seq_bind_ok (seq_look _ w), Lazy.findSpec]
  change _ = (match w.modules x with
    | some (.mod i) => _
    | some .foreign => _
    | some .none => _
    | none => _ : Py LWorld Bool) w
  cases hm : w.modules x with
  | none => rfl
  | some e =>
    rw [Option.isSome_some, if_pos rfl, seq_bind_ok (seq_look _ w), hm]
    cases e with
    | mod i =>
      dsimp only
      rw [seq_bind_ok (seq_look _ w)]
      change _ = (match (w.objs i).cls with
        | .placeholder => _
        | _ => _ : Py LWorld Bool) w
      cases (w.objs i).cls <;> rfl
    | foreign => rfl
    | none => rfl

theorem seq_checkIsDepMissing (env : LEnv) (l : List PyStr) (w : LWorld) :
    (checkIsDepMissing env l).seq w = Lazy.checkIsDepMissing env l w := by
  induction l generalizing w with
  | nil => rfl
  | cons d l ih =>
    have h := seq_findSpec env d w
    rw [checkIsDepMissing, Lazy.checkIsDepMissing, seq_bind, Py.bind_apply, Py.bind_apply, h]
    cases Lazy.findSpec env d w with
    | mk r w' =>
      cases r with
      | error e => rfl
      | ok b =>
        cases b with
        | true => exact ih w'
        | false => rfl

theorem seq_lazyOnes (l : List Nat) (w : LWorld) : (lazyOnes l).seq w = (.ok (l.filter fun i => (w.objs i).cls == .lazy), w) := by
  induction l with
  | nil => rfl
  | cons i l ih =>
    rw [lazyOnes, seq_bind_ok (seq_look _ w), seq_bind_ok ih, List.filter_cons]
    cases (w.objs i).cls <;> rfl

theorem seq_gatherRelative (rel : List PyStr) (missing : Bool) (w : LWorld) :
    (gatherRelative rel missing).seq w = Lazy.gatherRelative rel missing w := by
  rw [gatherRelative, Lazy.gatherRelative]
  cases missing with
  | true => rfl
  | false =>
    rw [if_neg Bool.false_ne_true, if_neg Bool.false_ne_true, seq_bind_ok (seq_look _ w)]
    change _ = (if (rel.map (Lazy.resolve w)).any (· == none) then _ else _ : Py LWorld (List Nat)) w
    split
    · rfl
    · exact seq_lazyOnes ..

theorem seq_createPlaceholder (x : PyStr) (req : Bool) (w : LWorld) : (createPlaceholder x req).seq w = Lazy.createPlaceholder x req w := by
  rw [createPlaceholder, Lazy.createPlaceholder]
  cases req with
  | true => rfl
  | false =>
    rw [if_neg Bool.false_ne_true, if_neg Bool.false_ne_true, seq_bind_ok (seq_look _ w)]
    change _ = (match w.modules x with
      | some (.mod _) => _
      | some .foreign => _
      | _ => _ : Py LWorld Nat) w
    cases w.modules x with
    | none => exact (seq_bind_ok (seq_create _ w)).trans (seq_bind_ok (seq_change _ _))
    | some e =>
      cases e with
      | mod i => rfl
      | foreign => rfl
      | none => exact (seq_bind_ok (seq_create _ w)).trans (seq_bind_ok (seq_change _ _))

theorem seq_makeModule (x : PyStr) (deps : List Nat) (w : LWorld) : (makeModule x deps).seq w =
    (.ok w.count, (w.create { name := x, cls := .lazy, deps := deps, declared := deps }).setModule x (.mod w.count)) := by
  rw [makeModule, seq_bind_ok (seq_create _ w), seq_bind_ok (seq_change _ _), seq_bind_ok (seq_change _ _), seq_bind_ok (seq_change _ _),
    seq_bind_ok (seq_change _ _)]
  simp only [seq_pure, LWorld.create, LWorld.setModule, LWorld.setObj, Prod.mk.injEq, true_and]
  congr 1
  funext j
  by_cases h : j = w.count <;> simp [h]

/-- Without interruption it is the `lazy_import` of `Model/Lazy`. -/
theorem seq_lazyImport (env : LEnv) (a : ImportArgs) (w : LWorld) : (lazyImport env a).seq w = Lazy.lazyImport env a w := by
  rw [lazyImport, Lazy.lazyImport, seq_bind_ok (seq_look _ w)]
  have key : (importNew env a).seq w = (do
      let missing ← Lazy.checkIsDepMissing env a.dependencies
      let deps ← Lazy.gatherRelative a.relDependencies missing
      if a.package = some [] then Py.raise .importError
      else if Lazy.fullName a = [] then Py.raise .valueError
      else
        let spec ← Lazy.findSpec env (Lazy.fullName a)
        if missing || !spec then Lazy.createPlaceholder (Lazy.fullName a) a.required
        else
          let i ← Py.gets (·.count)
          Py.modify (·.create { name := Lazy.fullName a, cls := .lazy, deps := deps, declared := deps })
          Py.modify (·.setModule (Lazy.fullName a) (.mod i))
          return i : Py LWorld Nat) w := by
    rw [importNew, seq_bind, Py.bind_apply, Py.bind_apply, seq_checkIsDepMissing]
    cases Lazy.checkIsDepMissing env a.dependencies w with
    | mk r w1 =>
      cases r with
      | error e => rfl
      | ok missing =>
        dsimp only
        rw [seq_bind, Py.bind_apply, Py.bind_apply, seq_gatherRelative]
        cases Lazy.gatherRelative a.relDependencies missing w1 with
        | mk r w2 =>
          cases r with
          | error e => rfl
          | ok deps =>
            dsimp only
            split
            · rfl
            · split
              · rfl
              · rw [seq_bind, Py.bind_apply, Py.bind_apply, seq_findSpec]
                cases Lazy.findSpec env (Lazy.fullName a) w2 with
                | mk r w3 =>
                  cases r with
                  | error e => rfl
                  | ok spec =>
                    dsimp only
                    split
                    · exact seq_createPlaceholder ..
                    · rw [seq_makeModule]
                      rfl
  change _ = (match w.modules (Lazy.fullName a) with
    | some (.mod _) => _
    | _ => _ : Py LWorld Nat) w
  cases w.modules (Lazy.fullName a) with
  | none => exact key
  | some e =>
    cases e with
    | mod i => rfl
    | foreign => exact key
    | none => exact key

/-! ### One thread imports the name -/

/-- The object has everything: it was there before, or it is a placeholder, or a lazy module with its dependencies. -/
def Complete (n0 i : Nat) (m : LMod) : Prop :=
  i < n0 ∨ m.cls = .placeholder ∨ m.cls = .lazy ∧ m.deps = m.declared

/-- Where a thread is: the object it is making, for which name, whether it has registered it and what it is like; and which object it knows to be
registered under the name in question. -/
structure IStage where
  own : Option (PyStr × Nat × Bool × LMod) := none
  known : Option Nat := none

/-- What a step does. -/
inductive IMove (x : PyStr) (mayX : Prop) : IStage → LWorld → LWorld → IStage → Prop
  | stay (a : IStage) (s : LWorld) : IMove x mayX a s s a
  | learn (a : IStage) (s : LWorld) (i : Nat) : a.own = none → mayX → s.modules x = some (.mod i) → IMove x mayX a s s { a with known := some i }
  | make (a : IStage) (s : LWorld) (m : LMod) (y : PyStr) : a.own = none → (y = x → mayX ∧ a.known = none) →
      IMove x mayX a s (s.create m) { a with own := some (y, s.count, false, m) }
  | register (a : IStage) (s : LWorld) (y : PyStr) (i : Nat) (b : Bool) (m : LMod) : a.own = some (y, i, b, m) →
      IMove x mayX a s (s.setModule y (.mod i)) { a with own := some (y, i, true, m) }
  | set (a : IStage) (s : LWorld) (y : PyStr) (i : Nat) (b : Bool) (m : LMod) (f : LMod → LMod) : a.own = some (y, i, b, m) →
      IMove x mayX a s (s.setObj i f) { a with own := some (y, i, b, f m) }

/-- The object is ready. -/
def IDone (x : PyStr) (n0 : Nat) (a b : IStage) : Prop :=
  ∃ y i m, a.own = some (y, i, true, m) ∧ Complete n0 i m ∧ (y = x → a.known = none) ∧ b = { own := none, known := if y = x then some i else a.known }

/-- What a thread knows. -/
def IOk (x : PyStr) (a : IStage) (s : LWorld) : Prop :=
  (∀ i, a.known = some i → s.modules x = some (.mod i)) ∧
  ∀ y i b m, a.own = some (y, i, b, m) → s.objs i = m ∧ (b = true → y = x → s.modules x = some (.mod i))

/-- The protocol of a thread. -/
def importing (x : PyStr) (n0 : Nat) (mayX : Prop) : Protocol LWorld IStage where
  Ok := IOk x
  T a s t b := IMove x mayX a s t b ∨ ∃ c, IMove x mayX a s t c ∧ IDone x n0 c b

/-- What holds for all threads together. -/
structure IInv (x : PyStr) (n0 : Nat) (may : Nat → Prop) (a : Nat → IStage) (s : LWorld) : Prop where
  exist : ∀ y i, s.modules y = some (.mod i) → i < s.count
  count : n0 ≤ s.count
  own : ∀ j y i b m, (a j).own = some (y, i, b, m) → i < s.count ∧ n0 ≤ i ∧ (y = x → may j ∧ (a j).known = none)
  apart : ∀ j j' i y y' b b' m m', (a j).own = some (y, i, b, m) → (a j').own = some (y', i, b', m') → j = j'
  place : ∀ j y i b m z, (a j).own = some (y, i, b, m) → s.modules z = some (.mod i) → z = y
  known : ∀ j i, (a j).known = some i → may j ∧ Complete n0 i (s.objs i)
  whose : ∀ i, s.modules x = some (.mod i) → i < n0 ∨ ∃ j, may j ∧ ((a j).known = some i ∨ ∃ b m, (a j).own = some (x, i, b, m))

variable {x : PyStr} {n0 : Nat} {may : Nat → Prop} {a : Nat → IStage} {s t : LWorld}

theorem eq_upd_of {α : Type} {a : Nat → α} {i : Nat} {y : α} (h : a i = y) : upd a i y = a := by
  funext j
  by_cases e : j = i
  · subst e; rw [upd_same, h]
  · exact upd_other _ _ e

theorem keep_move (hone : ∀ i j, may i → may j → i = j) {i : Nat} {b : IStage} (ok : ∀ j, IOk x (a j) s) (inv : IInv x n0 may a s)
    (h : IMove x (may i) (a i) s t b) : (∀ j, IOk x (upd a i b j) t) ∧ IInv x n0 may (upd a i b) t := by
  generalize ha : a i = ai at h
  cases h with
  | stay => rw [eq_upd_of ha]; exact ⟨ok, inv⟩
  | learn k h1 h2 h3 =>
    have hk : Complete n0 k (s.objs k) := by
      rcases inv.whose k h3 with h | ⟨j, hj, h | ⟨b, m, h⟩⟩
      · exact .inl h
      · exact (inv.known j k h).2
      · rw [hone j i hj h2, ha, h1] at h; cases h
    refine ⟨fun j => ?_, inv.exist, inv.count, fun j y l b m hj => ?_, fun j j' l y y' b b' m m' h h' => ?_, fun j y l b m z hj => ?_, fun j l hj => ?_, fun l hl => ?_⟩
    · by_cases e : j = i
      · subst e
        rw [upd_same]
        have := ok j
        rw [ha] at this
        exact ⟨fun l hl => by cases hl; exact h3, this.2⟩
      · rw [upd_other _ _ e]; exact ok j
    · by_cases e : j = i
      · subst e; rw [upd_same] at hj; dsimp only at hj; rw [h1] at hj; cases hj
      · rw [upd_other _ _ e] at hj ⊢; exact inv.own j y l b m hj
    · have o : ∀ j y b m, (upd a i { ai with known := some k } j).own = some (y, l, b, m) → (a j).own = some (y, l, b, m) := fun j y b m h => by
        by_cases e : j = i
        · subst e; rw [upd_same] at h; rw [ha]; exact h
        · rw [upd_other _ _ e] at h; exact h
      exact inv.apart j j' l y y' b b' m m' (o _ _ _ _ h) (o _ _ _ _ h')
    · by_cases e : j = i
      · subst e; rw [upd_same] at hj; dsimp only at hj; rw [h1] at hj; cases hj
      · rw [upd_other _ _ e] at hj; exact inv.place j y l b m z hj
    · by_cases e : j = i
      · subst e; rw [upd_same] at hj; cases hj; exact ⟨h2, hk⟩
      · rw [upd_other _ _ e] at hj; exact inv.known j l hj
    · refine .inr ⟨i, h2, .inl ?_⟩
      rw [upd_same]
      rw [h3] at hl
      cases hl
      rfl
  | make m y h1 h2 =>
    have hobj : ∀ l, l < s.count → (s.create m).objs l = s.objs l := fun l hl => if_neg (Nat.ne_of_lt hl)
    refine ⟨fun j => ?_, fun y l h => Nat.lt_succ_of_lt (inv.exist y l h), Nat.le_succ_of_le inv.count, fun j y' l b m' hj => ?_, fun j j' l y y' b b' m m' h h' => ?_,
      fun j y' l b m' z hj hz => ?_, fun j l hj => ?_, fun l hl => ?_⟩
    · by_cases e : j = i
      · subst e
        rw [upd_same]
        have := ok j
        rw [ha] at this
        refine ⟨this.1, fun y l b m' h => ?_⟩
        cases h
        exact ⟨if_pos rfl, fun h => nomatch h⟩
      · rw [upd_other _ _ e]
        refine ⟨(ok j).1, fun y l b m' h => ?_⟩
        rw [hobj l (inv.own j y l b m' h).1]
        exact (ok j).2 y l b m' h
    · by_cases e : j = i
      · subst e
        rw [upd_same] at hj ⊢
        cases hj
        exact ⟨Nat.lt_succ_self _, inv.count, fun h => h2 h⟩
      · rw [upd_other _ _ e] at hj ⊢
        obtain ⟨o1, o2, o3⟩ := inv.own j y' l b m' hj
        exact ⟨Nat.lt_succ_of_lt o1, o2, o3⟩
    · by_cases e : j = i <;> by_cases e' : j' = i
      · rw [e, e']
      · subst e
        rw [upd_same] at h
        rw [upd_other _ _ e'] at h'
        cases h
        exact absurd (inv.own j' _ _ _ _ h').1 (Nat.lt_irrefl _)
      · subst e'
        rw [upd_same] at h'
        rw [upd_other _ _ e] at h
        cases h'
        exact absurd (inv.own j _ _ _ _ h).1 (Nat.lt_irrefl _)
      · rw [upd_other _ _ e] at h
        rw [upd_other _ _ e'] at h'
        exact inv.apart j j' l _ _ _ _ _ _ h h'
    · by_cases e : j = i
      · subst e
        rw [upd_same] at hj
        cases hj
        exact absurd (inv.exist z _ hz) (Nat.lt_irrefl _)
      · rw [upd_other _ _ e] at hj
        exact inv.place j y' l b m' z hj hz
    · have hj' : (a j).known = some l := by
        by_cases e : j = i
        · subst e; rw [upd_same] at hj; rw [ha]; exact hj
        · rw [upd_other _ _ e] at hj; exact hj
      rw [hobj l (inv.exist x l ((ok j).1 l hj'))]
      exact inv.known j l hj'
    · rcases inv.whose l hl with h | ⟨j, hj, h⟩
      · exact .inl h
      · refine .inr ⟨j, hj, ?_⟩
        by_cases e : j = i
        · subst e
          rw [upd_same]
          rw [ha] at h
          rcases h with h | ⟨b, m, h⟩
          · exact .inl h
          · rw [h1] at h; cases h
        · rw [upd_other _ _ e]; exact h
  | register y k b m h1 =>
    obtain ⟨o1, o2, o3⟩ := inv.own i y k b m (by rw [ha]; exact h1)
    have hm : ∀ z, z ≠ y → (s.setModule y (.mod k)).modules z = s.modules z := fun z hz => if_neg hz
    have hy : (s.setModule y (.mod k)).modules y = some (.mod k) := if_pos rfl
    have o : ∀ j y' l b' m', (upd a i { ai with own := some (y, k, true, m) } j).own = some (y', l, b', m') → ∃ b'', (a j).own = some (y', l, b'', m') := fun j y' l b' m' h => by
      by_cases e : j = i
      · subst e; rw [upd_same] at h; cases h; rw [ha]; exact ⟨_, h1⟩
      · rw [upd_other _ _ e] at h; exact ⟨_, h⟩
    have kn : ∀ j, (upd a i { ai with own := some (y, k, true, m) } j).known = (a j).known := fun j => by
      by_cases e : j = i
      · subst e; rw [upd_same, ha]
      · rw [upd_other _ _ e]
    have nk : ∀ j l, (a j).known = some l → y ≠ x := fun j l h hxy => by
      obtain ⟨q1, q2⟩ := o3 hxy
      rw [hone j i (inv.known j l h).1 q1, q2] at h
      cases h
    refine ⟨fun j => ⟨fun l hl => ?_, fun y' l b' m' hj => ?_⟩, fun z l h => ?_, inv.count, fun j y' l b' m' hj => ?_, fun j j' l y' y'' b' b'' m' m'' h h' => ?_,
      fun j y' l b' m' z hj hz => ?_, fun j l hj => ?_, fun l hl => ?_⟩
    · rw [kn] at hl
      rw [hm x fun h => nk j l hl h.symm]
      exact (ok j).1 l hl
    · by_cases e : j = i
      · subst e
        rw [upd_same] at hj
        cases hj
        refine ⟨((ok j).2 y k b m (by rw [ha]; exact h1)).1, fun _ h => ?_⟩
        subst h
        exact hy
      · rw [upd_other _ _ e] at hj
        obtain ⟨q1, q2⟩ := (ok j).2 y' l b' m' hj
        refine ⟨q1, fun hb hx => ?_⟩
        rw [hm x fun h => e (hone j i ((inv.own j y' l b' m' hj).2.2 hx).1 (o3 h.symm).1)]
        exact q2 hb hx
    · by_cases e : z = y
      · subst e; rw [hy] at h; cases h; exact o1
      · rw [hm z e] at h; exact inv.exist z l h
    · rw [kn]
      obtain ⟨b'', h⟩ := o j y' l b' m' hj
      exact inv.own j y' l b'' m' h
    · obtain ⟨_, h⟩ := o _ _ _ _ _ h
      obtain ⟨_, h'⟩ := o _ _ _ _ _ h'
      exact inv.apart j j' l _ _ _ _ _ _ h h'
    · obtain ⟨b'', h⟩ := o j y' l b' m' hj
      by_cases e : z = y
      · subst e
        rw [hy] at hz
        cases hz
        have := inv.apart j i k _ _ _ _ _ _ h (by rw [ha]; exact h1)
        subst this
        rw [ha, h1] at h
        cases h
        rfl
      · rw [hm z e] at hz
        exact inv.place j y' l b'' m' z h hz
    · rw [kn] at hj
      exact inv.known j l hj
    · by_cases e : x = y
      · subst e
        rw [hy] at hl
        cases hl
        exact .inr ⟨i, (o3 rfl).1, .inr ⟨true, m, by rw [upd_same]⟩⟩
      · rw [hm x e] at hl
        rcases inv.whose l hl with h | ⟨j, hj, h⟩
        · exact .inl h
        · refine .inr ⟨j, hj, ?_⟩
          rw [kn]
          refine h.imp id fun ⟨b', m', h⟩ => ?_
          by_cases e' : j = i
          · subst e'
            rw [ha, h1] at h
            cases h
            exact absurd rfl e
          · rw [upd_other _ _ e']; exact ⟨b', m', h⟩
  | set y k b m f h1 =>
    have h1' : (a i).own = some (y, k, b, m) := by rw [ha]; exact h1
    obtain ⟨o1, o2, o3⟩ := inv.own i y k b m h1'
    have ho : ∀ l, l ≠ k → (s.setObj k f).objs l = s.objs l := fun l hl => if_neg hl
    have o : ∀ j y' l b' m', (upd a i { ai with own := some (y, k, b, f m) } j).own = some (y', l, b', m') → ∃ m'', (a j).own = some (y', l, b', m'') := fun j y' l b' m' h => by
      by_cases e : j = i
      · subst e; rw [upd_same] at h; cases h; exact ⟨_, h1'⟩
      · rw [upd_other _ _ e] at h; exact ⟨_, h⟩
    have kn : ∀ j, (upd a i { ai with own := some (y, k, b, f m) } j).known = (a j).known := fun j => by
      by_cases e : j = i
      · subst e; rw [upd_same, ha]
      · rw [upd_other _ _ e]
    refine ⟨fun j => ⟨fun l hl => ?_, fun y' l b' m' hj => ?_⟩, inv.exist, inv.count, fun j y' l b' m' hj => ?_, fun j j' l y' y'' b' b'' m' m'' h h' => ?_,
      fun j y' l b' m' z hj hz => ?_, fun j l hj => ?_, fun l hl => ?_⟩
    · rw [kn] at hl
      exact (ok j).1 l hl
    · by_cases e : j = i
      · subst e
        rw [upd_same] at hj
        cases hj
        obtain ⟨q1, q2⟩ := (ok j).2 y k b m h1'
        refine ⟨?_, q2⟩
        rw [← q1]
        exact if_pos rfl
      · rw [upd_other _ _ e] at hj
        obtain ⟨q1, q2⟩ := (ok j).2 y' l b' m' hj
        refine ⟨?_, q2⟩
        rw [ho l fun h => e (by subst h; exact inv.apart j i l _ _ _ _ _ _ hj h1')]
        exact q1
    · rw [kn]
      obtain ⟨m'', h⟩ := o j y' l b' m' hj
      exact inv.own j y' l b' m'' h
    · obtain ⟨_, h⟩ := o _ _ _ _ _ h
      obtain ⟨_, h'⟩ := o _ _ _ _ _ h'
      exact inv.apart j j' l _ _ _ _ _ _ h h'
    · obtain ⟨m'', h⟩ := o j y' l b' m' hj
      exact inv.place j y' l b' m'' z h hz
    · rw [kn] at hj
      obtain ⟨q1, q2⟩ := inv.known j l hj
      refine ⟨q1, ?_⟩
      have hne : l ≠ k := fun h => by
        subst h
        have hyx := inv.place i y l b m x h1' ((ok j).1 l hj)
        obtain ⟨r1, r2⟩ := o3 hyx.symm
        rw [hone j i q1 r1, r2] at hj
        cases hj
      rw [ho l hne]
      exact q2
    · rcases inv.whose l hl with h | ⟨j, hj, h⟩
      · exact .inl h
      · refine .inr ⟨j, hj, ?_⟩
        rw [kn]
        refine h.imp id fun ⟨b', m', h⟩ => ?_
        by_cases e' : j = i
        · subst e'
          rw [h1'] at h
          cases h
          exact ⟨b, f m, by rw [upd_same]⟩
        · rw [upd_other _ _ e']; exact ⟨b', m', h⟩

theorem keep_done {i : Nat} {b : IStage} (ok : ∀ j, IOk x (a j) s) (inv : IInv x n0 may a s)
    (h : IDone x n0 (a i) b) : (∀ j, IOk x (upd a i b j) s) ∧ IInv x n0 may (upd a i b) s := by
  obtain ⟨y, k, m, h1, h2, -, rfl⟩ := h
  obtain ⟨o1, o2, o3⟩ := inv.own i y k true m h1
  obtain ⟨q1, q2⟩ := (ok i).2 y k true m h1
  have o : ∀ j o', (upd a i { own := none, known := if y = x then some k else (a i).known } j).own = some o' → (a j).own = some o' ∧ j ≠ i := fun j o' h => by
    by_cases e : j = i
    · subst e; rw [upd_same] at h; cases h
    · rw [upd_other _ _ e] at h; exact ⟨h, e⟩
  refine ⟨fun j => ⟨fun l hl => ?_, fun y' l b' m' hj => (ok j).2 y' l b' m' (o _ _ hj).1⟩, inv.exist, inv.count, fun j y' l b' m' hj => ?_,
    fun j j' l y' y'' b' b'' m' m'' h h' => inv.apart j j' l _ _ _ _ _ _ (o _ _ h).1 (o _ _ h').1,
    fun j y' l b' m' z hj hz => inv.place j y' l b' m' z (o _ _ hj).1 hz, fun j l hj => ?_, fun l hl => ?_⟩
  · by_cases e : j = i
    · subst e
      rw [upd_same] at hl
      dsimp only at hl
      split at hl
      · rename_i hyx; cases hl; exact q2 rfl hyx
      · exact (ok j).1 l hl
    · rw [upd_other _ _ e] at hl; exact (ok j).1 l hl
  · obtain ⟨h, e⟩ := o _ _ hj
    rw [upd_other _ _ e]
    exact inv.own j y' l b' m' h
  · by_cases e : j = i
    · subst e
      rw [upd_same] at hj
      dsimp only at hj
      split at hj
      · rename_i hyx; cases hj; rw [q1]; exact ⟨(o3 hyx).1, h2⟩
      · exact inv.known j l hj
    · rw [upd_other _ _ e] at hj; exact inv.known j l hj
  · rcases inv.whose l hl with h | ⟨j, hj, h⟩
    · exact .inl h
    · refine .inr ⟨j, hj, ?_⟩
      by_cases e : j = i
      · subst e
        rw [upd_same]
        rcases h with h | ⟨b', m', h⟩
        · refine .inl ?_
          dsimp only
          rw [if_neg fun hyx => by rw [(o3 hyx).2] at h; cases h]
          exact h
        · rw [h1] at h
          cases h
          exact .inl (if_pos rfl)
      · rw [upd_other _ _ e]; exact h

/-! ### The steps of a call -/

/-- Looks change nothing. -/
theorem guar_look {α : Type} (f : LWorld → α) : (look f).Guar fun s t => t = s := Guar.atom fun _ => rfl

theorem guar_findSpec (env : LEnv) (y : PyStr) : (findSpec env y).Guar fun s t => t = s :=
  (guar_look _).bind fun _ => .ite ((guar_look _).bind fun e => by
    rcases e with _ | (i | _ | _)
    · trivial
    · exact (guar_look _).bind fun _ => .ite trivial trivial
    · trivial
    · trivial) trivial

theorem guar_checkIsDepMissing (env : LEnv) (l : List PyStr) : (checkIsDepMissing env l).Guar fun s t => t = s := by
  induction l with
  | nil => trivial
  | cons d l ih => exact (guar_findSpec env d).bind fun _ => .ite ih trivial

theorem guar_lazyOnes (l : List Nat) : (lazyOnes l).Guar fun s t => t = s := by
  induction l with
  | nil => trivial
  | cons d l ih => exact (guar_look _).bind fun _ => ih.bind fun _ => trivial

theorem guar_gatherRelative (rel : List PyStr) (missing : Bool) : (gatherRelative rel missing).Guar fun s t => t = s :=
  .ite trivial ((guar_look _).bind fun _ => .ite trivial (guar_lazyOnes _))

variable {mayX : Prop}

/-- The protocol with nothing added. -/
abbrev importing' (x : PyStr) (n0 : Nat) (mayX : Prop) : Protocol LWorld IStage := (importing x n0 mayX).only fun _ => True

theorem stays {st : IStage} (s t : LWorld) (_ : (importing' x n0 mayX).Ok st s) (h : t = s) : (importing' x n0 mayX).T st s t st := by
  subst h
  exact ⟨.inl (.stay _ _), trivial⟩

/-- What a call of `lazy_import` has done at its end. -/
def Imported (x : PyStr) (a : ImportArgs) (st : IStage) (r : Except Exc Nat) (y : IStage) : Prop :=
  y.own = none ∧ (∀ i, st.known = some i → y.known = some i) ∧ ∀ i, r = .ok i → Lazy.fullName a = x → y.known = some i

theorem follows_makeModule {a : ImportArgs} {st : IStage} (h0 : st.own = none) (hx : Lazy.fullName a = x → mayX ∧ st.known = none) (deps : List Nat) :
    (makeModule (Lazy.fullName a) deps).Follows (importing' x n0 mayX) (Imported x a st) st := by
  refine .bind (.atom fun s _ => ⟨_, ⟨.inl (.make st s _ (Lazy.fullName a) h0 hx), trivial⟩, ?_⟩)
  refine .bind (.atom fun t _ => ⟨_, ⟨.inl (.register _ t _ _ _ _ rfl), trivial⟩, ?_⟩)
  refine .bind (.atom fun t _ => ⟨_, ⟨.inl (.set _ t _ _ _ _ (fun m => { m with cls := .imp }) rfl), trivial⟩, ?_⟩)
  refine .bind (.atom fun t _ => ⟨_, ⟨.inl (.set _ t _ _ _ _ (fun m => { m with cls := .lazy }) rfl), trivial⟩, ?_⟩)
  refine .bind (.atom fun t _ => ⟨_, ⟨.inr ⟨_, .set _ t _ _ _ _ (fun m => { m with deps := deps }) rfl, _, _, _, rfl, .inr (.inr ⟨rfl, rfl⟩), fun h => (hx h).2, rfl⟩, trivial⟩, ?_⟩)
  refine ⟨rfl, fun i hi => ?_, fun i hi h => ?_⟩
  · dsimp only
    rw [if_neg fun h => by rw [(hx h).2] at hi; cases hi]
    exact hi
  · cases hi
    exact if_pos h

theorem follows_createPlaceholder {a : ImportArgs} {st : IStage} (h0 : st.own = none) (hx : Lazy.fullName a = x → mayX ∧ st.known = none) (req : Bool) :
    (createPlaceholder (Lazy.fullName a) req).Follows (importing' x n0 mayX) (Imported x a st) st := by
  have he : ∀ e, Imported x a st (.error e) st := fun e => ⟨h0, fun _ h => h, fun _ h => nomatch h⟩
  unfold createPlaceholder
  split
  · exact he _
  refine .quiet_bind stays (guar_look _) (fun e => ?_) he
  have key : (do
      let i ← create { name := Lazy.fullName a, cls := .placeholder }
      change fun w => w.setModule (Lazy.fullName a) (.mod i)
      return i : LIProg Nat).Follows (importing' x n0 mayX) (Imported x a st) st := by
    refine .bind (.atom fun s _ => ⟨_, ⟨.inl (.make st s _ (Lazy.fullName a) h0 hx), trivial⟩, ?_⟩)
    refine .bind (.atom fun t _ => ⟨_, ⟨.inr ⟨_, .register _ t _ _ _ _ rfl, _, _, _, rfl, .inr (.inl rfl), fun h => (hx h).2, rfl⟩, trivial⟩, ?_⟩)
    refine ⟨rfl, fun i hi => ?_, fun i hi h => ?_⟩
    · dsimp only
      rw [if_neg fun h => by rw [(hx h).2] at hi; cases hi]
      exact hi
    · cases hi
      exact if_pos h
  rcases e with _ | (i | _ | _)
  · exact key
  · exact he _
  · exact he _
  · exact key

theorem follows_importNew {env : LEnv} {a : ImportArgs} {st : IStage} (h0 : st.own = none) (hx : Lazy.fullName a = x → mayX ∧ st.known = none) :
    (importNew env a).Follows (importing' x n0 mayX) (Imported x a st) st := by
  have he : ∀ e, Imported x a st (.error e) st := fun e => ⟨h0, fun _ h => h, fun _ h => nomatch h⟩
  refine .quiet_bind stays (guar_checkIsDepMissing ..) (fun missing => .quiet_bind stays (guar_gatherRelative ..) (fun deps => ?_) he) he
  split
  · exact he _
  split
  · exact he _
  refine .quiet_bind stays (guar_findSpec ..) (fun spec => ?_) he
  split
  · exact follows_createPlaceholder h0 hx _
  · exact follows_makeModule h0 hx _

theorem follows_lazyImport {env : LEnv} {a : ImportArgs} {st : IStage} (h0 : st.own = none) (hx : Lazy.fullName a = x → mayX) :
    (lazyImport env a).Follows (importing' x n0 mayX) (Imported x a st) st := by
  refine .bind (.atom fun s ok => ?_)
  by_cases hn : Lazy.fullName a = x
  · cases hm : s.modules (Lazy.fullName a) with
    | none =>
      refine ⟨st, stays s _ ok rfl, ?_⟩
      change Follows _ _ (match s.modules (Lazy.fullName a) with | some (.mod i) => pure i | _ => importNew env a : LIProg Nat) st
      rw [hm]
      refine follows_importNew h0 fun _ => ⟨hx hn, ?_⟩
      cases hk : st.known with
      | none => rfl
      | some i => have := ok.1 i hk; rw [← hn, hm] at this; cases this
    | some e =>
      cases e with
      | mod i =>
        refine ⟨_, ⟨.inl (.learn st s i h0 (hx hn) (by rw [← hn]; exact hm)), trivial⟩, ?_⟩
        change Follows _ _ (match s.modules (Lazy.fullName a) with | some (.mod i) => pure i | _ => importNew env a : LIProg Nat) _
        rw [hm]
        refine ⟨h0, fun l hl => ?_, fun l hl _ => ?_⟩
        · have := ok.1 l hl
          rw [← hn, hm] at this
          cases this
          rfl
        · cases hl; rfl
      | foreign =>
        refine ⟨st, stays s _ ok rfl, ?_⟩
        change Follows _ _ (match s.modules (Lazy.fullName a) with | some (.mod i) => pure i | _ => importNew env a : LIProg Nat) st
        rw [hm]
        refine follows_importNew h0 fun _ => ⟨hx hn, ?_⟩
        cases hk : st.known with
        | none => rfl
        | some i => have := ok.1 i hk; rw [← hn, hm] at this; cases this
      | none =>
        refine ⟨st, stays s _ ok rfl, ?_⟩
        change Follows _ _ (match s.modules (Lazy.fullName a) with | some (.mod i) => pure i | _ => importNew env a : LIProg Nat) st
        rw [hm]
        refine follows_importNew h0 fun _ => ⟨hx hn, ?_⟩
        cases hk : st.known with
        | none => rfl
        | some i => have := ok.1 i hk; rw [← hn, hm] at this; cases this
  · refine ⟨st, stays s _ ok rfl, ?_⟩
    change Follows _ _ (match s.modules (Lazy.fullName a) with | some (.mod i) => pure i | _ => importNew env a : LIProg Nat) st
    split
    · exact ⟨h0, fun _ h => h, fun _ _ h => absurd h hn⟩
    · exact follows_importNew h0 fun h => absurd h hn

/-- Every execution in which one thread imports `x` follows the protocol. -/
theorem importing_reached {env : LEnv} {may : Nat → PyStr → Prop} {w : LWorld} (hw : ∀ y i, w.modules y = some (.mod i) → i < w.count)
    (hone : ∀ i j, may i x → may j x → i = j) {tr : List (Ev ImportArgs (Except Exc Nat))} {κ : Conf LWorld Empty Unit ImportArgs (Except Exc Nat)}
    (hx : Exec (lazyImports env may) (init w fun _ => ()) tr κ) :
    ∃ a : Nat → IStage, (∀ j, IOk x (a j) κ.st) ∧ IInv x w.count (fun j => may j x) a κ.st ∧
      ∀ j c i, (c, .ok i) ∈ returned j tr → Lazy.fullName c = x → (a j).known = some i := by
  obtain ⟨a, h1, h2, h3, -⟩ := exec_follows (sys := lazyImports env may) (P := fun j => importing x w.count (may j x)) (Idle := fun _ st => st.own = none)
    (J := fun _ _ _ => True) (M := fun _ cs st => ∀ c i, (c, Except.ok i) ∈ cs → Lazy.fullName c = x → st.known = some i)
    (Inv := IInv x w.count fun j => may j x)
    (fun a s t i y ok inv h => by
      rcases h with h | ⟨c, h, hd⟩
      · exact keep_move hone ok inv h
      · obtain ⟨q1, q2⟩ := keep_move hone ok inv h
        have := keep_done (i := i) (b := y) q1 q2 (by rw [upd_same]; exact hd)
        have e : upd (upd a i c) i y = upd a i y := by
          funext j
          by_cases e : j = i
          · rw [e, upd_same, upd_same]
          · rw [upd_other _ _ e, upd_other _ _ e, upd_other _ _ e]
        rw [e] at this
        exact this)
    (fun i cs st s t y hm ok h c l hc hn => by
      have hk := hm c l hc hn
      have mv : ∀ {b}, IMove x (may i x) st s t b → b.known = some l := fun {b} h => by
        cases h with
        | stay => exact hk
        | learn k q1 q2 q3 =>
          have := ok.1 l hk
          rw [q3] at this
          cases this
          rfl
        | make => exact hk
        | register => exact hk
        | set => exact hk
      rcases h with h | ⟨b, h, y', i', m', hd, -, hy, rfl⟩
      · exact mv h
      · exact (if_neg fun e => by rw [mv h] at hy; cases hy e).trans (mv h))
    (fun _ _ _ _ => trivial)
    (fun i o c cs st hok hid hm => by
      refine .bind (.outcome ((follows_lazyImport (env := env) hid fun h => by rw [← h]; exact hok).mono fun r y hy => ?_))
      intro r' o' hr
      cases hr
      refine ⟨hy.1, fun c' l hc hn => ?_⟩
      rcases List.mem_append.mp hc with h | h
      · exact hy.2.1 l (hm c' l h hn)
      · cases List.mem_singleton.mp h
        exact hy.2.2 l rfl hn)
    (s0 := w) (obj := fun _ => ()) (a0 := fun _ => {}) (fun _ => ⟨(fun _ h => nomatch h), (fun _ _ _ _ h => nomatch h)⟩) (fun _ => rfl) (fun _ _ _ h => nomatch h)
    ⟨hw, Nat.le_refl _, (fun _ _ _ _ _ h => nomatch h), (fun _ _ _ _ _ _ _ _ _ h => nomatch h), (fun _ _ _ _ _ _ h => nomatch h), (fun _ _ h => nomatch h),
      fun i hi => .inl (hw x i hi)⟩ hx
  exact ⟨a, h1, h2, h3⟩

end SyncStream.LazyImports
