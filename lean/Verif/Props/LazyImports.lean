import Verif.Lemmas.LazyImports
import Verif.Lemmas.Rely
import Verif.Lemmas.Sched
/-!
# C75: `lazy_import` called by several threads
-/

namespace SyncStream
open Conc Spec LazyImports

/-- C75: a call that is not interrupted is the `lazy_import` of C50 and C51. -/
theorem C75_alone (env : LEnv) (a : ImportArgs) (w : LWorld) : (LazyImports.lazyImport env a).seq w = Lazy.lazyImport env a w :=
  seq_lazyImport env a w

/-- C75: if only one thread imports a name (the others may import other names), then however the threads are interleaved, all its calls give the
same object, which stays in `sys.modules`; and when a call returns, the object is a placeholder or a lazy module that has its dependencies (or was there
before). -/
theorem C75_one_importer_partial (env : LEnv) (may : Nat → PyStr → Prop) (w : LWorld) (hw : ∀ y i, w.modules y = some (.mod i) → i < w.count) (x : PyStr)
    (hone : ∀ i j, may i x → may j x → i = j) (tr : List (Ev ImportArgs (Except Exc Nat))) (κ : Conf LWorld Empty Unit ImportArgs (Except Exc Nat))
    (hx : Exec (lazyImports env may) (init w fun _ => ()) tr κ) (j : Nat) (c : ImportArgs) (i : Nat) (hr : (c, .ok i) ∈ returned j tr)
    (hc : Lazy.fullName c = x) : κ.st.modules x = some (.mod i) ∧ (i < w.count ∨ (κ.st.objs i).cls = .placeholder ∨
      (κ.st.objs i).cls = .lazy ∧ (κ.st.objs i).deps = (κ.st.objs i).declared) := by
  obtain ⟨a, h1, h2, h3⟩ := importing_reached hw hone hx
  have h := h3 j c i hr hc
  exact ⟨(h1 j).1 i h, (h2.known j i h).2⟩

/-- What is registered under `x` remains. -/
def KeepsEntry (x : PyStr) (i : Nat) (s t : LWorld) : Prop := s.modules x = some (.mod i) → t.modules x = some (.mod i)

theorem guar_other {env : LEnv} {a : ImportArgs} {x : PyStr} {i : Nat} (h : Lazy.fullName a ≠ x) : (LazyImports.call env a).Guar (KeepsEntry x i) := by
  have q : ∀ {α : Type} {p : LIProg α}, (p.Guar fun s t => t = s) → p.Guar (KeepsEntry x i) := fun h => h.mono fun s t e => by subst e; exact id
  have hset : ∀ k, (LazyImports.change fun w => w.setModule (Lazy.fullName a) (.mod k)).Guar (KeepsEntry x i) := fun k =>
    .atom fun s hs => (if_neg (Ne.symm h)).trans hs
  have hobj : ∀ k f, (LazyImports.change fun w => w.setObj k f).Guar (KeepsEntry x i) := fun k f => .atom fun s hs => hs
  have hcr : ∀ m, (LazyImports.create m).Guar (KeepsEntry x i) := fun m => .atom fun s hs => hs
  have hpl : ∀ r, (LazyImports.createPlaceholder (Lazy.fullName a) r).Guar (KeepsEntry x i) := fun r =>
    .ite trivial ((q (guar_look _)).bind fun e => by
      rcases e with _ | (k | _ | _)
      · exact (hcr _).bind fun k => (hset k).bind fun _ => trivial
      · trivial
      · trivial
      · exact (hcr _).bind fun k => (hset k).bind fun _ => trivial)
  have hmk : ∀ d, (LazyImports.makeModule (Lazy.fullName a) d).Guar (KeepsEntry x i) := fun d =>
    (hcr _).bind fun k => (hset k).bind fun _ => (hobj k _).bind fun _ => (hobj k _).bind fun _ => (hobj k _).bind fun _ => trivial
  have hnew : (LazyImports.importNew env a).Guar (KeepsEntry x i) :=
    (q (guar_checkIsDepMissing ..)).bind fun _ => (q (guar_gatherRelative ..)).bind fun _ => .ite trivial (.ite trivial
      ((q (guar_findSpec ..)).bind fun _ => .ite (hpl _) (hmk _)))
  refine Prog.Guar.bind (.outcome (Prog.Guar.bind (q (guar_look _)) fun e => ?_)) fun _ => trivial
  rcases e with _ | (k | _ | _)
  · exact hnew
  · trivial
  · exact hnew
  · exact hnew

/-- The rest of a call when `x` is registered as `i`. -/
def Rest (env : LEnv) (x : PyStr) (i : Nat) (c : ImportArgs) (p : LIProg (Except Exc Nat × Unit)) : Prop :=
  (Lazy.fullName c ≠ x ∧ p.Guar (KeepsEntry x i)) ∨ (Lazy.fullName c = x ∧ (p = LazyImports.call env c ∨ p = .ret (.ok i, ())))

/-- C75: once a name is registered and nobody is importing it, all later calls with this name, by any thread, give the registered object, whatever the others do. -/
theorem C75_settled (env : LEnv) (may : Nat → PyStr → Prop) (w : LWorld) (tr : List (Ev ImportArgs (Except Exc Nat)))
    (κ : Conf LWorld Empty Unit ImportArgs (Except Exc Nat)) (hx : Exec (lazyImports env may) (init w fun _ => ()) tr κ) (x : PyStr) (i : Nat)
    (hm : κ.st.modules x = some (.mod i)) (hq : ∀ j c p, κ.cur j = some (c, p) → Lazy.fullName c ≠ x)
    (tr' : List (Ev ImportArgs (Except Exc Nat))) (κ' : Conf LWorld Empty Unit ImportArgs (Except Exc Nat))
    (hx' : Exec (lazyImports env may) κ tr' κ') :
    κ'.st.modules x = some (.mod i) ∧ ∀ j c r, Returns tr' j c r → Lazy.fullName c = x → r = .ok i := by
  have g0 : ∀ j c p, κ.cur j = some (c, p) → Lazy.fullName c ≠ x → p.Guar (KeepsEntry x i) := by
    clear hm hq hx'
    generalize hk : (init w fun _ => () : Conf LWorld Empty Unit ImportArgs (Except Exc Nat)) = κ0 at hx
    induction hx with
    | nil => subst hk; exact fun _ _ _ h => nomatch h
    | snoc κ1 κ2 tr e h1 h2 ih =>
      intro j c p hj hc
      cases h2 with
      | inv k c' hk' hok =>
        dsimp only at hj
        by_cases e : j = k
        · subst e; rw [upd_same] at hj; cases hj; exact guar_other hc
        · rw [upd_other _ _ e] at hj; exact ih j c p hj hc
      | act k c' f q hk' =>
        dsimp only at hj
        by_cases e : j = k
        · subst e; rw [upd_same] at hj; cases hj; exact (ih j c _ hk' hc).2 _
        · rw [upd_other _ _ e] at hj; exact ih j c p hj hc
      | acq k c' l w q hk' => cases l
      | rel k c' l w q hk' => cases l
      | ret k c' r o hk' =>
        dsimp only at hj
        by_cases e : j = k
        · subst e; rw [upd_same] at hj; cases hj
        · rw [upd_other _ _ e] at hj; exact ih j c p hj hc
  have key : κ'.st.modules x = some (.mod i) ∧ (∀ j c p, κ'.cur j = some (c, p) → Rest env x i c p) ∧
      ∀ j c r, Returns tr' j c r → Lazy.fullName c = x → r = .ok i := by
    induction hx' with
    | nil =>
      refine ⟨hm, fun j c p hj => .inl ⟨hq j c p hj, g0 j c p hj (hq j c p hj)⟩, fun j c r hr => ?_⟩
      obtain ⟨a, b, d, e, -⟩ := hr
      have := congrArg List.length e
      simp at this
    | snoc κ1 κ2 tr e h1 h2 ih =>
      obtain ⟨ih1, ih2, ih3⟩ := ih
      refine ⟨?_, ?_, fun j c r hr hc => ?_⟩
      · cases h2 with
        | inv => exact ih1
        | act k c' f q hk' =>
          rcases ih2 k c' _ hk' with ⟨-, h⟩ | ⟨hc, h | h⟩
          · exact h.1 _ ih1
          · cases h; exact ih1
          · cases h
        | acq => exact ih1
        | rel => exact ih1
        | ret => exact ih1
      · intro j c p hj
        cases h2 with
        | inv k c' hk' hok =>
          dsimp only at hj
          by_cases e : j = k
          · subst e
            rw [upd_same] at hj
            cases hj
            by_cases hc : Lazy.fullName c = x
            · exact .inr ⟨hc, .inl rfl⟩
            · exact .inl ⟨hc, guar_other hc⟩
          · rw [upd_other _ _ e] at hj; exact ih2 j c p hj
        | act k c' f q hk' =>
          dsimp only at hj
          by_cases e : j = k
          · subst e
            rw [upd_same] at hj
            cases hj
            rcases ih2 j c _ hk' with ⟨hc, h⟩ | ⟨hc, h | h⟩
            · exact .inl ⟨hc, h.2 _⟩
            · cases h
              refine .inr ⟨hc, .inr ?_⟩
              change (Prog.outcome (match κ1.st.modules (Lazy.fullName c) with
                | some (.mod i) => pure i
                | _ => LazyImports.importNew env c : LIProg Nat)).bind _ = _
              rw [hc, ih1]
              rfl
            · cases h
          · rw [upd_other _ _ e] at hj; exact ih2 j c p hj
        | acq k c' l w q hk' => cases l
        | rel k c' l w q hk' => cases l
        | ret k c' r o hk' =>
          dsimp only at hj
          by_cases e : j = k
          · subst e; rw [upd_same] at hj; cases hj
          · rw [upd_other _ _ e] at hj; exact ih2 j c p hj
      · rcases returns_snoc hr with h | ⟨rfl, hd⟩
        · exact ih3 j c r h hc
        · obtain ⟨p, hp⟩ := exec_doing h1 j c hd
          cases h2 with
          | ret _ c' _ o hk' =>
            rw [hk'] at hp
            cases hp
            rcases ih2 j c _ hk' with ⟨hn, -⟩ | ⟨-, h | h⟩
            · exact absurd hc hn
            · cases h
            · cases h; rfl
  exact ⟨key.1, key.2.2⟩

section Cases

/-- Every module can be found. -/
def allFound (strict : Bool) : LEnv where
  strict := strict
  found := fun _ => true
  bare := fun _ => false
  defines := fun _ _ => true
  code := fun _ => []

/-- Nothing has been imported. -/
def noModules : LWorld := { objs := fun _ => { name := [], cls := .plain }, count := 0, modules := fun _ => none }

/-- `lazy_import("m", package=None)` -/
def importM : ImportArgs := { name := lit "m" }

/-- `n` steps of thread `i`. -/
def importSteps (i n : Nat) : List (Move ImportArgs) := List.replicate n (.go i)

/-- Two threads move; `check` is asked at the end. -/
def importEnds (env : LEnv) (ms : List (Move ImportArgs))
    (check : List (Ev ImportArgs (Except Exc Nat)) → Conf LWorld Empty Unit ImportArgs (Except Exc Nat) → Bool) : Bool :=
  match moves (lazyImports env fun _ _ => True) 2 ms (init noModules fun _ => ()) (fun _ => true) with
  | none => false
  | some (tr, κ) => check tr κ

theorem exec_importEnds {env : LEnv} {ms : List (Move ImportArgs)}
    {check : List (Ev ImportArgs (Except Exc Nat)) → Conf LWorld Empty Unit ImportArgs (Except Exc Nat) → Bool}
    (h : importEnds env ms check = true) :
    ∃ tr κ, Exec (lazyImports env fun _ _ => True) (init noModules fun _ => ()) tr κ ∧ check tr κ = true := by
  unfold importEnds at h
  split at h
  · cases h
  · rename_i tr κ e
    exact ⟨tr, κ, moves_sound (fun _ _ _ _ _ => trivial) (fun _ l => nomatch l) e (fun l => nomatch l), h⟩

/-- Both have imported `m`; thread 0 has got the object 0, thread 1 the object 1. -/
def twoObjects (tr : List (Ev ImportArgs (Except Exc Nat))) : Bool :=
  match tr with
  | [.inv 0 a, .inv 1 b, .ret 0 (.ok 0), .ret 1 (.ok 1)] => Lazy.fullName a == lit "m" && Lazy.fullName b == lit "m"
  | _ => false

/-- C75 is violated: two threads import the same name for the first time and get two different module objects; only one of them is in `sys.modules`.
(Between the look into `sys.modules` and the registration there is no lock.) -/
theorem C75_two_objects_violated (strict : Bool) : ∃ (env : LEnv) (tr : List (Ev ImportArgs (Except Exc Nat)))
    (κ : Conf LWorld Empty Unit ImportArgs (Except Exc Nat)) (c d : ImportArgs) (i j : Nat), env.strict = strict ∧
    Exec (lazyImports env fun _ _ => True) (init noModules fun _ => ()) tr κ ∧ Lazy.fullName c = lit "m" ∧ Lazy.fullName d = lit "m" ∧
    Returns tr 0 c (.ok i) ∧ Returns tr 1 d (.ok j) ∧ i ≠ j ∧ κ.st.modules (lit "m") = some (.mod j) := by
  have key : importEnds (allFound strict) ([.start 0 importM, .start 1 importM] ++ importSteps 0 3 ++ importSteps 1 3 ++ importSteps 0 6 ++ importSteps 1 6)
      (fun tr κ => twoObjects tr && κ.st.modules (lit "m") == some (.mod 1)) = true := by
    cases strict <;> decide +kernel
  obtain ⟨tr, κ, h1, h2⟩ := exec_importEnds key
  simp only [Bool.and_eq_true, beq_iff_eq] at h2
  obtain ⟨h2, h3⟩ := h2
  unfold twoObjects at h2
  split at h2
  · rename_i a b
    simp only [Bool.and_eq_true, beq_iff_eq] at h2
    exact ⟨_, _, κ, a, b, 0, 1, rfl, h1, h2.1, h2.2, ⟨[], [.inv 1 b], [.ret 1 _], rfl, by simp [ofThread]⟩,
      ⟨[.inv 0 a], [.ret 0 _], [], rfl, by simp [ofThread]⟩, by decide, h3⟩
  · cases h2

/-- Thread 1 has got the object 0. -/
def gotUnfinished (tr : List (Ev ImportArgs (Except Exc Nat))) : Bool :=
  match tr with
  | [.inv 0 a, .inv 1 b, .ret 1 (.ok 0)] => Lazy.fullName a == lit "m" && Lazy.fullName b == lit "m"
  | _ => false

/-- C75 is violated: a call gives a module object that another thread has registered but not yet made lazy: a normal module that is empty and has never been loaded.
(Its attributes are missing until the other thread goes on.) -/
theorem C75_unfinished_violated (strict : Bool) : ∃ (env : LEnv) (tr : List (Ev ImportArgs (Except Exc Nat)))
    (κ : Conf LWorld Empty Unit ImportArgs (Except Exc Nat)) (d : ImportArgs) (i : Nat), env.strict = strict ∧
    Exec (lazyImports env fun _ _ => True) (init noModules fun _ => ()) tr κ ∧ Lazy.fullName d = lit "m" ∧
    Returns tr 1 d (.ok i) ∧ (κ.st.objs i).cls = .plain ∧ κ.st.started = [] ∧ i < κ.st.count := by
  have key : importEnds (allFound strict) ([.start 0 importM] ++ importSteps 0 5 ++ [.start 1 importM] ++ importSteps 1 2)
      (fun tr κ => gotUnfinished tr && ((κ.st.objs 0).cls == .plain && (κ.st.started == [] && κ.st.count == 1))) = true := by
    cases strict <;> decide +kernel
  obtain ⟨tr, κ, h1, h2⟩ := exec_importEnds key
  simp only [Bool.and_eq_true, beq_iff_eq] at h2
  obtain ⟨h2, h3, h4, h5⟩ := h2
  unfold gotUnfinished at h2
  split at h2
  · rename_i a b
    simp only [Bool.and_eq_true, beq_iff_eq] at h2
    exact ⟨_, _, κ, b, 0, rfl, h1, h2.2, ⟨[.inv 0 a], [], [], rfl, by simp⟩, h3, h4, by rw [h5]; decide⟩
  · cases h2

/-- Thread 0 imports `m` twice while thread 1 imports `k`, which depends on nothing: both calls of thread 0 give the same object. -/
example : importEnds (allFound true) ([.start 0 importM, .start 1 { name := lit "k" }] ++ importSteps 0 3 ++ importSteps 1 4 ++ importSteps 0 3 ++ importSteps 1 5 ++
    importSteps 0 3 ++ [.start 0 importM] ++ importSteps 0 2) (fun tr κ => (match tr with
      | [.inv 0 _, .inv 1 _, .ret 1 (.ok 0), .ret 0 (.ok 1), .inv 0 _, .ret 0 (.ok 1)] => true
      | _ => false) && ((κ.st.objs 1).cls == .lazy && κ.st.modules (lit "m") == some (.mod 1))) = true := by decide +kernel

/-- An optional import of a module that is not there gives a placeholder, also with another thread at work. -/
example : importEnds { allFound true with found := fun x => x == lit "k" } ([.start 0 { name := lit "m", required := false }, .start 1 { name := lit "k" }] ++
    importSteps 0 3 ++ importSteps 1 9 ++ importSteps 0 4) (fun tr κ => (match tr with
      | [.inv 0 _, .inv 1 _, .ret 1 (.ok 0), .ret 0 (.ok 1)] => true
      | _ => false) && (κ.st.objs 1).cls == .placeholder) = true := by decide +kernel

/-- `C75_settled` speaks of the execution of `C75_two_objects_violated` too: whoever imports `m` later gets the object 1. -/
example : importEnds (allFound true) ([.start 0 importM, .start 1 importM] ++ importSteps 0 3 ++ importSteps 1 3 ++ importSteps 0 6 ++ importSteps 1 6 ++
    [.start 0 importM] ++ importSteps 0 2) (fun tr _ => match tr with
      | [.inv 0 _, .inv 1 _, .ret 0 (.ok 0), .ret 1 (.ok 1), .inv 0 _, .ret 0 (.ok 1)] => true
      | _ => false) = true := by decide +kernel

end Cases

end SyncStream
