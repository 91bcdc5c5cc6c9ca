import Verif.Lemmas.LazyThreads
import Verif.Lemmas.LazyOrder
import Verif.Lemmas.LazyAlone
import Verif.Lemmas.Alone
import Verif.Lemmas.Sched
import Verif.Lemmas.Observe
/-!
# C73: lazy modules used by several threads
-/

namespace SyncStream
open Conc Spec LazyThreads

/-- What a call of a thread may end with. -/
def CallQ (env : LTEnv) (c : List (LUse × Bool)) (r : Except Exc (Except Exc Unit × Unit)) (y : Stage) : Prop :=
  r = .ok (.ok (), ()) → ∀ i attr, (LUse.get i attr, false) ∈ c → env.bare attr = false → i ∈ y.known

/-- Nothing in particular is known and nothing is being done. -/
def IdleStage (x : Stage) : Prop := x.phase = .none ∧ x.run = []

theorem minds_prog {env : LTEnv} (he : env.strict = true) (n : Nat) (c : List (LUse × Bool)) {x : Stage} (hx : IdleStage x) :
    (prog env n c).Minds protocol (fun r y h => (∀ v, r = .ok v → IdleStage y ∧ h = fun _ => []) ∧ (CallQ env c r y ∧
      (∀ i attr, c = [(.get i attr, false)] → i ∈ x.fin → env.defines i attr = true →
        r = .ok (.ok (), ()) ∨ r = .ok (.error .recursionError, ())))) x fun _ => [] := by
  have hf : Fine x fun _ => [] := ⟨hx.1, by rw [hx.2]; exact fun j h => nomatch h⟩
  refine Prog.Minds.bind (Prog.Minds.outcome (Prog.Minds.mono (sound_go he n (.acts c) x _ hf) fun r y h hq => ?_))
  obtain ⟨e1, e2, e3, e4, -⟩ := hq
  refine ⟨fun _ _ => ⟨⟨e2.phase, e2.run.trans hx.2⟩, e1⟩, fun hr i attr hm hb => ?_, fun i attr hc hi hd => ?_⟩
  · cases hr
    rcases e3 rfl i attr hm hb with h | h
    · exact h
    · rw [e2.run, hx.2] at h; cases h
  · rcases e4 i attr hc hi hd with h | h <;> subst h
    · exact .inl rfl
    · exact .inr rfl

theorem minding_reached {env : LTEnv} (he : env.strict = true) {n : Nat} {w : LTWorld} (hw : AtRest w)
    {tr : List (Ev (List (LUse × Bool)) (Except Exc Unit))} {κ : Conf LTWorld Nat Unit (List (LUse × Bool)) (Except Exc Unit)}
    (hx : Exec (lazyThreads env n) (init w fun _ => ()) tr κ) :
    ∃ a, Minding protocol Inv IdleStage (fun _ c r y => CallQ env c r y) κ a := by
  have h0 : Stage.Ok ⟨.none, [], [], []⟩ (fun _ => []) w := ⟨trivial, (fun _ h => nomatch h), (fun _ h => nomatch h), (fun _ h => nomatch h)⟩
  refine minding_exec (P := protocol) step_keeps (fun _ _ l w _ ok => Stage.Ok.took ok l w) (fun i o c x _ hx => (minds_prog he n c hx).mono fun r y h hq =>
    ⟨hq.1, hq.2.1⟩) (minding_init h0
      ⟨hw.1, fun i hi => ?_, fun i hi => ?_, fun i hi => ?_, fun i hi => .inl ?_, fun i hi => ?_⟩ ⟨rfl, rfl⟩) hx <;>
    rcases hw.2 i with h | h | h
  · exact absurd hi h.2.2.1
  · exact h.2.1
  · exact h.2.1
  · exact absurd hi h.1
  · exact h.2.2.2
  · rw [h.1] at hi; cases hi
  · exact absurd hi h.2.2.2
  · exact ⟨h.2.1, h.1.symm⟩
  · exact absurd hi h.2.2.2.1
  · rw [h.2.1] at hi; cases hi
  · exact h.2.2.1
  · exact h.2.2.1
  · exact absurd hi h.2.2.1
  · exact .inl h.2.2.2
  · exact .inr (.inl h.2.2.2.2)

/-- C73 (newer versions of Python): however the threads are interleaved, the code of a module is run at most once. -/
theorem C73_once (env : LTEnv) (he : env.strict = true) (n : Nat) (w : LTWorld) (hw : AtRest w)
    (tr : List (Ev (List (LUse × Bool)) (Except Exc Unit))) (κ : Conf LTWorld Nat Unit (List (LUse × Bool)) (Except Exc Unit))
    (hx : Exec (lazyThreads env n) (init w fun _ => ()) tr κ) : κ.st.started.Nodup := by
  obtain ⟨a, ha⟩ := minding_reached he hw hx
  exact ha.inv.nodup

/-- C73 (newer versions of Python): when the program of a thread comes to its end without an exception, all modules whose attributes it
has used (outside `try`) have been loaded, or their code has ended with an exception: nobody goes on with a module that is half loaded. -/
theorem C73_loaded (env : LTEnv) (he : env.strict = true) (n : Nat) (w : LTWorld) (hw : AtRest w)
    (tr : List (Ev (List (LUse × Bool)) (Except Exc Unit))) (κ κ' : Conf LTWorld Nat Unit (List (LUse × Bool)) (Except Exc Unit))
    (hx : Exec (lazyThreads env n) (init w fun _ => ()) tr κ) (j : Nat) (st : Step (lazyThreads env n) κ (some (.ret j (.ok ()))) κ') :
    ∃ c p, κ.cur j = some (c, p) ∧ ∀ i attr, (LUse.get i attr, false) ∈ c → env.bare attr = false →
      i ∈ κ.st.finished ∨ i ∈ κ.st.failed := by
  obtain ⟨a, ha⟩ := minding_reached he hw hx
  cases st with
  | ret _ c _ o hc =>
    exact ⟨c, _, hc, fun i attr hm hb => (ha.ok j).known i ((ha.run j c _ hc).2 rfl i attr hm hb)⟩

/-- C73 (newer versions of Python): once a module has been loaded, every access that begins later finds the attributes the module defines
(or the recursion is too deep), whatever the other threads are doing. -/
theorem C73_after (env : LTEnv) (he : env.strict = true) (n : Nat) (w : LTWorld) (hw : AtRest w)
    (tr tr' : List (Ev (List (LUse × Bool)) (Except Exc Unit)))
    (κ κ1 κ2 κ3 : Conf LTWorld Nat Unit (List (LUse × Bool)) (Except Exc Unit))
    (hx : Exec (lazyThreads env n) (init w fun _ => ()) tr κ) (i : Nat) (hi : i ∈ κ.st.finished) (attr : PyStr)
    (hd : env.defines i attr = true) (j : Nat) (r : Except Exc Unit)
    (st : Step (lazyThreads env n) κ (some (.inv j [(.get i attr, false)])) κ1) (hx' : Exec (lazyThreads env n) κ1 tr' κ2)
    (hj : ∀ e ∈ tr', ¬ofThread j e) (st' : Step (lazyThreads env n) κ2 (some (.ret j r)) κ3) :
    r = .ok () ∨ r = .error .recursionError := by
  obtain ⟨a, ha⟩ := minding_reached he hw hx
  let Q : Nat → List (LUse × Bool) → Except Exc (Except Exc Unit × Unit) → Stage → Prop := fun k _ r _ =>
    k = j → r = .ok (.ok (), ()) ∨ r = .ok (.error .recursionError, ())
  have h1 : ∃ a', Minding protocol Inv IdleStage Q κ1 a' := by
    cases st with
    | inv _ _ hc hok =>
      have hid := ha.idle j hc
      refine ⟨upd a j { a j with fin := i :: (a j).fin }, ha.excl, fun k => ?_, ?_, fun k hk => ?_, fun k c p hp => ?_⟩
      · by_cases e : k = j
        · subst e
          rw [upd_same]
          have ok := ha.ok k
          exact ⟨ok.phase, ok.run, ok.known, fun l hl => (List.mem_cons.mp hl).elim (fun e => by rw [e]; exact ⟨hi, ha.inv.finished i hi⟩) (ok.fin l)⟩
        · rw [upd_other _ _ e]; exact ha.ok k
      · exact ⟨ha.inv.nodup, ha.inv.loading, ha.inv.plain, ha.inv.finished, fun k hk => (ha.inv.begun k hk).imp id (phase_upd' id),
          fun k hk => (ha.inv.running k hk).imp id (.imp id (run_upd id))⟩
      · dsimp only at hk
        by_cases e : k = j
        · subst e; rw [upd_same] at hk; cases hk
        · rw [upd_other _ _ e] at hk ⊢; exact ha.idle k hk
      · dsimp only at hp ⊢
        by_cases e : k = j
        · subst e
          rw [upd_same] at hp ⊢
          cases hp
          rw [hid.2]
          exact (minds_prog he n _ (x := { a k with fin := i :: (a k).fin }) ⟨hid.1.1, hid.1.2⟩).mono fun r y h hq =>
            ⟨hq.1, fun _ => hq.2.2 i attr rfl (.head _) hd⟩
        · rw [upd_other _ _ e] at hp ⊢
          exact (ha.run k c p hp).mono fun r y h hq => ⟨hq.1, fun h => absurd h e⟩
  have h2 : ∃ a', Minding protocol Inv IdleStage Q κ2 a' := by
    obtain ⟨a1, h1⟩ := h1
    clear st st'
    induction hx' with
    | nil => exact ⟨a1, h1⟩
    | snoc _ _ _ e _ st ih =>
      obtain ⟨a2, ih⟩ := ih (fun e he => hj e (List.mem_append.mpr (.inl he)))
      refine minding_step (P := protocol) step_keeps (fun _ _ l w _ ok => Stage.Ok.took ok l w) ih st fun k c hk => ?_
      subst hk
      cases st with
      | inv _ _ hc hok =>
        have hkj : k ≠ j := hj _ (List.mem_append.mpr (.inr (.head _)))
        exact (minds_prog he n c (ih.idle k hc).1).mono fun r y h hq => ⟨hq.1, fun h => absurd h hkj⟩
  obtain ⟨a2, h2⟩ := h2
  cases st' with
  | ret _ c _ o hc =>
    rcases (h2.run j c _ hc).2 rfl with h | h
    · cases h; exact .inl rfl
    · cases h; exact .inr rfl

/-- C73: if the modules can be ordered so that the code of each uses only later ones (and itself), and each depends only on later ones, the threads
do not wait for one another forever; this holds with all versions of Python. -/
theorem C73_no_deadlock (env : LTEnv) (n : Nat) (w : LTWorld) (rank : Nat → Nat) (ho : Ordered rank env w) :
    DeadlockFree (lazyThreads env n) (init w fun _ => ()) :=
  deadlockFree_of_rising (rising (rank := rank) (fun i u t h j hj => ho i j (.inl ⟨u, t, h, hj⟩)) n)
    (fun i d hd => ho i d (.inr hd)) _

/-- C73 (all versions of Python): while the other threads do nothing, an access to an attribute that can be found gives it, and then the module has been
loaded (unless the attribute is one of those that lazy modules have themselves); all modules are again untouched or loaded, and no code has ended with an
exception.  The code of the modules is assumed to use later modules only. -/
theorem C73_alone (env : LTEnv) (rank : Nat → Nat) (top : Nat) (hr : ∀ i, rank i ≤ top) (hc : env.bare (lit "__class__") = true)
    (hn : env.bare (lit "__name__") = true) (hco : CodeOrdered rank env) (n : Nat) (hd : 2 * top + 3 ≤ n)
    (κ κ' : Conf LTWorld Nat Unit (List (LUse × Bool)) (Except Exc Unit)) (hidle : ∀ j, κ.cur j = none)
    (hw : ∀ i, NotTouched env κ.st i ∨ HasLoaded env κ.st i) (hdeps : DepsOrdered rank κ.st) (i : Nat) (attr : PyStr) (ha : CanFind env i attr)
    (j : Nat) (t : Bool) (r : Except Exc Unit) (hx : Exec (lazyThreads env n) κ [.inv j [(.get i attr, t)], .ret j r] κ') :
    r = .ok () ∧ (Lazy.protectedKw.contains attr = false ∨ env.bare attr = false → HasLoaded env κ'.st i) ∧
    (∀ k, NotTouched env κ'.st k ∨ HasLoaded env κ'.st k) ∧ (∀ k, HasLoaded env κ.st k → HasLoaded env κ'.st k) ∧ DepsOrdered rank κ'.st ∧
    κ'.st.failed = κ.st.failed := by
  obtain ⟨o, ho⟩ := exec_alone hidle hx
  obtain ⟨m, rfl⟩ : ∃ m, n = m + 1 := ⟨n - 1, by omega⟩
  have hw0 : ReadyFrom env rank 0 κ.st := fun k _ => ⟨hw k, hdeps k⟩
  obtain ⟨w', e, a, hl⟩ := (works hr hc hn hco top i (by omega) m (by omega)).1 attr ha κ.st (hw0.mono (Nat.zero_le _))
  have a0 := a.lower (Nat.zero_le _) hw0
  have ea : (go env (m + 1) (.acts [(.get i attr, t)])).seq κ.st = (.ok (), w') := by
    change (acts (go env m) _).seq κ.st = _
    cases t with
    | false => rw [acts, Prog.seq_bind_ok (show (act (go env m) (.get i attr)).seq κ.st = _ from e)]; rfl
    | true =>
      have : (act (go env m) (.get i attr)).outcome.seq κ.st = (.ok (.ok ()), w') := by
        rw [Prog.seq_outcome, show (act (go env m) (.get i attr)).seq κ.st = _ from e]
      rw [acts, Prog.seq_bind_ok this]; rfl
  have ep : (prog env (m + 1) [(.get i attr, t)]).seq κ.st = (.ok (.ok (), ()), w') := by
    have : (go env (m + 1) (.acts [(.get i attr, t)])).outcome.seq κ.st = (.ok (.ok ()), w') := by rw [Prog.seq_outcome, ea]
    rw [prog, Prog.seq_bind_ok this]; rfl
  have := ep.symm.trans ho
  simp only [Prod.mk.injEq, Except.ok.injEq] at this
  obtain ⟨⟨rfl, -⟩, rfl⟩ := this
  refine ⟨rfl, fun h => ?_, fun k => (a0.ready k (Nat.zero_le _)).1, a0.keep, fun k => (a0.ready k (Nat.zero_le _)).2, a0.failed⟩
  rcases hl with ⟨-, hl⟩ | hl
  · simp only [Bool.and_eq_true] at hl
    rcases h with h | h
    · rw [hl.1] at h; cases h
    · rw [hl.2] at h; cases h
  · exact hl

section Cases

/-- Modules that define all attributes at their end. -/
def someModules (strict : Bool) (code : Nat → List (LUse × Bool)) : LTEnv where
  strict := strict
  bare := fun a => a == lit "__name__" || a == lit "__class__"
  early := fun _ _ => false
  defines := fun _ _ => true
  code := code

/-- Nothing has been used. -/
def untouched : LTWorld := { objs := fun _ => { cls := .lazy } }

theorem untouched_atRest : AtRest untouched := ⟨.nil, fun _ => .inl ⟨nofun, rfl, nofun, nofun⟩⟩

/-- `m.a` -/
def useOf (i : Nat) : List (LUse × Bool) := [(.get i (lit "a"), false)]

/-- `n` steps of thread `i`. -/
def goSteps (i n : Nat) : List (Move (List (LUse × Bool))) := List.replicate n (.go i)

/-- Two threads move; `check` is asked at the end. -/
def endsWith (env : LTEnv) (ms : List (Move (List (LUse × Bool))))
    (check : List (Ev (List (LUse × Bool)) (Except Exc Unit)) → Conf LTWorld Nat Unit (List (LUse × Bool)) (Except Exc Unit) → Bool) : Bool :=
  match moves (lazyThreads env 10) 2 ms (init untouched fun _ => ()) (fun _ => true) with
  | none => false
  | some (tr, κ) => check tr κ

theorem exec_endsWith {env : LTEnv} {ms : List (Move (List (LUse × Bool)))}
    {check : List (Ev (List (LUse × Bool)) (Except Exc Unit)) → Conf LTWorld Nat Unit (List (LUse × Bool)) (Except Exc Unit) → Bool}
    (h : endsWith env ms check = true) :
    ∃ tr κ, Exec (lazyThreads env 10) (init untouched fun _ => ()) tr κ ∧ check tr κ = true := by
  unfold endsWith at h
  split at h
  · cases h
  · rename_i tr κ e
    exact ⟨tr, κ, moves_sound (fun _ _ _ _ _ => trivial) (fun _ _ _ => rfl) e (fun _ _ => trivial), h⟩

/-- Both have used `m.a`; thread 0 has got it, thread 1 has got `AttributeError`. -/
def oneFails (tr : List (Ev (List (LUse × Bool)) (Except Exc Unit))) : Bool :=
  match tr with
  | [.inv 0 [(.get 0 a, false)], .inv 1 [(.get 0 b, false)], .ret 0 (.ok ()), .ret 1 (.error .attributeError)] => a == lit "a" && b == lit "a"
  | [.inv 0 [(.get 0 a, false)], .inv 1 [(.get 0 b, false)], .ret 1 (.error .attributeError), .ret 0 (.ok ())] => a == lit "a" && b == lit "a"
  | _ => false

theorem oneFails_returns {tr : List (Ev (List (LUse × Bool)) (Except Exc Unit))} (h : oneFails tr = true) :
    Returns tr 0 (useOf 0) (.ok ()) ∧ Returns tr 1 (useOf 0) (.error .attributeError) := by
  unfold oneFails at h
  split at h
  · simp only [Bool.and_eq_true, beq_iff_eq] at h
    obtain ⟨rfl, rfl⟩ := h
    exact ⟨⟨[], [.inv 1 _], [.ret 1 _], rfl, by simp [ofThread]⟩, ⟨[.inv 0 _], [.ret 0 _], [], rfl, by simp [ofThread]⟩⟩
  · simp only [Bool.and_eq_true, beq_iff_eq] at h
    obtain ⟨rfl, rfl⟩ := h
    exact ⟨⟨[], [.inv 1 _, .ret 1 _], [], rfl, by simp [ofThread]⟩, ⟨[.inv 0 _], [], [.ret 0 _], rfl, by simp [ofThread]⟩⟩
  · cases h

theorem LazyThreads.seq_getattr (env : LTEnv) (n i : Nat) (attr : PyStr) (w : LTWorld) :
    (go env (n + 1) (.get i attr)).seq w = (match (w.objs i).cls with
      | .placeholder => placeholderGet env attr
      | .lazy => lazyGet env (go env n) i attr
      | .imp => impGet env (go env n) i attr
      | .plain => lookup env i attr).seq w :=
  (Prog.seq_bind_ok (Prog.seq_atom _ w)).trans rfl

/-- **C73** As in C50: `__path__` of a lazy module or of a placeholder gives `AttributeError`, and nothing changes. -/
theorem C73_path (env : LTEnv) (n i : Nat) (w : LTWorld) (hi : (w.objs i).cls = .placeholder ∨ (w.objs i).cls = .lazy) :
    (go env (n + 1) (.get i (lit "__path__"))).seq w = (.error .attributeError, w) := by
  rw [LazyThreads.seq_getattr]
  rcases hi with hi | hi <;> rw [hi] <;> rfl

/-- **C73** As in C50: an attribute of a placeholder that is not one of a bare module gives `ImportError`, and nothing changes. -/
theorem C73_placeholder_use (env : LTEnv) (n i : Nat) (attr : PyStr) (w : LTWorld) (hi : (w.objs i).cls = .placeholder)
    (ha : env.bare attr = false) (hr : attr ≠ lit "__path__") :
    (go env (n + 1) (.get i attr)).seq w = (.error .importError, w) := by
  rw [LazyThreads.seq_getattr, hi]
  show (placeholderGet env attr).seq w = _
  unfold placeholderGet
  rw [if_neg (by simpa [Lazy.removedKw] using hr), if_neg (by simp [ha])]
  rfl

/-- **C73** As in C50: the names by which a lazy module is described can be used without running anything. -/
theorem C73_protected (env : LTEnv) (n i : Nat) (attr : PyStr) (w : LTWorld) (hi : (w.objs i).cls = .lazy)
    (ha : attr ∈ [lit "__name__", lit "__spec__", lit "__class__", lit "__dict__", lit "force_load", lit "load_deps"])
    (hb : env.bare attr = true) : (go env (n + 1) (.get i attr)).seq w = (.ok (), w) := by
  rw [LazyThreads.seq_getattr, hi]
  show (lazyGet env (go env n) i attr).seq w = _
  have h1 : Lazy.removedKw.contains attr = false ∧ Lazy.protectedKw.contains attr = true := by
    clear hb
    revert attr
    decide +kernel
  unfold lazyGet
  rw [if_neg (by rw [h1.1]; simp), if_pos (by rw [h1.2, hb]; rfl)]
  rfl

/-- C73 is violated with all versions of Python: two threads use `m.a` for the first time.  `m` defines `a`, its code does nothing else; one thread gets
`AttributeError`, because the other has changed the class of the module object between the two looks of `_LazyModule.__getattribute__` at it
(`utils.py:159`). -/
theorem C73_first_use_violated (strict : Bool) : ∃ (env : LTEnv) (w : LTWorld) (n : Nat) (tr : List (Ev (List (LUse × Bool)) (Except Exc Unit)))
    (κ : Conf LTWorld Nat Unit (List (LUse × Bool)) (Except Exc Unit)),
    env.strict = strict ∧ AtRest w ∧ env.defines 0 (lit "a") = true ∧ env.code 0 = [] ∧
    Exec (lazyThreads env n) (init w fun _ => ()) tr κ ∧ κ.st.started = [0] ∧ κ.st.failed = [] ∧
    Returns tr 0 (useOf 0) (.ok ()) ∧ Returns tr 1 (useOf 0) (.error .attributeError) := by
  have key : endsWith (someModules strict fun _ => []) ([.start 0 (useOf 0), .start 1 (useOf 0)] ++ goSteps 1 1 ++ goSteps 0 (if strict then 17 else 12) ++ goSteps 1 2)
      (fun tr κ => oneFails tr && (κ.st.started == [0] && κ.st.failed == [])) = true := by
    cases strict <;> decide +kernel
  obtain ⟨tr, κ, h1, h2⟩ := exec_endsWith key
  simp only [Bool.and_eq_true, beq_iff_eq] at h2
  exact ⟨_, _, _, tr, κ, rfl, untouched_atRest, rfl, rfl, h1, h2.2.1, h2.2.2, oneFails_returns h2.1⟩

/-- C73 is violated with older versions of Python: while one thread loads the module, another one gets `AttributeError`, although it began
only after the loading had begun. -/
theorem C73_half_violated : ∃ (env : LTEnv) (w : LTWorld) (n : Nat) (tr : List (Ev (List (LUse × Bool)) (Except Exc Unit)))
    (κ κ' : Conf LTWorld Nat Unit (List (LUse × Bool)) (Except Exc Unit)), env.strict = false ∧ AtRest w ∧
    env.defines 0 (lit "a") = true ∧ env.code 0 = [] ∧ Exec (lazyThreads env n) (init w fun _ => ()) tr κ ∧ κ.st.started = [0] ∧
    Exec (lazyThreads env n) κ [.inv 1 (useOf 0), .ret 1 (.error .attributeError)] κ' := by
  have key : (match moves (lazyThreads (someModules false fun _ => []) 10) 2 ([.start 0 (useOf 0)] ++ goSteps 0 8) (init untouched fun _ => ()) (fun _ => true) with
      | none => false
      | some (_, κ) => κ.st.started == [0] &&
        match moves (lazyThreads (someModules false fun _ => []) 10) 2 (.start 1 (useOf 0) :: goSteps 1 3) κ (fun _ => true) with
        | some ([.inv 1 [(.get 0 a, false)], .ret 1 (.error .attributeError)], _) => a == lit "a"
        | _ => false) = true := by decide +kernel
  split at key
  · cases key
  rename_i tr κ e1
  simp only [Bool.and_eq_true, beq_iff_eq] at key
  obtain ⟨k1, k3⟩ := key
  split at k3
  · rename_i a κ2 e2
    cases beq_iff_eq.mp k3
    obtain ⟨h1, h2⟩ := moves_sound2 (fun _ _ => trivial) (fun _ _ _ => rfl) e1 e2 (fun _ _ => trivial)
    exact ⟨_, _, _, tr, κ, κ2, rfl, untouched_atRest, rfl, rfl, h1, k1, h2⟩
  · cases k3

/-- C73 is violated with older versions of Python: the code of a module is run twice if two threads use it for the first time. -/
theorem C73_twice_violated : ∃ (env : LTEnv) (w : LTWorld) (n : Nat) (tr : List (Ev (List (LUse × Bool)) (Except Exc Unit)))
    (κ : Conf LTWorld Nat Unit (List (LUse × Bool)) (Except Exc Unit)), env.strict = false ∧ AtRest w ∧ env.code 0 = [] ∧
    Exec (lazyThreads env n) (init w fun _ => ()) tr κ ∧ κ.st.started = [0, 0] ∧ ∀ i c, Ev.inv i c ∈ tr → c = useOf 0 := by
  have key : endsWith (someModules false fun _ => []) ([.start 0 (useOf 0), .start 1 (useOf 0)] ++ goSteps 1 2 ++ goSteps 0 12 ++ goSteps 1 10)
      (fun tr κ => κ.st.started == [0, 0] && tr.all fun
        | .inv _ [(.get 0 a, false)] => a == lit "a"
        | .inv _ _ => false
        | _ => true) = true := by decide +kernel
  obtain ⟨tr, κ, h1, h2⟩ := exec_endsWith key
  simp only [Bool.and_eq_true, beq_iff_eq, List.all_eq_true] at h2
  refine ⟨_, _, _, tr, κ, rfl, untouched_atRest, rfl, h1, h2.1, fun i c hm => ?_⟩
  have := h2.2 _ hm
  revert this
  split
  · rename_i h
    cases h
    intro h
    rw [beq_iff_eq.mp h]
    rfl
  · exact fun h => nomatch h
  · rename_i h
    exact absurd rfl (h i c)

/-- C73 is violated with newer versions of Python if the code of two modules uses the other one: two threads, each with one of the modules, wait
for each other forever. -/
theorem C73_cycle_violated : ∃ (env : LTEnv) (w : LTWorld) (n : Nat) (tr : List (Ev (List (LUse × Bool)) (Except Exc Unit)))
    (κ : Conf LTWorld Nat Unit (List (LUse × Bool)) (Except Exc Unit)), env.strict = true ∧ AtRest w ∧
    env.code 0 = useOf 1 ∧ env.code 1 = useOf 0 ∧ Exec (lazyThreads env n) (init w fun _ => ()) tr κ ∧
    WaitsFor (lazyThreads env n) κ 0 1 ∧ WaitsFor (lazyThreads env n) κ 1 0 := by
  have key : endsWith (someModules true fun i => if i = 0 then useOf 1 else if i = 1 then useOf 0 else [])
      ([.start 0 (useOf 0), .start 1 (useOf 1)] ++ goSteps 0 11 ++ goSteps 1 11 ++ goSteps 0 1 ++ goSteps 1 1)
      (fun _ κ => κ.held 0 0 == [true] && κ.held 1 1 == [true] &&
        (match κ.cur 0 with
          | some (_, .acq l true _) => l == 1
          | _ => false) &&
        (match κ.cur 1 with
          | some (_, .acq l true _) => l == 0
          | _ => false)) = true := by decide +kernel
  obtain ⟨tr, κ, h1, h2⟩ := exec_endsWith key
  simp only [Bool.and_eq_true, beq_iff_eq] at h2
  obtain ⟨⟨⟨a1, a2⟩, a3⟩, a4⟩ := h2
  refine ⟨_, _, _, tr, κ, rfl, untouched_atRest, rfl, rfl, h1, ?_, ?_⟩
  · split at a3
    · rename_i hc
      cases beq_iff_eq.mp a3
      exact ⟨_, _, _, _, hc, .inr ⟨by decide, .inl (by rw [a2]; exact .head _)⟩⟩
    · cases a3
  · split at a4
    · rename_i hc
      cases beq_iff_eq.mp a4
      exact ⟨_, _, _, _, hc, .inr ⟨by decide, .inl (by rw [a1]; exact .head _)⟩⟩
    · cases a4

/-- Thread 1 uses the module while thread 0 loads it: it waits for the lock (its step is not possible), and then gets the attribute. -/
example : endsWith (someModules true fun _ => []) ([.start 0 (useOf 0)] ++ goSteps 0 11 ++ [.start 1 (useOf 0)] ++ goSteps 1 1 ++ goSteps 1 1) (fun _ _ => true) = false ∧
    endsWith (someModules true fun _ => []) ([.start 0 (useOf 0)] ++ goSteps 0 11 ++ [.start 1 (useOf 0)] ++ goSteps 1 1 ++ goSteps 0 6 ++ goSteps 1 6)
      (fun tr κ => κ.st.started == [0] && κ.st.finished == [0] &&
        match tr with
        | [.inv 0 _, .inv 1 _, .ret 0 (.ok ()), .ret 1 (.ok ())] => true
        | _ => false) = true := by decide +kernel

/-- Modules in an order: the code of module 0 uses module 1, which depends on module 2. -/
example : DeadlockFree (lazyThreads (someModules true fun i => if i = 0 then useOf 1 else []) 10)
    (init { objs := fun i => { cls := .lazy, deps := if i = 1 then [2] else [] } } fun _ => ()) :=
  C73_no_deadlock _ _ _ id fun i j h => by
    rcases h with ⟨u, t, h, hj⟩ | h
    · simp only [someModules] at h
      split at h
      · rename_i e
        simp only [useOf, List.mem_singleton, Prod.mk.injEq] at h
        rw [h.1] at hj
        have hj : 1 = j := hj
        subst hj
        exact .inr (by simp [e])
      · cases h
    · dsimp only at h
      split at h
      · rename_i e
        simp only [List.mem_singleton] at h
        exact .inr (by simp [e, h])
      · cases h

/-- When thread 0 is through, thread 1 finds the attribute (`C73_after`). -/
example : endsWith (someModules true fun _ => []) ([.start 0 (useOf 0)] ++ goSteps 0 17 ++ [.start 1 (useOf 0)] ++ goSteps 1 3)
    (fun tr κ => κ.st.finished == [0] &&
      match tr with
      | [.inv 0 _, .ret 0 (.ok ()), .inv 1 _, .ret 1 (.ok ())] => true
      | _ => false) = true := by decide +kernel

/-- The code of module 0 uses module 1; thread 3 uses module 0 while nobody else does anything (`C73_alone`). -/
example (strict : Bool) (κ : Conf LTWorld Nat Unit (List (LUse × Bool)) (Except Exc Unit)) (r : Except Exc Unit)
    (hx : Exec (lazyThreads (someModules strict fun i => if i = 0 then useOf 1 else []) 10) (init untouched fun _ => ()) [.inv 3 (useOf 0), .ret 3 r] κ) :
    r = .ok () ∧ 0 ∈ κ.st.finished := by
  have h := C73_alone (someModules strict fun i => if i = 0 then useOf 1 else []) (fun i => if i = 0 then 0 else 1) 1 (fun i => by split <;> omega)
    rfl rfl (fun i u t h => by
      simp only [someModules] at h
      split at h
      · rename_i e
        simp only [useOf, List.mem_singleton, Prod.mk.injEq] at h
        exact ⟨1, lit "a", h.1, by simp [e], by decide, .inr rfl⟩
      · cases h) 10 (by decide) (init untouched fun _ => ()) κ (fun _ => rfl)
    (fun i => .inl ⟨.inl rfl, fun _ => rfl, nofun, nofun⟩) (fun i d hd => nomatch hd) 0 (lit "a") ⟨by decide, .inr rfl⟩ 3 false r hx
  exact ⟨h.1, (h.2.1 (.inl (by decide))).1⟩

/-- There is such an execution. -/
example (strict : Bool) : endsWith (someModules strict fun i => if i = 0 then useOf 1 else []) ([.start 0 (useOf 0)] ++ goSteps 0 (if strict then 33 else 23))
    (fun tr κ => κ.st.finished == [1, 0] &&
      match tr with
      | [.inv 0 _, .ret 0 (.ok ())] => true
      | _ => false) = true := by
  cases strict <;> decide +kernel

end Cases

end SyncStream
